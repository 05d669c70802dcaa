import Verif.Proof.WriterOps
import Verif.Spec.Write

/-! # `append_*` on a fault-free sink -/

namespace Fbx.Writer
open Spec

/-- One more attribute. -/
def bump (n : OpenNode) : OpenNode := { n with header := { n.header with numAttrs := n.header.numAttrs + 1 } }

theorem updateNodeHeader_bind {β : Type} (v : FbxVersion) (pre post : Bytes) (n : OpenNode) (r : List OpenNode)
    (f : Unit → M WErr Writer β) (b : β) (w' : Writer) :
    (updateNodeHeader >>= f) (At v pre post (n :: r)) = (.ok b, w') ↔
      n.header.numAttrs + 1 < 2 ^ 64 ∧ f () (At v pre post (bump n :: r)) = (.ok b, w') := by
  apply M.bind_of_unit
  intro u s'
  simp only [updateNodeHeader, M.get_bind, show (At v pre post (n :: r)).opened = n :: r from rfl]
  by_cases h : n.header.numAttrs + 1 < 2 ^ 64
  · simp only [h, if_true, true_and, M.modify_ok_iff]; rfl
  · simp [h]

theorem appendSingle_ok_iff (v : FbxVersion) (pre post : Bytes) (n : OpenNode) (r : List OpenNode) (t : AttrType)
    (bs : Bytes) (u : Unit) (w' : Writer) :
    appendSingle t bs (At v pre post (n :: r)) = (.ok u, w') ↔
      n.header.numAttrs + 1 < 2 ^ 64 ∧ Room pre (t.typeCode :: bs) ∧
      w' = At v (pre ++ t.typeCode :: bs) (post.drop (t.typeCode :: bs).length) (bump n :: r) := by
  have hc : t.typeCode :: bs = [t.typeCode] ++ bs := rfl
  simp only [appendSingle, writeTypeCode, updateNodeHeader_bind, put_bind, put_ok_iff, hc, Room.append, and_assoc,
    List.append_assoc, List.drop_drop, List.length_append]

/-- Bytes of an array header. -/
def arrHdr (h : ArrHeader) : Bytes := leBytes 4 h.count ++ leBytes 4 h.enc.toU32 ++ leBytes 4 h.bytelen

@[simp] theorem arrHdr_length (h : ArrHeader) : (arrHdr h).length = 12 := by simp [arrHdr]

theorem writeArrHeader_ok_iff (v : FbxVersion) (pre post : Bytes) (o : List OpenNode) (h : ArrHeader) (u : Unit)
    (w' : Writer) :
    writeArrHeader h (At v pre post o) = (.ok u, w') ↔
      Room pre (arrHdr h) ∧ w' = At v (pre ++ arrHdr h) (post.drop 12) o := by
  simp only [writeArrHeader, put_bind, put_ok_iff, arrHdr, Room.append, and_assoc, List.append_assoc, List.drop_drop,
    leBytes_length]

theorem writeArrHeader_bind {β : Type} (v : FbxVersion) (pre post : Bytes) (o : List OpenNode) (h : ArrHeader)
    (f : Unit → M WErr Writer β) (b : β) (w' : Writer) :
    (writeArrHeader h >>= f) (At v pre post o) = (.ok b, w') ↔
      Room pre (arrHdr h) ∧ f () (At v (pre ++ arrHdr h) (post.drop 12) o) = (.ok b, w') :=
  M.bind_of_unit (fun u s' => writeArrHeader_ok_iff v pre post o h u s') f b w'

theorem room_lt {pre bs : Bytes} (h : Room pre bs) (hb : bs ≠ []) : (pre ++ bs).length < 2 ^ 64 := by
  rcases h with h | h
  · exact absurd h hb
  · simpa using h

theorem finalizeArray_ok_iff (v : FbxVersion) (a h mid post : Bytes) (o : List OpenNode) {p : Nat} (hp : p = a.length)
    (hh : h.length = 12) (hlt : (a ++ h).length < 2 ^ 64) (hd : ArrHeader) (u : Unit) (w' : Writer) :
    finalizeArray p hd (At v (a ++ h ++ mid) post o) = (.ok u, w') ↔ w' = At v (a ++ arrHdr hd ++ mid) post o := by
  have hroom : Room a (arrHdr hd) := by right; simp [hh] at hlt ⊢; omega
  have hdr : (h ++ mid ++ post).drop 12 = mid ++ post := by
    rw [← hh, List.append_assoc, List.drop_append_of_le_length (Nat.le_refl _)]; simp
  rw [finalizeArray, tell_bind, List.append_assoc, seek_back_bind v a (h ++ mid) post o hp, writeArrHeader_bind, hdr,
    seek_fwd_ok_iff v (a ++ arrHdr hd) mid post o _ (by simp [hh]; omega)]
  simp [hroom]

theorem writeElements_ok_iff (v : FbxVersion) (o : List OpenNode) (items : List (Except WErr Bytes)) :
    ∀ (pre post : Bytes) (n c : Nat) (w' : Writer),
    writeElements items n (At v pre post o) = (.ok c, w') ↔
      allOk items = true ∧ n + items.length < 2 ^ 32 ∧ c = n + items.length ∧ Room pre (okPrefix items) ∧
      w' = At v (pre ++ okPrefix items) (post.drop (okPrefix items).length) o := by
  induction items with
  | nil =>
    intro pre post n c w'
    simp only [writeElements, allOk, List.length_nil, Nat.add_zero, true_and, okPrefix, List.append_nil,
      List.drop_zero, M.ite_apply]
    by_cases h : n < 2 ^ 32
    · simp [h, Room, eq_comm]
    · simp [h]
  | cons x xs ih =>
    intro pre post n c w'
    cases x with
    | error e => simp [writeElements, allOk]
    | ok bs =>
      simp only [writeElements, put_bind, ih, allOk, okPrefix, Room.append, List.length_cons, List.append_assoc,
        List.drop_drop, List.length_append]
      rw [show n + 1 + xs.length = n + (xs.length + 1) by omega]
      constructor
      · rintro ⟨h1, h2, h3, h4, h5, h6⟩; exact ⟨h2, h3, h4, ⟨h1, h5⟩, h6⟩
      · rintro ⟨h2, h3, h4, ⟨h1, h5⟩, h6⟩; exact ⟨h1, h2, h3, h4, h5, h6⟩

theorem elementsResult_ok_iff (items : List (Except WErr Bytes)) : ∀ (n c : Nat),
    elementsResult items n = .ok c ↔ allOk items = true ∧ n + items.length < 2 ^ 32 ∧ c = n + items.length := by
  induction items with
  | nil =>
    intro n c
    simp only [elementsResult, allOk, List.length_nil, Nat.add_zero, true_and]
    by_cases h : n < 2 ^ 32
    · simp [h, eq_comm]
    · simp [h]
  | cons x xs ih =>
    intro n c
    cases x with
    | error e => simp [elementsResult, allOk]
    | ok bs =>
      simp only [elementsResult, ih, allOk, List.length_cons]
      rw [show n + 1 + xs.length = n + (xs.length + 1) by omega]

theorem writeElementsZlib_ok_iff (Z : Zlib) (v : FbxVersion) (pre post : Bytes) (o : List OpenNode)
    (items : List (Except WErr Bytes)) (c : Nat) (w' : Writer) :
    writeElementsZlib Z items (At v pre post o) = (.ok c, w') ↔
      allOk items = true ∧ items.length < 2 ^ 32 ∧ c = items.length ∧ Room pre (Z.encode (okPrefix items)) ∧
      w' = At v (pre ++ Z.encode (okPrefix items)) (post.drop (Z.encode (okPrefix items)).length) o := by
  have hx : ∀ (x : Except WErr Nat) (f : Nat → M WErr Writer Nat) (s : Writer),
      (M.ofExcept x >>= f) s = (.ok c, w') ↔ ∃ k, x = .ok k ∧ f k s = (.ok c, w') := by
    intro x f s
    rw [M.bind_ok_iff]
    simp only [M.ofExcept_ok_iff]
    constructor
    · rintro ⟨a, _, ⟨h, rfl⟩, h'⟩; exact ⟨a, h, h'⟩
    · rintro ⟨a, h, h'⟩; exact ⟨a, _, ⟨h, rfl⟩, h'⟩
  have hlast : ∀ (pre post bs : Bytes) (g : WErr → WErr) (k : Nat),
      (M.mapErr g (put bs) >>= fun _ => pure k) (At v pre post o) = (.ok c, w') ↔
        Room pre bs ∧ c = k ∧ w' = At v (pre ++ bs) (post.drop bs.length) o := by
    intro pre post bs g k
    rw [M.bind_of_unit (fun u s' => (M.mapErr_ok_iff g (put bs) _ s' u).trans (put_ok_iff v pre post bs o u s'))]
    simp [eq_comm]
  simp only [writeElementsZlib, put_bind, hx, hlast, elementsResult_ok_iff, Zlib.encode, Room.append,
    List.append_assoc, List.drop_drop, List.length_append, Nat.zero_add]
  constructor
  · rintro ⟨h1, h2, k, ⟨h3, h4, rfl⟩, h5, rfl, h6⟩
    exact ⟨h3, h4, rfl, ⟨h1, h2, h5⟩, by simpa [Nat.add_assoc] using h6⟩
  · rintro ⟨h3, h4, rfl, ⟨h1, h2, h5⟩, h6⟩
    exact ⟨h1, h2, _, ⟨h3, h4, rfl⟩, h5, rfl, by simpa [Nat.add_assoc] using h6⟩

/-- Payload of an array as stored. -/
def payload (Z : Zlib) (enc : ArrEnc) (data : Bytes) : Bytes :=
  match enc with
  | .direct => data
  | .zlib => Z.encode data

/-- Bytes of an array attribute. -/
def arrBytes (Z : Zlib) (t : AttrType) (enc : ArrEnc) (count : Nat) (data : Bytes) : Bytes :=
  t.typeCode :: (arrHdr ⟨count, enc, (payload Z enc data).length⟩ ++ payload Z enc data)

theorem appendArray_ok_iff (Z : Zlib) (v : FbxVersion) (pre post : Bytes) (n : OpenNode) (r : List OpenNode)
    (t : AttrType) (enc : Option ArrEnc) (items : List (Except WErr Bytes)) (u : Unit) (w' : Writer) :
    appendArray Z t enc items (At v pre post (n :: r)) = (.ok u, w') ↔
      (let bs := arrBytes Z t (enc.getD .direct) items.length (okPrefix items)
       n.header.numAttrs + 1 < 2 ^ 64 ∧ allOk items = true ∧ items.length < 2 ^ 32 ∧
       (payload Z (enc.getD .direct) (okPrefix items)).length < 2 ^ 32 ∧ Room pre bs ∧
       w' = At v (pre ++ bs) (post.drop bs.length) (bump n :: r)) := by
  generalize he : enc.getD .direct = e
  generalize hp : payload Z e (okPrefix items) = pl
  have hel : ∀ pre post (o : List OpenNode) c w',
      writeArrayElements Z e items (At v pre post o) = (.ok c, w') ↔
      (allOk items = true ∧ items.length < 2 ^ 32 ∧ Room pre pl) ∧ c = items.length ∧
        w' = At v (pre ++ pl) (post.drop pl.length) o := by
    intro pre post o c w'
    cases e <;> simp only [payload] at hp <;> subst hp
    · simp only [writeArrayElements, writeElements_ok_iff v o items, Nat.zero_add]
      constructor
      · rintro ⟨h1, h2, h3, h4, h5⟩; exact ⟨⟨h1, h2, h4⟩, h3, h5⟩
      · rintro ⟨⟨h1, h2, h4⟩, h3, h5⟩; exact ⟨h1, h2, h3, h4, h5⟩
    · simp only [writeArrayElements, writeElementsZlib_ok_iff]
      constructor
      · rintro ⟨h1, h2, h3, h4, h5⟩; exact ⟨⟨h1, h2, h4⟩, h3, h5⟩
      · rintro ⟨⟨h1, h2, h4⟩, h3, h5⟩; exact ⟨h1, h2, h3, h4, h5⟩
  simp only [appendArray, he, initializeArray, writeTypeCode, M.bind_assoc', updateNodeHeader_bind, put_bind, tell_bind,
    writeArrHeader_bind, M.pure_bind', arrBytes, hp]
  rw [M.bind_of (fun a s' => hel _ _ _ a s')]
  simp only [tell_bind]
  have hc : ∀ h : ArrHeader, t.typeCode :: (arrHdr h ++ pl) = [t.typeCode] ++ (arrHdr h ++ pl) := fun _ => rfl
  simp only [hc, Room.append]
  have hroomh : ∀ h h' : ArrHeader, Room (pre ++ [t.typeCode]) (arrHdr h) → Room (pre ++ [t.typeCode]) (arrHdr h') := by
    intro h h' hr
    have hne : arrHdr h ≠ [] := by intro hc; have := congrArg List.length hc; simp at this
    rcases hr with hr | hr
    · exact absurd hr hne
    · right; simpa using hr
  have hlen : (pre ++ [t.typeCode] ++ arrHdr ⟨0, e, 0⟩ ++ pl).length - (pre ++ [t.typeCode] ++ arrHdr ⟨0, e, 0⟩).length
      = pl.length := by simp; omega
  rw [hlen]
  by_cases hpl : pl.length < 2 ^ 32
  · simp only [hpl, if_true, true_and]
    constructor
    · rintro ⟨h1, h2, h3, ⟨h4, h5, h6⟩, h7⟩
      rw [finalizeArray_ok_iff v (pre ++ [t.typeCode]) (arrHdr ⟨0, e, 0⟩) pl _ _ rfl (by simp)
        (room_lt h3 (by intro hc; have := congrArg List.length hc; simp at this))] at h7
      refine ⟨h1, h4, h5, ⟨h2, hroomh _ _ h3, ?_⟩, ?_⟩
      · rcases h6 with h6 | h6
        · exact .inl h6
        · right; simpa using h6
      · rw [h7]; simp [List.drop_drop, Nat.add_assoc]
        congr 2; omega
    · rintro ⟨h1, h4, h5, ⟨h2, h3, h6⟩, h7⟩
      refine ⟨h1, h2, hroomh _ _ h3, ⟨h4, h5, ?_⟩, ?_⟩
      · rcases h6 with h6 | h6
        · exact .inl h6
        · right; simpa using h6
      · rw [finalizeArray_ok_iff v (pre ++ [t.typeCode]) (arrHdr ⟨0, e, 0⟩) pl _ _ rfl (by simp)
          (room_lt (hroomh _ _ h3) (by intro hc; have := congrArg List.length hc; simp at this)), h7]
        simp [List.drop_drop, Nat.add_assoc]
        congr 2; omega
  · simp only [hpl, if_false, M.throw_ok_iff, and_false, false_and]

end Fbx.Writer
