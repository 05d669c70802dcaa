import Verif.Proof.WriterAttrs

/-! # All `append_*` methods on a fault-free sink -/

set_option linter.unusedSimpArgs false

namespace Fbx.Writer
open Spec

/-! ## Special (string and binary) attributes -/

/-- Bytes of a string or binary attribute whose length field is `k`. -/
def specBytes (t : AttrType) (k : Nat) (bs : Bytes) : Bytes := t.typeCode :: (leBytes 4 k ++ bs)

theorem special_ok_iff (v : FbxVersion) (pre post : Bytes) (n : OpenNode) (r : List OpenNode) (t : AttrType)
    (m : M WErr Writer Nat) (C : Prop) (k : Nat) (bs : Bytes)
    (hm : ∀ pre post o c w', m (At v pre post o) = (.ok c, w') ↔
      (C ∧ Room pre bs) ∧ c = k ∧ w' = At v (pre ++ bs) (post.drop bs.length) o) (u : Unit) (w' : Writer) :
    (initializeSpecial t >>= fun p => m >>= fun len => finalizeSpecial p len) (At v pre post (n :: r)) = (.ok u, w') ↔
      n.header.numAttrs + 1 < 2 ^ 64 ∧ C ∧ k < 2 ^ 32 ∧ Room pre (specBytes t k bs) ∧
      w' = At v (pre ++ specBytes t k bs) (post.drop (specBytes t k bs).length) (bump n :: r) := by
  have hc : specBytes t k bs = [t.typeCode] ++ (leBytes 4 k ++ bs) := rfl
  simp only [initializeSpecial, writeTypeCode, M.bind_assoc', updateNodeHeader_bind, put_bind, tell_bind, M.pure_bind',
    hc, Room.append]
  rw [M.bind_of (fun a s' => hm _ _ _ a s')]
  have hne : ∀ k, leBytes 4 k ≠ [] := by intro k hc; have := congrArg List.length hc; simp at this
  have hroom : ∀ k k' : Nat, Room (pre ++ [t.typeCode]) (leBytes 4 k) → Room (pre ++ [t.typeCode]) (leBytes 4 k') := by
    intro k k' hr
    rcases hr with hr | hr
    · exact absurd hr (hne _)
    · right; simpa using hr
  have hroom2 : ∀ k k' : Nat, Room (pre ++ [t.typeCode] ++ leBytes 4 k) bs → Room (pre ++ [t.typeCode] ++ leBytes 4 k') bs := by
    intro k k' hr
    rcases hr with hr | hr
    · exact .inl hr
    · right; simpa using hr
  by_cases hk : k < 2 ^ 32
  · have hfin : Room (pre ++ [t.typeCode]) (leBytes 4 0) → ∀ w',
        (finalizeSpecial (pre ++ [t.typeCode]).length k (At v (pre ++ [t.typeCode] ++ leBytes 4 0 ++ bs)
          (((post.drop [t.typeCode].length).drop (leBytes 4 0).length).drop bs.length) (bump n :: r)) = (.ok u, w') ↔
        w' = At v (pre ++ [t.typeCode] ++ leBytes 4 k ++ bs)
          (((post.drop [t.typeCode].length).drop (leBytes 4 0).length).drop bs.length) (bump n :: r)) := by
      intro hr w'
      simp only [finalizeSpecial, hk, if_true, tell_bind]
      exact patch_ok_iff v (pre ++ [t.typeCode]) (leBytes 4 0) (leBytes 4 k) bs _ _ rfl rfl (by simp)
        (room_lt hr (hne _)) u w'
    constructor
    · rintro ⟨h1, h2, h3, ⟨h4, h5⟩, h6⟩
      rw [hfin h3] at h6
      refine ⟨h1, h4, hk, ⟨h2, hroom _ _ h3, hroom2 _ _ h5⟩, ?_⟩
      rw [h6]; simp [List.drop_drop, Nat.add_assoc]; congr 2; omega
    · rintro ⟨h1, h4, -, ⟨h2, h3, h5⟩, h6⟩
      refine ⟨h1, h2, hroom _ _ h3, ⟨h4, hroom2 _ _ h5⟩, ?_⟩
      rw [hfin (hroom _ _ h3), h6]; simp [List.drop_drop, Nat.add_assoc]; congr 2; omega
  · simp only [finalizeSpecial, hk, if_false, M.throw_ok_iff, and_false, false_and]

theorem appendDirect_ok_iff (v : FbxVersion) (pre post : Bytes) (n : OpenNode) (r : List OpenNode) (t : AttrType)
    (bs : Bytes) (u : Unit) (w' : Writer) :
    appendDirect t bs (At v pre post (n :: r)) = (.ok u, w') ↔
      n.header.numAttrs + 1 < 2 ^ 64 ∧ bs.length < 2 ^ 32 ∧ Room pre (specBytes t bs.length bs) ∧
      w' = At v (pre ++ specBytes t bs.length bs) (post.drop (specBytes t bs.length bs).length) (bump n :: r) := by
  have := special_ok_iff v pre post n r t (put bs >>= fun _ => pure bs.length) True bs.length bs
    (by intro pre post o c w'; rw [put_bind]; simp [eq_comm]) u w'
  simp only [M.bind_assoc', M.pure_bind', true_and] at this
  exact this

theorem copyChunks_ok_iff (v : FbxVersion) (o : List OpenNode) (e : Option IoErr) (cs : List Bytes) :
    ∀ (pre post : Bytes) (k c : Nat) (w' : Writer),
    copyChunks e cs k (At v pre post o) = (.ok c, w') ↔
      (e = none ∧ Room pre cs.flatten) ∧ c = k + cs.flatten.length ∧
      w' = At v (pre ++ cs.flatten) (post.drop cs.flatten.length) o := by
  induction cs with
  | nil =>
    intro pre post k c w'
    cases e <;> simp [copyChunks, Room, eq_comm]
  | cons x xs ih =>
    intro pre post k c w'
    simp only [copyChunks, put_bind, ih, List.flatten_cons, Room.append, List.append_assoc, List.drop_drop,
      List.length_append, Nat.add_assoc]
    constructor
    · rintro ⟨h1, ⟨h2, h3⟩, h4, h5⟩; exact ⟨⟨h2, h1, h3⟩, h4, h5⟩
    · rintro ⟨⟨h2, h1, h3⟩, h4, h5⟩; exact ⟨h1, ⟨h2, h3⟩, h4, h5⟩

theorem appendBinaryReader_ok_iff (v : FbxVersion) (pre post : Bytes) (n : OpenNode) (r : List OpenNode)
    (cs : List Bytes) (e : Option IoErr) (u : Unit) (w' : Writer) :
    appendBinaryReader cs e (At v pre post (n :: r)) = (.ok u, w') ↔
      (let bs := specBytes .binary cs.flatten.length cs.flatten
       n.header.numAttrs + 1 < 2 ^ 64 ∧ e = none ∧ cs.flatten.length < 2 ^ 32 ∧ Room pre bs ∧
       w' = At v (pre ++ bs) (post.drop bs.length) (bump n :: r)) :=
  special_ok_iff v pre post n r .binary (copyChunks e cs 0) (e = none) cs.flatten.length cs.flatten
    (by intro pre post o c w'; rw [copyChunks_ok_iff]; simp) u w'

theorem putEach_ok_iff (v : FbxVersion) (o : List OpenNode) (items : List (Except WErr Byte)) :
    ∀ (pre post : Bytes) (k c : Nat) (w' : Writer),
    putEach items k (At v pre post o) = (.ok c, w') ↔
      (allOk items = true ∧ Room pre (oks items)) ∧ c = k + (oks items).length ∧
      w' = At v (pre ++ oks items) (post.drop (oks items).length) o := by
  induction items with
  | nil => intro pre post k c w'; simp [putEach, allOk, oks, Room, eq_comm]
  | cons x xs ih =>
    intro pre post k c w'
    cases x with
    | error e => simp [putEach, allOk]
    | ok b =>
      have hc : b :: oks xs = [b] ++ oks xs := rfl
      simp only [putEach, put_bind, ih, allOk, oks, hc, Room.append, List.append_assoc, List.drop_drop,
        List.length_append, Nat.add_assoc, List.length_singleton]
      constructor
      · rintro ⟨h1, ⟨h2, h3⟩, h4, h5⟩; exact ⟨⟨h2, h1, h3⟩, h4, h5⟩
      · rintro ⟨⟨h2, h1, h3⟩, h4, h5⟩; exact ⟨h1, ⟨h2, h3⟩, h4, h5⟩

theorem appendBinaryIter_ok_iff (v : FbxVersion) (pre post : Bytes) (n : OpenNode) (r : List OpenNode)
    (items : List (Except WErr Byte)) (u : Unit) (w' : Writer) :
    appendBinaryIter items (At v pre post (n :: r)) = (.ok u, w') ↔
      (let bs := specBytes .binary (oks items).length (oks items)
       n.header.numAttrs + 1 < 2 ^ 64 ∧ allOk items = true ∧ (oks items).length < 2 ^ 32 ∧ Room pre bs ∧
       w' = At v (pre ++ bs) (post.drop bs.length) (bump n :: r)) :=
  special_ok_iff v pre post n r .binary (putEach items 0) (allOk items = true) (oks items).length (oks items)
    (by intro pre post o c w'; rw [putEach_ok_iff]; simp) u w'

/-- What the loop over characters writes: the whole scratch buffer for every character. -/
def charOut : Bytes → List Char → Bytes
  | _, [] => []
  | buf, c :: cs => encodeInto buf c ++ charOut (encodeInto buf c) cs

/-- What the loop over characters counts: the length of the UTF-8 encoding. -/
def charLen (cs : List Char) : Nat := (cs.flatMap String.utf8EncodeChar).length

theorem putChars_ok_iff (v : FbxVersion) (o : List OpenNode) (items : List (Except WErr Char)) :
    ∀ (buf pre post : Bytes) (k c : Nat) (w' : Writer),
    putChars items buf k (At v pre post o) = (.ok c, w') ↔
      (allOk items = true ∧ Room pre (charOut buf (oks items))) ∧ c = k + charLen (oks items) ∧
      w' = At v (pre ++ charOut buf (oks items)) (post.drop (charOut buf (oks items)).length) o := by
  induction items with
  | nil => intro buf pre post k c w'; simp [putChars, allOk, oks, Room, charOut, charLen, eq_comm]
  | cons x xs ih =>
    intro buf pre post k c w'
    cases x with
    | error e => simp [putChars, allOk]
    | ok b =>
      simp only [putChars, put_bind, ih, allOk, oks, charOut, Room.append, List.append_assoc, List.drop_drop,
        List.length_append, Nat.add_assoc, charLen, List.flatMap_cons]
      constructor
      · rintro ⟨h1, ⟨h2, h3⟩, h4, h5⟩; exact ⟨⟨h2, h1, h3⟩, h4, h5⟩
      · rintro ⟨⟨h2, h1, h3⟩, h4, h5⟩; exact ⟨h1, ⟨h2, h3⟩, h4, h5⟩

theorem appendStringIter_ok_iff (v : FbxVersion) (pre post : Bytes) (n : OpenNode) (r : List OpenNode)
    (items : List (Except WErr Char)) (u : Unit) (w' : Writer) :
    appendStringIter items (At v pre post (n :: r)) = (.ok u, w') ↔
      (let bs := specBytes .string (charLen (oks items)) (charOut (zeros 4) (oks items))
       n.header.numAttrs + 1 < 2 ^ 64 ∧ allOk items = true ∧ charLen (oks items) < 2 ^ 32 ∧ Room pre bs ∧
       w' = At v (pre ++ bs) (post.drop bs.length) (bump n :: r)) :=
  special_ok_iff v pre post n r .string (putChars items (zeros 4) 0) (allOk items = true) _ _
    (by intro pre post o c w'; rw [putChars_ok_iff]; simp) u w'

/-! ## Arrays -/

theorem allOk_elemBytes {e : Type} (f : e → Bytes) (items : List (Except WErr e)) :
    allOk (elemBytes f items) = allOk items := by
  induction items with
  | nil => rfl
  | cons x xs ih => cases x <;> simp_all [elemBytes, allOk]

theorem okPrefix_elemBytes {e : Type} (f : e → Bytes) (items : List (Except WErr e)) (h : allOk items = true) :
    okPrefix (elemBytes f items) = (oks items).flatMap f := by
  induction items with
  | nil => rfl
  | cons x xs ih => cases x <;> simp_all [elemBytes, allOk, okPrefix, oks]

theorem oks_length {e α : Type} (items : List (Except e α)) (h : allOk items = true) :
    (oks items).length = items.length := by
  induction items with
  | nil => rfl
  | cons x xs ih => cases x <;> simp_all [allOk, oks]

theorem elemBytes_length {e : Type} (f : e → Bytes) (items : List (Except WErr e)) :
    (elemBytes f items).length = items.length := by simp [elemBytes]

theorem appendArr_ok_iff {e : Type} (Z : Zlib) (v : FbxVersion) (pre post : Bytes) (n : OpenNode) (r : List OpenNode)
    (t : AttrType) (enc : Option ArrEnc) (f : e → Bytes) (items : List (Except WErr e)) (u : Unit) (w' : Writer) :
    appendArray Z t enc (elemBytes f items) (At v pre post (n :: r)) = (.ok u, w') ↔
      (let data := (oks items).flatMap f
       let bs := arrBytes Z t (enc.getD .direct) (oks items).length data
       n.header.numAttrs + 1 < 2 ^ 64 ∧ allOk items = true ∧
       ((oks items).length < 2 ^ 32 ∧ (payload Z (enc.getD .direct) data).length < 2 ^ 32) ∧ Room pre bs ∧
       w' = At v (pre ++ bs) (post.drop bs.length) (bump n :: r)) := by
  rw [appendArray_ok_iff, allOk_elemBytes]
  by_cases h : allOk items = true
  · simp only [okPrefix_elemBytes f items h, elemBytes_length, oks_length items h, h, true_and, and_assoc]
  · simp [h]

/-! ## The general statement -/

/-- The bytes an `append_*` call really produces when it succeeds. -/
def produced (Z : Zlib) : Append → Bytes
  | .stringIter items => specBytes .string (charLen (oks items)) (charOut (zeros 4) (oks items))
  | a => attrBytes Z (denote a)

theorem flatMap_singleton_map {α : Type} (l : List α) (f : α → Byte) : l.flatMap (fun x => [f x]) = l.map f := by
  induction l <;> simp_all

theorem strLen_eq (cs : List Char) : (utf8 (String.ofList cs)) = cs.flatMap String.utf8EncodeChar := by
  simp [utf8, List.utf8Encode]

theorem encCode (e : ArrEnc) : (match e with | .direct => 0 | .zlib => 1 : Nat) = e.toU32 := by cases e <;> rfl

theorem arrBytes_eq (Z : Zlib) (t : AttrType) (enc : ArrEnc) (val : AttrValue) (count : Nat) (data : Bytes)
    (ht : t.typeCode = UInt8.ofNat (typeChar val).toNat) (hc : arrayCount val = count) (hd : arrayData val = data)
    (hb : attrBody Z ⟨val, enc⟩ = le 4 (arrayCount val) ++ le 4 (match enc with | .direct => 0 | .zlib => 1) ++
      le 4 (arrayPayload Z ⟨val, enc⟩).length ++ arrayPayload Z ⟨val, enc⟩) :
    arrBytes Z t enc count data = attrBytes Z ⟨val, enc⟩ := by
  have hp : payload Z enc data = arrayPayload Z ⟨val, enc⟩ := by
    subst hd; cases enc <;> rfl
  simp only [arrBytes, attrBytes, hb, arrHdr, le_eq, ht, hc, hp, encCode]

theorem payload_eq (Z : Zlib) (enc : ArrEnc) (val : AttrValue) (data : Bytes) (hd : arrayData val = data) :
    payload Z enc data = arrayPayload Z ⟨val, enc⟩ := by
  subst hd; cases enc <;> rfl

theorem append_ok_iff (Z : Zlib) (v : FbxVersion) (pre post : Bytes) (n : OpenNode) (r : List OpenNode) (a : Append)
    (u : Unit) (w' : Writer) :
    append Z a (At v pre post (n :: r)) = (.ok u, w') ↔
      n.header.numAttrs + 1 < 2 ^ 64 ∧ (noUserError a ∧ attrFits Z (denote a)) ∧ Room pre (produced Z a) ∧
      w' = At v (pre ++ produced Z a) (post.drop (produced Z a).length) (bump n :: r) := by
  have harr : ∀ {e : Type} (t : AttrType) (enc : Option ArrEnc) (f : e → Bytes) (items : List (Except WErr e))
      (val : AttrValue), t.typeCode = UInt8.ofNat (typeChar val).toNat → arrayCount val = (oks items).length →
      arrayData val = (oks items).flatMap f →
      attrBody Z ⟨val, enc.getD .direct⟩ = le 4 (arrayCount val) ++
        le 4 (match enc.getD .direct with | .direct => 0 | .zlib => 1) ++
        le 4 (arrayPayload Z ⟨val, enc.getD .direct⟩).length ++ arrayPayload Z ⟨val, enc.getD .direct⟩ →
      (appendArray Z t enc (elemBytes f items) (At v pre post (n :: r)) = (.ok u, w') ↔
        n.header.numAttrs + 1 < 2 ^ 64 ∧ (allOk items = true ∧ arrayCount val < 2 ^ 32 ∧
          (arrayPayload Z ⟨val, enc.getD .direct⟩).length < 2 ^ 32) ∧ Room pre (attrBytes Z ⟨val, enc.getD .direct⟩) ∧
        w' = At v (pre ++ attrBytes Z ⟨val, enc.getD .direct⟩) (post.drop (attrBytes Z ⟨val, enc.getD .direct⟩).length)
          (bump n :: r)) := by
    intro e t enc f items val ht hc hd hb
    rw [appendArr_ok_iff]
    simp only [arrBytes_eq Z t (enc.getD .direct) val _ _ ht hc hd hb, payload_eq Z _ val _ hd, hc, and_assoc]
  cases a with
  | stringIter items =>
    simp only [append, appendStringIter_ok_iff, produced, noUserError, attrFits, denote, strLen_eq, charLen, and_assoc]
  | binaryIter items =>
    have : produced Z (.binaryIter items) = specBytes .binary (oks items).length (oks items) := by
      simp only [produced, denote, attrBytes, attrBody, le_eq]; rfl
    simp only [append, appendBinaryIter_ok_iff, noUserError, attrFits, this, denote, and_assoc]
  | binaryReader cs e =>
    have : produced Z (.binaryReader cs e) = specBytes .binary cs.flatten.length cs.flatten := by
      simp only [produced, denote, attrBytes, attrBody, le_eq]; rfl
    simp only [append, appendBinaryReader_ok_iff, noUserError, attrFits, this, denote, and_assoc]
  | binary bs =>
    have : produced Z (.binary bs) = specBytes .binary bs.length bs := by
      simp only [produced, denote, attrBytes, attrBody, le_eq]; rfl
    simp only [append, appendDirect_ok_iff, noUserError, attrFits, this, denote, and_assoc, true_and]
  | string s =>
    have : produced Z (.string s) = specBytes .string (strBytes s).length (strBytes s) := by
      simp only [produced, denote, attrBytes, attrBody, le_eq]; rfl
    simp only [append, appendDirect_ok_iff, noUserError, attrFits, this, denote, and_assoc, true_and, utf8_eq]
  | arrBool enc items => exact harr .arrBool enc boolBytes items _ rfl rfl (flatMap_singleton_map _ _).symm rfl
  | arrI32 enc items =>
    exact harr .arrI32 enc b32Bytes items _ rfl rfl (by simp only [arrayData, le_eq]; rfl) rfl
  | arrI64 enc items =>
    exact harr .arrI64 enc b64Bytes items _ rfl rfl (by simp only [arrayData, le_eq]; rfl) rfl
  | arrF32 enc items =>
    exact harr .arrF32 enc b32Bytes items _ rfl rfl (by simp only [arrayData, le_eq]; rfl) rfl
  | arrF64 enc items =>
    exact harr .arrF64 enc b64Bytes items _ rfl rfl (by simp only [arrayData, le_eq]; rfl) rfl
  | bool b =>
    have : produced Z (.bool b) = AttrType.bool.typeCode :: boolBytes b := by
      simp only [produced, denote, attrBytes, attrBody, le_eq]; rfl
    simp only [append, appendSingle_ok_iff, noUserError, attrFits, this, denote, and_assoc, true_and]
  | i16 b =>
    have : produced Z (.i16 b) = AttrType.i16.typeCode :: leBytes 2 b.toNat := by
      simp only [produced, denote, attrBytes, attrBody, le_eq]; rfl
    simp only [append, appendSingle_ok_iff, noUserError, attrFits, this, denote, and_assoc, true_and]
  | i32 b =>
    have : produced Z (.i32 b) = AttrType.i32.typeCode :: leBytes 4 b.toNat := by
      simp only [produced, denote, attrBytes, attrBody, le_eq]; rfl
    simp only [append, appendSingle_ok_iff, noUserError, attrFits, this, denote, and_assoc, true_and]
  | i64 b =>
    have : produced Z (.i64 b) = AttrType.i64.typeCode :: leBytes 8 b.toNat := by
      simp only [produced, denote, attrBytes, attrBody, le_eq]; rfl
    simp only [append, appendSingle_ok_iff, noUserError, attrFits, this, denote, and_assoc, true_and]
  | f32 b =>
    have : produced Z (.f32 b) = AttrType.f32.typeCode :: leBytes 4 b.toNat := by
      simp only [produced, denote, attrBytes, attrBody, le_eq]; rfl
    simp only [append, appendSingle_ok_iff, noUserError, attrFits, this, denote, and_assoc, true_and]
  | f64 b =>
    have : produced Z (.f64 b) = AttrType.f64.typeCode :: leBytes 8 b.toNat := by
      simp only [produced, denote, attrBytes, attrBody, le_eq]; rfl
    simp only [append, appendSingle_ok_iff, noUserError, attrFits, this, denote, and_assoc, true_and]

end Fbx.Writer
