import Verif.Proof.WriterErr

/-! # Outcome of the writer's methods on any working device -/

namespace Fbx.Writer
open Spec

/-- No coming operation fails. -/
def Free (w : Writer) : Prop := w.sink.fault = fun _ => none

/-- After writing `x` at the current offset. -/
def wrote (w : Writer) (x : Bytes) : Writer :=
  { w with sink := ⟨Sink.store w.sink.buf w.sink.pos x, w.sink.pos + x.length, fun _ => none⟩ }

@[simp] theorem wrote_free (w : Writer) (x : Bytes) : Free (wrote w x) := rfl
@[simp] theorem wrote_opened (w : Writer) (x : Bytes) : (wrote w x).opened = w.opened := rfl
@[simp] theorem wrote_version (w : Writer) (x : Bytes) : (wrote w x).version = w.version := rfl
@[simp] theorem wrote_pos (w : Writer) (x : Bytes) : (wrote w x).sink.pos = w.sink.pos + x.length := rfl

theorem store_length (b : Bytes) (p : Nat) (x : Bytes) :
    (Sink.store b p x).length = max b.length (p + x.length) := by
  simp [Sink.store]; omega

theorem store_store (b : Bytes) (p : Nat) (x y : Bytes) :
    Sink.store (Sink.store b p x) (p + x.length) y = Sink.store b p (x ++ y) := by
  have h1 : p + x.length - (Sink.store b p x).length = 0 := by rw [store_length]; omega
  have hl : ((b ++ zeros (p - b.length)).take p ++ x).length = p + x.length := by simp; omega
  unfold Sink.store at *
  rw [h1]
  generalize hA : (b ++ zeros (p - b.length)).take p = A at *
  simp only [zeros, List.replicate_zero, List.append_nil, List.length_append] at *
  rw [List.take_append_of_le_length (by simp; omega), List.take_of_length_le (by simp; omega),
    List.drop_append, List.drop_of_length_le (by simp; omega), List.nil_append, List.drop_drop]
  simp only [List.length_append, List.append_assoc]
  congr 4
  omega

theorem put_wrote {w : Writer} {x bs : Bytes} (h : w.sink.pos + x.length + bs.length < 2 ^ 64) :
    put bs (wrote w x) = (.ok (), wrote w (x ++ bs)) := by
  simp only [put, io, M.mapErr, M.zoom, Sink.writeAll, wrote]
  by_cases hb : bs = []
  · subst hb; simp
  · have h' : w.sink.pos + (x.length + bs.length) < 2 ^ 64 := by omega
    simp only [hb, if_false, h', if_true, store_store, later_none, List.length_append, Nat.add_assoc]

theorem put_first {w : Writer} {bs : Bytes} (hf : Free w) (hb : bs ≠ []) (h : w.sink.pos + bs.length < 2 ^ 64) :
    put bs w = (.ok (), wrote w bs) := by
  obtain ⟨⟨b, p, f⟩, v, o⟩ := w
  simp only [Free] at hf
  subst hf
  simp only at h
  simp only [put, io, M.mapErr, M.zoom, Sink.writeAll, wrote, hb, if_false, h, if_true, later_none]

theorem tell_free {w : Writer} (hf : Free w) : io Sink.tell w = (.ok w.sink.pos, w) := by
  obtain ⟨⟨b, p, f⟩, v, o⟩ := w
  simp only [Free] at hf
  subst hf
  simp only [io, M.mapErr, M.zoom, Sink.tell, later_none]

/-- Moved to offset `p`. -/
def moved (w : Writer) (p : Nat) : Writer := { w with sink := ⟨w.sink.buf, p, fun _ => none⟩ }

@[simp] theorem moved_free (w : Writer) (p : Nat) : Free (moved w p) := rfl
@[simp] theorem moved_pos (w : Writer) (p : Nat) : (moved w p).sink.pos = p := rfl
@[simp] theorem moved_opened (w : Writer) (p : Nat) : (moved w p).opened = w.opened := rfl
@[simp] theorem moved_version (w : Writer) (p : Nat) : (moved w p).version = w.version := rfl

theorem seek_free {w : Writer} (hf : Free w) (p : Nat) : io (Sink.seek p) w = (.ok (), moved w p) := by
  obtain ⟨⟨b, q, f⟩, v, o⟩ := w
  simp only [Free] at hf
  subst hf
  simp only [io, M.mapErr, M.zoom, Sink.seek, later_none, moved]

/-- Back-patching succeeds. -/
theorem patch_free {w : Writer} (hf : Free w) (p q : Nat) (h : Bytes) (hh : h ≠ []) (hp : p + h.length < 2 ^ 64) :
    ((do io (Sink.seek p); put h; io (Sink.seek q) : M WErr Writer Unit) w).1 = .ok () := by
  rw [bind_eq (seek_free hf p), bind_eq (put_first (moved_free w p) hh hp), seek_free (wrote_free _ _)]

/-- The Rust result of a pure check. -/
def toRes {α : Type} : Except WErr α → Res WErr α
  | .ok a => .ok a
  | .error e => .err e

theorem writeElements_free (items : List (Except WErr Bytes)) : ∀ (w : Writer) (x : Bytes) (k : Nat),
    w.sink.pos + x.length + (okPrefix items).length < 2 ^ 64 →
    writeElements items k (wrote w x) = (toRes (elementsResult items k), wrote w (x ++ okPrefix items)) := by
  induction items with
  | nil =>
    intro w x k _
    simp only [writeElements, elementsResult, okPrefix, List.append_nil]
    by_cases h : k < 2 ^ 32 <;> simp [h, toRes]
  | cons i is ih =>
    intro w x k h
    cases i with
    | error e => simp [writeElements, elementsResult, okPrefix, toRes]
    | ok bs =>
      simp only [okPrefix, List.length_append] at h
      rw [writeElements, bind_eq (put_wrote (by omega)), ih _ _ _ (by simp; omega)]
      simp [elementsResult, okPrefix]

theorem elementsResult_eq (items : List (Except WErr Bytes)) : ∀ k,
    elementsResult items k = match firstError items with
      | some e => .error e
      | none => if k + items.length < 2 ^ 32 then .ok (k + items.length)
          else .error (.tooManyArrayElements (k + items.length + 1)) := by
  induction items with
  | nil => intro k; simp [elementsResult, firstError]
  | cons i is ih =>
    intro k
    cases i with
    | error e => simp [elementsResult, firstError]
    | ok b =>
      simp only [elementsResult, firstError, ih, List.length_cons]
      rw [show k + 1 + is.length = k + (is.length + 1) by omega]

theorem firstError_elemBytes {e : Type} (f : e → Bytes) (items : List (Except WErr e)) :
    firstError (elemBytes f items) = firstError items := by
  induction items with
  | nil => rfl
  | cons i is ih =>
    cases i
    · rfl
    · simpa [elemBytes, firstError] using ih

theorem okPrefix_before {e : Type} (f : e → Bytes) (items : List (Except WErr e)) :
    okPrefix (elemBytes f items) = (before items).flatMap f := by
  induction items with
  | nil => rfl
  | cons i is ih =>
    cases i
    · rfl
    · simpa [elemBytes, okPrefix, before] using ih

theorem before_oks {α : Type} (items : List (Except WErr α)) (h : firstError items = none) : before items = oks items := by
  induction items with
  | nil => rfl
  | cons i is ih =>
    cases i
    · simp [firstError] at h
    · simp only [firstError] at h; simp [before, oks, ih h]

theorem oks_len {α : Type} (items : List (Except WErr α)) (h : firstError items = none) :
    (oks items).length = items.length := by
  induction items with
  | nil => rfl
  | cons i is ih =>
    cases i
    · simp [firstError] at h
    · simp only [firstError] at h; simp [oks, ih h]

/-- What an array call has written after its header when its elements end or fail. -/
def arrSoFar (Z : Zlib) (enc : ArrEnc) (data : Bytes) (failed : Bool) : Bytes :=
  match enc with
  | .direct => data
  | .zlib => if failed then [Z.encHeader.1, Z.encHeader.2] ++ Z.encEarly data else Z.encode data

theorem writeArrayElements_free (Z : Zlib) (enc : ArrEnc) (items : List (Except WErr Bytes)) (w : Writer) (x : Bytes)
    (h : w.sink.pos + x.length + (payload Z enc (okPrefix items)).length < 2 ^ 64) :
    writeArrayElements Z enc items (wrote w x) = (toRes (elementsResult items 0),
      wrote w (x ++ arrSoFar Z enc (okPrefix items) (match elementsResult items 0 with | .ok _ => false | .error _ => true))) := by
  cases enc with
  | direct => rw [writeArrayElements, writeElements_free items w x 0 h]; rfl
  | zlib =>
    simp only [payload, Zlib.encode, List.length_append, List.length_cons, List.length_nil] at h
    rw [writeArrayElements, writeElementsZlib, bind_eq (put_wrote (by simp; omega)), bind_eq (put_wrote (by simp; omega))]
    cases hr : elementsResult items 0 with
    | error e => simp [M.bind_apply, M.ofExcept_error, toRes, arrSoFar]
    | ok c =>
      rw [M.bind_apply, M.ofExcept_ok]
      simp only
      rw [M.bind_apply, M.mapErr_apply, put_wrote (by simp; omega)]
      simp [toRes, arrSoFar, Zlib.encode]

theorem updateNodeHeader_free {w : Writer} {n : OpenNode} {r : List OpenNode} (ho : w.opened = n :: r)
    (hn : n.header.numAttrs + 1 < 2 ^ 64) :
    updateNodeHeader w = (.ok (), { w with opened := bump n :: r }) := by
  obtain ⟨s, v, o⟩ := w
  simp only at ho
  subst ho
  simp only [updateNodeHeader, M.get_bind, hn, if_true, M.modify_apply, modifyTop]
  rfl

theorem arrHdr_ne (h : ArrHeader) : arrHdr h ≠ [] := by
  intro hc; have := congrArg List.length hc; simp at this

theorem initializeArray_free {w : Writer} {n : OpenNode} {r : List OpenNode} (hf : Free w) (ho : w.opened = n :: r)
    (hn : n.header.numAttrs + 1 < 2 ^ 64) (t : AttrType) (enc : ArrEnc) (hp : w.sink.pos + 13 < 2 ^ 64) :
    initializeArray t enc w = (.ok (w.sink.pos + 1),
      wrote { w with opened := bump n :: r } (t.typeCode :: arrHdr ⟨0, enc, 0⟩)) := by
  rw [initializeArray, bind_eq (updateNodeHeader_free ho hn), writeTypeCode,
    bind_eq (put_first (w := { w with opened := bump n :: r }) hf (by simp) (by simp; omega)),
    bind_eq (tell_free (wrote_free _ _)), writeArrHeader]
  simp only [M.bind_assoc']
  rw [bind_eq (put_wrote (by simp; omega)), bind_eq (put_wrote (by simp; omega)), bind_eq (put_wrote (by simp; omega))]
  simp [arrHdr]

/-- The array methods on a working device: result, and content when the elements fail. -/
theorem appendArray_free (Z : Zlib) {w : Writer} {n : OpenNode} {r : List OpenNode} (hf : Free w)
    (ho : w.opened = n :: r) (hn : n.header.numAttrs + 1 < 2 ^ 64) (t : AttrType) (enc : Option ArrEnc)
    (items : List (Except WErr Bytes))
    (hp : w.sink.pos + 13 + (payload Z (enc.getD .direct) (okPrefix items)).length < 2 ^ 64) :
    (appendArray Z t enc items w).1 = (match firstError items with
      | some e => .err e
      | none => if items.length < 2 ^ 32 then
          if (payload Z (enc.getD .direct) (okPrefix items)).length < 2 ^ 32 then .ok ()
          else .err (.attributeTooLong (payload Z (enc.getD .direct) (okPrefix items)).length)
        else .err (.tooManyArrayElements (items.length + 1))) ∧
    (∀ e, firstError items = some e → (appendArray Z t enc items w).2 =
      wrote { w with opened := bump n :: r } (t.typeCode :: arrHdr ⟨0, enc.getD .direct, 0⟩ ++
        arrSoFar Z (enc.getD .direct) (okPrefix items) true)) := by
  simp only [appendArray]
  generalize enc.getD .direct = en at *
  have h0 : (arrHdr ⟨0, en, 0⟩).length = 12 := arrHdr_length _
  rw [bind_eq (initializeArray_free hf ho hn t en (by omega)), bind_eq (tell_free (wrote_free _ _)), M.bind_apply,
    writeArrayElements_free Z en items _ _ (by simp only [List.length_cons, h0]; omega), elementsResult_eq]
  cases hfe : firstError items with
  | some e =>
    simp only [toRes, true_and]
    intro e' he'
    simp
  | none =>
    simp only [Nat.zero_add]
    refine ⟨?_, by intro e he; cases he⟩
    by_cases hc : items.length < 2 ^ 32
    · simp only [hc, if_true, toRes]
      rw [bind_eq (tell_free (wrote_free _ _))]
      have hsf : arrSoFar Z en (okPrefix items) false = payload Z en (okPrefix items) := by cases en <;> rfl
      rw [hsf]
      have hlen : (wrote { w with opened := bump n :: r } (t.typeCode :: arrHdr ⟨0, en, 0⟩ ++ payload Z en (okPrefix items))).sink.pos
          - (wrote { w with opened := bump n :: r } (t.typeCode :: arrHdr ⟨0, en, 0⟩)).sink.pos
          = (payload Z en (okPrefix items)).length := by
        simp; omega
      rw [hlen]
      by_cases hpl : (payload Z en (okPrefix items)).length < 2 ^ 32
      · simp only [hpl, if_true]
        rw [finalizeArray, bind_eq (tell_free (wrote_free _ _)), writeArrHeader]
        simp only [M.bind_assoc']
        rw [bind_eq (seek_free (wrote_free _ _) _), bind_eq (put_first (moved_free _ _) (by simp [leBytes]) (by simp; omega)),
          bind_eq (put_wrote (by simp; omega)), bind_eq (put_wrote (by simp; omega)), seek_free (wrote_free _ _)]
      · simp [hpl]
    · simp [hc, toRes]

/-! ## Special attributes -/

theorem initializeSpecial_free {w : Writer} {n : OpenNode} {r : List OpenNode} (hf : Free w) (ho : w.opened = n :: r)
    (hn : n.header.numAttrs + 1 < 2 ^ 64) (t : AttrType) (hp : w.sink.pos + 5 < 2 ^ 64) :
    initializeSpecial t w = (.ok (w.sink.pos + 1), wrote { w with opened := bump n :: r } (t.typeCode :: leBytes 4 0)) := by
  rw [initializeSpecial, bind_eq (updateNodeHeader_free ho hn), writeTypeCode,
    bind_eq (put_first (w := { w with opened := bump n :: r }) hf (by simp) (by simp; omega)),
    bind_eq (tell_free (wrote_free _ _)), bind_eq (put_wrote (by simp; omega))]
  simp

theorem finalizeSpecial_free {w : Writer} (hf : Free w) (p k : Nat) (hp : p + 4 < 2 ^ 64) :
    (finalizeSpecial p k w).1 = match lengthError k with | none => .ok () | some e => .err e := by
  by_cases hk : k < 2 ^ 32
  · simp only [finalizeSpecial, hk, if_true, lengthError]
    rw [bind_eq (tell_free hf)]
    exact patch_free hf p _ _ (by simp [leBytes]) (by simpa using hp)
  · simp [finalizeSpecial, hk, lengthError]

/-- A special attribute whose content is produced by `m`. -/
theorem special_free {w : Writer} {n : OpenNode} {r : List OpenNode} (hf : Free w) (ho : w.opened = n :: r)
    (hn : n.header.numAttrs + 1 < 2 ^ 64) (t : AttrType) (m : M WErr Writer Nat) (res : Except WErr Nat) (bs : Bytes)
    (hm : ∀ (w : Writer) (x : Bytes), w.sink.pos + x.length + bs.length < 2 ^ 64 →
      m (wrote w x) = (toRes res, wrote w (x ++ bs)))
    (hp : w.sink.pos + 5 + bs.length < 2 ^ 64) :
    ((initializeSpecial t >>= fun p => m >>= fun len => finalizeSpecial p len) w).1 = (match res with
      | .error e => .err e
      | .ok k => match lengthError k with | none => .ok () | some e => .err e) ∧
    (∀ e, res = .error e → ((initializeSpecial t >>= fun p => m >>= fun len => finalizeSpecial p len) w).2 =
      wrote { w with opened := bump n :: r } (t.typeCode :: leBytes 4 0 ++ bs)) := by
  rw [bind_eq (initializeSpecial_free hf ho hn t (by omega)), M.bind_apply, hm _ _ (by simp; omega)]
  cases res with
  | error e => simp [toRes]
  | ok k =>
    simp only [toRes]
    refine ⟨?_, by intro e he; cases he⟩
    rw [finalizeSpecial_free (wrote_free _ _) _ _ (by omega)]

/-- Result of a loop over items: error or count. -/
def itemsResult {α : Type} (items : List (Except WErr α)) (k : Nat) : Except WErr Nat :=
  match firstError items with
  | some e => .error e
  | none => .ok k

theorem putEach_free (items : List (Except WErr Byte)) : ∀ (w : Writer) (x : Bytes) (k : Nat),
    w.sink.pos + x.length + (before items).length < 2 ^ 64 →
    putEach items k (wrote w x) = (toRes (itemsResult items (k + (oks items).length)), wrote w (x ++ before items)) := by
  induction items with
  | nil => intro w x k _; simp [putEach, before, itemsResult, firstError, oks, toRes]
  | cons i is ih =>
    intro w x k h
    cases i with
    | error e => simp [putEach, before, itemsResult, firstError, toRes]
    | ok b =>
      simp only [before, List.length_cons] at h
      rw [putEach, bind_eq (put_wrote (by simp; omega)), ih _ _ _ (by simp; omega)]
      simp [before, itemsResult, firstError, oks, Nat.add_assoc, Nat.add_comm 1]

theorem putChars_free (items : List (Except WErr Char)) : ∀ (w : Writer) (buf x : Bytes) (k : Nat), buf.length = 4 →
    w.sink.pos + x.length + 4 * (before items).length < 2 ^ 64 →
    putChars items buf k (wrote w x) = (toRes (itemsResult items (k + charLen (oks items))),
      wrote w (x ++ charOut buf (before items))) := by
  induction items with
  | nil => intro w buf x k _ _; simp [putChars, before, itemsResult, firstError, oks, toRes, charOut, charLen]
  | cons i is ih =>
    intro w buf x k hb h
    cases i with
    | error e => simp [putChars, before, itemsResult, firstError, toRes, charOut]
    | ok c =>
      have hl := encodeInto_length buf c hb
      simp only [before, List.length_cons] at h
      rw [putChars, bind_eq (put_wrote (by rw [hl]; omega)), ih _ _ _ _ hl (by simp only [List.length_append, hl]; omega)]
      simp [before, itemsResult, firstError, oks, charOut, charLen, Nat.add_assoc]

theorem copyChunks_free (e : Option IoErr) (cs : List Bytes) : ∀ (w : Writer) (x : Bytes) (k : Nat),
    w.sink.pos + x.length + cs.flatten.length < 2 ^ 64 →
    copyChunks e cs k (wrote w x) = (toRes (match e with | none => .ok (k + cs.flatten.length) | some e => .error (.io e)),
      wrote w (x ++ cs.flatten)) := by
  induction cs with
  | nil => intro w x k _; cases e <;> simp [copyChunks, toRes]
  | cons c cs ih =>
    intro w x k h
    simp only [List.flatten_cons, List.length_append] at h
    rw [copyChunks, bind_eq (put_wrote (by omega)), ih _ _ _ (by rw [List.length_append]; omega)]
    simp [Nat.add_assoc]

theorem appendSingle_free {w : Writer} {n : OpenNode} {r : List OpenNode} (hf : Free w) (ho : w.opened = n :: r)
    (hn : n.header.numAttrs + 1 < 2 ^ 64) (t : AttrType) (bs : Bytes) (hp : w.sink.pos + (1 + bs.length) < 2 ^ 64) :
    (appendSingle t bs w).1 = .ok () := by
  rw [appendSingle, bind_eq (updateNodeHeader_free ho hn), writeTypeCode,
    bind_eq (put_first (w := { w with opened := bump n :: r }) hf (by simp) (by simp; omega)),
    put_wrote (by simp; omega)]

/-- What a call leaves on a working device if its items fail. -/
def soFar (Z : Zlib) : Append → Bytes
  | .arrBool enc xs => AttrType.arrBool.typeCode :: arrHdr ⟨0, enc.getD .direct, 0⟩ ++ arrSoFar Z (enc.getD .direct) ((before xs).flatMap boolBytes) true
  | .arrI32 enc xs => AttrType.arrI32.typeCode :: arrHdr ⟨0, enc.getD .direct, 0⟩ ++ arrSoFar Z (enc.getD .direct) ((before xs).flatMap b32Bytes) true
  | .arrI64 enc xs => AttrType.arrI64.typeCode :: arrHdr ⟨0, enc.getD .direct, 0⟩ ++ arrSoFar Z (enc.getD .direct) ((before xs).flatMap b64Bytes) true
  | .arrF32 enc xs => AttrType.arrF32.typeCode :: arrHdr ⟨0, enc.getD .direct, 0⟩ ++ arrSoFar Z (enc.getD .direct) ((before xs).flatMap b32Bytes) true
  | .arrF64 enc xs => AttrType.arrF64.typeCode :: arrHdr ⟨0, enc.getD .direct, 0⟩ ++ arrSoFar Z (enc.getD .direct) ((before xs).flatMap b64Bytes) true
  | .binaryReader cs _ => AttrType.binary.typeCode :: leBytes 4 0 ++ cs.flatten
  | .binaryIter xs => AttrType.binary.typeCode :: leBytes 4 0 ++ before xs
  | .stringIter xs => AttrType.string.typeCode :: leBytes 4 0 ++ charOut (zeros 4) (before xs)
  | _ => []

theorem append_free (Z : Zlib) {w : Writer} {n : OpenNode} {r : List OpenNode} (hf : Free w) (ho : w.opened = n :: r)
    (hn : n.header.numAttrs + 1 < 2 ^ 64) (a : Append) (hp : w.sink.pos + volume Z a < 2 ^ 64) :
    (append Z a w).1 = (match callError Z a with | none => .ok () | some e => .err e) ∧
    (∀ e, itemError a = some e → (append Z a w).2 = wrote { w with opened := bump n :: r } (soFar Z a)) := by
  have harr : ∀ {α : Type} (t : AttrType) (enc : Option ArrEnc) (f : α → Bytes) (items : List (Except WErr α))
      (mk : List α → AttrValue), (∀ l, arrayCount (mk l) = l.length) → (∀ l, arrayData (mk l) = l.flatMap f) →
      w.sink.pos + 13 + (arrayPayload Z ⟨mk (before items), enc.getD .direct⟩).length < 2 ^ 64 →
      (appendArray Z t enc (elemBytes f items) w).1 =
        (match arrayError Z ⟨mk (oks items), enc.getD .direct⟩ items with | none => .ok () | some e => .err e) ∧
      (∀ e, firstError items = some e → (appendArray Z t enc (elemBytes f items) w).2 =
        wrote { w with opened := bump n :: r } (t.typeCode :: arrHdr ⟨0, enc.getD .direct, 0⟩ ++
          arrSoFar Z (enc.getD .direct) ((before items).flatMap f) true)) := by
    intro α t enc f items mk hc hd hv
    have hpl : payload Z (enc.getD .direct) (okPrefix (elemBytes f items)) =
        arrayPayload Z ⟨mk (before items), enc.getD .direct⟩ := by
      rw [okPrefix_before]; exact payload_eq Z _ _ _ (hd _)
    obtain ⟨h1, h2⟩ := appendArray_free Z hf ho hn t enc (elemBytes f items) (by rw [hpl]; exact hv)
    refine ⟨?_, ?_⟩
    · rw [h1, firstError_elemBytes, elemBytes_length, hpl, arrayError]
      cases hfe : firstError items with
      | some e => rfl
      | none =>
        simp only [hc, oks_len items hfe, before_oks items hfe, lengthError]
        split
        · split <;> rfl
        · rfl
    · intro e he
      rw [h2 e (by rw [firstError_elemBytes]; exact he), okPrefix_before]
  cases a with
  | arrBool enc xs =>
    refine harr .arrBool enc boolBytes xs .arrBool (fun _ => rfl) (fun _ => (flatMap_singleton_map _ _).symm) ?_
    simp [volume, denoteBefore, attrBytes, attrBody] at hp; omega
  | arrI32 enc xs =>
    refine harr .arrI32 enc b32Bytes xs .arrI32 (fun _ => rfl) (fun _ => by simp only [arrayData, le_eq]; rfl) ?_
    simp [volume, denoteBefore, attrBytes, attrBody] at hp; omega
  | arrI64 enc xs =>
    refine harr .arrI64 enc b64Bytes xs .arrI64 (fun _ => rfl) (fun _ => by simp only [arrayData, le_eq]; rfl) ?_
    simp [volume, denoteBefore, attrBytes, attrBody] at hp; omega
  | arrF32 enc xs =>
    refine harr .arrF32 enc b32Bytes xs .arrF32 (fun _ => rfl) (fun _ => by simp only [arrayData, le_eq]; rfl) ?_
    simp [volume, denoteBefore, attrBytes, attrBody] at hp; omega
  | arrF64 enc xs =>
    refine harr .arrF64 enc b64Bytes xs .arrF64 (fun _ => rfl) (fun _ => by simp only [arrayData, le_eq]; rfl) ?_
    simp [volume, denoteBefore, attrBytes, attrBody] at hp; omega
  | binaryIter xs =>
    simp [volume, denoteBefore, attrBytes, attrBody] at hp
    obtain ⟨h1, h2⟩ := special_free hf ho hn .binary (putEach xs 0) (itemsResult xs (oks xs).length) (before xs)
      (fun w x h => by rw [putEach_free xs w x 0 h, Nat.zero_add]) (by omega)
    refine ⟨?_, fun e he => ?_⟩
    · rw [append, appendBinaryIter, h1, callError, itemsResult]
      cases firstError xs <;> rfl
    · exact h2 e (by simp only [itemError] at he; simp [itemsResult, he])
  | stringIter xs =>
    simp only [volume] at hp
    have hcl : (charOut (zeros 4) (before xs)).length = 4 * (before xs).length := charOut_length _ _ (by simp)
    obtain ⟨h1, h2⟩ := special_free hf ho hn .string (putChars xs (zeros 4) 0) (itemsResult xs (charLen (oks xs)))
      (charOut (zeros 4) (before xs))
      (fun w x h => by rw [putChars_free xs w (zeros 4) x 0 (by simp) (by rw [hcl] at h; exact h), Nat.zero_add]) (by omega)
    refine ⟨?_, fun e he => ?_⟩
    · rw [append, appendStringIter, h1, callError, itemsResult, strLen_eq, charLen]
      cases firstError xs <;> rfl
    · exact h2 e (by simp only [itemError] at he; simp [itemsResult, he])
  | binaryReader cs e =>
    simp only [volume, denoteBefore, denote, attrBytes, attrBody, List.length_cons, List.length_append, le_length] at hp
    obtain ⟨h1, h2⟩ := special_free hf ho hn .binary (copyChunks e cs 0)
      (match e with | none => .ok (0 + cs.flatten.length) | some e => .error (.io e)) cs.flatten
      (fun w x h => copyChunks_free e cs w x 0 h) (by omega)
    refine ⟨?_, fun e' he => ?_⟩
    · rw [append, appendBinaryReader, h1]
      cases e
      · simp only [callError, Nat.zero_add]
      · rfl
    · simp only [itemError] at he
      cases e with
      | none => simp at he
      | some e => exact h2 (.io e) rfl
  | binary bs =>
    simp only [volume, denoteBefore, denote, attrBytes, attrBody, List.length_cons, List.length_append, le_length] at hp
    have := special_free hf ho hn .binary (put bs >>= fun _ => pure bs.length) (.ok bs.length) bs
      (fun w x h => by rw [bind_eq (put_wrote h)]; rfl) (by omega)
    simp only [M.bind_assoc', M.pure_bind'] at this
    exact ⟨this.1, by intro e he; cases he⟩
  | string s =>
    simp only [volume, denoteBefore, denote, attrBytes, attrBody, List.length_cons, List.length_append, le_length, utf8_eq] at hp
    have := special_free hf ho hn .string (put (strBytes s) >>= fun _ => pure (strBytes s).length) (.ok (strBytes s).length) (strBytes s)
      (fun w x h => by rw [bind_eq (put_wrote h)]; rfl) (by omega)
    simp only [M.bind_assoc', M.pure_bind'] at this
    exact ⟨this.1, by intro e he; cases he⟩
  | bool b => exact ⟨appendSingle_free hf ho hn _ _ (by simp [volume, denoteBefore, denote, attrBytes, attrBody] at hp; simp [boolBytes]; omega), by intro e he; cases he⟩
  | i16 b => exact ⟨appendSingle_free hf ho hn _ _ (by simp [volume, denoteBefore, denote, attrBytes, attrBody] at hp; simp; omega), by intro e he; cases he⟩
  | i32 b => exact ⟨appendSingle_free hf ho hn _ _ (by simp [volume, denoteBefore, denote, attrBytes, attrBody] at hp; simp; omega), by intro e he; cases he⟩
  | i64 b => exact ⟨appendSingle_free hf ho hn _ _ (by simp [volume, denoteBefore, denote, attrBytes, attrBody] at hp; simp; omega), by intro e he; cases he⟩
  | f32 b => exact ⟨appendSingle_free hf ho hn _ _ (by simp [volume, denoteBefore, denote, attrBytes, attrBody] at hp; simp; omega), by intro e he; cases he⟩
  | f64 b => exact ⟨appendSingle_free hf ho hn _ _ (by simp [volume, denoteBefore, denote, attrBytes, attrBody] at hp; simp; omega), by intro e he; cases he⟩

/-! ## Node operations -/

theorem finalizeAttributes_free {w : Writer} (hf : Free w) (h : TopOk w.sink.pos w.opened) :
    finalizeAttributes w = (.ok (), { w with opened := finTop w.sink.pos w.opened }) := by
  obtain ⟨s, v, o⟩ := w
  cases o with
  | nil => simp [finalizeAttributes, finTop]
  | cons n r =>
    simp only [finalizeAttributes, M.get_bind]
    by_cases hfi : n.finalized = true
    · simp [hfi, finTop, fin]
    · have hb : n.bodyPos ≤ s.pos := (h n r rfl).resolve_left hfi
      simp only [hfi, Bool.false_eq_true, if_false]
      rw [bind_eq (tell_free hf)]
      simp [hb, modifyTop, finTop, fin, hfi]

/-- Errors of writing a header, in the order of its fields. -/
def headerError (v : Nat) (endOffset count bytelen : Nat) : Option WErr :=
  if v < 7500 then
    if 2 ^ 32 ≤ endOffset then some (.fileTooLarge endOffset)
    else if 2 ^ 32 ≤ count then some (.tooManyAttributes count)
    else if 2 ^ 32 ≤ bytelen then some (.attributeTooLong bytelen)
    else none
  else none

/-- Writing a header on a working device. -/
theorem writeNodeHeader_free {w : Writer} (hf : Free w) (h : NodeHeader)
    (hp : w.sink.pos + headerSize w.version.toNat < 2 ^ 64) :
    match headerError w.version.toNat h.endOffset h.numAttrs h.bytelenAttrs with
    | some e => (writeNodeHeader h w).1 = .err e
    | none => ∃ x, x.length = headerSize w.version.toNat ∧ writeNodeHeader h w = (.ok (), wrote w x) := by
  have h75 : (7500 : UInt32).toNat = 7500 := rfl
  simp only [headerError, writeNodeHeader, M.get_bind, UInt32.lt_iff_toNat_lt, h75]
  simp only [headerSize, width] at hp
  have hl : ∀ k n, leBytes (k + 1) n ≠ [] := by intro k n; simp [leBytes]
  by_cases hv : w.version.toNat < 7500
  · simp only [hv, if_true] at hp ⊢
    by_cases h1 : h.endOffset < 2 ^ 32
    · simp only [Nat.not_le.mpr h1, if_false]
      rw [putU32]; simp only [h1, if_true]
      rw [bind_eq (put_first hf (hl 3 _) (by simp; omega))]
      by_cases h2 : h.numAttrs < 2 ^ 32
      · simp only [Nat.not_le.mpr h2, if_false]
        rw [putU32]; simp only [h2, if_true]
        rw [bind_eq (put_wrote (by simp; omega))]
        by_cases h3 : h.bytelenAttrs < 2 ^ 32
        · simp only [Nat.not_le.mpr h3, if_false]
          rw [putU32]; simp only [h3, if_true]
          rw [bind_eq (put_wrote (by simp; omega)), put_wrote (by simp; omega)]
          exact ⟨_, by simp [headerSize, width, hv], rfl⟩
        · simp [Nat.not_lt.mp h3, putU32, h3]
      · simp [Nat.not_lt.mp h2, putU32, h2]
    · simp [Nat.not_lt.mp h1, putU32, h1]
  · simp only [hv, if_false] at hp ⊢
    rw [bind_eq (put_first hf (hl 7 _) (by simp; omega)), bind_eq (put_wrote (by simp; omega)),
      bind_eq (put_wrote (by simp; omega)), put_wrote (by simp; omega)]
    exact ⟨_, by simp [headerSize, width, hv], rfl⟩

/-- The last part of `close_node` on a working device. -/
theorem closeEnd_free (m : OpenNode) {w : Writer} (hf : Free w) (hc : Consistent m)
    (hp : m.headerPos + headerSize w.version.toNat < 2 ^ 64) :
    ((do
        let endPos ← io Sink.tell
        io (Sink.seek m.headerPos)
        M.assert ((m.header.numAttrs == 0) == (m.header.bytelenAttrs == 0)) .attrLenAssert
        writeNodeHeader { m.header with endOffset := endPos }
        io (Sink.seek endPos) : M WErr Writer Unit) w).1 =
      match headerError w.version.toNat w.sink.pos m.header.numAttrs m.header.bytelenAttrs with
      | some e => .err e
      | none => .ok () := by
  have hb : ((m.header.numAttrs == 0) == (m.header.bytelenAttrs == 0)) = true := by
    simp only [beq_iff_eq]
    by_cases h : m.header.numAttrs = 0
    · simp [h, hc.mp h]
    · have : ¬ m.header.bytelenAttrs = 0 := fun h' => h (hc.mpr h')
      rw [beq_false_of_ne h, beq_false_of_ne this]
  rw [bind_eq (tell_free hf), bind_eq (seek_free hf _), hb]
  have h1 : M.assert true Panic.attrLenAssert (moved w m.headerPos) = (Res.ok (ε := WErr) (), _) := rfl
  rw [bind_eq h1]
  have := writeNodeHeader_free (moved_free w m.headerPos)
    { m.header with endOffset := w.sink.pos } (by rw [moved_pos, moved_version]; omega)
  simp only [moved_version] at this
  cases hh : headerError w.version.toNat w.sink.pos m.header.numAttrs m.header.bytelenAttrs with
  | some e =>
    rw [hh] at this
    simp only at this
    simp only [M.bind_apply]
    rcases hw : writeNodeHeader ⟨w.sink.pos, m.header.numAttrs, m.header.bytelenAttrs, m.header.nameLen⟩
      (moved w m.headerPos) with ⟨q, w3⟩
    rw [hw] at this
    simp only at this
    subst this
    rfl
  | none =>
    rw [hh] at this
    obtain ⟨x, -, hx⟩ := this
    have hx' := bind_eq hx (fun _ => io (Sink.seek w.sink.pos))
    refine (congrArg Prod.fst hx').trans ?_
    rw [seek_free (wrote_free _ _)]

/-- `close_node` on a working device: the result. -/
theorem closeNode_free {w : Writer} {n : OpenNode} {r : List OpenNode} (hf : Free w) (ho : w.opened = n :: r)
    (htop : TopOk w.sink.pos w.opened) (hhp : n.headerPos ≤ w.sink.pos)
    (hcons : Consistent (fin w.sink.pos n)) (hp : w.sink.pos + headerSize w.version.toNat < 2 ^ 64) :
    (closeNode w).1 = match headerError w.version.toNat
        (w.sink.pos + (if n.hasChild = true ∨ n.header.numAttrs = 0 then headerSize w.version.toNat else 0))
        n.header.numAttrs (fin w.sink.pos n).header.bytelenAttrs with
      | some e => .err e
      | none => .ok () := by
  have hn1 : (fin w.sink.pos n).hasChild = n.hasChild := by simp only [fin]; split <;> rfl
  have hn2 : (fin w.sink.pos n).header.numAttrs = n.header.numAttrs := by simp only [fin]; split <;> rfl
  have hn3 : (fin w.sink.pos n).headerPos = n.headerPos := by simp only [fin]; split <;> rfl
  rw [closeNode_eq, bind_eq (finalizeAttributes_free hf htop), M.get_bind]
  simp only [ho, finTop, M.modify_bind]
  unfold closeRest
  have hif : ((fin w.sink.pos n).hasChild = true ∨ (fin w.sink.pos n).header.numAttrs = 0) ↔ (n.hasChild = true ∨ n.header.numAttrs = 0) := by
    rw [hn1, hn2]
  by_cases hm : n.hasChild = true ∨ n.header.numAttrs = 0
  · simp only [hif, hm, if_true]
    have := writeNodeHeader_free (w := ⟨w.sink, w.version, r⟩) hf NodeHeader.nodeEnd hp
    have h0 : headerError w.version.toNat 0 0 0 = none := by simp [headerError]
    simp only [NodeHeader.nodeEnd, h0] at this
    obtain ⟨x, hxl, hx⟩ := this
    have hx' : writeNodeHeader NodeHeader.nodeEnd ⟨w.sink, w.version, r⟩ = _ := hx
    rw [bind_eq hx']
    refine (closeEnd_free (fin w.sink.pos n) (w := wrote ⟨w.sink, w.version, r⟩ x) rfl hcons (by rw [hn3]; simp; omega)).trans ?_
    simp [hxl, hn2]
  · simp only [hif, hm, if_false, Nat.add_zero]
    refine (closeEnd_free (fin w.sink.pos n) (w := ⟨w.sink, w.version, r⟩) hf hcons (by rw [hn3]; simp; omega)).trans ?_
    simp [hn2]

/-- `new_node` on a working device: the result. -/
theorem newNode_free {w : Writer} (hf : Free w) (htop : TopOk w.sink.pos w.opened) (name : String)
    (hp : w.sink.pos + headerSize w.version.toNat + (utf8 name).length < 2 ^ 64) :
    (newNode name w).1 = if 255 < (utf8 name).length then .err (.nodeNameTooLong (utf8 name).length) else .ok () := by
  rw [newNode, bind_eq (finalizeAttributes_free hf htop)]
  simp only [M.modify_bind, utf8_eq] at hp ⊢
  generalize hg : modifyTop (fun n => { n with hasChild := true }) { w with opened := finTop w.sink.pos w.opened } = w1
  have hs : w1.sink = w.sink := by rw [← hg, modifyTop_sink]
  have hv : w1.version = w.version := by
    rw [← hg]; simp only [modifyTop]; split <;> rfl
  by_cases hl : (strBytes name).length < 256
  · have hl' : ¬ 255 < (strBytes name).length := by omega
    simp only [hl, if_true, hl', if_false]
    have hf1 : Free w1 := by rw [Free, hs]; exact hf
    rw [bind_eq (tell_free hf1)]
    have := writeNodeHeader_free hf1 ⟨0, 0, 0, (strBytes name).length⟩ (by rw [hs, hv]; omega)
    have h0 : headerError w1.version.toNat 0 0 0 = none := by simp [headerError]
    simp only [h0] at this
    obtain ⟨x, hxl, hx⟩ := this
    rw [bind_eq hx, bind_eq (put_wrote (by rw [hs, hxl, hv]; omega)), bind_eq (tell_free (wrote_free _ _))]
    rfl
  · have hl' : 255 < (strBytes name).length := by omega
    simp [hl, hl']

end Fbx.Writer
