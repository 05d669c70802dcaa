import Verif.Proof.Wp
import Verif.Proof.WriterRun

/-! # The writer does not panic unless its device failed before -/

namespace Fbx.Writer

/-- Errors that come from the device. -/
def isIo : WErr → Prop
  | .io _ => True
  | .compression _ => True
  | _ => False

/-- The code only moves the device forward; its errors come from the device or leave it moved forward. -/
def Grow {α : Type} (m : M WErr Writer α) : Prop := ∀ w, M.wp m
  (fun _ w' => w'.opened = w.opened ∧ w.sink.pos ≤ w'.sink.pos)
  (fun e w' => isIo e ∨ (w'.opened = w.opened ∧ w.sink.pos ≤ w'.sink.pos))
  (fun _ _ => False) w

theorem Grow.bind {α β : Type} {m : M WErr Writer α} {f : α → M WErr Writer β} (hm : Grow m) (hf : ∀ a, Grow (f a)) :
    Grow (m >>= f) := by
  intro w
  rw [M.wp_bind]
  refine M.wp_mono (hm w) ?_ (fun _ _ h => h) (fun _ _ h => h)
  intro a w1 ⟨h1, h2⟩
  refine M.wp_mono (hf a w1) ?_ ?_ (fun _ _ h => h)
  · intro b w2 ⟨h3, h4⟩; exact ⟨h3.trans h1, Nat.le_trans h2 h4⟩
  · rintro e w2 (h | ⟨h3, h4⟩)
    · exact .inl h
    · exact .inr ⟨h3.trans h1, Nat.le_trans h2 h4⟩

theorem Grow.pure {α : Type} (a : α) : Grow (Pure.pure a) := fun w => ⟨rfl, Nat.le_refl _⟩
theorem Grow.throw {α : Type} (e : WErr) : Grow (M.throw e : M WErr Writer α) := fun w => .inr ⟨rfl, Nat.le_refl _⟩
theorem Grow.ite {α : Type} (c : Prop) [Decidable c] {m n : M WErr Writer α} (hm : Grow m) (hn : Grow n) :
    Grow (if c then m else n) := by split <;> assumption
theorem Grow.ofExcept {α : Type} (r : Except WErr α) : Grow (M.ofExcept r) := by
  cases r
  · exact Grow.throw _
  · exact Grow.pure _

theorem wp_put {bs : Bytes} {P : Unit → Writer → Prop} {E X} {w : Writer}
    (hP : ∀ s', s'.pos = w.sink.pos + bs.length → P () { w with sink := s' }) (hE : ∀ x w', E (.io x) w') :
    M.wp (put bs) P E X w := by
  simp only [put, io, M.wp_mapErr, M.wp_zoom]
  simp only [M.wp, Sink.writeAll]
  by_cases hb : bs = []
  · simp only [hb, if_true]; exact hP _ (by simp [hb])
  · simp only [hb, if_false]
    cases w.sink.fault 0 with
    | some k => exact hE _ _
    | none =>
      simp only
      by_cases hl : w.sink.pos + bs.length < 2 ^ 64
      · simp only [hl, if_true]; exact hP _ rfl
      · simp only [hl, if_false]; exact hE _ _

theorem wp_tell {P : Nat → Writer → Prop} {E X} {w : Writer}
    (hP : ∀ s', s'.pos = w.sink.pos → P w.sink.pos { w with sink := s' }) (hE : ∀ x w', E (.io x) w') :
    M.wp (io Sink.tell) P E X w := by
  simp only [io, M.wp_mapErr, M.wp_zoom]
  simp only [M.wp, Sink.tell]
  cases w.sink.fault 0 with
  | some k => exact hE _ _
  | none => exact hP _ rfl

theorem wp_seek {p : Nat} {P : Unit → Writer → Prop} {E X} {w : Writer}
    (hP : ∀ s', s'.pos = p → P () { w with sink := s' }) (hE : ∀ x w', E (.io x) w') :
    M.wp (io (Sink.seek p)) P E X w := by
  simp only [io, M.wp_mapErr, M.wp_zoom]
  simp only [M.wp, Sink.seek]
  cases w.sink.fault 0 with
  | some k => exact hE _ _
  | none => exact hP _ rfl

theorem wp_put_bind {β : Type} {bs : Bytes} {f : Unit → M WErr Writer β} {P : β → Writer → Prop} {E X} {w : Writer}
    (hP : ∀ s', s'.pos = w.sink.pos + bs.length → M.wp (f ()) P E X { w with sink := s' }) (hE : ∀ x w', E (.io x) w') :
    M.wp (put bs >>= f) P E X w := by
  rw [M.wp_bind]; exact wp_put hP hE
theorem wp_tell_bind {β : Type} {f : Nat → M WErr Writer β} {P : β → Writer → Prop} {E X} {w : Writer}
    (hP : ∀ s', s'.pos = w.sink.pos → M.wp (f w.sink.pos) P E X { w with sink := s' }) (hE : ∀ x w', E (.io x) w') :
    M.wp (io Sink.tell >>= f) P E X w := by
  rw [M.wp_bind]; exact wp_tell hP hE
theorem wp_seek_bind {β : Type} {p : Nat} {f : Unit → M WErr Writer β} {P : β → Writer → Prop} {E X} {w : Writer}
    (hP : ∀ s', s'.pos = p → M.wp (f ()) P E X { w with sink := s' }) (hE : ∀ x w', E (.io x) w') :
    M.wp (io (Sink.seek p) >>= f) P E X w := by
  rw [M.wp_bind]; exact wp_seek hP hE

theorem Grow.put (bs : Bytes) : Grow (put bs) := fun w =>
  wp_put (fun s' h => ⟨rfl, by simp only [h]; omega⟩) (fun _ _ => .inl trivial)
theorem Grow.tell : Grow (io Sink.tell) := fun w =>
  wp_tell (fun s' h => ⟨rfl, by simp only [h]; omega⟩) (fun _ _ => .inl trivial)
theorem Grow.putU32 (n : Nat) (e : WErr) : Grow (putU32 n e) := Grow.ite _ (Grow.put _) (Grow.throw _)
theorem Grow.writeNodeHeader (h : NodeHeader) : Grow (writeNodeHeader h) := by
  intro w
  unfold Writer.writeNodeHeader
  rw [M.wp_bind, M.wp_get]
  revert w
  intro w
  have h1 : Grow (if w.version < 7500 then do
        Writer.putU32 h.endOffset (.fileTooLarge h.endOffset)
        Writer.putU32 h.numAttrs (.tooManyAttributes h.numAttrs)
        Writer.putU32 h.bytelenAttrs (.attributeTooLong h.bytelenAttrs)
        Writer.put (leBytes 1 h.nameLen)
      else do
        Writer.put (leBytes 8 h.endOffset)
        Writer.put (leBytes 8 h.numAttrs)
        Writer.put (leBytes 8 h.bytelenAttrs)
        Writer.put (leBytes 1 h.nameLen)) := by
    refine Grow.ite _ ?_ ?_
    · exact Grow.bind (Grow.putU32 _ _) fun _ => Grow.bind (Grow.putU32 _ _) fun _ => Grow.bind (Grow.putU32 _ _) fun _ => Grow.put _
    · exact Grow.bind (Grow.put _) fun _ => Grow.bind (Grow.put _) fun _ => Grow.bind (Grow.put _) fun _ => Grow.put _
  have := h1 w
  simp only [M.wp_ite] at this ⊢
  exact this

theorem Grow.writeArrHeader (h : ArrHeader) : Grow (writeArrHeader h) :=
  Grow.bind (Grow.put _) fun _ => Grow.bind (Grow.put _) fun _ => Grow.put _

theorem Grow.finalizeArray (p : Nat) (h : ArrHeader) : Grow (finalizeArray p h) := by
  intro w
  unfold Writer.finalizeArray
  refine wp_tell_bind (fun s1 h1 => wp_seek_bind (fun s2 h2 => ?_) ?_) ?_
  · unfold Writer.writeArrHeader
    simp only [M.bind_assoc']
    refine wp_put_bind (fun s3 _ => wp_put_bind (fun s4 _ => wp_put_bind (fun s5 _ => wp_seek (fun s6 h6 => ?_) ?_) ?_) ?_) ?_
    · exact ⟨rfl, by simp only [h6]; omega⟩
    all_goals exact fun _ _ => .inl trivial
  all_goals exact fun _ _ => .inl trivial

theorem Grow.finalizeSpecial (p len : Nat) : Grow (finalizeSpecial p len) := by
  refine Grow.ite _ ?_ (Grow.throw _)
  intro w
  refine wp_tell_bind (fun s1 h1 => wp_seek_bind (fun s2 h2 => wp_put_bind (fun s3 _ => wp_seek (fun s4 h4 => ?_) ?_) ?_) ?_) ?_
  · exact ⟨rfl, by simp only [h4]; omega⟩
  all_goals exact fun _ _ => .inl trivial

theorem Grow.writeElements (l : List (Except WErr Bytes)) : ∀ n, Grow (writeElements l n) := by
  induction l with
  | nil => intro n; exact Grow.ite _ (Grow.pure _) (Grow.throw _)
  | cons x xs ih =>
    intro n
    cases x
    · exact Grow.throw _
    · exact Grow.bind (Grow.put _) (fun _ => ih _)
theorem Grow.copyChunks (e : Option IoErr) (l : List Bytes) : ∀ n, Grow (copyChunks e l n) := by
  induction l with
  | nil =>
    intro n
    cases e
    · exact Grow.pure _
    · exact Grow.throw _
  | cons x xs ih => intro n; exact Grow.bind (Grow.put _) (fun _ => ih _)
theorem Grow.putEach (l : List (Except WErr Byte)) : ∀ n, Grow (putEach l n) := by
  induction l with
  | nil => intro n; exact Grow.pure _
  | cons x xs ih =>
    intro n
    cases x
    · exact Grow.throw _
    · exact Grow.bind (Grow.put _) (fun _ => ih _)
theorem Grow.putChars (l : List (Except WErr Char)) : ∀ b n, Grow (putChars l b n) := by
  induction l with
  | nil => intro b n; exact Grow.pure _
  | cons x xs ih =>
    intro b n
    cases x
    · exact Grow.throw _
    · exact Grow.bind (Grow.put _) (fun _ => ih _ _)

theorem Grow.writeElementsZlib (Z : Zlib) (items : List (Except WErr Bytes)) : Grow (writeElementsZlib Z items) := by
  refine Grow.bind (Grow.put _) fun _ => Grow.bind (Grow.put _) fun _ => Grow.bind (Grow.ofExcept _) fun _ =>
    Grow.bind ?_ fun _ => Grow.pure _
  intro w
  rw [M.wp_mapErr]
  exact wp_put (fun s' h => ⟨rfl, by simp only [h]; omega⟩) (fun _ _ => .inl trivial)

/-- What an `append_*` method does after the type code. -/
def appendTail (Z : Zlib) : Append → M WErr Writer Unit
  | .bool v => put (boolBytes v)
  | .i16 v => put (leBytes 2 v.toNat)
  | .i32 v => put (leBytes 4 v.toNat)
  | .i64 v => put (leBytes 8 v.toNat)
  | .f32 v => put (leBytes 4 v.toNat)
  | .f64 v => put (leBytes 8 v.toNat)
  | .arrBool enc items => arr enc (elemBytes boolBytes items)
  | .arrI32 enc items => arr enc (elemBytes b32Bytes items)
  | .arrI64 enc items => arr enc (elemBytes b64Bytes items)
  | .arrF32 enc items => arr enc (elemBytes b32Bytes items)
  | .arrF64 enc items => arr enc (elemBytes b64Bytes items)
  | .binary v => spec (put v >>= fun _ => pure v.length)
  | .string v => spec (put (strBytes v) >>= fun _ => pure (strBytes v).length)
  | .binaryReader cs e => spec (copyChunks e cs 0)
  | .binaryIter items => spec (putEach items 0)
  | .stringIter items => spec (putChars items (zeros 4) 0)
where
  arr (enc : Option ArrEnc) (elems : List (Except WErr Bytes)) : M WErr Writer Unit := do
    let headerPos ← io Sink.tell
    writeArrHeader ⟨0, enc.getD .direct, 0⟩
    let startPos ← io Sink.tell
    let count ← writeArrayElements Z (enc.getD .direct) elems
    let endPos ← io Sink.tell
    let bytelen := endPos - startPos
    if bytelen < 2 ^ 32 then finalizeArray headerPos ⟨count, enc.getD .direct, bytelen⟩
    else M.throw (.attributeTooLong bytelen)
  spec (m : M WErr Writer Nat) : M WErr Writer Unit := do
    let headerPos ← io Sink.tell
    put (leBytes 4 0)
    let len ← m
    finalizeSpecial headerPos len

theorem append_split (Z : Zlib) (a : Append) :
    ∃ b, append Z a = updateNodeHeader >>= fun _ => put [b] >>= fun _ => appendTail Z a := by
  have harr : ∀ t enc items, appendArray Z t enc items =
      updateNodeHeader >>= fun _ => put [t.typeCode] >>= fun _ => appendTail.arr Z enc items := by
    intro t enc items
    simp only [appendArray, initializeArray, writeTypeCode, M.bind_assoc', M.pure_bind', appendTail.arr]
  have hspec : ∀ t m, (initializeSpecial t >>= fun p => m >>= fun len => finalizeSpecial p len) =
      updateNodeHeader >>= fun _ => put [t.typeCode] >>= fun _ => appendTail.spec m := by
    intro t m
    simp only [initializeSpecial, writeTypeCode, M.bind_assoc', M.pure_bind', appendTail.spec]
  have hdir : ∀ t bs, appendDirect t bs =
      updateNodeHeader >>= fun _ => put [t.typeCode] >>= fun _ => appendTail.spec (put bs >>= fun _ => pure bs.length) := by
    intro t bs
    rw [← hspec]
    simp only [appendDirect, M.bind_assoc', M.pure_bind']
  cases a
  case binary => exact ⟨_, hdir _ _⟩
  case string => exact ⟨_, hdir _ _⟩
  case binaryReader => exact ⟨_, hspec _ _⟩
  case binaryIter => exact ⟨_, hspec _ _⟩
  case stringIter => exact ⟨_, hspec _ _⟩
  case arrBool => exact ⟨_, harr _ _ _⟩
  case arrI32 => exact ⟨_, harr _ _ _⟩
  case arrI64 => exact ⟨_, harr _ _ _⟩
  case arrF32 => exact ⟨_, harr _ _ _⟩
  case arrF64 => exact ⟨_, harr _ _ _⟩
  all_goals exact ⟨_, rfl⟩

theorem Grow.appendTail (Z : Zlib) (a : Append) : Grow (appendTail Z a) := by
  have harr : ∀ enc items, Grow (appendTail.arr Z enc items) := by
    intro enc items
    refine Grow.bind Grow.tell fun _ => Grow.bind (Grow.writeArrHeader _) fun _ => Grow.bind Grow.tell fun _ =>
      Grow.bind ?_ fun _ => Grow.bind Grow.tell fun _ => Grow.ite _ (Grow.finalizeArray _ _) (Grow.throw _)
    unfold writeArrayElements
    split
    · exact Grow.writeElements _ _
    · exact Grow.writeElementsZlib _ _
  have hspec : ∀ m, Grow m → Grow (appendTail.spec m) := fun m hm =>
    Grow.bind Grow.tell fun _ => Grow.bind (Grow.put _) fun _ => Grow.bind hm fun _ => Grow.finalizeSpecial _ _
  cases a
  case binary => exact hspec _ (Grow.bind (Grow.put _) fun _ => Grow.pure _)
  case string => exact hspec _ (Grow.bind (Grow.put _) fun _ => Grow.pure _)
  case binaryReader => exact hspec _ (Grow.copyChunks _ _ _)
  case binaryIter => exact hspec _ (Grow.putEach _ _)
  case stringIter => exact hspec _ (Grow.putChars _ _ _)
  case arrBool => exact harr _ _
  case arrI32 => exact harr _ _
  case arrI64 => exact harr _ _
  case arrF32 => exact harr _ _
  case arrF64 => exact harr _ _
  all_goals exact Grow.put _

/-- The assertion of `close_node` holds for this node. -/
def Consistent (n : OpenNode) : Prop := n.header.numAttrs = 0 ↔ n.header.bytelenAttrs = 0

/-- Nodes whose attributes are finalized. -/
def OuterOk : (limit : Nat) → List OpenNode → Prop
  | _, [] => True
  | limit, n :: r => n.finalized = true ∧ Consistent n ∧ n.headerPos ≤ n.bodyPos ∧ n.bodyPos ≤ limit ∧ OuterOk n.headerPos r

/-- Writer states reachable without a device error; `alive`: an `AttributesWriter` exists. -/
def Inv (alive : Bool) (w : Writer) : Prop :=
  match w.opened with
  | [] => alive = false
  | n :: r => n.headerPos ≤ n.bodyPos ∧ n.bodyPos ≤ w.sink.pos ∧ OuterOk n.headerPos r ∧
      (if n.finalized then Consistent n ∧ alive = false
       else (n.header.numAttrs = 0 ↔ w.sink.pos = n.bodyPos))

theorem OuterOk.mono {a b : Nat} (h : a ≤ b) : ∀ {r : List OpenNode}, OuterOk a r → OuterOk b r
  | [], _ => trivial
  | _ :: _, ⟨h1, h2, h3, h4, h5⟩ => ⟨h1, h2, h3, Nat.le_trans h4 h, h5⟩

/-- After `finalize_attributes` all open nodes are finalized and consistent. -/
theorem wp_finalizeAttributes {alive : Bool} {w : Writer} (h : Inv alive w) {P : Unit → Writer → Prop} {E X}
    (hP : ∀ w' : Writer, w'.sink.pos = w.sink.pos → OuterOk w.sink.pos w'.opened → P () w')
    (hE : ∀ x w', E (.io x) w') : M.wp finalizeAttributes P E X w := by
  unfold finalizeAttributes
  rw [M.wp_bind, M.wp_get]
  obtain ⟨sink, v, o⟩ := w
  cases o with
  | nil => exact hP _ rfl trivial
  | cons n r =>
    simp only [Inv] at h
    obtain ⟨h1, h2, h3, h4⟩ := h
    simp only [M.wp_ite]
    by_cases hf : n.finalized = true
    · simp only [hf, if_true] at h4 ⊢
      exact hP _ rfl ⟨hf, h4.1, h1, h2, h3⟩
    · simp only [hf, if_false, Bool.false_eq_true] at h4 ⊢
      refine wp_tell_bind (fun s' hs => ?_) hE
      rw [M.wp_bind, M.wp_assert]
      simp only [h2, decide_true, if_true, M.wp_modify, modifyTop]
      refine hP _ hs ⟨rfl, ?_, h1, h2, h3⟩
      simp only [Consistent, h4]
      omega

theorem inv_of_outer {w : Writer} (h : OuterOk w.sink.pos w.opened) : Inv false w := by
  obtain ⟨s, v, o⟩ := w
  cases o with
  | nil => rfl
  | cons n r =>
    obtain ⟨h1, h2, h3, h4, h5⟩ := h
    refine ⟨h3, h4, h5, ?_⟩
    simp only [h1, if_true]
    exact ⟨h2, trivial⟩

theorem outer_child {limit : Nat} (w : Writer) (h : OuterOk limit w.opened) :
    OuterOk limit (modifyTop (fun n => { n with hasChild := true }) w).opened := by
  obtain ⟨s, v, o⟩ := w
  cases o with
  | nil => exact h
  | cons n r => exact h

theorem modifyTop_sink (f : OpenNode → OpenNode) (w : Writer) : (modifyTop f w).sink = w.sink := by
  simp only [modifyTop]; split <;> rfl

/-- Every call keeps the invariant or reports a device error, and does not panic. -/
theorem newNode_safe (name : String) (alive : Bool) (w : Writer) (h : Inv alive w) :
    M.wp (newNode name) (fun _ w' => Inv true w') (fun e w' => isIo e ∨ Inv false w') (fun _ _ => False) w := by
  unfold newNode
  rw [M.wp_bind]
  refine wp_finalizeAttributes h (fun w1 h1 h2 => ?_) (fun _ _ => .inl trivial)
  rw [M.wp_bind, M.wp_modify]
  have h3 := outer_child w1 h2
  have h4 := modifyTop_sink (fun n => { n with hasChild := true }) w1
  generalize modifyTop (fun n => { n with hasChild := true }) w1 = w2 at h3 h4
  have hp : w2.sink.pos = w.sink.pos := by rw [h4, h1]
  simp only [M.wp_ite]
  split
  · refine wp_tell_bind (fun s3 h5 => ?_) (fun _ _ => .inl trivial)
    rw [M.wp_bind]
    refine M.wp_mono (Grow.writeNodeHeader _ _) ?_ ?_ (fun _ _ h => h)
    · intro _ w4 ⟨h6, h7⟩
      refine wp_put_bind (fun s5 h8 => wp_tell_bind (fun s6 h9 => ?_) (fun _ _ => .inl trivial)) (fun _ _ => .inl trivial)
      rw [M.wp_modify]
      simp only at h6 h7 h9
      simp only [Inv]
      rw [h6]
      refine ⟨by omega, by omega, ?_, ?_⟩
      · rw [hp]; exact h3
      · simp; omega
    · intro e w4 he
      rcases he with he | ⟨h6, h7⟩
      · exact .inl he
      · right
        simp only at h6 h7
        exact inv_of_outer (by rw [h6]; exact h3.mono (by omega))
  · rw [M.wp_throw]
    exact .inr (inv_of_outer (by rw [hp]; exact h3))

theorem closeNode_safe (alive : Bool) (w : Writer) (h : Inv alive w) :
    M.wp closeNode (fun _ w' => Inv false w') (fun e w' => isIo e ∨ Inv false w') (fun _ _ => False) w := by
  rw [closeNode_eq, M.wp_bind]
  refine wp_finalizeAttributes h (fun w1 h1 h2 => ?_) (fun _ _ => .inl trivial)
  rw [M.wp_bind, M.wp_get]
  rcases ho : w1.opened with _ | ⟨n, outer⟩
  · simp only [M.wp_throw]
    exact .inr (inv_of_outer (by rw [ho]; trivial))
  · simp only
    rw [M.wp_bind, M.wp_modify]
    rw [ho] at h2
    obtain ⟨h3, h4, h5, h6, h7⟩ := h2
    have hin : ∀ w' : Writer, w'.opened = outer → n.headerPos ≤ w'.sink.pos → Inv false w' := fun w' h8 h9 =>
      inv_of_outer (by rw [h8]; exact h7.mono h9)
    have hbool : ((n.header.numAttrs == 0) == (n.header.bytelenAttrs == 0)) = true := by
      simp only [Consistent] at h4
      by_cases h0 : n.header.numAttrs = 0
      · simp [h0, h4.mp h0]
      · have : ¬ n.header.bytelenAttrs = 0 := fun hc => h0 (h4.mpr hc)
        rw [beq_eq_false_iff_ne.mpr h0, beq_eq_false_iff_ne.mpr this]; rfl
    have key : ∀ w' : Writer, w'.opened = outer → w.sink.pos ≤ w'.sink.pos → M.wp (do
        let endPos ← io Sink.tell
        io (Sink.seek n.headerPos)
        M.assert ((n.header.numAttrs == 0) == (n.header.bytelenAttrs == 0)) .attrLenAssert
        writeNodeHeader { n.header with endOffset := endPos }
        io (Sink.seek endPos))
        (fun _ w' => Inv false w') (fun e w' => isIo e ∨ Inv false w') (fun _ _ => False) w' := by
      intro w2 h8 h9
      refine wp_tell_bind (fun s3 h10 => wp_seek_bind (fun s4 h11 => ?_) (fun _ _ => .inl trivial)) (fun _ _ => .inl trivial)
      rw [M.wp_bind, M.wp_assert]
      simp only [hbool, if_true]
      rw [M.wp_bind]
      refine M.wp_mono (Grow.writeNodeHeader _ _) ?_ ?_ (fun _ _ h => h)
      · intro _ w5 ⟨h12, h13⟩
        refine wp_seek (fun s6 h14 => ?_) (fun _ _ => .inl trivial)
        exact hin _ (by simp only [h12, h8]) (by simp only [h14]; omega)
      · intro e w5 he
        rcases he with he | ⟨h12, h13⟩
        · exact .inl he
        · exact .inr (hin _ (by simp only [h12, h8]) (by simp only [h11] at h13; exact h13))
    unfold closeRest
    simp only [M.wp_ite]
    split
    · rw [M.wp_bind]
      refine M.wp_mono (Grow.writeNodeHeader _ _) ?_ ?_ (fun _ _ h => h)
      · intro _ w5 ⟨h12, h13⟩
        exact key w5 h12 (by simp only at h13; omega)
      · intro e w5 he
        rcases he with he | ⟨h12, h13⟩
        · exact .inl he
        · exact .inr (hin _ h12 (by simp only at h13; omega))
    · exact key _ rfl (by simp only; omega)

theorem append_safe (Z : Zlib) (a : Append) (w : Writer) (h : Inv true w) :
    M.wp (append Z a) (fun _ w' => Inv true w') (fun e w' => isIo e ∨ Inv true w') (fun _ _ => False) w := by
  obtain ⟨b, hb⟩ := append_split Z a
  rw [hb, M.wp_bind]
  unfold updateNodeHeader
  rw [M.wp_bind, M.wp_get]
  obtain ⟨s, v, o⟩ := w
  cases o with
  | nil => simp [Inv] at h
  | cons n r =>
    simp only [M.wp_ite]
    split
    · rw [M.wp_modify]
      refine wp_put_bind (fun s1 h1 => ?_) (fun _ _ => .inl trivial)
      simp only [modifyTop, List.length_singleton] at h1
      simp only [Inv] at h
      obtain ⟨h2, h3, h4, h5⟩ := h
      have hin : ∀ w' : Writer, w'.opened = bump n :: r → s1.pos ≤ w'.sink.pos → Inv true w' := by
        intro w' h6 h7
        simp only [Inv, h6]
        by_cases hf : n.finalized = true
        · simp [hf] at h5
        · have hf' : (bump n).finalized = n.finalized := rfl
          refine ⟨h2, by simp only [bump]; omega, h4, ?_⟩
          simp only [hf', hf, Bool.false_eq_true, if_false, bump]
          omega
      refine M.wp_mono (Grow.appendTail Z a _) ?_ ?_ (fun _ _ h => h)
      · intro _ w' ⟨h6, h7⟩; exact hin w' h6 h7
      · rintro e w' (he | ⟨h6, h7⟩)
        · exact .inl he
        · exact .inr (hin w' h6 h7)
    · rw [M.wp_throw]; exact .inr h

/-- Safe sessions. -/
def SessionOk (s : Session) : Prop := Inv s.alive s.writer

/-- Outcome of a step of a safe session. -/
def StepOk (r : Res WErr Unit) (s' : Session) : Prop :=
  match r with
  | .ok _ => SessionOk s'
  | .err e => isIo e ∨ SessionOk s'
  | .panic _ => False

theorem step_safe (Z : Zlib) (s : Session) (hs : SessionOk s) (o : Op) (r : Res WErr Unit) (s' : Session)
    (h : s.step Z o = some (r, s')) : StepOk r s' := by
  obtain ⟨w, alive⟩ := s
  cases o with
  | newNode name =>
    have := newNode_safe name alive w hs
    simp only [Session.step, exec, Option.some.injEq, Prod.mk.injEq] at h
    obtain ⟨rfl, rfl⟩ := h
    simp only [M.wp] at this
    rcases hn : newNode name w with ⟨r, w'⟩
    rw [hn] at this
    cases r <;> exact this
  | closeNode =>
    have := closeNode_safe alive w hs
    simp only [Session.step, exec, Option.some.injEq, Prod.mk.injEq] at h
    obtain ⟨rfl, rfl⟩ := h
    simp only [M.wp] at this
    rcases hn : closeNode w with ⟨r, w'⟩
    rw [hn] at this
    cases r <;> exact this
  | append a =>
    simp only [Session.step, exec] at h
    split at h
    · rename_i hal
      subst hal
      have := append_safe Z a w hs
      simp only [Option.some.injEq, Prod.mk.injEq] at h
      obtain ⟨rfl, rfl⟩ := h
      simp only [M.wp] at this
      rcases hn : append Z a w with ⟨r, w'⟩
      rw [hn] at this
      cases r <;> exact this
    · simp at h

end Fbx.Writer
