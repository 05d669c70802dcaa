import Verif.Proof.SimParser

/-! # Attribute readers on related sources -/

namespace Fbx
open Reader
namespace AP
variable {R : Reader → Reader → Prop} {E : Reader → Prop} {a b : AP} {c : Bool} {α : Type} {Z : Zlib}

def ARel (R : Reader → Reader → Prop) (a b : AP) : Prop := Parser.PRel R a.parser b.parser ∧ b.attrs = a.attrs
def AEsc (E : Reader → Prop) (b : AP) : Prop := E b.parser.reader

theorem par_sim (h : ARel R a b) {m : M PErr Parser α} (hm : Sim c (Parser.PRel R) (Parser.PEsc E) (m a.parser) (m b.parser)) :
    Sim c (ARel R) (AEsc E) (par m a) (par m b) := by
  simp only [par, M.zoom_apply]
  rcases hm with ⟨h1, h2⟩ | h1
  · exact .inl ⟨h1, h2, h.2⟩
  · exact .inr h1

theorem par_keeps {m : M PErr Parser α} (hm : Keeps (Parser.PEsc E) m) : Keeps (AEsc E) (par m) :=
  .zoom hm (fun _ h => h) (fun _ _ h => h)

theorem io_sim (h : ARel R a b) {m : M IoErr Reader α} (hm : Sim c R E (m a.parser.reader) (m b.parser.reader)) :
    Sim c (ARel R) (AEsc E) (io m a) (io m b) := par_sim h (Parser.io_sim h.1 hm)

theorem io_keeps {m : M IoErr Reader α} (hm : Keeps E m) : Keeps (AEsc E) (io m) := par_keeps (Parser.io_keeps hm)

theorem setReader_rel (h : ARel R a b) {r s : Reader} (hr : R r s) :
    ARel R { a with parser := { a.parser with reader := r } } { b with parser := { b.parser with reader := s } } := by
  refine ⟨⟨?_, hr⟩, h.2⟩
  exact h.1.elim (C := fun q => ({ q with reader := s } : Parser) = { a.parser with reader := s }) (fun _ _ => rfl)

theorem updateNext_keeps (n : Nat) : Keeps (AEsc E) (updateNext n) := by
  intro s h
  simp only [updateNext]
  split <;> exact h

theorem position_keeps (s i : Nat) : Keeps (AEsc E) (position s i) := .bind (par_keeps Parser.position_keeps) fun _ => .pure _

section
variable (H : Related R E)
include H

theorem updateNext_sim (h : ARel R a b) (n : Nat) : Sim c (ARel R) (AEsc E) (updateNext n a) (updateNext n b) := by
  simp only [updateNext, H.pos h.1.2, h.2]
  split
  · exact .inl ⟨rfl, h.1, rfl⟩
  · exact .inl ⟨rfl, h⟩

theorem position_sim (h : ARel R a b) (s i : Nat) : Sim true (ARel R) (AEsc E) (position s i a) (position s i b) :=
  .bind (par_sim h (Parser.position_sim H h.1)) fun _ _ _ h => .pure _ h

/-- `readNextType` after the skip. -/
def typePart : M PErr AP (Option AttrType) := do
  let code ← io Reader.readU8
  match AttrType.fromTypeCode code with
  | none => M.throw (PErr.ofData (.invalidAttrTypeCode code))
  | some t => do
    M.modify (fun a => { a with attrs := { a.attrs with rest := a.attrs.rest - 1 } })
    pure (some t)

theorem typePart_sim (h : ARel R a b) : Sim true (ARel R) (AEsc E) (typePart a) (typePart b) := by
  refine .bind (io_sim h (H.readU8 h.1.2)) fun code a b h => ?_
  cases AttrType.fromTypeCode code with
  | none => exact .throw _ h
  | some t => exact .bind (.modify ⟨h.1, by simp only [h.2]⟩) fun _ _ _ h => .pure _ h

theorem typePart_keeps : Keeps (AEsc E) typePart := by
  refine .bind (io_keeps H.keepU8) fun code => ?_
  cases AttrType.fromTypeCode code with
  | none => exact .throw _
  | some t => exact .bind (.modify fun _ h => h) fun _ => .pure _

theorem readNextType_sim (h : ARel R a b)
    (hs : a.attrs.rest ≠ 0 → a.parser.reader.position < a.attrs.next → Sim false R E (skipTo a.attrs.next a.parser.reader) (skipTo a.attrs.next b.parser.reader)) :
    Sim false (ARel R) (AEsc E) (readNextType a) (readNextType b) := by
  rw [readNextType]
  refine .get ?_
  simp only [h.2, H.pos h.1.2]
  refine .ite (fun _ => .pure _ h) fun h0 => .ite (fun hlt => ?_) (fun _ => ?_)
  · exact .bind' (io_sim h (hs h0 hlt)) (fun _ _ _ h => (typePart_sim H h).loose) (fun _ => typePart_keeps H)
  · exact (typePart_sim H h).loose

theorem readNextType_keeps : Keeps (AEsc E) readNextType :=
  .bind .get fun _ => .ite (.pure _) (.ite (.bind (io_keeps (H.keepSkip _)) fun _ => typePart_keeps H) (typePart_keeps H))

theorem readArrHeader_sim (h : ARel R a b) : Sim true (ARel R) (AEsc E) (readArrHeader a) (readArrHeader b) := by
  rw [readArrHeader]
  refine .bind (io_sim h (H.readLe _ h.1.2)) fun c _ _ h => .bind (io_sim h (H.readLe _ h.1.2)) fun raw _ _ h => ?_
  cases ArrEnc.fromU32 raw with
  | none => exact .throw _ h
  | some enc => exact .bind (io_sim h (H.readLe _ h.1.2)) fun _ _ _ h => .pure _ h

theorem readArrHeader_keeps : Keeps (AEsc E) readArrHeader := by
  refine .bind (io_keeps (H.keepLe _)) fun _ => .bind (io_keeps (H.keepLe _)) fun raw => ?_
  cases ArrEnc.fromU32 raw with
  | none => exact .throw _
  | some enc => exact .bind (io_keeps (H.keepLe _)) fun _ => .pure _

theorem create_sim (h : ARel R a b) (enc : ArrEnc) :
    Sim true (ARel R) (AEsc E) (par (M.zoom Parser.reader (fun r p => { p with reader := r }) (Dec.create Z enc)) a)
      (par (M.zoom Parser.reader (fun r p => { p with reader := r }) (Dec.create Z enc)) b) := by
  simp only [par, M.zoom_apply]
  rcases H.create (Z := Z) enc h.1.2 with ⟨h1, h2⟩ | h1
  · exact .inl ⟨h1, setReader_rel h h2⟩
  · exact .inr h1

theorem create_keeps (enc : ArrEnc) : Keeps (AEsc E) (par (M.zoom Parser.reader (fun r p => { p with reader := r }) (Dec.create Z enc))) :=
  par_keeps (.zoom (H.keepCreate enc) (fun _ h => h) (fun _ _ h => h))

theorem runSeq_sim {e : Type} (h : ARel R a b) (t : ElemTy e) (k : SeqCons e α) (d : Dec Z) (n : Nat) :
    Sim false (ARel R) (AEsc E) (runSeq t k d n a) (runSeq t k d n b) := by
  have hr := H.run t k ⟨d, n, false, false⟩ h.1.2
  simp only [runSeq]
  generalize ElemIter.run t k (⟨d, n, false, false⟩, a.parser.reader) = x at hr
  generalize ElemIter.run t k (⟨d, n, false, false⟩, b.parser.reader) = y at hr
  obtain ⟨x, i1, r1⟩ := x
  obtain ⟨y, i2, r2⟩ := y
  rcases hr with ⟨e1, e2, e3⟩ | ⟨e1, _⟩
  · simp only at e1 e2 e3
    subst e1 e2
    cases x <;> exact .inl ⟨rfl, setReader_rel h e3⟩
  · cases y <;> exact .inr ⟨e1, fun h => nomatch h⟩

theorem runSeq_keeps {e : Type} (t : ElemTy e) (k : SeqCons e α) (d : Dec Z) (n : Nat) : Keeps (AEsc E) (runSeq t k d n) := by
  intro s hs
  have hr := H.keepRun (Z := Z) t k (⟨d, n, false, false⟩, s.parser.reader) hs
  simp only [runSeq]
  generalize ElemIter.run t k (⟨d, n, false, false⟩, s.parser.reader) = x at hr
  obtain ⟨x, i1, r1⟩ := x
  cases x <;> exact hr

/-- `loadSeq` after the consumer. -/
def seqTail (start idx : Nat) (v : α) (hasError odd : Bool) : M PErr AP α := do
  if odd then do
    let pos ← position start idx
    par (Parser.warn .incorrectBool pos)
  else pure ()
  if hasError then M.throw (PErr.ofData .nodeAttributeError) else pure v

theorem seqTail_sim (h : ARel R a b) (s i : Nat) (v : α) (he od : Bool) : Sim true (ARel R) (AEsc E) (seqTail s i v he od a) (seqTail s i v he od b) := by
  refine .ite (fun _ => ?_) (fun _ => ?_)
  · exact .bind (position_sim H h _ _) fun _ _ _ h => .bind (par_sim h (Parser.warn_sim h.1 _ _)) fun _ _ _ h =>
      .ite (fun _ => .throw _ h) (fun _ => .pure _ h)
  · exact .ite (fun _ => .throw _ h) (fun _ => .pure _ h)

omit H in
theorem seqTail_keeps (s i : Nat) (v : α) (he od : Bool) : Keeps (AEsc E) (seqTail s i v he od) := by
  refine .ite ?_ ?_
  · exact .bind (position_keeps _ _) fun _ => .bind (par_keeps (Parser.warn_keeps _ _)) fun _ => .ite (.throw _) (.pure _)
  · exact .ite (.throw _) (.pure _)

theorem loadSeq_sim {e : Type} (h : ARel R a b) (t : ElemTy e) (k : Nat → SeqCons e α) (s i : Nat) :
    Sim false (ARel R) (AEsc E) (loadSeq Z t k s i a) (loadSeq Z t k s i b) := by
  rw [loadSeq]
  exact .bind (readArrHeader_sim H h) fun hd _ _ h => .bind (updateNext_sim H h _) fun _ _ _ h => .bind (create_sim H h _) fun d _ _ h =>
    .bind' (runSeq_sim H h _ _ _ _) (fun x _ _ h => (seqTail_sim H h s i x.1 x.2.1 x.2.2).loose) (fun x => seqTail_keeps s i x.1 x.2.1 x.2.2)

theorem loadSeq_keeps {e : Type} (t : ElemTy e) (k : Nat → SeqCons e α) (s i : Nat) : Keeps (AEsc E) (loadSeq Z t k s i) := by
  rw [loadSeq]
  exact .bind (readArrHeader_keeps H) fun hd => .bind (updateNext_keeps _) fun _ => .bind (create_keeps H _) fun d =>
    .bind (runSeq_keeps H _ _ _ _) fun x => seqTail_keeps s i x.1 x.2.1 x.2.2

theorem loadSpecial_sim (h : ARel R a b) (k : Nat → ReadCons α) : Sim false (ARel R) (AEsc E) (loadSpecial k a) (loadSpecial k b) := by
  rw [loadSpecial]
  refine .bind (io_sim h (H.readLe _ h.1.2)) fun len _ _ h => .bind (updateNext_sim H h _) fun _ a b h => ?_
  have hr := H.cons (k len) len h.1.2
  simp only []
  generalize (k len).run (len, a.parser.reader) = x at hr
  generalize (k len).run (len, b.parser.reader) = y at hr
  obtain ⟨x, i1, r1⟩ := x
  obtain ⟨y, i2, r2⟩ := y
  rcases hr with ⟨e1, e2, e3⟩ | ⟨e1, _⟩
  · simp only at e1 e2 e3
    subst e1 e2
    exact .inl ⟨rfl, setReader_rel h e3⟩
  · exact .inr ⟨e1, fun h => nomatch h⟩

theorem loadSpecial_keeps (k : Nat → ReadCons α) : Keeps (AEsc E) (loadSpecial k) := by
  rw [loadSpecial]
  refine .bind (io_keeps (H.keepLe _)) fun len => .bind (updateNext_keeps _) fun _ s hs => ?_
  exact H.keepCons (k len) (len, s.parser.reader) hs

theorem loadPrim_sim (h : ARel R a b) (w : Nat) (f : BitVec (8 * w) → Except PErr α) : Sim true (ARel R) (AEsc E) (loadPrim w f a) (loadPrim w f b) := by
  rw [loadPrim]
  exact .bind (io_sim h (H.readLe _ h.1.2)) fun len _ _ h => .bind (updateNext_sim H h _) fun _ a b h => .ofExcept _ h

theorem loadPrim_keeps (w : Nat) (f : BitVec (8 * w) → Except PErr α) : Keeps (AEsc E) (loadPrim w f) :=
  .bind (io_keeps (H.keepLe _)) fun _ => .bind (updateNext_keeps _) fun _ => .ofExcept _

theorem loadBool_sim (h : ARel R a b) (f : Bool → Except PErr α) (s i : Nat) : Sim true (ARel R) (AEsc E) (loadBool f s i a) (loadBool f s i b) := by
  rw [loadBool]
  refine .bind (io_sim h (H.readU8 h.1.2)) fun len _ _ h => .bind (updateNext_sim H h _) fun _ a b h => .ite (fun _ => ?_) (fun _ => .ofExcept _ h)
  exact .bind (position_sim H h _ _) fun _ _ _ h => .bind (par_sim h (Parser.warn_sim h.1 _ _)) fun _ _ _ h => .ofExcept _ h

theorem loadBool_keeps (f : Bool → Except PErr α) (s i : Nat) : Keeps (AEsc E) (loadBool f s i) := by
  rw [loadBool]
  refine .bind (io_keeps H.keepU8) fun len => .bind (updateNext_keeps _) fun _ => .ite ?_ (.ofExcept _)
  exact .bind (position_keeps _ _) fun _ => .bind (par_keeps (Parser.warn_keeps _ _)) fun _ => .ofExcept _

theorem loadImpl_sim (h : ARel R a b) (bf : Bool) (t : AttrType) (l : Loader α) (s i : Nat) :
    Sim false (ARel R) (AEsc E) (loadImpl Z bf t l s i a) (loadImpl Z bf t l s i b) := by
  cases t <;> first | exact (loadBool_sim H h _ _ _).loose | exact (loadPrim_sim H h _ _).loose | exact loadSeq_sim H h _ _ _ _ | exact loadSpecial_sim H h _

theorem loadImpl_keeps (bf : Bool) (t : AttrType) (l : Loader α) (s i : Nat) : Keeps (AEsc E) (loadImpl Z bf t l s i) := by
  cases t <;> first | exact loadBool_keeps H _ _ _ | exact loadPrim_keeps H _ _ | exact loadSeq_keeps H _ _ _ _ | exact loadSpecial_keeps H _

theorem loadBody_sim (h : ARel R a b) (bf : Bool) (l : Loader α) (s i : Nat)
    (hs : a.attrs.rest ≠ 0 → a.parser.reader.position < a.attrs.next → Sim false R E (skipTo a.attrs.next a.parser.reader) (skipTo a.attrs.next b.parser.reader)) :
    Sim false (ARel R) (AEsc E) (loadBody Z bf l s i a) (loadBody Z bf l s i b) := by
  rw [loadBody]
  refine .bind' (readNextType_sim H h hs) (fun t _ _ h => ?_) (fun t => ?_)
  · cases t with
    | none => exact .pure _ h
    | some t => exact .bind' (loadImpl_sim H h _ _ _ _ _) (fun _ _ _ h => .pure _ h) (fun _ => .pure _)
  · cases t with
    | none => exact .pure _
    | some t => exact .bind (loadImpl_keeps H _ _ _ _ _) fun _ => .pure _

/-- `load` after the health check. -/
def loadTail (Z : Zlib) (bf : Bool) (l : Loader α) (start idx : Nat) : M PErr AP (Option α) := fun a => match loadBody Z bf l start idx a with
    | (.ok v, a') => (.ok v, a')
    | (.panic x, a') => (.panic x, a')
    | (.err e, a') => match position start idx a' with
      | (.ok pos, a'') => (.err (e.andPosition pos), { a'' with parser := a''.parser.setAborted pos })
      | (.err e', a'') => (.err e', a'')
      | (.panic x, a'') => (.panic x, a'')

theorem load_sim (h : ARel R a b) (bf : Bool) (l : Loader α)
    (hs : a.attrs.rest ≠ 0 → a.parser.reader.position < a.attrs.next → Sim false R E (skipTo a.attrs.next a.parser.reader) (skipTo a.attrs.next b.parser.reader)) :
    Sim false (ARel R) (AEsc E) (load Z bf l a) (load Z bf l b) := by
  obtain ⟨bp, ba⟩ := b
  obtain ⟨ap, aa⟩ := a
  have h2 : ba = aa := h.2
  subst h2
  have hhb : bp.health = ap.health := h.1.health
  have key : Sim false (ARel R) (AEsc E) (loadTail Z bf l ba.next (ba.total - ba.rest) ⟨ap, ba⟩) (loadTail Z bf l ba.next (ba.total - ba.rest) ⟨bp, ba⟩) := by
    generalize ba.total - ba.rest = i
    have hb := loadBody_sim (Z := Z) H h bf l ba.next i hs
    generalize ba.next = st at hb
    simp only [loadTail]
    generalize loadBody Z bf l st i ⟨ap, ba⟩ = x at hb
    generalize loadBody Z bf l st i ⟨bp, ba⟩ = y at hb
    obtain ⟨x, a1⟩ := x
    obtain ⟨y, b1⟩ := y
    rcases hb with ⟨e1, e2⟩ | ⟨e1, _⟩
    · simp only at e1 e2
      subst e1
      cases x with
      | ok v => exact .inl ⟨rfl, e2⟩
      | panic v => exact .inl ⟨rfl, e2⟩
      | err e =>
        have hp := position_sim H e2 st i
        simp only []
        generalize position st i a1 = x at hp
        generalize position st i b1 = y at hp
        obtain ⟨x, a2⟩ := x
        obtain ⟨y, b2⟩ := y
        rcases hp with ⟨e1, e2⟩ | ⟨e1, e2⟩
        · simp only at e1 e2
          subst e1
          cases x with
          | ok pos => exact .inl ⟨rfl, Parser.setHealth_rel e2.1 _, e2.2⟩
          | err e => exact .inl ⟨rfl, e2⟩
          | panic e => exact .inl ⟨rfl, e2⟩
        · cases y <;> exact .inr ⟨e1, fun h => nomatch h⟩
    · cases y with
      | ok v => exact .inr ⟨e1, fun h => nomatch h⟩
      | panic v => exact .inr ⟨e1, fun h => nomatch h⟩
      | err e =>
        have hp := position_keeps st i b1 e1
        simp only []
        generalize position st i b1 = y at hp
        obtain ⟨y, b2⟩ := y
        cases y <;> exact .inr ⟨hp, fun h => nomatch h⟩
  have hr : ∀ p : Parser, p.health = .running → load Z bf l ⟨p, ba⟩ = if ba.rest ≤ ba.total then loadTail Z bf l ba.next (ba.total - ba.rest) ⟨p, ba⟩
      else (.panic .attrIndexUnderflow, ⟨p, ba⟩) := by
    intro p hp
    simp only [load, withHealthCheck, M.bind_apply, par, M.zoom_apply, Parser.ensureContinuable, hp, M.get_apply, M.assert_apply, decide_eq_true_eq]
    split
    · rename_i hle
      rw [show decide (ba.rest ≤ ba.total) = true from decide_eq_true hle]
      refine (M.bind_val (m := M.assert true .attrIndexUnderflow) (a := ()) rfl _).trans ?_
      simp only [loadTail]
      generalize loadBody Z bf l ba.next (ba.total - ba.rest) ⟨p, ba⟩ = x
      obtain ⟨x, a1⟩ := x
      cases x with
      | ok v => rfl
      | panic v => rfl
      | err e =>
        simp only []
        generalize position ba.next (ba.total - ba.rest) a1 = y
        obtain ⟨y, a2⟩ := y
        cases y <;> rfl
    · rename_i hle
      rw [show decide (ba.rest ≤ ba.total) = false from decide_eq_false hle]
      rfl
  cases hh : ap.health with
  | running =>
    rw [hr ap hh, hr bp (hhb.trans hh)]
    split
    · exact key
    · exact .inl ⟨rfl, h⟩
  | finished =>
    have : ∀ p : Parser, p.health = .finished → load Z bf l ⟨p, ba⟩ = (.err (PErr.ofOp .alreadyFinished), ⟨p, ba⟩) := by
      intro p hp
      simp only [load, withHealthCheck, M.bind_apply, par, M.zoom_apply, Parser.ensureContinuable, hp]
    rw [this ap hh, this bp (hhb.trans hh)]
    exact .inl ⟨rfl, h⟩
  | aborted pos =>
    have : ∀ p : Parser, p.health = .aborted pos → load Z bf l ⟨p, ba⟩ = (.err ⟨.op .alreadyAborted, some pos⟩, ⟨p, ba⟩) := by
      intro p hp
      simp only [load, withHealthCheck, M.bind_apply, par, M.zoom_apply, Parser.ensureContinuable, hp]
    rw [this ap hh, this bp (hhb.trans hh)]
    exact .inl ⟨rfl, h⟩

end
end AP
end Fbx
