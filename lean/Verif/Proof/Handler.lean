import Verif.Proof.Rel
import Verif.Proof.Sim
import Verif.Spec.Handler
import Verif.Model.Attribute

/-! # The warning handler does not matter until it objects -/

namespace Fbx

/-- Equal results and related states, or the second run has failed because its handler objected. -/
def Obj {σ τ α : Type} (R : σ → τ → Prop) (E : PErr → τ → Prop) (x : Res PErr α × σ) (y : Res PErr α × τ) : Prop :=
  Agree R x y ∨ ∃ e, y.1 = .err e ∧ E e y.2

namespace Obj
variable {σ τ α β : Type} {R : σ → τ → Prop} {E : PErr → τ → Prop}

theorem bind {m : M PErr σ α} {m' : M PErr τ α} {f : α → M PErr σ β} {f' : α → M PErr τ β} {s : σ} {s' : τ} (h : Obj R E (m s) (m' s'))
    (hf : ∀ a t t', R t t' → Obj R E (f a t) (f' a t')) : Obj R E ((m >>= f) s) ((m' >>= f') s') := by
  rw [M.bind_apply, M.bind_apply]
  rcases hm : m s with ⟨r, t⟩
  rcases hm' : m' s' with ⟨r', t'⟩
  rw [hm, hm'] at h
  rcases h with ⟨h1, h2⟩ | ⟨e, h1, h2⟩
  · simp only at h1 h2
    subst h1
    cases r with
    | ok a => exact hf a t t' h2
    | err e => exact .inl ⟨rfl, h2⟩
    | panic p => exact .inl ⟨rfl, h2⟩
  · simp only at h1 h2
    subst h1
    exact .inr ⟨e, rfl, h2⟩

theorem get {f : σ → M PErr σ β} {f' : τ → M PErr τ β} {s : σ} {s' : τ} (h : Obj R E (f s s) (f' s' s')) :
    Obj R E ((M.get >>= f) s) ((M.get >>= f') s') := h

theorem pure (a : α) {s : σ} {s' : τ} (h : R s s') : Obj R E ((Pure.pure a : M PErr σ α) s) ((Pure.pure a : M PErr τ α) s') := .inl ⟨rfl, h⟩
theorem throw (e : PErr) {s : σ} {s' : τ} (h : R s s') : Obj (α := α) R E (M.throw e s) (M.throw e s') := .inl ⟨rfl, h⟩
theorem panic (e : Panic) {s : σ} {s' : τ} (h : R s s') : Obj (α := α) R E (M.panic e s) (M.panic e s') := .inl ⟨rfl, h⟩
theorem ofExcept (r : Except PErr α) {s : σ} {s' : τ} (h : R s s') : Obj R E (M.ofExcept r s) (M.ofExcept r s') := .inl (Agree.ofExcept r h)
theorem assert (b : Bool) (e : Panic) {s : σ} {s' : τ} (h : R s s') : Obj R E (M.assert b e s) (M.assert b e s') := .inl (Agree.assert b e h)
theorem modify {g : σ → σ} {g' : τ → τ} {s : σ} {s' : τ} (h : R (g s) (g' s')) : Obj R E (M.modify g s) (M.modify g' s') := .inl ⟨rfl, h⟩
theorem set {t : σ} {t' : τ} {s : σ} {s' : τ} (h : R t t') : Obj R E (M.set t s) (M.set t' s') := .inl ⟨rfl, h⟩

theorem ite {c : Prop} [Decidable c] {m n : M PErr σ α} {m' n' : M PErr τ α} {s : σ} {s' : τ} (h1 : c → Obj R E (m s) (m' s'))
    (h2 : ¬ c → Obj R E (n s) (n' s')) : Obj R E ((if c then m else n) s) ((if c then m' else n') s') := by
  by_cases hc : c
  · rw [if_pos hc, if_pos hc]; exact h1 hc
  · rw [if_neg hc, if_neg hc]; exact h2 hc

end Obj

open Spec
variable {h0 : Option Handler} {base : List (Warning × SynPos)}

/-- The newest warning is one the handler objected to, with the error `e`; it accepted the earlier ones. -/
def Objected (h0 : Option Handler) (base log : List (Warning × SynPos)) (e : PErr) : Prop :=
  ∃ w pos rest e0, log = (w, pos) :: rest ∧ Accepted h0 base rest ∧ Objects h0 rest w pos e0 ∧ e = e0.andPosition pos

namespace Parser

/-- The first parser has no handler, the second one has accepted all warnings since `base`; otherwise they are equal. -/
def Twin (h0 : Option Handler) (base : List (Warning × SynPos)) (p q : Parser) : Prop :=
  p.handler = none ∧ q = { p with handler := h0 } ∧ Accepted h0 base q.log

/-- The second parser's handler has objected to the newest warning, with the error `e`. -/
def Obs (h0 : Option Handler) (base : List (Warning × SynPos)) (e : PErr) (q : Parser) : Prop := Objected h0 base q.log e

theorem Twin.mk' {p : Parser} (h : p.handler = none) (hl : Accepted h0 base p.log) : Twin h0 base p { p with handler := h0 } := ⟨h, rfl, hl⟩

theorem Twin.elim {p q : Parser} (h : Twin h0 base p q) {C : Parser → Prop} (hc : Accepted h0 base p.log → C { p with handler := h0 }) : C q := by
  have hl := h.2.2
  rw [h.2.1] at hl ⊢
  exact hc hl

theorem Twin.reader {p q : Parser} (h : Twin h0 base p q) (r : Reader) : Twin h0 base { p with reader := r } { q with reader := r } :=
  h.elim (C := fun q => Twin h0 base { p with reader := r } { q with reader := r }) (fun hl => ⟨h.1, rfl, hl⟩)

theorem io_agree {α : Type} {p q : Parser} (h : Twin h0 base p q) (m : M IoErr Reader α) : Agree (Twin h0 base) (io m p) (io m q) := by
  have hr : q.reader = p.reader := by rw [h.2.1]
  simp only [io, M.mapErr_apply, M.zoom_apply, hr]
  rcases m p.reader with ⟨_ | _ | _, r⟩ <;> exact ⟨rfl, h.reader r⟩

theorem io_twin {α : Type} {p q : Parser} (h : Twin h0 base p q) (m : M IoErr Reader α) : Obj (Twin h0 base) (Obs h0 base) (io m p) (io m q) :=
  .inl (io_agree h m)

theorem warn_twin {p q : Parser} (h : Twin h0 base p q) (w : Warning) (pos : SynPos) : Obj (Twin h0 base) (Obs h0 base) (warn w pos p) (warn w pos q) := by
  refine h.elim (C := fun q => Obj (Twin h0 base) (Obs h0 base) (warn w pos p) (warn w pos q)) (fun hl => ?_)
  have hw : warn w pos p = (.ok (), { p with log := (w, pos) :: p.log }) := by simp only [warn]; rw [h.1]
  rw [hw]
  simp only [warn]
  cases h0 with
  | none => exact .inl ⟨rfl, h.1, rfl, .step hl (fun e he => he)⟩
  | some g =>
    cases hg : g p.log w pos with
    | none =>
      simp only [hg]
      exact .inl ⟨rfl, h.1, rfl, .step hl (fun e he => by simp [Objects, hg] at he)⟩
    | some e =>
      simp only [hg]
      exact .inr ⟨_, rfl, w, pos, _, e, rfl, hl, hg, rfl⟩

theorem position_twin {p q : Parser} (h : Twin h0 base p q) : Obj (Twin h0 base) (Obs h0 base) (position p) (position q) := by
  refine h.elim (C := fun q => Obj (Twin h0 base) (Obs h0 base) (position p) (position q)) (fun hl => ?_)
  simp only [position]
  split
  · exact .inl ⟨rfl, Twin.mk' h.1 hl⟩
  · exact .inl ⟨rfl, Twin.mk' h.1 hl⟩

theorem readNodeHeader_twin {p q : Parser} (h : Twin h0 base p q) : Obj (Twin h0 base) (Obs h0 base) (readNodeHeader p) (readNodeHeader q) := by
  have hv : q.version = p.version := by rw [h.2.1]
  simp only [readNodeHeader]
  refine .get ?_
  simp only [hv]
  refine .bind (io_twin h _) fun _ _ _ h => .bind (io_twin h _) fun _ _ _ h => .bind (io_twin h _) fun _ _ _ h =>
    .bind (io_twin h _) fun _ _ _ h => .pure _ h

theorem skipUnread_twin {p q : Parser} (h : Twin h0 base p q) : Obj (Twin h0 base) (Obs h0 base) (skipUnreadAttributes p) (skipUnreadAttributes q) := by
  have e1 : q.started = p.started := by rw [h.2.1]
  have e2 : q.reader = p.reader := by rw [h.2.1]
  rw [skipUnreadAttributes]
  refine .get ?_
  simp only [e1, e2]
  cases p.started with
  | nil => exact .pure _ h
  | cons n r => exact .ite (fun _ => io_twin h _) (fun _ => .pure _ h)

theorem setStarted_twin {p q : Parser} (h : Twin h0 base p q) (s : List Started) : Twin h0 base { p with started := s } { q with started := s } := by
  refine h.elim (C := fun q => Twin h0 base { p with started := s } { q with started := s }) (fun hl => ⟨h.1, rfl, hl⟩)

theorem tryImplicitEnd_twin {p q : Parser} (h : Twin h0 base p q) : Obj (Twin h0 base) (Obs h0 base) (tryImplicitEnd p) (tryImplicitEnd q) := by
  have e1 : q.started = p.started := by rw [h.2.1]
  have e2 : q.reader = p.reader := by rw [h.2.1]
  have e3 : q.last = p.last := by rw [h.2.1]
  rw [tryImplicitEnd]
  refine .get ?_
  simp only [e1, e2, e3]
  cases p.started with
  | nil => exact .pure _ h
  | cons n r =>
    refine .ite (fun _ => .throw _ h) fun _ => .ite (fun _ => ?_) (fun _ => .pure _ h)
    refine .ite (fun _ => ?_) (fun _ => ?_)
    · exact .bind (position_twin h) fun _ _ _ h => .bind (warn_twin h _ _) fun _ _ _ h =>
        .bind (.modify (setStarted_twin h r)) fun _ _ _ h => .pure _ h
    · exact .bind (.modify (setStarted_twin h r)) fun _ _ _ h => .pure _ h

theorem explicitEnd_twin {p q : Parser} (h : Twin h0 base p q) : Obj (Twin h0 base) (Obs h0 base) (explicitEnd p) (explicitEnd q) := by
  refine h.elim (C := fun q => Obj (Twin h0 base) (Obs h0 base) (explicitEnd p) (explicitEnd q)) (fun hl => ?_)
  have h := Twin.mk' h.1 hl
  rw [explicitEnd]
  refine .get ?_
  simp only
  generalize hs : p.started = st
  cases st with
  | nil =>
    have h' := h
    simp only [hs] at h'
    exact .pure _ h'
  | cons n r =>
    refine .bind (.set (by exact setStarted_twin h r)) fun _ _ _ h => ?_
    refine .ite (fun _ => .throw _ h) fun _ => .ite (fun _ => ?_) (fun _ => .pure _ h)
    exact .bind (position_twin h) fun _ _ _ h => .bind (warn_twin h _ _) fun _ _ _ h => .pure _ h

theorem warnEmptyName_twin {p q : Parser} (h : Twin h0 base p q) (s : Nat) : Obj (Twin h0 base) (Obs h0 base) (warnEmptyName s p) (warnEmptyName s q) := by
  rw [warnEmptyName]
  refine .bind (position_twin h) fun pos p q h => .get ?_
  have e1 : q.started = p.started := by rw [h.2.1]
  have e2 : q.reader = p.reader := by rw [h.2.1]
  have e3 : q.toplevel = p.toplevel := by rw [h.2.1]
  simp only [e1, e2, e3]
  exact warn_twin h _ _

theorem pushNode_twin {p q : Parser} (h : Twin h0 base p q) (n : Started) : Twin h0 base (pushNode n p) (pushNode n q) := by
  refine h.elim (C := fun q => Twin h0 base (pushNode n p) (pushNode n q)) (fun hl => ?_)
  have ht := h.1
  have e : pushNode n { p with handler := h0 } = { pushNode n p with handler := h0 } := by
    simp only [pushNode]; cases p.started <;> rfl
  rw [e]
  refine Twin.mk' ?_ ?_
  · rw [← ht]; simp only [pushNode]; cases p.started <;> rfl
  · have : (pushNode n p).log = p.log := by simp only [pushNode]; cases p.started <;> rfl
    rw [this]; exact hl

theorem addAttrEnd_twin {p q : Parser} (h : Twin h0 base p q) (a b : Nat) : Obj (Twin h0 base) (Obs h0 base) (addAttrEnd a b p) (addAttrEnd a b q) := by
  have e : q.checks = p.checks := by rw [h.2.1]
  simp only [addAttrEnd, e]
  split
  · exact .inl ⟨rfl, h⟩
  · split <;> exact .inl ⟨rfl, h⟩

theorem startNode_twin {p q : Parser} (h : Twin h0 base p q) (s : Nat) (hd : NodeHeader) : Obj (Twin h0 base) (Obs h0 base) (startNode s hd p) (startNode s hd q) := by
  have key : ∀ {p q : Parser}, Twin h0 base p q → Obj (Twin h0 base) (Obs h0 base) ((do
      let bs ← io (Reader.readExact hd.nameLen)
      match stringOfUtf8 bs with
      | none => M.throw (PErr.ofData .invalidNodeNameEncoding)
      | some name => do
        let p ← M.get
        let attrEnd ← addAttrEnd p.reader.position hd.bytelenAttrs
        M.modify (pushNode
          { startOff := s, endOff := hd.endOffset, attrCount := hd.numAttrs, attrEnd, name, kids := 0 })
        pure .startNode : M PErr Parser EvKind) p) ((do
      let bs ← io (Reader.readExact hd.nameLen)
      match stringOfUtf8 bs with
      | none => M.throw (PErr.ofData .invalidNodeNameEncoding)
      | some name => do
        let p ← M.get
        let attrEnd ← addAttrEnd p.reader.position hd.bytelenAttrs
        M.modify (pushNode
          { startOff := s, endOff := hd.endOffset, attrCount := hd.numAttrs, attrEnd, name, kids := 0 })
        pure .startNode : M PErr Parser EvKind) q) := by
    intro p q h
    refine .bind (io_twin h _) fun bs p q h => ?_
    cases stringOfUtf8 bs with
    | none => exact .throw _ h
    | some name =>
      refine .get ?_
      have e2 : q.reader = p.reader := by rw [h.2.1]
      simp only [e2]
      exact .bind (addAttrEnd_twin h _ _) fun _ _ _ h => .bind (.modify (pushNode_twin h _)) fun _ _ _ h => .pure _ h
  rw [startNode]
  refine .ite (fun _ => ?_) (fun _ => ?_)
  · exact .bind (warnEmptyName_twin h _) fun _ _ _ h => key h
  · exact key h

theorem nextEventImpl_twin {p q : Parser} (h : Twin h0 base p q) : Obj (Twin h0 base) (Obs h0 base) (nextEventImpl p) (nextEventImpl q) := by
  have e1 : q.health = p.health := by rw [h.2.1]
  have e2 : q.last = p.last := by rw [h.2.1]
  rw [nextEventImpl]
  refine .get ?_
  simp only [e1, e2]
  refine .bind (.assert _ _ h) fun _ _ _ h => .bind (.assert _ _ h) fun _ _ _ h => .bind (skipUnread_twin h) fun _ p q h => .get ?_
  have e3 : q.reader = p.reader := by rw [h.2.1]
  simp only [e3]
  refine .bind (tryImplicitEnd_twin h) fun b p q h => .ite (fun _ => .pure _ h) fun _ => ?_
  exact .bind (readNodeHeader_twin h) fun hd p q h => .ite (fun _ => explicitEnd_twin h) (fun _ => startNode_twin h _ _)

theorem warnIf_twin {p q : Parser} (h : Twin h0 base p q) (c : Bool) (w : Warning) (pos : SynPos) :
    Obj (Twin h0 base) (Obs h0 base) (warnIf c w pos p) (warnIf c w pos q) := by
  cases c
  · exact .pure _ h
  · exact warn_twin h w pos

theorem readFooter_twin {p q : Parser} (h : Twin h0 base p q) : Obj (Twin h0 base) (Obs h0 base) (readFooter p) (readFooter q) := by
  have e3 : q.reader = p.reader := by rw [h.2.1]
  rw [readFooter]
  refine .get ?_
  simp only [e3]
  refine .bind (io_twin h _) fun u1 p1 q1 h => .get ?_
  have e3 : q1.reader = p1.reader := by rw [h.2.1]
  simp only [e3]
  refine .bind (warnIf_twin h _ _ _) fun _ _ _ h => .bind (io_twin h _) fun buf _ _ h => ?_
  cases (buf.drop 128).findIdx? (fun x => decide (x ≠ 0)) with
  | none => exact .throw _ h
  | some i =>
    refine .bind (.assert _ _ h) fun _ _ _ h => .bind (.assert _ _ h) fun _ p2 q2 h => ?_
    refine .ite (fun _ => .throw _ h) fun _ => .ite (fun _ => .throw _ h) fun _ => .get ?_
    have e3 : q2.version = p2.version := by rw [h.2.1]
    simp only [e3]
    refine .ite (fun _ => .throw _ h) fun _ => .ite (fun _ => .throw _ h) fun _ => .bind (io_twin h _) fun _ _ _ h => ?_
    exact .ite (fun _ => .throw _ h) fun _ => .bind (warnIf_twin h _ _ _) fun _ _ _ h => .pure _ h

/-- The outcome of `next_event` when the handler has objected. -/
inductive NextObjected (h0 : Option Handler) (base : List (Warning × SynPos)) : Res PErr Event × Parser → Prop where
  /-- it fails -/
  | failed {q : Parser} {e : PErr} {pos : SynPos} (h : Objected h0 base q.log e) (hp : pos = q.synPos) :
      NextObjected h0 base (.err (e.andPosition pos), q.setAborted pos)
  /-- a warning about the footer: the error is part of the event -/
  | footer {q : Parser} {e : PErr} (h : Objected h0 base q.log e) (hq : q.health = .finished) : NextObjected h0 base (.ok (.endFbx (.error e)), q)
  /-- excluded for reachable states -/
  | panic {q : Parser} : NextObjected h0 base (.panic .noToplevel, q)

theorem readFooter_health (p : Parser) : (readFooter p).2.health = p.health := by
  have hio : ∀ {α : Type} (m : M IoErr Reader α), Keeps (fun q : Parser => q.health = p.health) (io m) := by
    intro α m q hq
    simp only [io, M.mapErr_apply, M.zoom_apply]
    rcases m q.reader with ⟨_ | _ | _, r⟩ <;> exact hq
  have hw : ∀ c w pos, Keeps (fun q : Parser => q.health = p.health) (warnIf c w pos) := by
    intro c w pos q hq
    cases c
    · exact hq
    · simp only [warnIf, if_true, warn]
      split
      · exact hq
      · split <;> exact hq
  refine Keeps.bind (E := fun q : Parser => q.health = p.health) .get (fun p1 => .bind (hio _) fun _ => .bind .get fun _ => .bind (hw _ _ _) fun _ => .bind (hio _) fun buf => ?_) p rfl
  cases (buf.drop 128).findIdx? (fun x => decide (x ≠ 0)) with
  | none => exact .throw _
  | some i =>
    exact .bind (.assert _ _) fun _ => .bind (.assert _ _) fun _ => .ite (.throw _) (.ite (.throw _) (.bind .get fun _ => .ite (.throw _)
      (.ite (.throw _) (.bind (hio _) fun _ => .ite (.throw _) (.bind (hw _ _ _) fun _ => .pure _)))))

theorem makeEvent_twin {p q : Parser} (h : Twin h0 base p q) (k : EvKind) (hk : k = .endFbx → q.health = .finished) :
    Agree (Twin h0 base) (makeEvent k p) (makeEvent k q) ∨ NextObjected h0 base (makeEvent k q) := by
  have e1 : q.started = p.started := by rw [h.2.1]
  cases k with
  | startNode =>
    simp only [makeEvent, e1]
    cases p.started <;> exact .inl ⟨rfl, h⟩
  | endNode => exact .inl ⟨rfl, h⟩
  | endFbx =>
    have := readFooter_twin h
    have hh := readFooter_health q
    simp only [makeEvent]
    rcases hp : readFooter p with ⟨r, p'⟩
    rcases hq : readFooter q with ⟨r', q'⟩
    rw [hp, hq] at this
    rw [hq] at hh
    rcases this with ⟨h1, h2⟩ | ⟨e, h1, h2⟩
    · simp only at h1 h2
      subst h1
      cases r <;> exact .inl ⟨rfl, h2⟩
    · simp only at h1 h2
      subst h1
      exact .inr (.footer h2 (hh.trans (hk rfl)))

theorem synPos_twin {p q : Parser} (h : Twin h0 base p q) : q.synPos = p.synPos := by rw [h.2.1]; rfl

theorem setHealth_twin {p q : Parser} (h : Twin h0 base p q) (x : Health) : Twin h0 base { p with health := x } { q with health := x } :=
  h.elim (C := fun q => Twin h0 base { p with health := x } { q with health := x }) (fun hl => ⟨h.1, rfl, hl⟩)

theorem setLast_twin {p q : Parser} (h : Twin h0 base p q) (x : Option EvKind) : Twin h0 base { p with last := x } { q with last := x } :=
  h.elim (C := fun q => Twin h0 base { p with last := x } { q with last := x }) (fun hl => ⟨h.1, rfl, hl⟩)

theorem ensure_twin {p q : Parser} (h : Twin h0 base p q) : Obj (Twin h0 base) (Obs h0 base) (ensureContinuable p) (ensureContinuable q) := by
  have e1 : q.health = p.health := by rw [h.2.1]
  simp only [ensureContinuable, e1]
  cases p.health <;> exact .inl ⟨rfl, h⟩

/-- The parser's record of the event. -/
def recorded (k : EvKind) (p : Parser) : Parser := { (if k = .endFbx then { p with health := .finished } else p) with last := some k }

theorem nextEvent_eq (p : Parser) : nextEvent p = match p.health with
    | .finished => (.err (PErr.ofOp .alreadyFinished), p)
    | .aborted pos => (.err ⟨.op .alreadyAborted, some pos⟩, p)
    | .running => match nextEventImpl p with
      | (.panic x, p') => (.panic x, p')
      | (.err e, p') => if p'.started ≠ [] ∧ p'.toplevel = 0 then (.panic .noToplevel, p') else (.err (e.andPosition p'.synPos), p'.setAborted p'.synPos)
      | (.ok k, p') =>
        if depthOk k p.depth (recorded k p').depth then makeEvent k (recorded k p') else (.panic .depthAssert, recorded k p') := by
  unfold nextEvent
  refine (M.bind_apply _ _ _).trans ?_
  refine (M.bind_apply _ _ _).trans ?_
  simp only [ensureContinuable]
  cases p.health with
  | finished => rfl
  | aborted pos => rfl
  | running =>
    simp only
    rcases nextEventImpl p with ⟨_ | e | _, p'⟩
    · rfl
    · simp only [position]
      by_cases hc : p'.started ≠ [] ∧ p'.toplevel = 0
      · rw [if_pos hc, if_pos hc]
      · rw [if_neg hc, if_neg hc]
    · rfl

theorem nextEvent_twin {p q : Parser} (h : Twin h0 base p q) :
    Agree (Twin h0 base) (nextEvent p) (nextEvent q) ∨ NextObjected h0 base (nextEvent q) := by
  have e1 : q.depth = p.depth := by rw [h.2.1]; rfl
  have e2 : q.health = p.health := by rw [h.2.1]
  rw [nextEvent_eq, nextEvent_eq, e1, e2]
  generalize p.depth = d
  cases p.health with
  | finished => exact .inl ⟨rfl, h⟩
  | aborted pos => exact .inl ⟨rfl, h⟩
  | running =>
    simp only
    have := nextEventImpl_twin h
    rcases hp : nextEventImpl p with ⟨r, p'⟩
    rcases hq : nextEventImpl q with ⟨r', q'⟩
    rw [hp, hq] at this
    rcases this with ⟨h1, h2⟩ | ⟨e, h1, h2⟩
    · simp only at h1 h2
      subst h1
      cases r with
      | panic x => exact .inl ⟨rfl, h2⟩
      | err e =>
        have e3 : q'.synPos = p'.synPos := by rw [h2.2.1]; rfl
        have e4 : q'.started = p'.started := by rw [h2.2.1]
        have e5 : q'.toplevel = p'.toplevel := by rw [h2.2.1]
        simp only [e3, e4, e5]
        split
        · exact .inl ⟨rfl, h2⟩
        · exact .inl ⟨rfl, setHealth_twin h2 _⟩
      | ok k =>
        simp only
        have h3 : Twin h0 base (recorded k p') (recorded k q') := by
          unfold recorded
          split
          · exact setLast_twin (setHealth_twin h2 _) _
          · exact setLast_twin h2 _
        have hd : (recorded k q').depth = (recorded k p').depth := by rw [h3.2.1]; rfl
        rw [hd]
        split
        · exact makeEvent_twin h3 k (fun hk => by simp only [recorded, if_pos hk])
        · exact .inl ⟨rfl, h3⟩
    · simp only at h1 h2
      subst h1
      simp only
      right
      split
      · exact .panic
      · exact .failed h2 rfl

theorem skipCurrentNode_twin {p q : Parser} (h : Twin h0 base p q) : Agree (Twin h0 base) (skipCurrentNode p) (skipCurrentNode q) := by
  have e1 : q.started = p.started := by rw [h.2.1]
  rw [skipCurrentNode]
  refine .get ?_
  simp only [e1]
  cases p.started with
  | nil => exact .panic _ h
  | cons n r => exact .bind (.set (by exact setLast_twin (setStarted_twin h r) _)) fun _ _ _ h => io_agree h _

end Parser

namespace AP

/-- The same for attribute readers. -/
def Twin (h0 : Option Handler) (base : List (Warning × SynPos)) (a b : AP) : Prop := Parser.Twin h0 base a.parser b.parser ∧ b.attrs = a.attrs

/-- The handler of the second attribute reader's parser has objected. -/
def Obs (h0 : Option Handler) (base : List (Warning × SynPos)) (e : PErr) (b : AP) : Prop := Objected h0 base b.parser.log e

theorem par_twin {α : Type} {a b : AP} (h : Twin h0 base a b) {m : M PErr Parser α} (hm : Obj (Parser.Twin h0 base) (Parser.Obs h0 base) (m a.parser) (m b.parser)) :
    Obj (Twin h0 base) (Obs h0 base) (par m a) (par m b) := by
  simp only [par, M.zoom_apply]
  rcases hm with hm | ⟨e, h1, h2⟩
  · exact .inl ⟨hm.1, hm.2, h.2⟩
  · exact .inr ⟨e, h1, h2⟩

theorem io_twin {α : Type} {a b : AP} (h : Twin h0 base a b) (m : M IoErr Reader α) : Obj (Twin h0 base) (Obs h0 base) (io m a) (io m b) :=
  par_twin h (Parser.io_twin h.1 m)

theorem updateNext_twin {a b : AP} (h : Twin h0 base a b) (n : Nat) : Obj (Twin h0 base) (Obs h0 base) (updateNext n a) (updateNext n b) := by
  have e : b.parser.reader = a.parser.reader := by rw [h.1.2.1]
  simp only [updateNext, e, h.2]
  split
  · exact .inl ⟨rfl, h.1, rfl⟩
  · exact .inl ⟨rfl, h⟩

theorem position_twin {a b : AP} (h : Twin h0 base a b) (s i : Nat) : Obj (Twin h0 base) (Obs h0 base) (position s i a) (position s i b) :=
  .bind (par_twin h (Parser.position_twin h.1)) fun _ _ _ h => .pure _ h

theorem readNextType_twin {a b : AP} (h : Twin h0 base a b) : Obj (Twin h0 base) (Obs h0 base) (readNextType a) (readNextType b) := by
  have key : ∀ {a b : AP}, Twin h0 base a b → Obj (Twin h0 base) (Obs h0 base) ((do
      let code ← io Reader.readU8
      match AttrType.fromTypeCode code with
      | none => M.throw (PErr.ofData (.invalidAttrTypeCode code))
      | some t => do
        M.modify (fun a => { a with attrs := { a.attrs with rest := a.attrs.rest - 1 } })
        pure (some t) : M PErr AP (Option AttrType)) a) ((do
      let code ← io Reader.readU8
      match AttrType.fromTypeCode code with
      | none => M.throw (PErr.ofData (.invalidAttrTypeCode code))
      | some t => do
        M.modify (fun a => { a with attrs := { a.attrs with rest := a.attrs.rest - 1 } })
        pure (some t) : M PErr AP (Option AttrType)) b) := by
    intro a b h
    refine .bind (io_twin h _) fun code a b h => ?_
    cases AttrType.fromTypeCode code with
    | none => exact .throw _ h
    | some t => exact .bind (.modify ⟨h.1, by simp only [h.2]⟩) fun _ _ _ h => .pure _ h
  have e : b.parser.reader = a.parser.reader := by rw [h.1.2.1]
  rw [readNextType]
  refine .get ?_
  simp only [h.2, e]
  refine .ite (fun _ => .pure _ h) fun _ => .ite (fun _ => ?_) (fun _ => ?_)
  · exact .bind (io_twin h _) fun _ _ _ h => key h
  · exact key h

theorem readArrHeader_twin {a b : AP} (h : Twin h0 base a b) : Obj (Twin h0 base) (Obs h0 base) (readArrHeader a) (readArrHeader b) := by
  rw [readArrHeader]
  refine .bind (io_twin h _) fun c _ _ h => .bind (io_twin h _) fun raw _ _ h => ?_
  cases ArrEnc.fromU32 raw with
  | none => exact .throw _ h
  | some enc => exact .bind (io_twin h _) fun _ _ _ h => .pure _ h

theorem setReader_twin {a b : AP} (h : Twin h0 base a b) (r : Reader) :
    Twin h0 base { a with parser := { a.parser with reader := r } } { b with parser := { b.parser with reader := r } } :=
  ⟨h.1.reader r, h.2⟩

theorem create_twin {Z : Zlib} {a b : AP} (h : Twin h0 base a b) (enc : ArrEnc) :
    Obj (Twin h0 base) (Obs h0 base) (par (M.zoom Parser.reader (fun r p => { p with reader := r }) (Dec.create Z enc)) a)
      (par (M.zoom Parser.reader (fun r p => { p with reader := r }) (Dec.create Z enc)) b) := by
  have e : b.parser.reader = a.parser.reader := by rw [h.1.2.1]
  simp only [par, M.zoom_apply, e]
  exact .inl ⟨rfl, setReader_twin h _⟩

theorem runSeq_twin {e α : Type} {Z : Zlib} {a b : AP} (h : Twin h0 base a b) (t : ElemTy e) (c : SeqCons e α) (d : Dec Z) (n : Nat) :
    Obj (Twin h0 base) (Obs h0 base) (runSeq t c d n a) (runSeq t c d n b) := by
  have e : b.parser.reader = a.parser.reader := by rw [h.1.2.1]
  simp only [runSeq, e]
  rcases ElemIter.run t c (⟨d, n, false, false⟩, a.parser.reader) with ⟨_ | _ | _, it, r⟩ <;> exact .inl ⟨rfl, setReader_twin h _⟩

theorem loadSeq_twin {e α : Type} {Z : Zlib} {a b : AP} (h : Twin h0 base a b) (t : ElemTy e) (c : Nat → SeqCons e α) (s i : Nat) :
    Obj (Twin h0 base) (Obs h0 base) (loadSeq Z t c s i a) (loadSeq Z t c s i b) := by
  rw [loadSeq]
  refine .bind (readArrHeader_twin h) fun hd _ _ h => .bind (updateNext_twin h _) fun _ _ _ h => .bind (create_twin h _) fun d _ _ h =>
    .bind (runSeq_twin h _ _ _ _) fun x _ _ h => ?_
  obtain ⟨v, he, od⟩ := x
  refine .ite (fun _ => ?_) (fun _ => ?_)
  · exact .bind (position_twin h _ _) fun _ _ _ h => .bind (par_twin h (Parser.warn_twin h.1 _ _)) fun _ _ _ h =>
      .ite (fun _ => .throw _ h) (fun _ => .pure _ h)
  · exact .ite (fun _ => .throw _ h) (fun _ => .pure _ h)

theorem loadSpecial_twin {α : Type} {a b : AP} (h : Twin h0 base a b) (c : Nat → ReadCons α) :
    Obj (Twin h0 base) (Obs h0 base) (loadSpecial c a) (loadSpecial c b) := by
  rw [loadSpecial]
  refine .bind (io_twin h _) fun len _ _ h => .bind (updateNext_twin h _) fun _ a b h => ?_
  have e : b.parser.reader = a.parser.reader := by rw [h.1.2.1]
  simp only [e]
  exact .inl ⟨rfl, setReader_twin h _⟩

theorem loadPrim_twin {α : Type} {a b : AP} (h : Twin h0 base a b) (w : Nat) (f : BitVec (8 * w) → Except PErr α) :
    Obj (Twin h0 base) (Obs h0 base) (loadPrim w f a) (loadPrim w f b) := by
  rw [loadPrim]
  exact .bind (io_twin h _) fun len _ _ h => .bind (updateNext_twin h _) fun _ a b h => .ofExcept _ h

theorem loadBool_twin {α : Type} {a b : AP} (h : Twin h0 base a b) (f : Bool → Except PErr α) (s i : Nat) :
    Obj (Twin h0 base) (Obs h0 base) (loadBool f s i a) (loadBool f s i b) := by
  rw [loadBool]
  refine .bind (io_twin h _) fun len _ _ h => .bind (updateNext_twin h _) fun _ a b h => .ite (fun _ => ?_) (fun _ => .ofExcept _ h)
  exact .bind (position_twin h _ _) fun _ _ _ h => .bind (par_twin h (Parser.warn_twin h.1 _ _)) fun _ _ _ h => .ofExcept _ h

theorem loadImpl_twin {α : Type} {Z : Zlib} {a b : AP} (h : Twin h0 base a b) (bf : Bool) (t : AttrType) (l : Loader α) (s i : Nat) :
    Obj (Twin h0 base) (Obs h0 base) (loadImpl Z bf t l s i a) (loadImpl Z bf t l s i b) := by
  cases t <;> first | exact loadBool_twin h _ _ _ | exact loadPrim_twin h _ _ | exact loadSeq_twin h _ _ _ _ | exact loadSpecial_twin h _

theorem loadBody_twin {α : Type} {Z : Zlib} {a b : AP} (h : Twin h0 base a b) (bf : Bool) (l : Loader α) (s i : Nat) :
    Obj (Twin h0 base) (Obs h0 base) (loadBody Z bf l s i a) (loadBody Z bf l s i b) := by
  rw [loadBody]
  refine .bind (readNextType_twin h) fun t _ _ h => ?_
  cases t with
  | none => exact .pure _ h
  | some t => exact .bind (loadImpl_twin h _ _ _ _ _) fun _ _ _ h => .pure _ h

/-- The outcome of loading an attribute when the handler has objected. -/
inductive LoadObjected {α : Type} (h0 : Option Handler) (base : List (Warning × SynPos)) (start idx : Nat) : Res PErr (Option α) × AP → Prop where
  | failed {b : AP} {e : PErr} {pos : SynPos} (h : Objected h0 base b.parser.log e)
      (hp : pos = { b.parser.synPos with compPos := start, attrIdx := some idx }) :
      LoadObjected h0 base start idx (.err (e.andPosition pos), { b with parser := b.parser.setAborted pos })
  | panic {b : AP} : LoadObjected h0 base start idx (.panic .noToplevel, b)

theorem position_eq (s i : Nat) (a : AP) : position s i a =
    if a.parser.started ≠ [] ∧ a.parser.toplevel = 0 then (.panic .noToplevel, a) else (.ok { a.parser.synPos with compPos := s, attrIdx := some i }, a) := by
  by_cases hc : a.parser.started ≠ [] ∧ a.parser.toplevel = 0
  · rw [if_pos hc]
    simp only [position, M.bind_apply, par, M.zoom_apply, Parser.position, if_pos hc]
  · rw [if_neg hc]
    simp only [position, M.bind_apply, par, M.zoom_apply, Parser.position, if_neg hc]
    rfl

theorem load_eq {α : Type} {Z : Zlib} (a : AP) (bf : Bool) (l : Loader α) : load Z bf l a = match a.parser.health with
    | .finished => (.err (PErr.ofOp .alreadyFinished), a)
    | .aborted pos => (.err ⟨.op .alreadyAborted, some pos⟩, a)
    | .running => if a.attrs.rest ≤ a.attrs.total then match loadBody Z bf l a.attrs.next (a.attrs.total - a.attrs.rest) a with
        | (.ok v, a') => (.ok v, a')
        | (.panic x, a') => (.panic x, a')
        | (.err e, a') => match position a.attrs.next (a.attrs.total - a.attrs.rest) a' with
          | (.ok pos, a'') => (.err (e.andPosition pos), { a'' with parser := a''.parser.setAborted pos })
          | (.err e', a'') => (.err e', a'')
          | (.panic x, a'') => (.panic x, a'')
      else (.panic .attrIndexUnderflow, a) := by
  unfold load withHealthCheck
  refine (M.bind_apply _ _ _).trans ?_
  simp only [par, M.zoom_apply, Parser.ensureContinuable]
  cases a.parser.health with
  | finished => rfl
  | aborted pos => rfl
  | running =>
    simp only
    refine (M.bind_apply _ _ _).trans ?_
    simp only [M.get]
    refine (M.bind_apply _ _ _).trans ?_
    by_cases hc : a.attrs.rest ≤ a.attrs.total
    · simp only [M.assert, hc, decide_true, if_true]
      have he : (M.pure () { parser := a.parser, attrs := a.attrs } : Res PErr Unit × AP) = (.ok (), a) := rfl
      rw [he]
      simp only
      rcases loadBody Z bf l a.attrs.next (a.attrs.total - a.attrs.rest) a with ⟨_ | e | _, a'⟩
      · rfl
      · simp only
        rcases position a.attrs.next (a.attrs.total - a.attrs.rest) a' with ⟨_ | _ | _, _⟩ <;> rfl
      · rfl
    · simp only [M.assert, hc, decide_false, if_false, Bool.false_eq_true]
      rfl

theorem load_twin {α : Type} {Z : Zlib} {a b : AP} (h : Twin h0 base a b) (bf : Bool) (l : Loader α) :
    Agree (Twin h0 base) (load Z bf l a) (load Z bf l b) ∨ LoadObjected h0 base a.attrs.next (a.attrs.total - a.attrs.rest) (load Z bf l b) := by
  have e2 : b.parser.health = a.parser.health := by rw [h.1.2.1]
  rw [load_eq, load_eq, e2, h.2]
  cases a.parser.health with
  | finished => exact .inl ⟨rfl, h⟩
  | aborted pos => exact .inl ⟨rfl, h⟩
  | running =>
    simp only
    split
    · generalize a.attrs.next = s
      generalize a.attrs.total - a.attrs.rest = i
      have := loadBody_twin (Z := Z) h bf l s i
      rcases hp : loadBody Z bf l s i a with ⟨r, a'⟩
      rcases hq : loadBody Z bf l s i b with ⟨r', b'⟩
      rw [hp, hq] at this
      rcases this with ⟨h1, h2⟩ | ⟨e, h1, h2⟩
      · simp only at h1 h2
        subst h1
        cases r with
        | ok v => exact .inl ⟨rfl, h2⟩
        | panic x => exact .inl ⟨rfl, h2⟩
        | err e =>
          have e3 : b'.parser.synPos = a'.parser.synPos := by rw [h2.1.2.1]; rfl
          have e4 : b'.parser.started = a'.parser.started := by rw [h2.1.2.1]
          have e5 : b'.parser.toplevel = a'.parser.toplevel := by rw [h2.1.2.1]
          simp only [position_eq, e3, e4, e5]
          by_cases hc : a'.parser.started ≠ [] ∧ a'.parser.toplevel = 0
          · simp only [if_pos hc]; exact .inl ⟨rfl, h2⟩
          · simp only [if_neg hc]; exact .inl ⟨rfl, Parser.setHealth_twin h2.1 _, h2.2⟩
      · simp only at h1 h2
        subst h1
        simp only [position_eq]
        right
        by_cases hc : b'.parser.started ≠ [] ∧ b'.parser.toplevel = 0
        · simp only [if_pos hc]; exact .panic
        · simp only [if_neg hc]; exact .failed h2 rfl
    · exact .inl ⟨rfl, h⟩

end AP
end Fbx
