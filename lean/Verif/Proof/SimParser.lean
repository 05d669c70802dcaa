import Verif.Proof.Sim

/-! # The parser on related sources -/

namespace Fbx
open Reader
namespace Parser

/-- The same parser on related sources. -/
def PRel (R : Reader → Reader → Prop) (p q : Parser) : Prop := q = { p with reader := q.reader } ∧ R p.reader q.reader

/-- The source has escaped. -/
def PEsc (E : Reader → Prop) (q : Parser) : Prop := E q.reader

variable {R : Reader → Reader → Prop} {E : Reader → Prop} {p q : Parser} {b : Bool}

theorem PRel.elim (h : PRel R p q) {C : Parser → Prop} (hc : ∀ r, R p.reader r → C { p with reader := r }) : C q := by
  rw [h.1]; exact hc _ h.2

theorem PRel.map (h : PRel R p q) (f : Parser → Parser) (hf : ∀ (p : Parser) (r : Reader), f { p with reader := r } = { f p with reader := r })
    (hr : ∀ p : Parser, (f p).reader = p.reader) : PRel R (f p) (f q) := by
  refine h.elim (C := fun q => PRel R (f p) (f q)) (fun r hr' => ?_)
  rw [hf p r]
  exact ⟨rfl, by rw [hr p]; exact hr'⟩

theorem PRel.started (h : PRel R p q) : q.started = p.started := by rw [h.1]
theorem PRel.last (h : PRel R p q) : q.last = p.last := by rw [h.1]
theorem PRel.version (h : PRel R p q) : q.version = p.version := by rw [h.1]
theorem PRel.health (h : PRel R p q) : q.health = p.health := by rw [h.1]
theorem PRel.toplevel (h : PRel R p q) : q.toplevel = p.toplevel := by rw [h.1]
theorem PRel.checks (h : PRel R p q) : q.checks = p.checks := by rw [h.1]
theorem PRel.handler (h : PRel R p q) : q.handler = p.handler := by rw [h.1]
theorem PRel.log (h : PRel R p q) : q.log = p.log := by rw [h.1]

theorem io_sim {α : Type} (h : PRel R p q) {m : M IoErr Reader α} (hm : Sim b R E (m p.reader) (m q.reader)) :
    Sim b (PRel R) (PEsc E) (io m p) (io m q) := by
  refine Sim.mapErr ?_
  simp only [M.zoom_apply]
  rcases hm with ⟨h1, h2⟩ | h1
  · refine .inl ⟨h1, ?_, h2⟩
    exact h.elim (C := fun q => ({ q with reader := (m q.reader).2 } : Parser) = { p with reader := (m q.reader).2 }) (fun _ _ => rfl)
  · exact .inr h1

theorem io_keeps {α : Type} {m : M IoErr Reader α} (hm : Keeps E m) : Keeps (PEsc E) (io m) :=
  .mapErr (.zoom hm (fun _ h => h) (fun _ _ h => h))

theorem warn_sim (h : PRel R p q) (w : Warning) (pos : SynPos) : Sim b (PRel R) (PEsc E) (warn w pos p) (warn w pos q) := by
  have h' : ∀ r, R p.reader r → PRel R { p with log := (w, pos) :: p.log } { p with reader := r, log := (w, pos) :: p.log } :=
    fun r hr => ⟨rfl, hr⟩
  refine h.elim (C := fun q => Sim b (PRel R) (PEsc E) (warn w pos p) (warn w pos q)) (fun r hr => ?_)
  obtain ⟨v, he, st, la, tl, rd, hd, lg, ch⟩ := p
  have h' := h' r hr
  simp only [warn]
  cases hd with
  | none => exact .inl ⟨rfl, h'⟩
  | some g =>
    simp only []
    generalize g lg w pos = o
    cases o with
    | none => exact .inl ⟨rfl, h'⟩
    | some e => exact .inl ⟨rfl, h'⟩

theorem warn_keeps (w : Warning) (pos : SynPos) : Keeps (PEsc E) (warn w pos) := by
  intro s h
  simp only [warn]
  split
  · exact h
  · split <;> exact h

theorem warnIf_keeps (c : Bool) (w : Warning) (pos : SynPos) : Keeps (PEsc E) (warnIf c w pos) := .ite (warn_keeps w pos) (.pure _)

theorem warnIf_sim (h : PRel R p q) (c : Bool) (w : Warning) (pos : SynPos) :
    Sim b (PRel R) (PEsc E) (warnIf c w pos p) (warnIf c w pos q) := by
  cases c
  · exact .pure _ h
  · exact warn_sim h w pos

theorem position_keeps : Keeps (PEsc E) (position) := by
  intro s h
  simp only [Parser.position]
  split <;> exact h

theorem ensure_keeps : Keeps (PEsc E) ensureContinuable := by
  intro s h
  simp only [ensureContinuable]
  split <;> exact h

theorem addAttrEnd_keeps (a c : Nat) : Keeps (PEsc E) (addAttrEnd a c) := by
  intro s h
  simp only [addAttrEnd]
  split
  · exact h
  · split <;> exact h

theorem pushNode_esc (n : Started) {s : Parser} (h : PEsc E s) : PEsc E (pushNode n s) := by
  simp only [pushNode]
  split <;> exact h

theorem addAttrEnd_sim (h : PRel R p q) (a c : Nat) : Sim b (PRel R) (PEsc E) (addAttrEnd a c p) (addAttrEnd a c q) := by
  simp only [addAttrEnd, h.checks]
  split
  · exact .inl ⟨rfl, h⟩
  · split <;> exact .inl ⟨rfl, h⟩

theorem ensure_sim (h : PRel R p q) : Sim b (PRel R) (PEsc E) (ensureContinuable p) (ensureContinuable q) := by
  simp only [ensureContinuable, h.health]
  cases p.health <;> exact .inl ⟨rfl, h⟩

theorem pushNode_rel (h : PRel R p q) (n : Started) : PRel R (pushNode n p) (pushNode n q) := by
  refine h.map (pushNode n) (fun p r => ?_) (fun p => ?_)
  · simp only [pushNode]; cases p.started <;> rfl
  · simp only [pushNode]; cases p.started <;> rfl

theorem setStarted_rel (h : PRel R p q) (s : List Started) : PRel R { p with started := s } { q with started := s } :=
  h.map (fun p => { p with started := s }) (fun _ _ => rfl) (fun _ => rfl)
theorem setHealth_rel (h : PRel R p q) (s : Health) : PRel R { p with health := s } { q with health := s } :=
  h.map (fun p => { p with health := s }) (fun _ _ => rfl) (fun _ => rfl)
theorem setLast_rel (h : PRel R p q) (s : Option EvKind) : PRel R { p with last := s } { q with last := s } :=
  h.map (fun p => { p with last := s }) (fun _ _ => rfl) (fun _ => rfl)

section
variable (H : Related R E)
include H

theorem synPos_rel (h : PRel R p q) : q.synPos = p.synPos := by
  have := H.pos h.2
  simp only [synPos, h.started, h.toplevel, this]

theorem position_sim (h : PRel R p q) : Sim b (PRel R) (PEsc E) (position p) (position q) := by
  simp only [Parser.position, synPos_rel H h, h.started, h.toplevel]
  split <;> exact .inl ⟨rfl, h⟩

theorem readNodeHeader_sim (h : PRel R p q) : Sim true (PRel R) (PEsc E) (readNodeHeader p) (readNodeHeader q) := by
  simp only [readNodeHeader]
  refine .get ?_
  simp only [h.version]
  refine .bind (io_sim h (H.readLe _ h.2)) fun _ _ _ h => .bind (io_sim h (H.readLe _ h.2)) fun _ _ _ h => .bind (io_sim h (H.readLe _ h.2)) fun _ _ _ h =>
    .bind (io_sim h (H.readLe _ h.2)) fun _ _ _ h => .pure _ h

theorem readNodeHeader_keeps : Keeps (PEsc E) readNodeHeader :=
  .bind .get fun _ => .bind (io_keeps (H.keepLe _)) fun _ => .bind (io_keeps (H.keepLe _)) fun _ => .bind (io_keeps (H.keepLe _)) fun _ =>
    .bind (io_keeps (H.keepLe _)) fun _ => .pure _

theorem skipUnread_sim (h : PRel R p q)
    (hs : ∀ n outer, p.started = n :: outer → n.attrEnd > p.reader.position → Sim b R E (skipTo n.attrEnd p.reader) (skipTo n.attrEnd q.reader)) :
    Sim b (PRel R) (PEsc E) (skipUnreadAttributes p) (skipUnreadAttributes q) := by
  rw [skipUnreadAttributes]
  refine .get ?_
  simp only [h.started, H.pos h.2]
  cases hst : p.started with
  | nil => exact .pure _ h
  | cons n r => exact .ite (fun hg => io_sim h (hs n r hst hg)) (fun _ => .pure _ h)

theorem tryImplicitEnd_sim (h : PRel R p q) : Sim true (PRel R) (PEsc E) (tryImplicitEnd p) (tryImplicitEnd q) := by
  rw [tryImplicitEnd]
  refine .get ?_
  simp only [h.started, H.pos h.2, h.last]
  cases p.started with
  | nil => exact .pure _ h
  | cons n r =>
    refine .ite (fun _ => .throw _ h) fun _ => .ite (fun _ => ?_) (fun _ => .pure _ h)
    refine .ite (fun _ => ?_) (fun _ => ?_)
    · exact .bind (position_sim H h) fun _ _ _ h => .bind (warn_sim h _ _) fun _ _ _ h =>
        .bind (.modify (setStarted_rel h r)) fun _ _ _ h => .pure _ h
    · exact .bind (.modify (setStarted_rel h r)) fun _ _ _ h => .pure _ h

omit H in
theorem tryImplicitEnd_keeps : Keeps (PEsc E) tryImplicitEnd := by
  refine .bind .get fun p => ?_
  cases p.started with
  | nil => exact .pure _
  | cons n r =>
    refine .ite (.throw _) (.ite ?_ (.pure _))
    refine .ite ?_ ?_
    · exact .bind position_keeps fun _ => .bind (warn_keeps _ _) fun _ => .bind (.modify fun _ h => h) fun _ => .pure _
    · exact .bind (.modify fun _ h => h) fun _ => .pure _

theorem explicitEnd_sim (h : PRel R p q) : Sim true (PRel R) (PEsc E) (explicitEnd p) (explicitEnd q) := by
  have hpos := H.pos h.2
  rw [explicitEnd]
  refine .get ?_
  simp only [h.started, hpos]
  cases p.started with
  | nil => exact .pure _ h
  | cons n r =>
    refine .bind (.set (setStarted_rel h r)) fun _ _ _ h => ?_
    refine .ite (fun _ => .throw _ h) fun _ => .ite (fun _ => ?_) (fun _ => .pure _ h)
    exact .bind (position_sim H h) fun _ _ _ h => .bind (warn_sim h _ _) fun _ _ _ h => .pure _ h

omit H in
theorem explicitEnd_keeps : Keeps (PEsc E) explicitEnd := by
  intro s hs
  rw [explicitEnd, M.get_bind]
  cases s.started with
  | nil => exact hs
  | cons n r =>
    refine Keeps.bind (m := M.set { s with started := r }) (fun _ _ => hs) (fun _ => ?_) s hs
    refine .ite (.throw _) (.ite ?_ (.pure _))
    exact .bind position_keeps fun _ => .bind (warn_keeps _ _) fun _ => .pure _

theorem warnEmptyName_sim (h : PRel R p q) (s : Nat) : Sim true (PRel R) (PEsc E) (warnEmptyName s p) (warnEmptyName s q) := by
  rw [warnEmptyName]
  refine .bind (position_sim H h) fun pos p q h => .get ?_
  simp only [h.started, H.pos h.2, h.toplevel]
  exact warn_sim h _ _

omit H in
theorem warnEmptyName_keeps (s : Nat) : Keeps (PEsc E) (warnEmptyName s) :=
  .bind position_keeps fun _ => .bind .get fun _ => warn_keeps _ _

/-- `startNode` after the warning. -/
def namePart (s : Nat) (hd : NodeHeader) : M PErr Parser EvKind := do
  let bs ← io (Reader.readExact hd.nameLen)
  match stringOfUtf8 bs with
  | none => M.throw (PErr.ofData .invalidNodeNameEncoding)
  | some name => do
    let p ← M.get
    let attrEnd ← addAttrEnd p.reader.position hd.bytelenAttrs
    M.modify (pushNode
      { startOff := s, endOff := hd.endOffset, attrCount := hd.numAttrs, attrEnd, name, kids := 0 })
    pure .startNode

theorem namePart_sim (h : PRel R p q) (s : Nat) (hd : NodeHeader) : Sim true (PRel R) (PEsc E) (namePart s hd p) (namePart s hd q) := by
  refine .bind (io_sim h (H.exact_ _ h.2)) fun bs p q h => ?_
  cases stringOfUtf8 bs with
  | none => exact .throw _ h
  | some name =>
    refine .get ?_
    simp only [H.pos h.2]
    exact .bind (addAttrEnd_sim h _ _) fun _ _ _ h => .bind (.modify (pushNode_rel h _)) fun _ _ _ h => .pure _ h

theorem namePart_keeps (s : Nat) (hd : NodeHeader) : Keeps (PEsc E) (namePart s hd) := by
  refine .bind (io_keeps (H.keepExact _)) fun bs => ?_
  cases stringOfUtf8 bs with
  | none => exact .throw _
  | some name => exact .bind .get fun _ => .bind (addAttrEnd_keeps _ _) fun _ => .bind (.modify fun _ h => pushNode_esc _ h) fun _ => .pure _

theorem startNode_sim (h : PRel R p q) (s : Nat) (hd : NodeHeader) : Sim true (PRel R) (PEsc E) (startNode s hd p) (startNode s hd q) := by
  rw [startNode]
  refine .ite (fun _ => ?_) (fun _ => ?_)
  · exact .bind (warnEmptyName_sim H h _) fun _ _ _ h => namePart_sim H h s hd
  · exact namePart_sim H h s hd

theorem startNode_keeps (s : Nat) (hd : NodeHeader) : Keeps (PEsc E) (startNode s hd) := by
  rw [startNode]
  exact .ite (.bind (warnEmptyName_keeps _) fun _ => namePart_keeps H s hd) (namePart_keeps H s hd)

/-- `nextEventImpl` after the unread attributes. -/
def eventPart : M PErr Parser EvKind := do
  let p ← M.get
  let start := p.reader.position
  let ended ← tryImplicitEnd
  if ended then pure .endNode
  else do
    let h ← readNodeHeader
    if h.isNodeEnd then explicitEnd else startNode start h

theorem eventPart_sim (h : PRel R p q) : Sim true (PRel R) (PEsc E) (eventPart p) (eventPart q) := by
  refine .get ?_
  simp only [H.pos h.2]
  refine .bind (tryImplicitEnd_sim H h) fun b p q h => .ite (fun _ => .pure _ h) fun _ => ?_
  exact .bind (readNodeHeader_sim H h) fun hd p q h => .ite (fun _ => explicitEnd_sim H h) (fun _ => startNode_sim H h _ _)

theorem eventPart_keeps : Keeps (PEsc E) eventPart :=
  .bind .get fun _ => .bind tryImplicitEnd_keeps fun _ => .ite (.pure _) (.bind (readNodeHeader_keeps H) fun _ => .ite explicitEnd_keeps (startNode_keeps H _ _))

/-- Parser and source, or only the source. -/
theorem nextEventImpl_sim (h : PRel R p q)
    (hs : ∀ n outer, p.started = n :: outer → n.attrEnd > p.reader.position → Sim true R E (skipTo n.attrEnd p.reader) (skipTo n.attrEnd q.reader)) :
    Sim true (PRel R) (PEsc E) (nextEventImpl p) (nextEventImpl q) := by
  rw [nextEventImpl]
  refine .get ?_
  simp only [h.health, h.last]
  exact .assertThen _ _ h (.assertThen _ _ h (.bind (skipUnread_sim H h hs) fun _ _ _ h => eventPart_sim H h))

theorem readNodeHeader_esc (h : PEsc E q) : (readNodeHeader q).1.isOk = false := by
  have hw : 0 < (if q.version < 7500 then 4 else 8) := by split <;> omega
  have := H.esc (if q.version < 7500 then 4 else 8) h hw
  rw [readNodeHeader, M.get_bind]
  simp only [M.bind_apply, Parser.io, M.mapErr_apply, M.zoom_apply, Reader.readLe]
  generalize hx : readExact (if q.version < 7500 then 4 else 8) q.reader = x at this
  obtain ⟨x, r⟩ := x
  cases x with
  | ok b => simp [Res.isOk] at this
  | err e => rfl
  | panic e => rfl

theorem eventPart_esc (h : PEsc E q) {k : EvKind} {q' : Parser} (hk : eventPart q = (.ok k, q')) : k = .endNode := by
  rw [eventPart, M.get_bind, M.bind_apply] at hk
  have h1 := tryImplicitEnd_keeps q h
  generalize tryImplicitEnd q = x at hk h1
  obtain ⟨x, q1⟩ := x
  cases x with
  | ok e =>
    cases e with
    | true => cases hk; rfl
    | false =>
      have h2 := readNodeHeader_esc H h1
      have hk : (readNodeHeader >>= fun h => if h.isNodeEnd then explicitEnd else startNode q.reader.position h) q1 = (.ok k, q') := hk
      rw [M.bind_apply] at hk
      generalize readNodeHeader q1 = x at hk h2
      obtain ⟨x, q2⟩ := x
      cases x with
      | ok b => simp [Res.isOk] at h2
      | err e => cases hk
      | panic e => cases hk
  | err e => cases hk
  | panic e => cases hk

/-- Agreement, or an escape that at most ends a node. -/
def StepSim (R : Reader → Reader → Prop) (E : Reader → Prop) (x y : Res PErr EvKind × Parser) : Prop :=
  Agree (PRel R) x y ∨ (PEsc E y.2 ∧ (y.1.isOk = false ∨ y.1 = .ok .endNode))

theorem nextEventImpl_step (h : PRel R p q)
    (hs : ∀ n outer, p.started = n :: outer → n.attrEnd > p.reader.position → Sim false R E (skipTo n.attrEnd p.reader) (skipTo n.attrEnd q.reader)) :
    StepSim R E (nextEventImpl p) (nextEventImpl q) := by
  have lift : ∀ {x y : Res PErr EvKind × Parser}, Sim true (PRel R) (PEsc E) x y → StepSim R E x y := by
    rintro x y (h | ⟨h1, h2⟩)
    · exact .inl h
    · exact .inr ⟨h1, .inl (h2 rfl)⟩
  have key : StepSim R E ((skipUnreadAttributes >>= fun _ => eventPart) p) ((skipUnreadAttributes >>= fun _ => eventPart) q) := by
    have hsk := skipUnread_sim H h hs
    rw [M.bind_apply, M.bind_apply]
    generalize skipUnreadAttributes p = x at hsk
    generalize skipUnreadAttributes q = y at hsk
    obtain ⟨x, p1⟩ := x
    obtain ⟨y, q1⟩ := y
    rcases hsk with ⟨e1, e2⟩ | ⟨e1, _⟩
    · simp only at e1 e2
      subst e1
      cases x with
      | ok u => exact lift (eventPart_sim H e2)
      | err e => exact .inl ⟨rfl, e2⟩
      | panic e => exact .inl ⟨rfl, e2⟩
    · cases y with
      | ok u =>
        refine .inr ⟨eventPart_keeps H q1 e1, ?_⟩
        rcases hk : eventPart q1 with ⟨k, q2⟩
        show (eventPart q1).1.isOk = false ∨ (eventPart q1).1 = .ok .endNode
        rw [hk]
        cases k with
        | ok k => exact .inr (congrArg Res.ok (eventPart_esc H e1 hk))
        | err e => exact .inl rfl
        | panic e => exact .inl rfl
      | err e => exact .inr ⟨e1, .inl rfl⟩
      | panic e => exact .inr ⟨e1, .inl rfl⟩
  have hn : ∀ p : Parser, nextEventImpl p = (M.assert (decide (p.health = .running)) .badState >>= fun _ =>
      M.assert (decide (p.last ≠ some .endFbx)) .badState >>= fun _ => skipUnreadAttributes >>= fun _ => eventPart : M PErr Parser EvKind) p := fun _ => rfl
  rw [hn, hn, h.health, h.last]
  cases decide (p.health = .running)
  · exact .inl ⟨rfl, h⟩
  · cases decide (p.last ≠ some .endFbx)
    · exact .inl ⟨rfl, h⟩
    · exact key

theorem skipUnread_keeps : Keeps (PEsc E) skipUnreadAttributes := by
  refine .bind .get fun p => ?_
  cases p.started with
  | nil => exact .pure _
  | cons n r => exact .ite (io_keeps (H.keepSkip _)) (.pure _)

theorem nextEventImpl_keeps : Keeps (PEsc E) nextEventImpl :=
  .bind .get fun _ => .bind (.assert _ _) fun _ => .bind (.assert _ _) fun _ => .bind (skipUnread_keeps H) fun _ => eventPart_keeps H

/-! ## Footer -/

theorem readFooter_sim (h : PRel R p q) : Sim true (PRel R) (PEsc E) (readFooter p) (readFooter q) := by
  rw [readFooter]
  refine .get ?_
  simp only [H.pos h.2]
  refine .bind (io_sim h (H.exact_ _ h.2)) fun u1 p1 q1 h => .get ?_
  simp only [H.pos h.2]
  refine .bind (warnIf_sim h _ _ _) fun _ _ _ h => .bind (io_sim h (H.exact_ _ h.2)) fun buf _ _ h => ?_
  cases (buf.drop 128).findIdx? (fun x => decide (x ≠ 0)) with
  | none => exact .throw _ h
  | some i =>
    refine .bind (.assert _ _ h) fun _ _ _ h => .bind (.assert _ _ h) fun _ p2 q2 h => ?_
    refine .ite (fun _ => .throw _ h) fun _ => .ite (fun _ => .throw _ h) fun _ => .get ?_
    simp only [h.version]
    refine .ite (fun _ => .throw _ h) fun _ => .ite (fun _ => .throw _ h) fun _ => .bind (io_sim h (H.exact_ _ h.2)) fun _ _ _ h => ?_
    exact .ite (fun _ => .throw _ h) fun _ => .bind (warnIf_sim h _ _ _) fun _ _ _ h => .pure _ h

theorem readFooter_keeps : Keeps (PEsc E) readFooter := by
  rw [readFooter]
  refine .bind .get fun _ => .bind (io_keeps (H.keepExact _)) fun _ => .bind .get fun _ => .bind (warnIf_keeps _ _ _) fun _ =>
    .bind (io_keeps (H.keepExact _)) fun buf => ?_
  cases (buf.drop 128).findIdx? (fun x => decide (x ≠ 0)) with
  | none => exact .throw _
  | some i =>
    refine .bind (.assert _ _) fun _ => .bind (.assert _ _) fun _ => .ite (.throw _) (.ite (.throw _) (.bind .get fun _ => ?_))
    exact .ite (.throw _) (.ite (.throw _) (.bind (io_keeps (H.keepExact _)) fun _ => .ite (.throw _) (.bind (warnIf_keeps _ _ _) fun _ => .pure _)))

/-! ## Events -/

/-- The two results of `next_event`: equal, or the second source has escaped, which only allows the end of a node, a
failure, or the end of the document for both. -/
def EventSim (R : Reader → Reader → Prop) (E : Reader → Prop) (x y : Res PErr Event × Parser) : Prop :=
  Agree (PRel R) x y ∨ (PEsc E y.2 ∧ (y.1.isOk = false ∨ y.1 = .ok .endNode ∨ (∃ f, y.1 = .ok (.endFbx f)) ∧ ∃ f, x.1 = .ok (.endFbx f)))

theorem makeEvent_sim (h : PRel R p q) (k : EvKind) (hf : k = .endFbx → ∀ z s, readFooter p ≠ (.panic z, s)) : Agree (PRel R) (makeEvent k p) (makeEvent k q) ∨
    (PEsc E (makeEvent k q).2 ∧ ((makeEvent k q).1.isOk = false ∨ (∃ f, (makeEvent k q).1 = .ok (.endFbx f)) ∧ ∃ f, (makeEvent k p).1 = .ok (.endFbx f))) := by
  cases k with
  | startNode =>
    simp only [makeEvent, h.started]
    cases p.started <;> exact .inl ⟨rfl, h⟩
  | endNode => exact .inl ⟨rfl, h⟩
  | endFbx =>
    have hr := readFooter_sim H h
    simp only [makeEvent]
    have hf := hf rfl
    generalize readFooter p = x at hr hf
    generalize readFooter q = y at hr
    obtain ⟨x, p1⟩ := x
    obtain ⟨y, q1⟩ := y
    rcases hr with ⟨e1, e2⟩ | ⟨e1, e2⟩
    · simp only at e1 e2
      subst e1
      cases x <;> exact .inl ⟨rfl, e2⟩
    · cases y with
      | ok u => exact absurd (e2 rfl) (by simp [Res.isOk])
      | err e =>
        refine .inr ⟨e1, .inr ⟨⟨_, rfl⟩, ?_⟩⟩
        cases x with
        | ok u => exact ⟨_, rfl⟩
        | err u => exact ⟨_, rfl⟩
        | panic u => exact absurd rfl (hf _ _)
      | panic e => exact .inr ⟨e1, .inl rfl⟩

/-- `nextEvent` after the health check. -/
def eventTail (d : Nat) : M PErr Parser Event := fun p => match nextEventImpl p with
    | (.panic x, p') => (.panic x, p')
    | (.err e, p') => match Parser.position p' with
      | (.ok pos, p'') => (.err (e.andPosition pos), p''.setAborted pos)
      | (.err e', p'') => (.err e', p'')
      | (.panic x, p'') => (.panic x, p'')
    | (.ok k, p') =>
      let p1 := if k = .endFbx then { p' with health := .finished } else p'
      let p2 := { p1 with last := some k }
      if depthOk k d p2.depth then makeEvent k p2 else (.panic .depthAssert, p2)

theorem nextEvent_sim (h : PRel R p q)
    (hs : ∀ n outer, p.started = n :: outer → n.attrEnd > p.reader.position → Sim false R E (skipTo n.attrEnd p.reader) (skipTo n.attrEnd q.reader))
    (hf : ∀ p', nextEventImpl p = (.ok .endFbx, p') → ∀ z s, readFooter { p' with health := .finished, last := some .endFbx } ≠ (.panic z, s)) :
    EventSim R E (nextEvent p) (nextEvent q) := by
  have hn : ∀ p : Parser, nextEvent p = (ensureContinuable >>= fun _ => eventTail p.depth) p := fun _ => rfl
  have hd : q.depth = p.depth := by simp only [depth, h.started]
  rw [hn, hn, hd]
  generalize p.depth = d
  rw [M.bind_apply, M.bind_apply]
  simp only [ensureContinuable, h.health]
  cases hh : p.health with
  | finished => exact .inl ⟨rfl, h⟩
  | aborted pos => exact .inl ⟨rfl, h⟩
  | running =>
    simp only [eventTail]
    have hst := nextEventImpl_step H h hs
    generalize nextEventImpl p = x at hst hf
    generalize nextEventImpl q = y at hst
    obtain ⟨x, p1⟩ := x
    obtain ⟨y, q1⟩ := y
    rcases hst with ⟨e1, e2⟩ | ⟨e1, e2⟩
    · simp only at e1 e2
      subst e1
      cases x with
      | panic z => exact .inl ⟨rfl, e2⟩
      | err e =>
        have hp := position_sim (b := true) H e2
        simp only []
        generalize Parser.position p1 = x at hp
        generalize hy : Parser.position q1 = y at hp
        obtain ⟨x, p2⟩ := x
        obtain ⟨y, q2⟩ := y
        have hk := position_keeps (E := E) q1
        rw [hy] at hk
        rcases hp with ⟨e1, e2⟩ | ⟨e1, e2⟩
        · simp only at e1 e2
          subst e1
          cases x with
          | ok pos => exact .inl ⟨rfl, setHealth_rel e2 _⟩
          | err e => exact .inl ⟨rfl, e2⟩
          | panic e => exact .inl ⟨rfl, e2⟩
        · cases y with
          | ok pos => exact absurd (e2 rfl) (by simp [Res.isOk])
          | err e => exact .inr ⟨e1, .inl rfl⟩
          | panic e => exact .inr ⟨e1, .inl rfl⟩
      | ok k =>
        simp only []
        have h3 : PRel R { (if k = .endFbx then { p1 with health := .finished } else p1) with last := some k }
            { (if k = .endFbx then { q1 with health := .finished } else q1) with last := some k } := by
          split
          · exact setLast_rel (setHealth_rel e2 _) _
          · exact setLast_rel e2 _
        have hf' : k = .endFbx → ∀ z s, readFooter { (if k = .endFbx then { p1 with health := .finished } else p1) with last := some k } ≠ (.panic z, s) := by
          rintro rfl
          exact hf p1 rfl
        generalize ({ (if k = .endFbx then { p1 with health := .finished } else p1) with last := some k } : Parser) = p2 at h3 hf'
        generalize ({ (if k = .endFbx then { q1 with health := .finished } else q1) with last := some k } : Parser) = q2 at h3
        have hd : q2.depth = p2.depth := by simp only [depth, h3.started]
        rw [hd]
        split
        · rcases makeEvent_sim H h3 k hf' with h4 | ⟨h4, h5⟩
          · exact .inl h4
          · exact .inr ⟨h4, h5.imp id .inr⟩
        · exact .inl ⟨rfl, h3⟩
    · cases y with
      | panic z => exact .inr ⟨e1, .inl rfl⟩
      | err e =>
        simp only []
        have hk := position_keeps (E := E) q1 e1
        generalize Parser.position q1 = y at hk
        obtain ⟨y, q2⟩ := y
        cases y <;> exact .inr ⟨hk, .inl rfl⟩
      | ok k =>
        rcases e2 with e2 | e2
        · cases e2
        · simp only [Res.ok.injEq] at e2
          subst e2
          have : ∀ X, EventSim R E X (if depthOk .endNode d ({ q1 with last := some .endNode } : Parser).depth then
              makeEvent .endNode { q1 with last := some .endNode } else (.panic .depthAssert, { q1 with last := some .endNode })) := by
            intro X
            split
            · exact .inr ⟨e1, .inr (.inl rfl)⟩
            · exact .inr ⟨e1, .inl rfl⟩
          exact this _

omit H in
theorem skipCurrentNode_sim (h : PRel R p q)
    (hs : ∀ n outer, p.started = n :: outer → Sim b R E (skipTo n.endOff p.reader) (skipTo n.endOff q.reader)) :
    Sim b (PRel R) (PEsc E) (skipCurrentNode p) (skipCurrentNode q) := by
  rw [skipCurrentNode]
  refine .get ?_
  simp only [h.started]
  cases hst : p.started with
  | nil => exact .panic _ h
  | cons n r =>
    have h' := setLast_rel (setStarted_rel h r) (some .endNode)
    exact io_sim (p := { p with started := r, last := some .endNode }) h' (hs n r hst)

end
end Parser
end Fbx
