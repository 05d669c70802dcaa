import Verif.Proof.SimAttr
import Verif.Proof.Histories

/-! # Clients on related sources -/

namespace Fbx
open Reader Parser
variable {R : Reader → Reader → Prop} {E : Reader → Prop} {α : Type} {Z : Zlib}

/-- Clients with the same view on related sources. -/
def CRel (R : Reader → Reader → Prop) (s t : Client) : Prop := PRel R s.parser t.parser ∧ t.attrs = s.attrs

/-- Equal outcomes, or an escape that starts no node and ends the document only if the first client's document ends. -/
def CallSim (R : Reader → Reader → Prop) (E : Reader → Prop) : Option (Outcome α × Client) → Option (Outcome α × Client) → Prop
  | none, none => True
  | some (o, t), some (o', t') => (o' = o ∧ CRel R t t') ∨
      (E t'.parser.reader ∧ o'.isStart = false ∧ (o'.isEndFbx = true → o.isEndFbx = true))
  | _, _ => False

/-- The skips of the next call are related. -/
def SkipSim (R : Reader → Reader → Prop) (E : Reader → Prop) (s t : Client) : Call α → Prop
  | .next => ∀ n outer, s.parser.started = n :: outer → n.attrEnd > s.parser.reader.position →
      Sim false R E (skipTo n.attrEnd s.parser.reader) (skipTo n.attrEnd t.parser.reader)
  | .load _ _ => ∀ a, s.attrs = some a → a.rest ≠ 0 → s.parser.reader.position < a.next →
      Sim false R E (skipTo a.next s.parser.reader) (skipTo a.next t.parser.reader)
  | .skip => ∀ n outer, s.parser.started = n :: outer → Sim false R E (skipTo n.endOff s.parser.reader) (skipTo n.endOff t.parser.reader)
  | .setHandler _ => True

theorem attrsOf_rel (H : Related R E) {p q : Parser} (h : PRel R p q) : attrsOf q = attrsOf p := by
  simp only [attrsOf, AP.ofParser, h.started, H.pos h.2]
  cases p.started <;> rfl

theorem call_sim (H : Related R E) {L : Nat} (hL : L + 2 ^ 32 ≤ 2 ^ 64) {s t : Client} (h : CRel R s t) (hs : CInv L s) (c : Call α)
    (hk : SkipSim R E s t c) : CallSim R E (s.call Z c) (t.call Z c) := by
  cases c with
  | next =>
    have hf : ∀ p', nextEventImpl s.parser = (.ok .endFbx, p') → ∀ z u, readFooter { p' with health := .finished, last := some .endFbx } ≠ (.panic z, u) := by
      intro p' hp z u hx
      have hw : RInv L p'.reader := by
        by_cases hrun : s.parser.health = .running
        · have := wp_nextEventImpl hL hs.parser hrun (fun h => hs.last h hrun)
          simp only [M.wp, hp] at this
          exact this.2
        · exfalso
          have hn : nextEventImpl s.parser = (.panic .badState, s.parser) := by
            rw [nextEventImpl, M.get_bind]
            refine (M.bind_apply _ _ _).trans ?_
            simp [hrun]
          rw [hn] at hp
          cases hp
      have := wp_readFooter (L := L) (by omega) (p := { p' with health := .finished, last := some .endFbx }) hw
      simp only [M.wp, hx] at this
    have := nextEvent_sim H h.1 hk hf
    simp only [Client.call]
    generalize nextEvent s.parser = x at this
    generalize nextEvent t.parser = y at this
    obtain ⟨x, p⟩ := x
    obtain ⟨y, q⟩ := y
    rcases this with ⟨e1, e2⟩ | ⟨e1, e2⟩
    · simp only at e1 e2
      subst e1
      cases x with
      | ok ev =>
        refine .inl ⟨rfl, e2, ?_⟩
        cases ev with
        | startNode nm n => exact attrsOf_rel H e2
        | endNode => rfl
        | endFbx f => rfl
      | err e => exact .inl ⟨rfl, e2, rfl⟩
      | panic e => exact .inl ⟨rfl, e2, rfl⟩
    · have hx : ∀ o : Outcome α, o.isStart = false → o.isEndFbx = false → ∀ at_, CallSim R E (match (x, p) with
          | (.ok ev, p) => some (.event ev, ⟨p, match ev with | .startNode _ _ => attrsOf p | _ => none⟩)
          | (.err e, p) => some (.err e, ⟨p, none⟩)
          | (.panic x, p) => some (.panic x, ⟨p, none⟩)) (some (o, ⟨q, at_⟩)) := by
        intro o h1 h2 at_
        cases x <;> exact .inr ⟨e1, h1, fun h => by rw [h2] at h; cases h⟩
      cases y with
      | ok ev =>
        rcases e2 with e2 | e2 | ⟨⟨f, e2⟩, g, e3⟩
        · cases e2
        · cases e2; exact hx _ rfl rfl _
        · cases e2
          simp only at e3
          subst e3
          exact .inr ⟨e1, rfl, fun _ => rfl⟩
      | err e => exact hx _ rfl rfl _
      | panic e => exact hx _ rfl rfl _
  | load bf l =>
    obtain ⟨sp, sa⟩ := s
    obtain ⟨tp, ta⟩ := t
    have h2 : ta = sa := h.2
    subst h2
    cases ta with
    | none => exact trivial
    | some at_ =>
      have := AP.load_sim (Z := Z) (a := ⟨sp, at_⟩) (b := ⟨tp, at_⟩) H ⟨h.1, rfl⟩ bf l (hk at_ rfl)
      simp only [Client.call]
      generalize AP.load Z bf l ⟨sp, at_⟩ = x at this
      generalize AP.load Z bf l ⟨tp, at_⟩ = y at this
      obtain ⟨x, p⟩ := x
      obtain ⟨y, q⟩ := y
      rcases this with ⟨e1, e2⟩ | ⟨e1, e2⟩
      · simp only at e1 e2
        subst e1
        have e3 : some q.attrs = some p.attrs := by rw [e2.2]
        cases x with
        | ok v => cases v <;> exact .inl ⟨rfl, e2.1, e3⟩
        | err e => exact .inl ⟨rfl, e2.1, e3⟩
        | panic e => exact .inl ⟨rfl, e2.1, e3⟩
      · have hy : ∀ o : Outcome α, ∀ u, CallSim R E (some (o, u)) (match (y, q) with
            | (.ok (some v), a) => some (.value v, ⟨a.parser, some a.attrs⟩)
            | (.ok none, a) => some (.noValue, ⟨a.parser, some a.attrs⟩)
            | (.err e, a) => some (.err e, ⟨a.parser, some a.attrs⟩)
            | (.panic x, a) => some (.panic x, ⟨a.parser, some a.attrs⟩)) := by
          intro o u
          cases y with
          | ok v => cases v <;> exact .inr ⟨e1, rfl, fun h => nomatch h⟩
          | err e => exact .inr ⟨e1, rfl, fun h => nomatch h⟩
          | panic e => exact .inr ⟨e1, rfl, fun h => nomatch h⟩
        cases x with
        | ok v => cases v <;> exact hy _ _
        | err e => exact hy _ _
        | panic e => exact hy _ _
  | skip =>
    have := skipCurrentNode_sim h.1 hk
    simp only [Client.call]
    generalize skipCurrentNode s.parser = x at this
    generalize skipCurrentNode t.parser = y at this
    obtain ⟨x, p⟩ := x
    obtain ⟨y, q⟩ := y
    rcases this with ⟨e1, e2⟩ | ⟨e1, e2⟩
    · simp only at e1 e2
      subst e1
      cases x <;> exact .inl ⟨rfl, e2, rfl⟩
    · cases x <;> cases y <;> exact .inr ⟨e1, rfl, fun h => nomatch h⟩
  | setHandler g =>
    exact .inl ⟨rfl, h.1.map (Parser.setHandler g) (fun _ _ => rfl) (fun _ => rfl), rfl⟩

end Fbx
