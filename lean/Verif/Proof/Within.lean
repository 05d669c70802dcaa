import Verif.Proof.AnyLoader
import Verif.Spec.Within

/-! # Loading within the bounds of a node -/

namespace Fbx
open Reader Parser Spec
variable {Z : Zlib} {α : Type}

theorem move_move (a : Ahead) (i j : Nat) : (a.move i).move j = a.move (i + j) := by
  simp only [Ahead.move, List.drop_drop, Nat.add_assoc]

theorem move_zero (a : Ahead) : a.move 0 = a := rfl

/-- A load which does not fail only moves forward. -/
theorem load_moves {L : Nat} (hL : L + 2 ^ 32 ≤ 2 ^ 64) {far : Nat} {s t : Client} (hi : CInv L s) (hrun : s.parser.health = .running) (ht : tolerant s.parser)
    (hm : s.parser.reader.skipping = .seeks far) {b : Bool} {l : Loader α} {o : Outcome α} (hc : s.call Z (.load b l) = some (o, t))
    (ho : o = .noValue ∨ ∃ v, o = .value v) :
    t.parser.health = .running ∧ t.parser.handler = s.parser.handler ∧ ∃ k, look t.parser = (look s.parser).move k := by
  cases ha : s.attrs with
  | none => simp only [Client.call, ha] at hc; cases hc
  | some a =>
    by_cases h0 : a.rest = 0
    · have hl := AP.load_none (Z := Z) b l ⟨s.parser, a⟩ hrun h0
      simp only [Client.call, ha, hl, Option.some.injEq, Prod.mk.injEq] at hc
      obtain ⟨-, rfl⟩ := hc
      exact ⟨hrun, rfl, 0, rfl⟩
    · obtain ⟨o', t', hc', hans, hhd⟩ := answers_loadFor (Z := Z) hL hi ha h0 hrun ht b l
      rw [hc] at hc'
      cases hc'
      rw [hm] at hans
      simp only [LoadAnswersFor] at hans
      rw [Spec.Ahead.skip_seeks] at hans
      split at hans
      · rename_i hx
        split at hx
        · cases hx
        · rw [hans.1] at ho
          rcases ho with h | ⟨v, h⟩ <;> cases h
      · rename_i hx
        split at hx
        · cases hx
          obtain ⟨h1, h2, h3⟩ := hans
          split at h3
          · exact ⟨h3.2.1, hhd, _, h1.trans (move_move _ _ _)⟩
          · rw [h3.1] at ho
            rcases ho with h | ⟨v, h⟩ <;> cases h
        · cases hx

theorem onlyLoads_calm {h : History α} (hl : onlyLoads h) : h.calm := by
  intro c x hm
  rcases (hl _ hm).2 with h | ⟨v, h⟩ <;> cases h

/-- Loads which do not fail only move forward. -/
theorem loads_move {L : Nat} (hL : L + 2 ^ 32 ≤ 2 ^ 64) {far : Nat} {s t : Client} {h : History α} (hr : Runs Z s h t) (hl : onlyLoads h) (hi : CInv L s)
    (hrun : s.parser.health = .running) (ht : tolerant s.parser) (hm : s.parser.reader.skipping = .seeks far) :
    t.parser.health = .running ∧ t.parser.handler = s.parser.handler ∧ ∃ k, look t.parser = (look s.parser).move k := by
  induction hr with
  | nil => exact ⟨hrun, rfl, 0, rfl⟩
  | @snoc h t u c o hr hn hc ih =>
    have hl1 : onlyLoads h := fun x hx => hl x (List.mem_append_left _ hx)
    obtain ⟨h1, h2, k, h3⟩ := ih hl1
    have h4 := hl (c, o) (by simp)
    cases c with
    | load b l =>
      obtain ⟨g1, g2, j, g3⟩ := load_moves hL (hr.inv hL hi (onlyLoads_calm hl1)) h1 (fun f hf => ht f (h2 ▸ hf))
        ((hr.source hL hi (onlyLoads_calm hl1)).1.trans hm) hc h4.2
      exact ⟨g1, g2.trans h2, k + j, by rw [g3, h3, move_move]⟩
    | next => cases h4.1
    | skip => cases h4.1
    | setHandler f => cases h4.1

/-- Within a node the document does not end. -/
theorem resume_goes {a : Ahead} {n : Started} {outer : List Started} (ho : a.opened = n :: outer) (c : Bool) : (a.resume c).1 ≠ .finishes := by
  have hh : (a.header c).1 ≠ .finishes := by
    simp only [Ahead.header, ho]
    split
    · simp
    · split
      · split <;> simp
      · simp only [Ahead.start]
        split
        · simp
        · split
          · simp
          · split <;> simp
  simp only [Ahead.resume, ho]
  split
  · simp
  · split
    · simp
    · exact hh

/-- The next event after loading within the bounds. -/
theorem next_within {far : Nat} {a : Ahead} {e : Ending} {checks : Bool} {n : Started} {outer : List Started} (ho : a.opened = n :: outer) {k : Nat}
    (hk : a.pos + k ≤ n.attrEnd) (hfar : n.attrEnd ≤ far) :
    (a.move k).nextFrom (.seeks far) e checks = (a.move (n.attrEnd - a.pos)).resume checks := by
  have h1 : (a.move k).unread = n.attrEnd - (a.pos + k) := by simp only [Ahead.unread, Ahead.move, ho]
  simp only [Ahead.nextFrom, h1, Spec.Ahead.skip_seeks]
  rw [if_pos (.inr (by simp only [Ahead.move]; omega))]
  simp only [move_move]
  rw [show k + (n.attrEnd - (a.pos + k)) = n.attrEnd - a.pos by omega]

end Fbx
