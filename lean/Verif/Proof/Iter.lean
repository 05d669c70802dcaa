import Verif.Proof.Histories
import Verif.Spec.Iter

/-! # Attribute iterators: one call of `next` -/

namespace Fbx
open Reader Parser
variable {α : Type} {Z : Zlib}

namespace AP

/-- The loaders after one was taken. -/
def Loaders.tail (ls : Loaders α) : Loaders α := { ls with used := ls.used + 1 }

theorem iterNext_eq (b : Bool) (a : AP) (ls : Loaders α) : iterNext Z b (a, ls) = match ls.get ls.used with
    | none => (.ok none, (a, ls.tail))
    | some l => pulled ls (load Z false l a) := by
  cases b <;> rfl

/-- The effect of one call of `next`. -/
inductive Pulled (L : Nat) (a : AP) (ls : Loaders α) : Option (Except PErr α) → AP → Prop where
  | ended (h : ls.get ls.used = none) : Pulled L a ls none a
  | noMore (hs : (ls.get ls.used).isSome) (hrun : a.parser.health = .running) (h0 : a.attrs.rest = 0) : Pulled L a ls none a
  | value {v : α} {c : AP} (hs : (ls.get ls.used).isSome) (hrun : a.parser.health = .running) (hr : Reads1 L a c) : Pulled L a ls (some (.ok v)) c
  | refused {e : PErr} (hs : (ls.get ls.used).isSome) (hr : Refused a.parser e) : Pulled L a ls (some (.error e)) a
  | failed {e : PErr} {c : AP} {pos : SynPos} (hs : (ls.get ls.used).isSome) (hrun : a.parser.health = .running) (hr : Reads L a c ∨ Reads1 L a c)
      (he : e.pos = some pos) : Pulled L a ls (some (.error e)) { c with parser := c.parser.setAborted pos }

theorem iterNext_pulled {L : Nat} (hL : L + 2 ^ 32 ≤ 2 ^ 64) {a : AP} (ha : AInv L a) (b : Bool) (ls : Loaders α) :
    ∃ x c, iterNext Z b (a, ls) = (.ok x, (c, ls.tail)) ∧ Pulled L a ls x c := by
  rw [iterNext_eq]
  cases hl : ls.get ls.used with
  | none => exact ⟨none, a, rfl, .ended hl⟩
  | some l =>
    have hs : (ls.get ls.used).isSome := by rw [hl]; rfl
    have hw := wp_load (Z := Z) hL ha false l
    simp only [M.wp] at hw
    simp only []
    rcases hx : load Z false l a with ⟨x, c⟩
    rw [hx] at hw
    cases x with
    | ok v =>
      cases v with
      | none =>
        obtain ⟨h1, h2, rfl⟩ := hw
        exact ⟨none, c, rfl, .noMore hs h1 h2⟩
      | some v => exact ⟨_, _, rfl, .value hs hw.1 hw.2⟩
    | err e =>
      rcases hw with ⟨rfl, h2⟩ | ⟨h1, c', h2, pos, h3, h4, h5⟩
      · exact ⟨_, _, rfl, .refused hs h2⟩
      · subst h4
        exact ⟨_, _, rfl, .failed hs h1 h2 h5⟩
    | panic x => exact hw.elim

theorem Pulled.inv {L : Nat} {a c : AP} {ls : Loaders α} {x : Option (Except PErr α)} (h : Pulled L a ls x c) (ha : AInv L a) :
    AInv L c ∧ c.attrs.total = a.attrs.total ∧ c.attrs.rest ≤ a.attrs.rest ∧ a.attrs.rest ≤ c.attrs.rest + 1 ∧
      (itemOk x = true → c.attrs.rest + 1 = a.attrs.rest) := by
  have key : ∀ {c : AP}, Reads L a c ∨ Reads1 L a c → AInv L c ∧ c.attrs.total = a.attrs.total ∧ c.attrs.rest ≤ a.attrs.rest ∧ a.attrs.rest ≤ c.attrs.rest + 1 := by
    intro c hr
    rcases hr with hr | hr
    · refine ⟨hr.inv ha, hr.2.1, by rw [hr.2.2.1]; exact Nat.le_refl _, by rw [hr.2.2.1]; omega⟩
    · obtain ⟨h1, h2, h3, h4, h5⟩ := hr
      refine ⟨⟨h1.inv ha.parser h4, by have := ha.rest; omega, h5⟩, h2, by omega, by omega⟩
  cases h with
  | ended h => exact ⟨ha, rfl, Nat.le_refl _, by omega, fun h => by cases h⟩
  | noMore hs hrun h0 => exact ⟨ha, rfl, Nat.le_refl _, by omega, fun h => by cases h⟩
  | value hs hrun hr =>
    obtain ⟨h1, h2, h3, h4⟩ := key (.inr hr)
    exact ⟨h1, h2, h3, h4, fun _ => hr.2.2.1⟩
  | refused hs hr => exact ⟨ha, rfl, Nat.le_refl _, by omega, fun h => by cases h⟩
  | failed hs hrun hr he =>
    obtain ⟨h1, h2, h3, h4⟩ := key hr
    exact ⟨⟨⟨h1.parser.reader, h1.parser.top, h1.parser.ends⟩, h1.rest, h1.next⟩, h2, h3, h4, fun h => by cases h⟩

theorem pulls_succ {L : Nat} (hL : L + 2 ^ 32 ≤ 2 ^ 64) {a : AP} (ha : AInv L a) (b : Bool) (ls : Loaders α) (n : Nat) :
    ∃ x c, Pulled L a ls x c ∧ pulls Z b (n + 1) (a, ls) = (pulls Z b n (c, ls.tail)).map (fun y => (x :: y.1, y.2)) := by
  obtain ⟨x, c, h1, h2⟩ := iterNext_pulled (Z := Z) hL ha b ls
  exact ⟨x, c, h2, by simp only [pulls, h1]⟩

theorem pulls_cons {L : Nat} (hL : L + 2 ^ 32 ≤ 2 ^ 64) {a : AP} (ha : AInv L a) {b : Bool} {ls : Loaders α} {n : Nat} {xs t}
    (h : pulls Z b (n + 1) (a, ls) = some (xs, t)) : ∃ x c ys, Pulled L a ls x c ∧ xs = x :: ys ∧ pulls Z b n (c, ls.tail) = some (ys, t) := by
  obtain ⟨x, c, h1, h2⟩ := pulls_succ (Z := Z) hL ha b ls n
  rw [h2] at h
  cases hp : pulls Z b n (c, ls.tail) with
  | none => rw [hp] at h; cases h
  | some y =>
    rw [hp] at h
    cases h
    exact ⟨x, c, y.1, h1, rfl, hp⟩

end AP

theorem Held.inv {a : AP} (h : Held Z a) : ∃ L, L + 2 ^ 32 ≤ 2 ^ 64 ∧ AP.AInv L a ∧ a.attrs.total < 2 ^ 64 := by
  obtain ⟨β, p, bytes, h, s, h1, h2, h3, h4, h5, h6⟩ := h
  obtain ⟨hi, hL⟩ := open_inv h1 h2
  have hc := h3.inv hL hi h4
  obtain ⟨i1, i2, n, outer, i3, i4⟩ := hc.attrs _ h5
  refine ⟨_, hL, ⟨h6 ▸ hc.parser, i1, i2⟩, ?_⟩
  rw [← i4]
  exact (hc.parser.ends n (by rw [i3]; simp)).2.2

end Fbx
