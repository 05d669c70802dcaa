import Verif.Model.Chunked

/-! # Results of the std loops over short reads: specification vocabulary -/

namespace Fbx.Spec

/-- The device does not return `Interrupted` for ever. -/
def Fair (σ : Schedule) : Prop := ∀ i, ∃ j, σ (i + j) ≠ .interrupted

/-- The loop (given as a function of the fuel) terminates, and it returns what the call `m` on the whole source `r` returns
and, unless that is a panic, leaves the source in the same state. -/
def Same {β : Type} (loop : Nat → Option (Res IoErr β × Chunked)) (m : Res IoErr β × Reader) : Prop :=
  ∃ fuel₀, ∀ fuel ≥ fuel₀, ∃ c, loop fuel = some (m.1, c) ∧ ((∀ x, m.1 ≠ .panic x) → c.reader = m.2)

end Fbx.Spec
