import Verif.Spec.AnyLoader

/-! # Loading within the bounds of a node -/

namespace Fbx.Spec
variable {α : Type}

/-- Only calls of `load_next` or `load_next_buffered`, none of which fails. -/
def onlyLoads (h : History α) : Prop := ∀ x ∈ h, x.1.isLoad = true ∧ (x.2 = .noValue ∨ ∃ v, x.2 = .value v)

/-- Nothing was read beyond the end of the attributes which the header of the current node declares. -/
def within (p : Parser) : Prop := ∃ n outer, p.started = n :: outer ∧ p.reader.position ≤ n.attrEnd

/-- The source can seek as far as the end of the attributes of the current node. -/
def reaches (p : Parser) (far : Nat) : Prop := ∃ n outer, p.started = n :: outer ∧ n.attrEnd ≤ far

end Fbx.Spec
