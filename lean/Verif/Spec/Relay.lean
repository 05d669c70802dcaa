import Verif.Spec.AnyRead

/-! # Loading from a source of any type -/

namespace Fbx.Spec
variable {ρ : Type}

/-- `AnyTree::from_seekable_reader` (or `from_reader`) on the source in state `x` ends and returns `r`. -/
def Loads (S : Source ρ) (tape : ρ → Tape) (Z : Zlib) (checks seekable : Bool) (x : ρ) (r : Res AnyTreeError (FbxVersion × Tree × Except PErr Footer)) : Prop :=
  ∃ fuel₀, ∀ fuel ≥ fuel₀, S.anyTree fuel Z checks seekable (tape x).rest (tape x).ending (tape x).pos (tape x).limit x = some r

end Fbx.Spec
