import Verif.Spec.Shaky
import Verif.Spec.Passage

/-! # Reading a document from a source that fails at any time -/

namespace Fbx.Spec
variable {ρ α : Type}

/-- Opening the source in state `x` ends, with an error; or it ends with success, the parser is for version `v`, and a client that makes the calls `cs` is
told `os`, or is told a beginning of `os`, then what may become of the next outcome because the source failed, and then only that the parser does not
go on. -/
def Glimpses (S : Source ρ) (tape : ρ → Tape) (Z : Zlib) (checks seekable : Bool) (x : ρ) (v : FbxVersion) (cs : List (WCall α)) (os : List (Outcome α)) : Prop :=
  ∃ fuel₀ z, (∀ fuel ≥ fuel₀, S.anyParser fuel checks seekable (tape x).rest (tape x).ending (tape x).pos (tape x).limit x = some z) ∧
    ((∃ e, z = .err e) ∨ ∃ p y heard t, z = .ok (p, y) ∧ p.version = v ∧ (∀ fuel ≥ fuel₀, observeFrom S Z fuel (⟨p, none⟩, y) cs = some (heard, t)) ∧
      (heard = os ∨ ∃ before o after o' refused, os = before ++ o :: after ∧ heard = before ++ o' :: refused ∧ Struck o o' ∧ ∀ l ∈ refused, Refusal l))

end Fbx.Spec
