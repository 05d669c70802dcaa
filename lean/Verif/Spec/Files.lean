import Verif.Spec.Low
import Verif.Spec.TreeIO

/-! # Files given by their bytes -/

namespace Fbx
open Spec

/-- The bytes begin with a header of the given version: the signature and the version as a little-endian number. -/
def HeaderOf (bytes : List UInt8) (v : FbxVersion) : Prop :=
  ∃ a b c d tail, bytes = signature ++ [a, b, c, d] ++ tail ∧ v.toNat = le32 a b c d

/-- What `AnyTree` may return for the given bytes. -/
def AnyTreeResult (checks : Bool) (bytes : List UInt8) : Res AnyTreeError (FbxVersion × Tree × Except PErr Footer) → Prop
  /- A tree: the version is that of the header and is supported; the tree is well-formed and has a plain root. -/
  | .ok (v, t, _) => HeaderOf bytes v ∧ supported v.toNat ∧ t.WF ∧ t.name? t.root = some "" ∧ (t.nodes t.root).attrs = []
  /- There is no header. -/
  | .err (.parserCreation (.header _)) => ∀ v, ¬ HeaderOf bytes v
  /- There is one, of another version. -/
  | .err (.parserCreation (.unsupportedVersion v)) => HeaderOf bytes v ∧ ¬ supported v.toNat
  /- The body could not be read; the parser is not to blame. -/
  | .err (.load e) => (∃ v, HeaderOf bytes v ∧ supported v.toNat) ∧ e ≠ .badParser
  /- With overflow checks, versions 7.5 and later. -/
  | .panic x => x = .attrEndOverflow ∧ checks = true ∧ ∃ v, HeaderOf bytes v ∧ supported v.toNat ∧ 7500 ≤ v.toNat

end Fbx
