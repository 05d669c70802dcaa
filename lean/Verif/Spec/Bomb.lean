import Verif.Spec.Size
import Verif.Model.Inflate

/-! # How large documents are, with the elements of their arrays -/

namespace Fbx

/-- However a stream goes on behind the two bytes of its header, not more than `c` bytes of data come out for each byte that is read. -/
def Zlib.Expands (Z : Zlib) (c : Nat) : Prop :=
  ∀ a b s inp out, Z.header a b = some s → Z.Decodes s inp out → out.length ≤ c * inp.length

namespace Spec

/-- An attribute: as `attrSize`, with all the elements of arrays: one byte for a boolean, four or eight for a number. -/
def attrFull (v : AttrValue) : Nat := attrSize v + (arrayData v).length

/-- All attributes of a list. -/
def attrsFull (vs : List AttrValue) : Nat := (vs.map attrFull).sum

/-- What a client sees. -/
def obsFull (v : FbxVersion) : Obs AttrValue → Nat
  | .start name _ vals => nodeSize v name + attrsFull (vals.filterMap id)
  | _ => 0

/-- The nodes of a document. -/
def forestFull (v : FbxVersion) : Forest AttrValue → Nat
  | .nil => 0
  | .cons name attrs children rest => nodeSize v name + attrsFull attrs + forestFull v children + forestFull v rest

end Spec
end Fbx
