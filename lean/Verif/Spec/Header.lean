import Verif.Model.Parser

/-! # Node headers in the bytes of a file -/

namespace Fbx

/-- Width of the numbers of a node header: 4 bytes before version 7.5, 8 bytes from then on. -/
def headWidth (v : FbxVersion) : Nat := if v < 7500 then 4 else 8

/-- The node header found at the start of some bytes: end offset, number of attributes and byte length of the
attributes, `w` bytes each, and the length of the name, one byte. -/
def headerAt (w : Nat) (bs : Bytes) : NodeHeader :=
  ⟨fromLe (bs.take w), fromLe ((bs.drop w).take w), fromLe ((bs.drop (w + w)).take w), fromLe ((bs.drop (w + w + w)).take 1)⟩

end Fbx
