import Verif.Model.Low

/-!
# Specification vocabulary for the low-level properties (C01–C05)

Written independently of the model's helper functions.
-/

namespace Fbx.Spec

/-- The 23 byte signature: the ASCII text `Kaydara FBX Binary`, two spaces, `00 1a 00`. -/
def signature : List UInt8 :=
  ['K', 'a', 'y', 'd', 'a', 'r', 'a', ' ', 'F', 'B', 'X', ' ', 'B', 'i', 'n', 'a', 'r', 'y', ' ', ' '].map
    (fun c => UInt8.ofNat c.toNat) ++ [0x00, 0x1a, 0x00]

/-- Four bytes as a little-endian number. -/
def le32 (a b c d : UInt8) : Nat := a.toNat + 256 * b.toNat + 65536 * c.toNat + 16777216 * d.toNat

/-- The documented attribute type characters. -/
def typeChars : List (AttrType × Char) :=
  [(.bool, 'C'), (.i16, 'Y'), (.i32, 'I'), (.i64, 'L'), (.f32, 'F'), (.f64, 'D'),
   (.arrBool, 'b'), (.arrI32, 'i'), (.arrI64, 'l'), (.arrF32, 'f'), (.arrF64, 'd'),
   (.binary, 'R'), (.string, 'S')]

/-- Supported versions. -/
def supported (raw : Nat) : Prop := 7000 ≤ raw ∧ raw ≤ 7999

end Fbx.Spec
