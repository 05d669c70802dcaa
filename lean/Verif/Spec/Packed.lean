import Verif.Spec.Deflate
import Verif.Spec.Write
import Verif.Spec.Drain

/-!
# Specification: attributes as other programs store them

The compressed form of an array is not determined by its elements. Here every array of a document comes with its
own.
-/

namespace Fbx.Spec

/-- An attribute and, if it is a compressed array, the stored bytes. -/
structure Packed where
  value : AttrValue
  zipped : Option (List UInt8) := none

namespace Packed

/-- An array. -/
def isArray : AttrValue → Bool
  | .arrBool _ | .arrI32 _ | .arrI64 _ | .arrF32 _ | .arrF64 _ => true
  | _ => false

/-- The bytes of the attribute. For a compressed array: type code, number of elements, 1, length, stored bytes. -/
def bytes (p : Packed) : List UInt8 :=
  match p.zipped with
  | none => attrBytes .stored ⟨p.value, .direct⟩
  | some z => UInt8.ofNat (typeChar p.value).toNat :: (le 4 (arrayCount p.value) ++ le 4 1 ++ le 4 z.length ++ z)

/-- Numbers of elements and lengths fit their fields; only arrays are compressed. -/
def fits (p : Packed) : Prop :=
  match p.zipped with
  | none => attrFits .stored ⟨p.value, .direct⟩
  | some z => isArray p.value = true ∧ arrayCount p.value < 2 ^ 32 ∧ z.length < 2 ^ 32

/-- What is stored is the elements in compressed form, and then anything (properly the checksum, of which nothing is
asked here). -/
def Conforming (p : Packed) : Prop := ∀ z, p.zipped = some z → ∃ c sum, z = c ++ sum ∧ Compressed c (arrayData p.value)

/-- The attribute without the compressed form. -/
def plain (p : Packed) : DAttr := ⟨p.value, if p.zipped.isSome then .zlib else .direct⟩

end Packed
end Fbx.Spec
