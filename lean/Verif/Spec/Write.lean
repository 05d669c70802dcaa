import Verif.Spec.Layout
import Verif.Model.Writer

/-!
# Specification: what the calls of the writer API mean

Every `append_*` call denotes an attribute; a well-bracketed sequence of calls denotes a forest.
-/

namespace Fbx.Spec
open Writer

/-- The values of `Ok` items. -/
def oks {e α : Type} : List (Except e α) → List α
  | [] => []
  | .ok a :: r => a :: oks r
  | .error _ :: r => oks r

/-- All items are `Ok`. -/
def allOk {e α : Type} : List (Except e α) → Bool
  | [] => true
  | .ok _ :: r => allOk r
  | .error _ :: _ => false

/-- The attribute an `append_*` call is meant to write (from the `Ok` items, for iterator variants). -/
def denote : Append → DAttr
  | .bool v => { value := .bool v }
  | .i16 v => { value := .i16 v }
  | .i32 v => { value := .i32 v }
  | .i64 v => { value := .i64 v }
  | .f32 v => { value := .f32 v }
  | .f64 v => { value := .f64 v }
  | .arrBool enc xs => { value := .arrBool (oks xs), enc := enc.getD .direct }
  | .arrI32 enc xs => { value := .arrI32 (oks xs), enc := enc.getD .direct }
  | .arrI64 enc xs => { value := .arrI64 (oks xs), enc := enc.getD .direct }
  | .arrF32 enc xs => { value := .arrF32 (oks xs), enc := enc.getD .direct }
  | .arrF64 enc xs => { value := .arrF64 (oks xs), enc := enc.getD .direct }
  | .binary v => { value := .binary v }
  | .string v => { value := .string v }
  | .binaryReader chunks _ => { value := .binary chunks.flatten }
  | .binaryIter xs => { value := .binary (oks xs) }
  | .stringIter xs => { value := .string (String.ofList (oks xs)) }

/-- The call does not deliver an error from the user's iterator or reader. -/
def noUserError : Append → Prop
  | .arrBool _ xs => allOk xs = true
  | .arrI32 _ xs => allOk xs = true
  | .arrI64 _ xs => allOk xs = true
  | .arrF32 _ xs => allOk xs = true
  | .arrF64 _ xs => allOk xs = true
  | .binaryReader _ e => e = none
  | .binaryIter xs => allOk xs = true
  | .stringIter xs => allOk xs = true
  | _ => True

/-- Not one of the string-from-characters variants (which are broken, see C15). -/
def notCharIter : Append → Prop
  | .stringIter _ => False
  | _ => True

/-- The attribute's element count and payload length fit their 32-bit fields. -/
def attrFits (Z : Zlib) (a : DAttr) : Prop :=
  match a.value with
  | .string s => (utf8 s).length < 2 ^ 32
  | .binary bs => bs.length < 2 ^ 32
  | .arrBool _ | .arrI32 _ | .arrI64 _ | .arrF32 _ | .arrF64 _ =>
    arrayCount a.value < 2 ^ 32 ∧ (arrayPayload Z a).length < 2 ^ 32
  | _ => True

/-- The calls that write a forest, depth first. -/
def calls : Forest Append → List Op
  | .nil => []
  | .cons name attrs children rest =>
    .newNode name :: (attrs.map Op.append ++ (calls children ++ .closeNode :: calls rest))

/-- All sizes of a forest laid out from offset `off` fit the format of the given version. -/
def forestFits {α : Type} (version : Nat) (enc : α → List UInt8) (fits : α → Prop) :
    Forest α → (off : Nat) → Prop
  | .nil, _ => True
  | .cons name attrs children rest, off =>
    let attrs' := attrs.flatMap enc
    let childrenOff := off + headerSize version + (utf8 name).length + attrs'.length
    let endOff := childrenOff + (nodes version enc children childrenOff).length +
      (if needsMarker attrs children then headerSize version else 0)
    (utf8 name).length < 256 ∧ (∀ a ∈ attrs, fits a) ∧ endOff < 2 ^ 64 ∧
    (version < 7500 → endOff < 2 ^ 32 ∧ attrs.length < 2 ^ 32 ∧ attrs'.length < 2 ^ 32) ∧
    forestFits version enc fits children childrenOff ∧ forestFits version enc fits rest endOff

/-- The footer a `FbxFooter` stands for; absent fields have the documented default values. -/
def footOf (f : FooterSpec) : Foot where
  unknown1 := f.unknown1.getD
    [0xf0, 0xb1, 0xa2, 0x03, 0xd4, 0xc5, 0xd6, 0x67, 0xb8, 0x79, 0xfa, 0x8b, 0x1c, 0xfd, 0x2e, 0x7f]
  padding := match f.padding with
    | .default => none
    | .forced n => some n.toNat
  unknown2 := f.unknown2.getD [0, 0, 0, 0]
  unknown3 := f.unknown3.getD
    [0xf8, 0x5a, 0x8c, 0x6a, 0xde, 0xf5, 0xd9, 0x7e, 0xec, 0xe9, 0x0c, 0xe3, 0x75, 0x8f, 0x29, 0x0b]

/-- The fields of a footer have the lengths their types prescribe (`[u8; 16]`, `[u8; 4]`, `[u8; 16]`). -/
def footSized (f : FooterSpec) : Prop :=
  (∀ u, f.unknown1 = some u → u.length = 16) ∧ (∀ u, f.unknown2 = some u → u.length = 4) ∧ (∀ u, f.unknown3 = some u → u.length = 16)

/-- The bytes of the attribute denoted by a call. -/
def callBytes (Z : Zlib) (a : Append) : List UInt8 := attrBytes Z (denote a)

/-- A call whose attribute is denoted faithfully: any but the string-from-characters variants, and those too
when every character takes 4 bytes in UTF-8 (see C15). -/
def intact : Append → Prop
  | .stringIter xs => ∀ c ∈ oks xs, c.utf8Size = 4
  | _ => True

/-- What a call needs to succeed. -/
def callFits (Z : Zlib) (a : Append) : Prop := noUserError a ∧ attrFits Z (denote a)

/-- The first error an iterator yields. -/
def firstError {α : Type} : List (Except WErr α) → Option WErr
  | [] => none
  | .ok _ :: r => firstError r
  | .error e :: _ => some e

/-- The items an iterator yields before its first error. -/
def before {α : Type} : List (Except WErr α) → List α
  | [] => []
  | .ok a :: r => a :: before r
  | .error _ :: _ => []

/-- The first error among the items of a call (or its reader's error). -/
def itemError : Append → Option WErr
  | .arrBool _ xs => firstError xs
  | .arrI32 _ xs => firstError xs
  | .arrI64 _ xs => firstError xs
  | .arrF32 _ xs => firstError xs
  | .arrF64 _ xs => firstError xs
  | .binaryReader _ e => e.map .io
  | .binaryIter xs => firstError xs
  | .stringIter xs => firstError xs
  | _ => none

/-- Byte lengths are stored in 32 bits. -/
def lengthError (len : Nat) : Option WErr := if len < 2 ^ 32 then none else some (.attributeTooLong len)

/-- Errors of an array attribute: from the iterator, too many elements, too long. (The code reports the number
of elements plus one.) -/
def arrayError {α : Type} (Z : Zlib) (a : DAttr) (items : List (Except WErr α)) : Option WErr :=
  match firstError items with
  | some e => some e
  | none =>
    if arrayCount a.value < 2 ^ 32 then lengthError (arrayPayload Z a).length
    else some (.tooManyArrayElements (arrayCount a.value + 1))

/-- The error an `append_*` call must return on a working device, if any. -/
def callError (Z : Zlib) (a : Append) : Option WErr :=
  match a with
  | .arrBool _ xs => arrayError Z (denote a) xs
  | .arrI32 _ xs => arrayError Z (denote a) xs
  | .arrI64 _ xs => arrayError Z (denote a) xs
  | .arrF32 _ xs => arrayError Z (denote a) xs
  | .arrF64 _ xs => arrayError Z (denote a) xs
  | .binary bs => lengthError bs.length
  | .string s => lengthError (utf8 s).length
  | .binaryReader chunks none => lengthError chunks.flatten.length
  | .binaryReader _ (some e) => some (.io e)
  | .binaryIter xs => (firstError xs).or (lengthError (oks xs).length)
  | .stringIter xs => (firstError xs).or (lengthError (utf8 (String.ofList (oks xs))).length)
  | _ => none

/-- Like `denote`, but only with the items before the first error. -/
def denoteBefore : Append → DAttr
  | .arrBool enc xs => { value := .arrBool (before xs), enc := enc.getD .direct }
  | .arrI32 enc xs => { value := .arrI32 (before xs), enc := enc.getD .direct }
  | .arrI64 enc xs => { value := .arrI64 (before xs), enc := enc.getD .direct }
  | .arrF32 enc xs => { value := .arrF32 (before xs), enc := enc.getD .direct }
  | .arrF64 enc xs => { value := .arrF64 (before xs), enc := enc.getD .direct }
  | .binaryIter xs => { value := .binary (before xs) }
  | .stringIter xs => { value := .string (String.ofList (before xs)) }
  | a => denote a

/-- A bound on the number of bytes a call writes. -/
def volume (Z : Zlib) (a : Append) : Nat :=
  match a with
  | .stringIter xs => 5 + 4 * (before xs).length
  | a => (attrBytes Z (denoteBefore a)).length

/-- The outcome is not an I/O error. -/
def noDeviceError : Res WErr Unit → Prop
  | .err (.io _) => False
  | .err (.compression _) => False
  | _ => True

/-- The situations a user can be in after any history of calls (going on after errors other than I/O errors). -/
inductive Reach (Z : Zlib) : Session → Prop where
  | start (s s' : Sink) (v : FbxVersion) (w : Writer) : Writer.new s v = (.ok w, s') → Reach Z ⟨w, false⟩
  | step (s s' : Session) (o : Op) (r : Res WErr Unit) :
      Reach Z s → s.step Z o = some (r, s') → noDeviceError r → Reach Z s'

/-- The call without the items after the first error. -/
def cutAfterError : Append → Append
  | .arrBool enc xs => .arrBool enc (cut xs)
  | .arrI32 enc xs => .arrI32 enc (cut xs)
  | .arrI64 enc xs => .arrI64 enc (cut xs)
  | .arrF32 enc xs => .arrF32 enc (cut xs)
  | .arrF64 enc xs => .arrF64 enc (cut xs)
  | .binaryIter xs => .binaryIter (cut xs)
  | .stringIter xs => .stringIter (cut xs)
  | a => a
where
  /-- Items up to and including the first error. -/
  cut {α : Type} : List (Except WErr α) → List (Except WErr α)
    | [] => []
    | .ok a :: r => .ok a :: cut r
    | .error e :: _ => [.error e]

/-- The number of `new_node` calls. -/
def opens : List Op → Nat
  | [] => 0
  | .newNode _ :: os => opens os + 1
  | _ :: os => opens os
/-- The number of `close_node` calls. -/
def closes : List Op → Nat
  | [] => 0
  | .closeNode :: os => closes os + 1
  | _ :: os => closes os

end Fbx.Spec
