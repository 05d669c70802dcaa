import Verif.Model.Zlib
import Verif.Spec.Low

/-!
# Specification: FBX 7.x binary documents and their byte layout

A document is a forest of named nodes with attribute values. The layout is given as a plain function of the
document, with absolute offsets computed from left to right. Nothing here mentions writers, sinks or parsers.
-/

namespace Fbx.Spec

/-- Ordered forests of named nodes carrying attributes of type `α`: the first node's name, attributes and
children, then its following siblings. -/
inductive Forest (α : Type) where
  | nil
  | cons (name : String) (attrs : List α) (children : Forest α) (rest : Forest α)
  deriving DecidableEq

namespace Forest
variable {α β : Type}

/-- No nodes. -/
def isNil : Forest α → Bool
  | nil => true
  | cons .. => false

/-- Changes the attributes. -/
def map (f : α → β) : Forest α → Forest β
  | nil => nil
  | cons n as ch r => cons n (as.map f) (ch.map f) (r.map f)

/-- Concatenation of forests. -/
def append : Forest α → Forest α → Forest α
  | nil, g => g
  | cons n as ch r, g => cons n as ch (r.append g)

/-- Number of nodes. -/
def count : Forest α → Nat
  | nil => 0
  | cons _ _ ch r => ch.count + 1 + r.count

/-- All nodes satisfy a condition on their name and attributes. -/
def All (p : String → List α → Prop) : Forest α → Prop
  | nil => True
  | cons n as ch r => p n as ∧ ch.All p ∧ r.All p

end Forest

/-- An attribute of a document: its value and, for arrays, the encoding of the payload. -/
structure DAttr where
  value : AttrValue
  enc : ArrEnc := .direct
  deriving DecidableEq

/-- `k`-byte little-endian form of `n`. -/
def le (k n : Nat) : List UInt8 := (List.range k).map (fun i => UInt8.ofNat (n / 256 ^ i))

/-- UTF-8 bytes. -/
def utf8 (s : String) : List UInt8 := s.toByteArray.data.toList

/-- Width of the first three fields of node headers: 4 bytes below version 7.5, 8 bytes otherwise. -/
def width (version : Nat) : Nat := if version < 7500 then 4 else 8

/-- Length of node headers, and of end markers. -/
def headerSize (version : Nat) : Nat := 3 * width version + 1

/-- Node header: end offset, number of attributes, byte length of the attributes, length of the name. -/
def header (version endOffset count bytelen nameLen : Nat) : List UInt8 :=
  le (width version) endOffset ++ le (width version) count ++ le (width version) bytelen ++ le 1 nameLen

/-- End marker: an all-zero header. -/
def marker (version : Nat) : List UInt8 := List.replicate (headerSize version) 0

/-- The array payload before compression. -/
def arrayData : AttrValue → List UInt8
  | .arrBool vs => vs.map (fun b => if b then 0x59 else 0x54)
  | .arrI32 vs => vs.flatMap (fun v => le 4 v.toNat)
  | .arrI64 vs => vs.flatMap (fun v => le 8 v.toNat)
  | .arrF32 vs => vs.flatMap (fun v => le 4 v.toNat)
  | .arrF64 vs => vs.flatMap (fun v => le 8 v.toNat)
  | _ => []

/-- The array payload as stored. -/
def arrayPayload (Z : Zlib) (a : DAttr) : List UInt8 :=
  match a.enc with
  | .direct => arrayData a.value
  | .zlib => Z.encode (arrayData a.value)

/-- Number of elements of an array value. -/
def arrayCount : AttrValue → Nat
  | .arrBool vs => vs.length
  | .arrI32 vs => vs.length
  | .arrI64 vs => vs.length
  | .arrF32 vs => vs.length
  | .arrF64 vs => vs.length
  | _ => 0

/-- Everything of an attribute after its type code. -/
def attrBody (Z : Zlib) (a : DAttr) : List UInt8 :=
  match a.value with
  | .bool b => [if b then 0x59 else 0x54]
  | .i16 v => le 2 v.toNat
  | .i32 v => le 4 v.toNat
  | .i64 v => le 8 v.toNat
  | .f32 v => le 4 v.toNat
  | .f64 v => le 8 v.toNat
  | .string s => le 4 (utf8 s).length ++ utf8 s
  | .binary bs => le 4 bs.length ++ bs
  | v => le 4 (arrayCount v) ++ le 4 (match a.enc with | .direct => 0 | .zlib => 1) ++
      le 4 (arrayPayload Z a).length ++ arrayPayload Z a

/-- Type code character of a value. -/
def typeChar : AttrValue → Char
  | .bool _ => 'C' | .i16 _ => 'Y' | .i32 _ => 'I' | .i64 _ => 'L' | .f32 _ => 'F' | .f64 _ => 'D'
  | .arrBool _ => 'b' | .arrI32 _ => 'i' | .arrI64 _ => 'l' | .arrF32 _ => 'f' | .arrF64 _ => 'd'
  | .string _ => 'S' | .binary _ => 'R'

/-- The bytes of one attribute. -/
def attrBytes (Z : Zlib) (a : DAttr) : List UInt8 :=
  UInt8.ofNat (typeChar a.value).toNat :: attrBody Z a

/-- Nodes are closed by a marker iff they have children or no attributes. -/
def needsMarker {α : Type} (attrs : List α) (children : Forest α) : Bool := attrs.isEmpty || !children.isNil

/-- A forest laid out from offset `off`; `enc` gives the bytes of an attribute. -/
def nodes {α : Type} (version : Nat) (enc : α → List UInt8) : Forest α → (off : Nat) → List UInt8
  | .nil, _ => []
  | .cons name attrs children rest, off =>
    let attrs' := attrs.flatMap enc
    let childrenOff := off + headerSize version + (utf8 name).length + attrs'.length
    let children' := nodes version enc children childrenOff
    let marker' := if needsMarker attrs children then marker version else []
    let endOff := childrenOff + children'.length + marker'.length
    header version endOff attrs.length attrs'.length (utf8 name).length ++ utf8 name ++ attrs' ++ children' ++
      marker' ++ nodes version enc rest endOff

/-- Everything before the footer: signature, version, top-level nodes, end marker of the implicit root. -/
def body {α : Type} (version : Nat) (enc : α → List UInt8) (f : Forest α) : List UInt8 :=
  signature ++ le 4 version ++ nodes version enc f 27 ++ marker version

/-- Fields of a footer. -/
structure Foot where
  unknown1 : List UInt8
  /-- number of padding zeros; `none` aligns to 16 bytes -/
  padding : Option Nat
  unknown2 : List UInt8
  unknown3 : List UInt8

/-- The number of zeros that makes `pos` a multiple of 16. -/
def alignPad (pos : Nat) : Nat := (16 - pos % 16) % 16

/-- Padding length of a footer that starts at offset `pos`. -/
def padLen (f : Foot) (pos : Nat) : Nat := f.padding.getD (alignPad (pos + f.unknown1.length))

/-- Footer bytes, for a footer that starts at offset `pos`. -/
def footer (version : Nat) (f : Foot) (pos : Nat) : List UInt8 :=
  f.unknown1 ++ List.replicate (padLen f pos) 0 ++ f.unknown2 ++ le 4 version ++ List.replicate 120 0 ++ f.unknown3

/-- A complete document. -/
def document {α : Type} (version : Nat) (enc : α → List UInt8) (f : Forest α) (ft : Foot) : List UInt8 :=
  body version enc f ++ footer version ft (body version enc f).length

end Fbx.Spec
