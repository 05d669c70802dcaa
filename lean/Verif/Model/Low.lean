import Verif.Model.Base

/-!
# `src/low`: versions, attribute types and values, headers
-/

namespace Fbx

/-- `low/version.rs:26-28`: the raw version number (a `u32`). -/
abbrev FbxVersion := UInt32

/-- `low/version.rs:35-37`. -/
def FbxVersion.major (v : FbxVersion) : UInt32 := v / 1000

/-- `low/version.rs:44-46`. -/
def FbxVersion.minor (v : FbxVersion) : UInt32 := (v % 1000) / 100

/-- `low/version.rs:53-57`. -/
def FbxVersion.majorMinor (v : FbxVersion) : UInt32 × UInt32 := (v.major, v.minor)

/-- `pull_parser/version.rs:13-16` (one parser implementation). -/
inductive ParserVersion where
  | v7400
  deriving DecidableEq, Repr

/-- `pull_parser/version.rs:21-34` (log output dropped). -/
def ParserVersion.fromFbxVersion (v : FbxVersion) : Option ParserVersion :=
  if 7000 ≤ v ∧ v ≤ 7999 then some .v7400 else none

/-- `low/fbx_header.rs:13`: `b"Kaydara FBX Binary  \x00\x1a\x00"`. -/
def magic : Bytes :=
  [0x4b, 0x61, 0x79, 0x64, 0x61, 0x72, 0x61, 0x20, 0x46, 0x42, 0x58, 0x20, 0x42, 0x69, 0x6e, 0x61, 0x72,
   0x79, 0x20, 0x20, 0x00, 0x1a, 0x00]

/-- `low/fbx_header.rs:93-98`: header length in bytes. -/
def headerLen : Nat := 23 + 4

/-! ## Attribute types -/

/-- `low/v7400/attribute/type_.rs:9-36`. -/
inductive AttrType where
  | bool | i16 | i32 | i64 | f32 | f64
  | arrBool | arrI32 | arrI64 | arrF32 | arrF64
  | binary | string
  deriving DecidableEq, Repr

/-- `low/v7400/attribute/type_.rs:64-80`. -/
def AttrType.typeCode : AttrType → Byte
  | .bool => 0x43 | .i16 => 0x59 | .i32 => 0x49 | .i64 => 0x4c | .f32 => 0x46 | .f64 => 0x44
  | .arrBool => 0x62 | .arrI32 => 0x69 | .arrI64 => 0x6c | .arrF32 => 0x66 | .arrF64 => 0x64
  | .binary => 0x52 | .string => 0x53

/-- `low/v7400/attribute/type_.rs:41-58`. -/
def AttrType.fromTypeCode (code : Byte) : Option AttrType :=
  if code = 0x43 then some .bool
  else if code = 0x59 then some .i16
  else if code = 0x49 then some .i32
  else if code = 0x4c then some .i64
  else if code = 0x46 then some .f32
  else if code = 0x44 then some .f64
  else if code = 0x62 then some .arrBool
  else if code = 0x69 then some .arrI32
  else if code = 0x6c then some .arrI64
  else if code = 0x66 then some .arrF32
  else if code = 0x64 then some .arrF64
  else if code = 0x52 then some .binary
  else if code = 0x53 then some .string
  else none

/-! ## Attribute values -/

/-- `low/v7400/attribute/value.rs:18-45`. Integers and floats are kept as bit patterns. -/
inductive AttrValue where
  | bool (v : Bool)
  | i16 (v : BitVec 16)
  | i32 (v : BitVec 32)
  | i64 (v : BitVec 64)
  | f32 (bits : BitVec 32)
  | f64 (bits : BitVec 64)
  | arrBool (v : List Bool)
  | arrI32 (v : List (BitVec 32))
  | arrI64 (v : List (BitVec 64))
  | arrF32 (bits : List (BitVec 32))
  | arrF64 (bits : List (BitVec 64))
  | string (v : String)
  | binary (v : Bytes)
  deriving DecidableEq

namespace AttrValue

/-- `low/v7400/attribute/value.rs:96-112`. -/
def type_ : AttrValue → AttrType
  | .bool _ => .bool | .i16 _ => .i16 | .i32 _ => .i32 | .i64 _ => .i64 | .f32 _ => .f32 | .f64 _ => .f64
  | .arrBool _ => .arrBool | .arrI32 _ => .arrI32 | .arrI64 _ => .arrI64
  | .arrF32 _ => .arrF32 | .arrF64 _ => .arrF64
  | .string _ => .string | .binary _ => .binary

/-- `Iterator::eq` on the `to_bits` iterators (`value.rs:247-254`): walks both in lock step. -/
def iterEq {α : Type} [DecidableEq α] : List α → List α → Bool
  | [], [] => true
  | a :: as, b :: bs => if a = b then iterEq as bs else false
  | _, _ => false

/-- `low/v7400/attribute/value.rs:234-259`. -/
def strictEq : AttrValue → AttrValue → Bool
  | .bool l, .bool r => l == r
  | .i16 l, .i16 r => l == r
  | .i32 l, .i32 r => l == r
  | .i64 l, .i64 r => l == r
  | .f32 l, .f32 r => l == r
  | .f64 l, .f64 r => l == r
  | .arrBool l, .arrBool r => l == r
  | .arrI32 l, .arrI32 r => l == r
  | .arrI64 l, .arrI64 r => l == r
  | .arrF32 l, .arrF32 r => iterEq l r
  | .arrF64 l, .arrF64 r => iterEq l r
  | .binary l, .binary r => l == r
  | .string l, .string r => l == r
  | _, _ => false

/-- `low/v7400/attribute/value.rs:48-58,114-121` `get_bool`. -/
def getBool : AttrValue → Option Bool | .bool v => some v | _ => none
/-- `low/v7400/attribute/value.rs:48-58,123-130` `get_i16`. -/
def getI16 : AttrValue → Option (BitVec 16) | .i16 v => some v | _ => none
/-- `low/v7400/attribute/value.rs:48-58,132-139` `get_i32`. -/
def getI32 : AttrValue → Option (BitVec 32) | .i32 v => some v | _ => none
/-- `low/v7400/attribute/value.rs:48-58,141-148` `get_i64`. -/
def getI64 : AttrValue → Option (BitVec 64) | .i64 v => some v | _ => none
/-- `low/v7400/attribute/value.rs:48-58,150-157` `get_f32`. -/
def getF32 : AttrValue → Option (BitVec 32) | .f32 v => some v | _ => none
/-- `low/v7400/attribute/value.rs:48-58,159-166` `get_f64`. -/
def getF64 : AttrValue → Option (BitVec 64) | .f64 v => some v | _ => none
/-- `low/v7400/attribute/value.rs:71-81,168-175` `get_arr_bool`. -/
def getArrBool : AttrValue → Option (List Bool) | .arrBool v => some v | _ => none
/-- `low/v7400/attribute/value.rs:71-81,177-184` `get_arr_i32`. -/
def getArrI32 : AttrValue → Option (List (BitVec 32)) | .arrI32 v => some v | _ => none
/-- `low/v7400/attribute/value.rs:71-81,186-193` `get_arr_i64`. -/
def getArrI64 : AttrValue → Option (List (BitVec 64)) | .arrI64 v => some v | _ => none
/-- `low/v7400/attribute/value.rs:71-81,195-202` `get_arr_f32`. -/
def getArrF32 : AttrValue → Option (List (BitVec 32)) | .arrF32 v => some v | _ => none
/-- `low/v7400/attribute/value.rs:71-81,204-211` `get_arr_f64`. -/
def getArrF64 : AttrValue → Option (List (BitVec 64)) | .arrF64 v => some v | _ => none
/-- `low/v7400/attribute/value.rs:71-81,213-220` `get_string`. -/
def getString : AttrValue → Option String | .string v => some v | _ => none
/-- `low/v7400/attribute/value.rs:71-81,222-229` `get_binary`. -/
def getBinary : AttrValue → Option Bytes | .binary v => some v | _ => none

/-- `low/v7400/attribute/value.rs:61-66` `get_bool_or_type`. -/
def getBoolOrType : AttrValue → Except AttrType Bool | .bool v => .ok v | a => .error a.type_
/-- `low/v7400/attribute/value.rs:61-66` `get_i16_or_type`. -/
def getI16OrType : AttrValue → Except AttrType (BitVec 16) | .i16 v => .ok v | a => .error a.type_
/-- `low/v7400/attribute/value.rs:61-66` `get_i32_or_type`. -/
def getI32OrType : AttrValue → Except AttrType (BitVec 32) | .i32 v => .ok v | a => .error a.type_
/-- `low/v7400/attribute/value.rs:61-66` `get_i64_or_type`. -/
def getI64OrType : AttrValue → Except AttrType (BitVec 64) | .i64 v => .ok v | a => .error a.type_
/-- `low/v7400/attribute/value.rs:61-66` `get_f32_or_type`. -/
def getF32OrType : AttrValue → Except AttrType (BitVec 32) | .f32 v => .ok v | a => .error a.type_
/-- `low/v7400/attribute/value.rs:61-66` `get_f64_or_type`. -/
def getF64OrType : AttrValue → Except AttrType (BitVec 64) | .f64 v => .ok v | a => .error a.type_
/-- `low/v7400/attribute/value.rs:84-89` `get_arr_bool_or_type`. -/
def getArrBoolOrType : AttrValue → Except AttrType (List Bool) | .arrBool v => .ok v | a => .error a.type_
/-- `low/v7400/attribute/value.rs:84-89` `get_arr_i32_or_type`. -/
def getArrI32OrType : AttrValue → Except AttrType (List (BitVec 32)) | .arrI32 v => .ok v | a => .error a.type_
/-- `low/v7400/attribute/value.rs:84-89` `get_arr_i64_or_type`. -/
def getArrI64OrType : AttrValue → Except AttrType (List (BitVec 64)) | .arrI64 v => .ok v | a => .error a.type_
/-- `low/v7400/attribute/value.rs:84-89` `get_arr_f32_or_type`. -/
def getArrF32OrType : AttrValue → Except AttrType (List (BitVec 32)) | .arrF32 v => .ok v | a => .error a.type_
/-- `low/v7400/attribute/value.rs:84-89` `get_arr_f64_or_type`. -/
def getArrF64OrType : AttrValue → Except AttrType (List (BitVec 64)) | .arrF64 v => .ok v | a => .error a.type_
/-- `low/v7400/attribute/value.rs:84-89` `get_string_or_type`. -/
def getStringOrType : AttrValue → Except AttrType String | .string v => .ok v | a => .error a.type_
/-- `low/v7400/attribute/value.rs:84-89` `get_binary_or_type`. -/
def getBinaryOrType : AttrValue → Except AttrType Bytes | .binary v => .ok v | a => .error a.type_

/-- IEEE 754 `==` on `f32` bit patterns (Rust's `PartialEq for f32`): NaNs are unequal to everything,
zeros of both signs are equal, other values are equal iff their bits are. -/
def f32Eq (a b : BitVec 32) : Bool :=
  let nan (x : BitVec 32) := (x &&& 0x7fffffff#32) > 0x7f800000#32
  let zero (x : BitVec 32) := (x &&& 0x7fffffff#32) = 0#32
  !nan a && !nan b && (a == b || (zero a && zero b))

/-- IEEE 754 `==` on `f64` bit patterns. -/
def f64Eq (a b : BitVec 64) : Bool :=
  let nan (x : BitVec 64) := (x &&& 0x7fffffffffffffff#64) > 0x7ff0000000000000#64
  let zero (x : BitVec 64) := (x &&& 0x7fffffffffffffff#64) = 0#64
  !nan a && !nan b && (a == b || (zero a && zero b))

/-- Slice `==` with an element comparison. -/
def sliceEq {α : Type} (eq : α → α → Bool) : List α → List α → Bool
  | [], [] => true
  | a :: as, b :: bs => eq a b && sliceEq eq as bs
  | _, _ => false

/-- `low/v7400/attribute/value.rs:17`: the derived `PartialEq` (`==`). -/
def eq : AttrValue → AttrValue → Bool
  | .bool l, .bool r => l == r
  | .i16 l, .i16 r => l == r
  | .i32 l, .i32 r => l == r
  | .i64 l, .i64 r => l == r
  | .f32 l, .f32 r => f32Eq l r
  | .f64 l, .f64 r => f64Eq l r
  | .arrBool l, .arrBool r => l == r
  | .arrI32 l, .arrI32 r => l == r
  | .arrI64 l, .arrI64 r => l == r
  | .arrF32 l, .arrF32 r => sliceEq f32Eq l r
  | .arrF64 l, .arrF64 r => sliceEq f64Eq l r
  | .binary l, .binary r => l == r
  | .string l, .string r => l == r
  | _, _ => false

end AttrValue

/-! ## Headers -/

/-- `low/v7400/array_attribute.rs:13-20`. -/
inductive ArrEnc where
  | direct | zlib
  deriving DecidableEq, Repr

/-- `low/v7400/array_attribute.rs:26-32`. -/
def ArrEnc.fromU32 (v : Nat) : Option ArrEnc :=
  if v = 0 then some .direct else if v = 1 then some .zlib else none

/-- `low/v7400/array_attribute.rs:39-44`. -/
def ArrEnc.toU32 : ArrEnc → Nat
  | .direct => 0
  | .zlib => 1

/-- `low/v7400/array_attribute.rs:71-78`. -/
structure ArrHeader where
  count : Nat
  enc : ArrEnc
  bytelen : Nat
  deriving DecidableEq, Repr

/-- `low/v7400/node_header.rs:12-21` (`u64` fields, `u8` name length). -/
structure NodeHeader where
  endOffset : Nat
  numAttrs : Nat
  bytelenAttrs : Nat
  nameLen : Nat
  deriving DecidableEq, Repr

/-- `low/v7400/node_header.rs:27-32`. -/
def NodeHeader.isNodeEnd (h : NodeHeader) : Bool :=
  h.endOffset == 0 && h.numAttrs == 0 && h.bytelenAttrs == 0 && h.nameLen == 0

/-- `low/v7400/node_header.rs:39-46`. -/
def NodeHeader.nodeEnd : NodeHeader := ⟨0, 0, 0, 0⟩

/-- `low/v7400/fbx_footer.rs:21-50`: the parsed footer. -/
structure Footer where
  unknown1 : Bytes
  paddingLen : Nat
  unknown2 : Bytes
  version : FbxVersion
  unknown3 : Bytes
  deriving DecidableEq, Repr

end Fbx
