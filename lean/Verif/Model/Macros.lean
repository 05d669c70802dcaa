import Verif.Model.TreeIO

/-! # The macros `tree_v7400!` and `write_v7400_binary!`, and the conversions to attribute values

A macro is modelled by the calls it expands to. -/

namespace Fbx

/-- `low/v7400/attribute/value.rs:263-301`: the values that convert to `AttributeValue` with `From`. -/
inductive RustVal where
  | bool (v : Bool)
  | i16 (v : BitVec 16)
  | i32 (v : BitVec 32)
  | i64 (v : BitVec 64)
  | f32 (v : BitVec 32)
  | f64 (v : BitVec 64)
  | vecBool (v : List Bool)
  | vecI32 (v : List (BitVec 32))
  | vecI64 (v : List (BitVec 64))
  | vecF32 (v : List (BitVec 32))
  | vecF64 (v : List (BitVec 64))
  | vecU8 (v : Bytes)
  | string (v : String)
  | sliceBool (v : List Bool)
  | sliceI32 (v : List (BitVec 32))
  | sliceI64 (v : List (BitVec 64))
  | sliceF32 (v : List (BitVec 32))
  | sliceF64 (v : List (BitVec 64))
  | sliceU8 (v : Bytes)
  | str (v : String)
  /-- The reflexive conversion of the standard library. -/
  | value (v : AttrValue)

/-- `low/v7400/attribute/value.rs:263-301` `From<_> for AttributeValue`. `to_owned` of a slice or `str` is its content. -/
def RustVal.into : RustVal → AttrValue
  | .bool v => .bool v
  | .i16 v => .i16 v
  | .i32 v => .i32 v
  | .i64 v => .i64 v
  | .f32 v => .f32 v
  | .f64 v => .f64 v
  | .vecBool v => .arrBool v
  | .vecI32 v => .arrI32 v
  | .vecI64 v => .arrI64 v
  | .vecF32 v => .arrF32 v
  | .vecF64 v => .arrF64 v
  | .vecU8 v => .binary v
  | .string v => .string v
  | .sliceBool v => .arrBool v
  | .sliceI32 v => .arrI32 v
  | .sliceI64 v => .arrI64 v
  | .sliceF32 v => .arrF32 v
  | .sliceF64 v => .arrF64 v
  | .sliceU8 v => .binary v
  | .str v => .string v
  | .value v => v

/-- The syntax both macros accept between their outer braces: `tree/v7400/macros.rs:37-81`,
`writer/v7400/binary/macros.rs:54-98`. Attribute expressions are represented by their values (no effects). -/
inductive Lit where
  /-- Nothing. -/
  | nil
  /-- `, rest` -/
  | comma (rest : Lit)
  /-- `Name: { sub } rest` -/
  | bare (name : String) (sub rest : Lit)
  /-- `Name: [attr, …] { sub } rest` -/
  | list (name : String) (attrs : List RustVal) (sub rest : Lit)
  /-- `Name: (attrs) { sub } rest` -/
  | iter (name : String) (attrs : List AttrValue) (sub rest : Lit)

namespace Tree

/-- `tree/v7400/macros.rs:62-64,77`: the calls of `append_attribute`. -/
def appendAttributes (id : Nat) : List AttrValue → TM Unit
  | [] => pure ()
  | v :: vs => do
    appendAttribute id v
    appendAttributes id vs

/-- `tree/v7400/macros.rs:37-81`: the `@__node` rules. -/
def buildNodes (parent : Nat) : Lit → TM Unit
  | .nil => pure ()
  | .comma rest => buildNodes parent rest
  | .bare name sub rest => do
    let node ← appendNew parent name
    buildNodes node sub
    buildNodes parent rest
  | .list name attrs sub rest => do
    let node ← appendNew parent name
    appendAttributes node (attrs.map RustVal.into)
    buildNodes node sub
    buildNodes parent rest
  | .iter name attrs sub rest => do
    let node ← appendNew parent name
    appendAttributes node attrs
    buildNodes node sub
    buildNodes parent rest

/-- `tree/v7400/macros.rs:83-91` `tree_v7400!`: the result of the calls and the tree. -/
def treeMacro (l : Lit) : Res Empty Unit × Tree := buildNodes empty.root l empty

end Tree

namespace Writer

/-- `writer/v7400/binary/macros.rs:100-117`: the `@__attr` rule. -/
def macroAttr (Z : Zlib) (v : AttrValue) : M WErr Writer Unit :=
  match v with
  | .bool v => append Z (.bool v)
  | .i16 v => append Z (.i16 v)
  | .i32 v => append Z (.i32 v)
  | .i64 v => append Z (.i64 v)
  | .f32 v => append Z (.f32 v)
  | .f64 v => append Z (.f64 v)
  | .arrBool v => append Z (.arrBool none (v.map .ok))
  | .arrI32 v => append Z (.arrI32 none (v.map .ok))
  | .arrI64 v => append Z (.arrI64 none (v.map .ok))
  | .arrF32 v => append Z (.arrF32 none (v.map .ok))
  | .arrF64 v => append Z (.arrF64 none (v.map .ok))
  | .binary v => append Z (.binary v)
  | .string v => append Z (.string v)

/-- `writer/v7400/binary/macros.rs:77-80,92-94`: all attributes of a node. -/
def macroAttrs (Z : Zlib) : List AttrValue → M WErr Writer Unit
  | [] => pure ()
  | v :: vs => do
    macroAttr Z v
    macroAttrs Z vs

/-- `writer/v7400/binary/macros.rs:41-98` `write_v7400_binary!`. -/
def writeMacro (Z : Zlib) : Lit → M WErr Writer Unit
  | .nil => pure ()
  | .comma rest => writeMacro Z rest
  | .bare name sub rest => do
    newNode name
    writeMacro Z sub
    closeNode
    writeMacro Z rest
  | .list name attrs sub rest => do
    newNode name
    macroAttrs Z (attrs.map RustVal.into)
    writeMacro Z sub
    closeNode
    writeMacro Z rest
  | .iter name attrs sub rest => do
    newNode name
    macroAttrs Z attrs
    writeMacro Z sub
    closeNode
    writeMacro Z rest

end Writer
end Fbx
