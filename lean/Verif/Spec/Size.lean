import Verif.Spec.AnySource

/-! # How many bytes of a file the parts of a document take, at least -/

namespace Fbx.Spec

/-- An attribute: type code and value; the type code and the length of strings and binary data, and the data; the type code and the header
of an array, whose elements may be compressed. -/
def attrSize : AttrValue → Nat
  | .bool _ => 2
  | .i16 _ => 3
  | .i32 _ => 5
  | .i64 _ => 9
  | .f32 _ => 5
  | .f64 _ => 9
  | .string s => 5 + (utf8 s).length
  | .binary b => 5 + b.length
  | .arrBool _ => 13
  | .arrI32 _ => 13
  | .arrI64 _ => 13
  | .arrF32 _ => 13
  | .arrF64 _ => 13

/-- All attributes of a list. -/
def attrsSize (vs : List AttrValue) : Nat := (vs.map attrSize).sum

/-- The header of a node: 13 bytes, or 25 from version 7.5 on, and the name. -/
def nodeSize (v : FbxVersion) (name : String) : Nat := (if v < 7500 then 13 else 25) + (utf8 name).length

/-- What a client sees. -/
def obsSize (v : FbxVersion) : Obs AttrValue → Nat
  | .start name _ vals => nodeSize v name + attrsSize (vals.filterMap id)
  | _ => 0

/-- The nodes of a document. -/
def forestSize (v : FbxVersion) : Forest AttrValue → Nat
  | .nil => 0
  | .cons name attrs children rest => nodeSize v name + attrsSize attrs + forestSize v children + forestSize v rest

/-- The names of the nodes that were started. -/
def namesOf {α : Type} (h : History α) : List String := h.filterMap (fun x => match x.2 with
  | .event (.startNode name _) => some name
  | _ => none)

end Fbx.Spec
