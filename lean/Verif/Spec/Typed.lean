import Verif.Spec.History
import Verif.Model.Loaders

/-! # What the loaders for one type are for -/

namespace Fbx.Spec

/-- The loaders for one type: the type they are for, how they describe it, and the values they return. -/
inductive TypedLoader : (α : Type) → Loader α → AttrType → String → (AttrValue → Option α) → Prop
  | bool : TypedLoader Bool primBool .bool "single boolean" fun | .bool x => some x | _ => none
  | i16 : TypedLoader (BitVec 16) primI16 .i16 "single i16" fun | .i16 x => some x | _ => none
  | i32 : TypedLoader (BitVec 32) primI32 .i32 "single i32" fun | .i32 x => some x | _ => none
  | i64 : TypedLoader (BitVec 64) primI64 .i64 "single i64" fun | .i64 x => some x | _ => none
  | f32 : TypedLoader (BitVec 32) primF32 .f32 "single f32" fun | .f32 x => some x | _ => none
  | f64 : TypedLoader (BitVec 64) primF64 .f64 "single f64" fun | .f64 x => some x | _ => none
  | arrBool : TypedLoader (List Bool) arrLoaderBool .arrBool "boolean array" fun | .arrBool x => some x | _ => none
  | arrI32 : TypedLoader (List (BitVec 32)) arrLoaderI32 .arrI32 "i32 array" fun | .arrI32 x => some x | _ => none
  | arrI64 : TypedLoader (List (BitVec 64)) arrLoaderI64 .arrI64 "i64 array" fun | .arrI64 x => some x | _ => none
  | arrF32 : TypedLoader (List (BitVec 32)) arrLoaderF32 .arrF32 "f32 array" fun | .arrF32 x => some x | _ => none
  | arrF64 : TypedLoader (List (BitVec 64)) arrLoaderF64 .arrF64 "f64 array" fun | .arrF64 x => some x | _ => none
  | binary : TypedLoader Bytes binaryLoader .binary "binary" fun | .binary x => some x | _ => none
  | string : TypedLoader String stringLoader .string "string" fun | .string x => some x | _ => none

/-- How a value of a type is described in an error. -/
def describe : AttrType → String
  | .bool => "boolean"
  | .i16 => "i16"
  | .i32 => "i32"
  | .i64 => "i64"
  | .f32 => "f32"
  | .f64 => "f64"
  | .arrBool => "boolean array"
  | .arrI32 => "i32 array"
  | .arrI64 => "i64 array"
  | .arrF32 => "f32 array"
  | .arrF64 => "f64 array"
  | .binary => "binary data"
  | .string => "string data"

/-- The outcome of a call that has not returned a value, for a client with another type of values. -/
def Outcome.same {α β : Type} : Outcome α → Option (Outcome β)
  | .value _ => none
  | .event e => some (.event e)
  | .noValue => some .noValue
  | .done => some .done
  | .err e => some (.err e)
  | .panic x => some (.panic x)

end Fbx.Spec
