import Verif.Model.Attribute

/-!
# `src/pull_parser/v7400/attribute/loaders/*.rs`: the loaders shipped with the crate
-/

namespace Fbx

/-- `attribute/loader.rs:28-131`: default method bodies. -/
def unexpected (expecting got : String) : PErr := PErr.ofData (.unexpectedAttribute expecting got)

/-- `attribute/loader.rs:15-131`: the trait's default implementation of everything. -/
def Loader.default {α : Type} (expecting : String) : Loader α where
  bool _ := .error (unexpected expecting "boolean")
  i16 _ := .error (unexpected expecting "i16")
  i32 _ := .error (unexpected expecting "i32")
  i64 _ := .error (unexpected expecting "i64")
  f32 _ := .error (unexpected expecting "f32")
  f64 _ := .error (unexpected expecting "f64")
  seqBool _ := .done (.error (unexpected expecting "boolean array"))
  seqI32 _ := .done (.error (unexpected expecting "i32 array"))
  seqI64 _ := .done (.error (unexpected expecting "i64 array"))
  seqF32 _ := .done (.error (unexpected expecting "f32 array"))
  seqF64 _ := .done (.error (unexpected expecting "f64 array"))
  binary _ := .done (.error (unexpected expecting "binary data"))
  string _ := .done (.error (unexpected expecting "string data"))
  binaryBuf _ := .done (.error (unexpected expecting "binary data"))
  stringBuf _ := .done (.error (unexpected expecting "string data"))

/-- `iter.collect::<Result<Vec<_>, _>>()`; the fuel bounds the number of pulls. -/
def collectSeq {e α : Type} (fin : List e → α) : (fuel : Nat) → (acc : List e) → SeqCons e α
  | 0, acc => .done (.ok (fin acc.reverse))
  | fuel + 1, acc => .pull fun
    | none => .done (.ok (fin acc.reverse))
    | some (.ok x) => collectSeq fin fuel (x :: acc)
    | some (.error x) => .done (.error x)

/-- `Read::read_to_end` (and `read_to_string`, whose validation is `fin`): reads until a read returns
nothing. Buffer sizes are `len`, which does not influence the result. -/
def readToEnd {α : Type} (len : Nat) (fin : Bytes → Except PErr α) : (fuel : Nat) → (acc : Bytes) → ReadCons α
  | 0, acc => .done (fin acc)
  | fuel + 1, acc => .read len fun
    | .error x => .done (.error (PErr.ofIo x))
    | .ok [] => .done (fin acc)
    | .ok (b :: bs) => readToEnd len fin fuel (acc ++ b :: bs)

/-- `read_to_end` into a `Vec<u8>`. -/
def readBinary {α : Type} (f : Bytes → α) (len : Nat) : ReadCons α :=
  readToEnd len (fun bs => .ok (f bs)) (len + 1) []

/-- `read_to_string` into a `String`. -/
def readString {α : Type} (f : String → α) (len : Nat) : ReadCons α :=
  readToEnd len (fun bs => match stringOfUtf8 bs with
    | some s => .ok (f s)
    | none => .error (PErr.ofIo .invalidData)) (len + 1) []

/-- `loaders/direct.rs:14-110` `DirectLoader`. -/
def directLoader : Loader AttrValue where
  bool v := .ok (.bool v)
  i16 v := .ok (.i16 v)
  i32 v := .ok (.i32 v)
  i64 v := .ok (.i64 v)
  f32 v := .ok (.f32 v)
  f64 v := .ok (.f64 v)
  seqBool n := collectSeq .arrBool (n + 1) []
  seqI32 n := collectSeq .arrI32 (n + 1) []
  seqI64 n := collectSeq .arrI64 (n + 1) []
  seqF32 n := collectSeq .arrF32 (n + 1) []
  seqF64 n := collectSeq .arrF64 (n + 1) []
  binary := readBinary .binary
  string := readString .string
  binaryBuf := readBinary .binary
  stringBuf := readString .string

/-- `loaders/type_.rs:17-109` `TypeLoader`: touches no data. -/
def typeLoader : Loader AttrType where
  bool _ := .ok .bool
  i16 _ := .ok .i16
  i32 _ := .ok .i32
  i64 _ := .ok .i64
  f32 _ := .ok .f32
  f64 _ := .ok .f64
  seqBool _ := .done (.ok .arrBool)
  seqI32 _ := .done (.ok .arrI32)
  seqI64 _ := .done (.ok .arrI64)
  seqF32 _ := .done (.ok .arrF32)
  seqF64 _ := .done (.ok .arrF64)
  binary _ := .done (.ok .binary)
  string _ := .done (.ok .string)
  binaryBuf _ := .done (.ok .binary)
  stringBuf _ := .done (.ok .string)

/-! `loaders/single.rs:14-36` `PrimitiveLoader<T>` for each `T`. -/

/-- `single.rs:31` `PrimitiveLoader<bool>`. -/
def primBool : Loader Bool := { Loader.default "single boolean" with bool := .ok }
/-- `single.rs:32` `PrimitiveLoader<i16>`. -/
def primI16 : Loader (BitVec 16) := { Loader.default "single i16" with i16 := .ok }
/-- `single.rs:33` `PrimitiveLoader<i32>`. -/
def primI32 : Loader (BitVec 32) := { Loader.default "single i32" with i32 := .ok }
/-- `single.rs:34` `PrimitiveLoader<i64>`. -/
def primI64 : Loader (BitVec 64) := { Loader.default "single i64" with i64 := .ok }
/-- `single.rs:35` `PrimitiveLoader<f32>`. -/
def primF32 : Loader (BitVec 32) := { Loader.default "single f32" with f32 := .ok }
/-- `single.rs:36` `PrimitiveLoader<f64>`. -/
def primF64 : Loader (BitVec 64) := { Loader.default "single f64" with f64 := .ok }

/-! `loaders/single.rs:38-70` `ArrayLoader<Vec<T>>` for each `T`. -/

/-- `single.rs:66` `ArrayLoader<Vec<bool>>`. -/
def arrLoaderBool : Loader (List Bool) :=
  { Loader.default "boolean array" with seqBool := fun n => collectSeq id (n + 1) [] }
/-- `single.rs:67` `ArrayLoader<Vec<i32>>`. -/
def arrLoaderI32 : Loader (List (BitVec 32)) :=
  { Loader.default "i32 array" with seqI32 := fun n => collectSeq id (n + 1) [] }
/-- `single.rs:68` `ArrayLoader<Vec<i64>>`. -/
def arrLoaderI64 : Loader (List (BitVec 64)) :=
  { Loader.default "i64 array" with seqI64 := fun n => collectSeq id (n + 1) [] }
/-- `single.rs:69` `ArrayLoader<Vec<f32>>`. -/
def arrLoaderF32 : Loader (List (BitVec 32)) :=
  { Loader.default "f32 array" with seqF32 := fun n => collectSeq id (n + 1) [] }
/-- `single.rs:70` `ArrayLoader<Vec<f64>>`. -/
def arrLoaderF64 : Loader (List (BitVec 64)) :=
  { Loader.default "f64 array" with seqF64 := fun n => collectSeq id (n + 1) [] }

/-- `single.rs:76-89` `BinaryLoader`; the buffered hook is the trait default (`loader.rs:108-116`), which
calls the unbuffered one. -/
def binaryLoader : Loader Bytes :=
  { Loader.default "binary" with binary := readBinary id, binaryBuf := readBinary id }

/-- `single.rs:95-108` `StringLoader`. -/
def stringLoader : Loader String :=
  { Loader.default "string" with string := readString id, stringBuf := readString id }

end Fbx
