import Verif.Spec.Standing

/-! # The memory which the loaders set aside for strings and binary data

Only the explicit requests are modelled: `Vec::with_capacity(len as usize)` and `String::with_capacity(len as usize)`. The vectors of arrays
grow while their elements are read (`iter.collect`, whose size hint has the lower bound 0), and the buffer for the name of a node
(`parser.rs:356`) has at most 255 bytes. `len as usize` is `len`: addresses have 64 bits, and `len` comes from a field of 32 bits. -/

namespace Fbx
variable {α : Type}

/-- `loaders/direct.rs:98-110`, `single.rs:84-88,103-107`: a hook for strings or binary data which reads the data sets aside `len` bytes
before it reads anything. The default hooks (`loader.rs:86-116`) and those of `TypeLoader` (`type_.rs:93-109`) do not read and set
nothing aside. -/
def ReadCons.setsAside (len : Nat) : ReadCons α → Nat
  | .done _ => 0
  | .read _ _ => len

/-- The loader which, instead of loading an attribute, says what `l` would set aside for it. -/
def Loader.meter (l : Loader α) : Loader Nat where
  bool _ := .ok 0
  i16 _ := .ok 0
  i32 _ := .ok 0
  i64 _ := .ok 0
  f32 _ := .ok 0
  f64 _ := .ok 0
  seqBool _ := .done (.ok 0)
  seqI32 _ := .done (.ok 0)
  seqI64 _ := .done (.ok 0)
  seqF32 _ := .done (.ok 0)
  seqF64 _ := .done (.ok 0)
  binary len := .done (.ok ((l.binary len).setsAside len))
  string len := .done (.ok ((l.string len).setsAside len))
  binaryBuf len := .done (.ok ((l.binaryBuf len).setsAside len))
  stringBuf len := .done (.ok ((l.stringBuf len).setsAside len))

/-- What a call sets aside: for `load_next`, what the loader does when its hook is called, which is what its meter says in the same
state. -/
def Client.setsAside (Z : Zlib) (s : Client) : Call α → Nat
  | .load b l => match s.call Z (.load b l.meter) with
    | some (.value n, _) => n
    | _ => 0
  | _ => 0

/-- What all the calls of a client set aside, one after the other. -/
def Spec.Routine.setsAside (Z : Zlib) : Spec.Routine α → Client → List Nat
  | .stop, _ => []
  | .call c k, s => match s.call Z c with
    | none => []
    | some (.panic _, _) => [s.setsAside Z c]
    | some (o, t) => s.setsAside Z c :: (k o t.glance).setsAside Z t

end Fbx
