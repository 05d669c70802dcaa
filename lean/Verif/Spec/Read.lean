import Verif.Spec.Layout
import Verif.Spec.Write
import Verif.Model.Loaders

/-!
# Specification: what a loader makes of a value

A loader is shown a value directly, without any byte stream: numbers are handed over, arrays are iterated,
binaries and strings are read from memory.
-/

namespace Fbx.Spec

/-- Result of a program that pulls elements, iterating over `xs`. -/
def feedSeq {e α : Type} : SeqCons e α → List e → Except PErr α
  | .done r, _ => r
  | .pull k, [] => feedSeq (k none) []
  | .pull k, x :: xs => feedSeq (k (some (.ok x))) xs

/-- Result of a program that reads from a stream, reading from the bytes `bs` in memory. -/
def feedBytes {α : Type} : ReadCons α → List UInt8 → Except PErr α
  | .done r, _ => r
  | .read n k, bs => feedBytes (k (.ok (bs.take n))) (bs.drop n)

/-- What a loader returns when shown the value `v` (with the buffered hooks or the others). -/
def present {α : Type} (buffered : Bool) (l : Loader α) (v : AttrValue) : Except PErr α :=
  match v with
  | .bool v => l.bool v
  | .i16 v => l.i16 v
  | .i32 v => l.i32 v
  | .i64 v => l.i64 v
  | .f32 v => l.f32 v
  | .f64 v => l.f64 v
  | .arrBool vs => feedSeq (l.seqBool vs.length) vs
  | .arrI32 vs => feedSeq (l.seqI32 vs.length) vs
  | .arrI64 vs => feedSeq (l.seqI64 vs.length) vs
  | .arrF32 vs => feedSeq (l.seqF32 vs.length) vs
  | .arrF64 vs => feedSeq (l.seqF64 vs.length) vs
  | .binary bs => feedBytes ((if buffered then l.binaryBuf else l.binary) bs.length) bs
  | .string s => feedBytes ((if buffered then l.stringBuf else l.string) (utf8 s).length) (utf8 s)

/-- What a sequence of loaders returns when shown the values of a node one after the other: nothing more once
the values are exhausted. `none` if one of them fails. -/
def presentAll {α : Type} (buffered : Bool) : List (Loader α) → List AttrValue → Option (List (Option α))
  | [], _ => some []
  | _ :: ls, [] => (presentAll buffered ls []).map (none :: ·)
  | l :: ls, v :: vs => match present buffered l v with
    | .ok x => (presentAll buffered ls vs).map (some x :: ·)
    | .error _ => none

/-- Client code: loads attributes with the given loaders, one after the other. -/
def loadEach {α : Type} (Z : Zlib) (buffered : Bool) : List (Loader α) → M PErr AP (List (Option α))
  | [] => pure []
  | l :: ls => do
    let v ← AP.load Z buffered l
    let vs ← loadEach Z buffered ls
    pure (v :: vs)

/-! ## Clients of the pull parser -/

/-- What a client sees: a node with the values it loaded, the end of a node, the end of the document. -/
inductive Obs (α : Type) where
  | start (name : String) (numAttrs : Nat) (loaded : List (Option α))
  | «end»
  | fbx (footer : Except PErr Footer)

/-- Client code: uses the attributes of the node whose `StartNode` event was just returned. -/
def withAttrs {β : Type} (m : M PErr AP β) : M PErr Parser β := fun p =>
  match AP.ofParser p with
  | .ok a => ((m a).1, (m a).2.parser)
  | .err e => (.err e, p)
  | .panic x => (.panic x, p)

/-- A client: calls `next_event` at most `calls` times, until the document ends or something fails. After each
`StartNode` it loads attributes with the loaders `plan` prescribes for the `k`-th node, given its name and number of
attributes. Returns everything it saw. -/
def drive {α : Type} (Z : Zlib) (buffered : Bool) (plan : Nat → String → Nat → List (Loader α)) :
    (calls k : Nat) → (seen : List (Obs α)) → M PErr Parser (List (Obs α))
  | 0, _, seen => pure seen
  | calls + 1, k, seen => do
    match ← Parser.nextEvent with
    | .startNode name n => do
      let vals ← withAttrs (loadEach Z buffered (plan k name n))
      drive Z buffered plan calls (k + 1) (seen ++ [.start name n vals])
    | .endNode => drive Z buffered plan calls k (seen ++ [.end])
    | .endFbx f => pure (seen ++ [.fbx f])

/-- What the client is to see of a forest. -/
def expected {α : Type} (buffered : Bool) (plan : Nat → String → Nat → List (Loader α)) :
    Forest DAttr → (k : Nat) → List (Obs α)
  | .nil, _ => []
  | .cons name attrs children rest, k =>
    .start name attrs.length ((presentAll buffered (plan k name attrs.length) (attrs.map DAttr.value)).getD []) ::
      (expected buffered plan children (k + 1) ++ .end :: expected buffered plan rest (k + 1 + children.count))

/-- What a client sees of a forest if it loads every attribute as a value. -/
def events : Forest DAttr → List (Obs AttrValue)
  | .nil => []
  | .cons name attrs children rest =>
    .start name attrs.length (attrs.map (fun a => some a.value)) :: (events children ++ .end :: events rest)

/-- The client's plan to load every attribute with `DirectLoader`. -/
def everything : Nat → String → Nat → List (Loader AttrValue) := fun _ _ n => List.replicate n directLoader

/-- The events themselves, without the loaded values. -/
def Obs.bare {α : Type} : Obs α → Obs Unit
  | .start name n _ => .start name n []
  | .end => .end
  | .fbx f => .fbx f

/-- Number of nodes with an empty name. -/
def emptyNames {α : Type} : Forest α → Nat
  | .nil => 0
  | .cons name _ children rest => (if name = "" then 1 else 0) + emptyNames children + emptyNames rest

/-- None of the planned loaders fails on the value it is to load. -/
def planOk {α : Type} (buffered : Bool) (plan : Nat → String → Nat → List (Loader α)) : Forest DAttr → (k : Nat) → Prop
  | .nil, _ => True
  | .cons name attrs children rest, k =>
    (presentAll buffered (plan k name attrs.length) (attrs.map DAttr.value)).isSome ∧
      planOk buffered plan children (k + 1) ∧ planOk buffered plan rest (k + 1 + children.count)

/-- Handlers that never object. -/
def tolerant (p : Parser) : Prop := ∀ h, p.handler = some h → ∀ log w pos, h log w pos = none

/-- Opens a seekable source with `AnyParser`, sets the handler if there is one, and runs the client. `none` if the
source cannot be opened. -/
def parseFile {α : Type} (Z : Zlib) (checks : Bool) (h : Option Handler) (ending : Option IoErr) (cursor seekLimit : Nat)
    (buffered : Bool) (plan : Nat → String → Nat → List (Loader α)) (calls : Nat) (bytes : List UInt8) :
    Option (Res PErr (List (Obs α)) × Parser) :=
  match anyParser checks true bytes ending cursor seekLimit with
  | .ok p => some (drive Z buffered plan calls 0 [] { p with handler := h })
  | _ => none

/-- The handler, if any, never objects. -/
def indulgent (h : Option Handler) : Prop := ∀ f, h = some f → ∀ log w pos, f log w pos = none

/-! ## Attributes one by one -/

/-- The next attribute to be loaded is there, well-formed, and it is `d`; the parser is healthy and the source a
seekable one without failures or overflows ahead. -/
structure AtAttr (Z : Zlib) (a : AP) (d : DAttr) : Prop where
  running : a.parser.health = .running
  seekable : a.parser.reader.seekable = true
  position : a.parser.reader.position + a.parser.reader.rest.length < 2 ^ 64
  cursor : a.parser.reader.cursor + a.parser.reader.rest.length ≤ a.parser.reader.seekLimit
  toplevel : a.parser.started ≠ [] → a.parser.toplevel ≠ 0
  some_left : 0 < a.attrs.rest
  counted : a.attrs.rest ≤ a.attrs.total
  ahead : a.parser.reader.position ≤ a.attrs.next
  within : a.attrs.next - a.parser.reader.position ≤ a.parser.reader.rest.length
  fits : attrFits Z d
  bytes : ∃ t, a.parser.reader.rest.drop (a.attrs.next - a.parser.reader.position) = attrBytes Z d ++ t

/-- What the type-specific loaders are for: each accepts one type. -/
inductive Accepts : (α : Type) → Loader α → (AttrValue → Option α) → Prop
  | bool : Accepts Bool primBool fun | .bool x => some x | _ => none
  | i16 : Accepts (BitVec 16) primI16 fun | .i16 x => some x | _ => none
  | i32 : Accepts (BitVec 32) primI32 fun | .i32 x => some x | _ => none
  | i64 : Accepts (BitVec 64) primI64 fun | .i64 x => some x | _ => none
  | f32 : Accepts (BitVec 32) primF32 fun | .f32 x => some x | _ => none
  | f64 : Accepts (BitVec 64) primF64 fun | .f64 x => some x | _ => none
  | arrBool : Accepts (List Bool) arrLoaderBool fun | .arrBool x => some x | _ => none
  | arrI32 : Accepts (List (BitVec 32)) arrLoaderI32 fun | .arrI32 x => some x | _ => none
  | arrI64 : Accepts (List (BitVec 64)) arrLoaderI64 fun | .arrI64 x => some x | _ => none
  | arrF32 : Accepts (List (BitVec 32)) arrLoaderF32 fun | .arrF32 x => some x | _ => none
  | arrF64 : Accepts (List (BitVec 64)) arrLoaderF64 fun | .arrF64 x => some x | _ => none
  | binary : Accepts Bytes binaryLoader fun | .binary x => some x | _ => none
  | string : Accepts String stringLoader fun | .string x => some x | _ => none

/-! ## Footers -/

/-- `bs` begins with a footer of a document of the given version, whose contents are `f`: 16 bytes, at most 15 zeros
of padding, 4 zeros, the version, 120 zeros, the fixed tail. -/
def startsWithFooter (version : Nat) (bs : List UInt8) (f : Footer) : Prop :=
  f.unknown1.length = 16 ∧ f.paddingLen ≤ 15 ∧ f.unknown2 = [0, 0, 0, 0] ∧ f.version.toNat = version ∧
  f.unknown3 = [0xf8, 0x5a, 0x8c, 0x6a, 0xde, 0xf5, 0xd9, 0x7e, 0xec, 0xe9, 0x0c, 0xe3, 0x75, 0x8f, 0x29, 0x0b] ∧
  ∃ t, bs = f.unknown1 ++ List.replicate f.paddingLen 0 ++ f.unknown2 ++ le 4 version ++ List.replicate 120 0 ++
    f.unknown3 ++ t

/-- The first footer field has the usual upper half-bytes. -/
def usualField1 (bs : List UInt8) : Prop :=
  bs.map (fun b => b.toNat / 16) = [0xf, 0xb, 0xa, 0x0, 0xd, 0xc, 0xd, 0x6, 0xb, 0x7, 0xf, 0x8, 0x1, 0xf, 0x2, 0x7]

end Fbx.Spec
