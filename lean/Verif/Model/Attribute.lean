import Verif.Model.Parser

/-!
# `src/pull_parser/v7400/attribute.rs` and `attribute/array.rs`

User loaders are arbitrary: for primitive types they are functions, for arrays they are arbitrary
(terminating) programs pulling elements, for binaries and strings arbitrary programs reading from the
limited stream.
-/

namespace Fbx

/-- A consumer of an element iterator (`load_seq_*`, `attribute/loader.rs:70-104`): any program which
pulls elements and finally returns. -/
inductive SeqCons (e α : Type) where
  | done (r : Except PErr α)
  | pull (k : Option (Except PErr e) → SeqCons e α)

/-- A consumer of the limited stream (`load_binary`, `load_string`, `attribute/loader.rs:106-131`): any
program which calls `read` with some buffer sizes and finally returns. -/
inductive ReadCons (α : Type) where
  | done (r : Except PErr α)
  | read (n : Nat) (k : Except IoErr Bytes → ReadCons α)

/-- `attribute/loader.rs:15-131` `LoadAttribute`. -/
structure Loader (α : Type) where
  bool : Bool → Except PErr α
  i16 : BitVec 16 → Except PErr α
  i32 : BitVec 32 → Except PErr α
  i64 : BitVec 64 → Except PErr α
  f32 : BitVec 32 → Except PErr α
  f64 : BitVec 64 → Except PErr α
  seqBool : Nat → SeqCons Bool α
  seqI32 : Nat → SeqCons (BitVec 32) α
  seqI64 : Nat → SeqCons (BitVec 64) α
  seqF32 : Nat → SeqCons (BitVec 32) α
  seqF64 : Nat → SeqCons (BitVec 64) α
  binary : Nat → ReadCons α
  string : Nat → ReadCons α
  binaryBuf : Nat → ReadCons α
  stringBuf : Nat → ReadCons α

/-! ## Element iterators -/

/-- Element representation: size in bytes, `from_le_bytes`, and whether the representation is odd. -/
structure ElemTy (e : Type) where
  size : Nat
  ofBytes : Bytes → e
  odd : Bytes → Bool

/-- `attribute/array.rs:187`, `attribute.rs:176`: neither `'T'` nor `'Y'`. -/
def oddBool (b : Byte) : Bool := b ≠ 0x54 ∧ b ≠ 0x59

/-- `attribute/array.rs:190`, `attribute.rs:174`: the lowest bit. -/
def boolOfByte (b : Byte) : Bool := (b &&& 1) ≠ 0

/-- `attribute/array.rs:173-198`. -/
def ElemTy.bool : ElemTy Bool := ⟨1, fun bs => boolOfByte (bs.headD 0), fun bs => oddBool (bs.headD 0)⟩
/-- `attribute/array.rs:122`. -/
def ElemTy.i32 : ElemTy (BitVec 32) := ⟨4, fun bs => BitVec.ofNat 32 (fromLe bs), fun _ => false⟩
/-- `attribute/array.rs:123`. -/
def ElemTy.i64 : ElemTy (BitVec 64) := ⟨8, fun bs => BitVec.ofNat 64 (fromLe bs), fun _ => false⟩
/-- `attribute/array.rs:124` (as bits). -/
def ElemTy.f32 : ElemTy (BitVec 32) := ⟨4, fun bs => BitVec.ofNat 32 (fromLe bs), fun _ => false⟩
/-- `attribute/array.rs:125` (as bits). -/
def ElemTy.f64 : ElemTy (BitVec 64) := ⟨8, fun bs => BitVec.ofNat 64 (fromLe bs), fun _ => false⟩

/-- `attribute/array.rs:46-58,129-141`: both iterator types (`odd` is only ever set for booleans). -/
structure ElemIter (Z : Zlib) where
  dec : Dec Z
  rest : Nat
  hasError : Bool
  odd : Bool

namespace ElemIter
variable {Z : Zlib} {e α : Type}

/-- `attribute/array.rs:91-110,176-198` `next`. -/
def next (t : ElemTy e) : M PErr (ElemIter Z × Reader) (Option (Except PErr e)) := fun (it, r) =>
  if it.rest = 0 then (.ok none, (it, r))
  else match Dec.readExact t.size (it.dec, r) with
    | (.ok bs, (d, r')) =>
      (.ok (some (.ok (t.ofBytes bs))),
        ({ it with dec := d, rest := it.rest - 1, odd := it.odd || t.odd bs }, r'))
    | (.err x, (d, r')) => (.ok (some (.error (PErr.ofIo x))), ({ it with dec := d, hasError := true }, r'))
    | (.panic x, (d, r')) => (.panic x, ({ it with dec := d }, r'))

/-- `attribute/array.rs:113-115,201-203` `size_hint`. -/
def sizeHint (it : ElemIter Z) : Nat × Option Nat := (0, some it.rest)

/-- Runs a loader's `load_seq_*` on the iterator. -/
def run (t : ElemTy e) : SeqCons e α → M PErr (ElemIter Z × Reader) α
  | .done r => M.ofExcept r
  | .pull k => do
    let x ← next t
    run t (k x)

end ElemIter

/-- `io::Take::read`: nothing is read from the inner stream once the limit is reached. -/
def takeRead (n : Nat) : M IoErr (Nat × Reader) Bytes := fun (limit, r) =>
  if limit = 0 then (.ok [], (limit, r))
  else match Reader.read (min n limit) r with
    | (.ok bs, r') => (.ok bs, (limit - bs.length, r'))
    | (.err e, r') => (.err e, (limit, r'))
    | (.panic x, r') => (.panic x, (limit, r'))

/-- Runs a loader's `load_binary` or `load_string` on the limited stream. -/
def ReadCons.run {α : Type} : ReadCons α → M PErr (Nat × Reader) α
  | .done r => M.ofExcept r
  | .read n k => fun s => match takeRead n s with
    | (.ok bs, s') => (k (.ok bs)).run s'
    | (.err e, s') => (k (.error e)).run s'
    | (.panic x, s') => (.panic x, s')

/-! ## The attribute reader -/

/-- `attribute.rs:24-36` `Attributes` (without the parser reference). -/
structure Attrs where
  total : Nat
  rest : Nat
  next : Nat
  deriving DecidableEq, Repr

/-- The attribute reader together with the parser it borrows. -/
structure AP where
  parser : Parser
  attrs : Attrs

namespace AP

/-- Runs parser code. -/
def par {α : Type} (m : M PErr Parser α) : M PErr AP α :=
  M.zoom AP.parser (fun p a => { a with parser := p }) m

/-- Runs I/O on the parser's reader. -/
def io {α : Type} (m : M IoErr Reader α) : M PErr AP α := par (Parser.io m)

/-- `attribute.rs:41-50` `from_parser`. -/
def ofParser (p : Parser) : Res PErr AP :=
  match p.started with
  | [] => .panic .noCurrentNode
  | n :: _ => .ok ⟨p, ⟨n.attrCount, n.attrCount, p.reader.position⟩⟩

/-- `attribute.rs:68-75` `update_next_attr_start_offset`. -/
def updateNext (size : Nat) : M PErr AP Unit := fun a =>
  let n := a.parser.reader.position + size
  if n < u64Size then (.ok (), { a with attrs := { a.attrs with next := n } })
  else (.panic .fbxTooLarge, a)

/-- `attribute.rs:329-335` `position`. -/
def position (start idx : Nat) : M PErr AP SynPos := do
  let pos ← par Parser.position
  pure { pos with compPos := start, attrIdx := some idx }

/-- `attribute.rs:98-116` `read_next_attr_type`, with `type_.rs:83-90` inlined. -/
def readNextType : M PErr AP (Option AttrType) := do
  let a ← M.get
  if a.attrs.rest = 0 then pure none
  else do
    if a.parser.reader.position < a.attrs.next then io (Reader.skipTo a.attrs.next) else pure ()
    let code ← io Reader.readU8
    match AttrType.fromTypeCode code with
    | none => M.throw (PErr.ofData (.invalidAttrTypeCode code))
    | some t => do
      M.modify (fun a => { a with attrs := { a.attrs with rest := a.attrs.rest - 1 } })
      pure (some t)

/-- `array_attribute.rs:80-92` `ArrayAttributeHeader::from_reader`. -/
def readArrHeader : M PErr AP ArrHeader := do
  let count ← io (Reader.readLe 4)
  let raw ← io (Reader.readLe 4)
  match ArrEnc.fromU32 raw with
  | none => M.throw (PErr.ofData (.invalidArrayEncoding raw))
  | some enc => do
    let bytelen ← io (Reader.readLe 4)
    pure ⟨count, enc, bytelen⟩

/-- Runs a consumer on an element iterator over the parser's reader; also reports the iterator flags. -/
def runSeq {e α : Type} {Z : Zlib} (t : ElemTy e) (c : SeqCons e α) (d : Dec Z) (count : Nat) :
    M PErr AP (α × Bool × Bool) := fun a =>
  match ElemIter.run t c (⟨d, count, false, false⟩, a.parser.reader) with
  | (.ok v, (it, r)) => (.ok (v, it.hasError, it.odd), { a with parser := { a.parser with reader := r } })
  | (.err e, (_, r)) => (.err e, { a with parser := { a.parser with reader := r } })
  | (.panic x, (_, r)) => (.panic x, { a with parser := { a.parser with reader := r } })

/-- `attribute.rs:208-263`: array attributes. The boolean warning step is shared with the other element
types, whose iterators never set `odd`. -/
def loadSeq {e α : Type} (Z : Zlib) (t : ElemTy e) (c : Nat → SeqCons e α) (start idx : Nat) :
    M PErr AP α := do
  let h ← readArrHeader
  updateNext h.bytelen
  let d ← par (M.zoom Parser.reader (fun r p => { p with reader := r }) (Dec.create Z h.enc))
  let (v, hasError, odd) ← runSeq t (c h.count) d h.count
  if odd then do
    let pos ← position start idx
    par (Parser.warn .incorrectBool pos)
  else pure ()
  if hasError then M.throw (PErr.ofData .nodeAttributeError) else pure v

/-- `attribute.rs:264-287,306-321`: binary and string attributes. -/
def loadSpecial {α : Type} (c : Nat → ReadCons α) : M PErr AP α := do
  let len ← io (Reader.readLe 4)
  updateNext len
  fun a => match (c len).run (len, a.parser.reader) with
    | (x, (_, r)) => (x, { a with parser := { a.parser with reader := r } })

/-- `attribute.rs:172-207`: a fixed-width little-endian attribute. -/
def loadPrim {α : Type} (w : Nat) (f : BitVec (8 * w) → Except PErr α) : M PErr AP α := do
  let n ← io (Reader.readLe w)
  updateNext 0
  M.ofExcept (f (BitVec.ofNat (8 * w) n))

/-- `attribute.rs:173-184`: boolean attribute. -/
def loadBool {α : Type} (f : Bool → Except PErr α) (start idx : Nat) : M PErr AP α := do
  let raw ← io Reader.readU8
  updateNext 0
  if oddBool raw then do
    let pos ← position start idx
    par (Parser.warn .incorrectBool pos)
  else pure ()
  M.ofExcept (f (boolOfByte raw))

/-- `attribute.rs:163-324` `load_next_impl` and (with `buffered`) `load_next_buffered_impl`. -/
def loadImpl {α : Type} (Z : Zlib) (buffered : Bool) (t : AttrType) (l : Loader α) (start idx : Nat) :
    M PErr AP α :=
  match t with
  | .bool => loadBool l.bool start idx
  | .i16 => loadPrim 2 l.i16
  | .i32 => loadPrim 4 l.i32
  | .i64 => loadPrim 8 l.i64
  | .f32 => loadPrim 4 l.f32
  | .f64 => loadPrim 8 l.f64
  | .arrBool => loadSeq Z .bool l.seqBool start idx
  | .arrI32 => loadSeq Z .i32 l.seqI32 start idx
  | .arrI64 => loadSeq Z .i64 l.seqI64 start idx
  | .arrF32 => loadSeq Z .f32 l.seqF32 start idx
  | .arrF64 => loadSeq Z .f64 l.seqF64 start idx
  | .binary => loadSpecial (if buffered then l.binaryBuf else l.binary)
  | .string => loadSpecial (if buffered then l.stringBuf else l.string)

/-- `attribute.rs:119-131,137-150`: the closures run under the health check. -/
def loadBody {α : Type} (Z : Zlib) (buffered : Bool) (l : Loader α) (start idx : Nat) :
    M PErr AP (Option α) := do
  match ← readNextType with
  | none => pure none
  | some t => do
    let v ← loadImpl Z buffered t l start idx
    pure (some v)

/-- `attribute.rs:78-95` `do_with_health_check`. -/
def withHealthCheck {α : Type} (f : Nat → Nat → M PErr AP α) : M PErr AP α := do
  par Parser.ensureContinuable
  let a ← M.get
  M.assert (a.attrs.rest ≤ a.attrs.total) .attrIndexUnderflow
  let start := a.attrs.next
  let idx := a.attrs.total - a.attrs.rest
  fun a => match f start idx a with
    | (.ok v, a') => (.ok v, a')
    | (.panic x, a') => (.panic x, a')
    | (.err e, a') => match position start idx a' with
      | (.ok pos, a'') => (.err (e.andPosition pos), { a'' with parser := a''.parser.setAborted pos })
      | (.err e', a'') => (.err e', a'')
      | (.panic x, a'') => (.panic x, a'')

/-- `attribute.rs:119-131` `load_next` (`buffered = false`), `137-150` `load_next_buffered`. -/
def load {α : Type} (Z : Zlib) (buffered : Bool) (l : Loader α) : M PErr AP (Option α) :=
  withHealthCheck (loadBody Z buffered l)

/-! ## Attribute iterators, `attribute/iter.rs` -/

/-- A possibly infinite sequence of loaders: the remaining loaders as a function of the index. -/
structure Loaders (α : Type) where
  get : Nat → Option (Loader α)
  used : Nat
  /-- `size_hint` of the loaders iterator after some items were taken -/
  hint : Nat → Nat × Option Nat

/-- `Option::transpose` on the result of `Attributes::load_next`; one loader has been taken. -/
def pulled {α : Type} (ls : Loaders α) : Res PErr (Option α) × AP → Res PErr (Option (Except PErr α)) × (AP × Loaders α)
  | (.ok none, a) => (.ok none, (a, { ls with used := ls.used + 1 }))
  | (.ok (some v), a) => (.ok (some (.ok v)), (a, { ls with used := ls.used + 1 }))
  | (.err e, a) => (.ok (some (.error e)), (a, { ls with used := ls.used + 1 }))
  | (.panic x, a) => (.panic x, (a, { ls with used := ls.used + 1 }))

/-- `iter.rs:31-41` `load_next`. -/
def iterLoadNext {α : Type} (Z : Zlib) : M PErr (AP × Loaders α) (Option (Except PErr α)) := fun (a, ls) =>
  match ls.get ls.used with
  | none => (.ok none, (a, { ls with used := ls.used + 1 }))
  | some l => pulled ls (load Z false l a)

/-- `iter.rs:45-55` `load_next_buffered`: it calls `Attributes::load_next`, too. -/
def iterLoadNextBuffered {α : Type} (Z : Zlib) : M PErr (AP × Loaders α) (Option (Except PErr α)) := fun (a, ls) =>
  match ls.get ls.used with
  | none => (.ok none, (a, { ls with used := ls.used + 1 }))
  | some l => pulled ls (load Z false l a)

/-- `next` of the four iterators: `iter.rs:92-94,145-147,198-200,251-253` (`BorrowedIter` and `OwnedIter` have the same
code, as have `BorrowedIterBuffered` and `OwnedIterBuffered`). -/
def iterNext {α : Type} (Z : Zlib) (buffered : Bool) : M PErr (AP × Loaders α) (Option (Except PErr α)) :=
  if buffered then iterLoadNextBuffered Z else iterLoadNext Z

/-- `iter.rs:13-27` `make_size_hint_for_attrs`; `none` as an upper bound of the loaders becomes
`usize::MAX`. -/
def iterSizeHint {α : Type} (a : AP) (ls : Loaders α) : Nat × Option Nat :=
  let h := ls.hint ls.used
  (min a.attrs.rest h.1,
    some (match h.2 with
      | none => u64Size - 1
      | some m => min a.attrs.rest m))

end AP
end Fbx
