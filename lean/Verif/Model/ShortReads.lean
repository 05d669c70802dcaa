import Verif.Model.Chunked
import Verif.Model.TreeIO

/-!
# The parser on a device that delivers its bytes in pieces

The code of `Model/Parser.lean`, `Model/Attribute.lean`, `Model/Loaders.lean` and `Model/TreeIO.lean` once more, with every access to the
source made by std's loops over short and interrupted reads (`Model/Chunked.lean`). Code that does not access the source is taken over by
`CM.lift`.
-/

namespace Fbx

/-- How the device splits reads, and the sizes of std's buffers: the free space of the vector in `read_to_end` at each read of the device,
and the buffer of `io::copy` (both less one). -/
structure Device where
  sched : Schedule
  bufs : Nat → Nat
  copyBuf : Nat

/-- Fallible code with `&mut` access to a state and to a device of which a number of reads have been made. The loops over the reads need not
end, so that there is fuel; `none` means that it was not enough. -/
def CM (ε σ α : Type) := (fuel : Nat) → σ × Nat → Option (Res ε α × (σ × Nat))

namespace CM
variable {ε ε' σ τ α β : Type}

/-- `Ok(a)`. -/
def pure (a : α) : CM ε σ α := fun _ s => some (.ok a, s)

/-- Sequencing with the `?` operator. -/
def bind (m : CM ε σ α) (f : α → CM ε σ β) : CM ε σ β := fun fuel s =>
  match m fuel s with
  | none => none
  | some (.ok a, s') => f a fuel s'
  | some (.err e, s') => some (.err e, s')
  | some (.panic p, s') => some (.panic p, s')

instance : Monad (CM ε σ) where
  pure := CM.pure
  bind := CM.bind

/-- Code that does not access the device. -/
def lift (m : M ε σ α) : CM ε σ α := fun _ s => some ((m s.1).1, ((m s.1).2, s.2))

/-- `map_err`. -/
def mapErr (f : ε → ε') (m : CM ε σ α) : CM ε' σ α := fun fuel s =>
  match m fuel s with
  | none => none
  | some (.ok a, s') => some (.ok a, s')
  | some (.err e, s') => some (.err (f e), s')
  | some (.panic p, s') => some (.panic p, s')

/-- Runs code on a component of the state. -/
def zoom (getter : σ → τ) (setter : τ → σ → σ) (m : CM ε τ α) : CM ε σ α := fun fuel s =>
  match m fuel (getter s.1, s.2) with
  | none => none
  | some (x, (t, i)) => some (x, (setter t s.1, i))

/-- Goes on with the result of a call, also if it failed (`match` on a `Result`). -/
def andThen (m : CM ε σ α) (f : Res ε α → CM ε' σ β) : CM ε' σ β := fun fuel s =>
  match m fuel s with
  | none => none
  | some (.panic p, s') => some (.panic p, s')
  | some (x, s') => f x fuel s'

end CM

namespace Device
variable {α ε : Type}

/-! ## `src/pull_parser/reader.rs`, `src/pull_parser/v7400/read.rs` -/

/-- `Read::read_exact` (std) on `Reader`. -/
def readExact (D : Device) (n : Nat) : CM IoErr Reader Bytes := fun fuel s =>
  (Chunked.readExact D.sched fuel n [] ⟨s.1, s.2⟩).map fun x => (x.1, (x.2.reader, x.2.calls))

/-- `reader.rs:43-48` `skip_distance_plain`. -/
def skipPlain (D : Device) (d : Nat) : CM IoErr Reader Unit := fun fuel s =>
  (Chunked.copyToSink D.sched D.copyBuf fuel d ⟨s.1, s.2⟩).map fun x => (x.1, (x.2.reader, x.2.calls))

/-- `reader.rs:137-142` `skip_to`, `124-126` `skip_distance`; seeking needs no reads. -/
def skipTo (D : Device) (pos : Nat) : CM IoErr Reader Unit := fun fuel s =>
  if pos < s.1.position then some (.panic .skipBackward, s)
  else if s.1.seekable then CM.lift (Reader.skipSeek (pos - s.1.position)) fuel s
  else skipPlain D (pos - s.1.position) fuel s

/-- `pull_parser/v7400/read.rs:13-20` `u8::from_reader`. -/
def readU8 (D : Device) : CM IoErr Reader Byte := do
  let bs ← readExact D 1
  pure (bs.headD 0)

/-- `pull_parser/v7400/read.rs:23-43`: `k`-byte little-endian numbers. -/
def readLe (D : Device) (k : Nat) : CM IoErr Reader Nat := do
  let bs ← readExact D k
  pure (fromLe bs)

/-- `low/fbx_header.rs:53-72` `FbxHeader::load`. -/
def loadHeader (D : Device) : CM HeaderError Reader FbxVersion := do
  let m ← CM.mapErr HeaderError.io (readExact D 23)
  if m ≠ magic then CM.lift (M.throw .magicNotDetected)
  else do
    let v ← CM.mapErr HeaderError.io (readExact D 4)
    pure (UInt32.ofNat (fromLe v))

/-! ## `src/pull_parser/v7400/parser.rs` -/

/-- Runs an I/O operation on the parser's reader, converting `io::Error` with `?`. -/
def io (m : CM IoErr Reader α) : CM PErr Parser α :=
  CM.mapErr PErr.ofIo (CM.zoom Parser.reader (fun r p => { p with reader := r }) m)

/-- `low/v7400/node_header.rs:50-75`. -/
def readNodeHeader (D : Device) : CM PErr Parser NodeHeader := do
  let p ← CM.lift M.get
  let w := if p.version < 7500 then 4 else 8
  let eo ← io (readLe D w)
  let na ← io (readLe D w)
  let ba ← io (readLe D w)
  let nl ← io (readLe D 1)
  pure ⟨eo, na, ba, nl⟩

/-- `parser.rs:382-393` `skip_unread_attributes`. -/
def skipUnreadAttributes (D : Device) : CM PErr Parser Unit := do
  let p ← CM.lift M.get
  match p.started with
  | [] => pure ()
  | n :: _ =>
    if n.attrEnd > p.reader.position then io (skipTo D n.attrEnd) else pure ()

/-- `parser.rs:354-376`: the name and the registration of a new node. -/
def startNode (D : Device) (start : Nat) (h : NodeHeader) : CM PErr Parser EvKind := do
  CM.lift (if h.nameLen = 0 then Parser.warnEmptyName start else pure ())
  let bs ← io (readExact D h.nameLen)
  match stringOfUtf8 bs with
  | none => CM.lift (M.throw (PErr.ofData .invalidNodeNameEncoding))
  | some name => do
    let p ← CM.lift M.get
    let attrEnd ← CM.lift (Parser.addAttrEnd p.reader.position h.bytelenAttrs)
    CM.lift (M.modify (Parser.pushNode
      { startOff := start, endOff := h.endOffset, attrCount := h.numAttrs, attrEnd, name, kids := 0 }))
    pure .startNode

/-- `parser.rs:266-377` `next_event_impl`. -/
def nextEventImpl (D : Device) : CM PErr Parser EvKind := do
  let p ← CM.lift M.get
  CM.lift (M.assert (p.health = .running) .badState)
  CM.lift (M.assert (p.last ≠ some .endFbx) .badState)
  skipUnreadAttributes D
  let p ← CM.lift M.get
  let start := p.reader.position
  let ended ← CM.lift Parser.tryImplicitEnd
  if ended then pure .endNode
  else do
    let h ← readNodeHeader D
    if h.isNodeEnd then CM.lift Parser.explicitEnd else startNode D start h

/-- `fbx_footer.rs:53-194` `FbxFooter::read_from_parser`. -/
def readFooter (D : Device) : CM PErr Parser Footer := do
  let p ← CM.lift M.get
  let startPos := p.reader.position
  let unknown1 ← io (readExact D 16)
  let p ← CM.lift M.get
  CM.lift (Parser.warnIf (Parser.footerField1Odd unknown1) .unexpectedFooterField
    { bytePos := p.reader.position - 16, compPos := startPos, path := [], attrIdx := none })
  let bufStart := p.reader.position
  let expPad := Parser.expectedPadding bufStart
  let buf ← io (readExact D 144)
  match (buf.drop 128).findIdx? (· ≠ 0) with
  | none => CM.lift (M.throw (PErr.ofData .brokenFbxFooter))
  | some i => do
    let unknown3Pos := 128 + i
    let paddingLen := unknown3Pos % 16
    CM.lift (M.assert (paddingLen < 16) .footerAssert)
    CM.lift (M.assert (unknown3Pos = paddingLen + 128) .footerAssert)
    let padding := buf.take paddingLen
    let unknown2 := (buf.drop paddingLen).take 4
    let version := UInt32.ofNat (fromLe ((buf.drop (paddingLen + 4)).take 4))
    let zeroes120 := (buf.drop (paddingLen + 8)).take 120
    let part := buf.drop (paddingLen + 128)
    if ¬ padding.all (· = 0) then CM.lift (M.throw (PErr.ofData .brokenFbxFooter))
    else if unknown2 ≠ zeros 4 then CM.lift (M.throw (PErr.ofData .brokenFbxFooter))
    else do
      let p ← CM.lift M.get
      if version ≠ p.version then CM.lift (M.throw (PErr.ofData .brokenFbxFooter))
      else if ¬ zeroes120.all (· = 0) then CM.lift (M.throw (PErr.ofData .brokenFbxFooter))
      else do
        let more ← io (readExact D (16 - part.length))
        let unknown3 := part ++ more
        if unknown3 ≠ Parser.footerUnknown3 then CM.lift (M.throw (PErr.ofData .brokenFbxFooter))
        else do
          CM.lift (Parser.warnIf (paddingLen ≠ expPad) (.invalidFooterPadding expPad paddingLen)
            { bytePos := bufStart, compPos := startPos, path := [], attrIdx := none })
          pure { unknown1, paddingLen, unknown2, version, unknown3 }

/-- `parser.rs:253-261`: creation of the event value. -/
def makeEvent (D : Device) : EvKind → CM PErr Parser Event
  | .endFbx => CM.andThen (readFooter D) fun
    | .ok f => pure (.endFbx (.ok f))
    | .err e => pure (.endFbx (.error e))
    | .panic x => CM.lift (M.panic x)
  | k => CM.lift (Parser.makeEvent k)

/-- `parser.rs:202-209`: a failure aborts the parser. -/
def failed (e : PErr) : M PErr Parser Event := fun p => match Parser.position p with
  | (.ok pos, p'') => (.err (e.andPosition pos), p''.setAborted pos)
  | (.err e', p'') => (.err e', p'')
  | (.panic x, p'') => (.panic x, p'')

/-- `parser.rs:210-251`: health, last event and the assertions about the depth. -/
def settle (prevDepth : Nat) (k : EvKind) : M PErr Parser Unit := fun p =>
  let p1 := if k = .endFbx then { p with health := .finished } else p
  let p2 := { p1 with last := some k }
  if Parser.depthOk k prevDepth p2.depth then (.ok (), p2) else (.panic .depthAssert, p2)

/-- `parser.rs:195-262` `next_event`. -/
def nextEvent (D : Device) : CM PErr Parser Event := do
  let p0 ← CM.lift M.get
  CM.lift Parser.ensureContinuable
  CM.andThen (nextEventImpl D) fun
    | .ok k => do
      CM.lift (settle p0.depth k)
      makeEvent D k
    | .err e => CM.lift (failed e)
    | .panic x => CM.lift (M.panic x)

/-- `parser.rs:454-465` `skip_current_node`. -/
def skipCurrentNode (D : Device) : CM PErr Parser Unit := do
  let p ← CM.lift M.get
  match p.started with
  | [] => CM.lift (M.panic .skipRoot)
  | n :: outer => do
    CM.lift (M.set { p with started := outer, last := some .endNode })
    io (skipTo D n.endOff)

/-! ## `src/pull_parser/v7400/attribute.rs`, `attribute/array.rs` -/

/-- `read_exact` on a `ZlibDecoder`, which reads one byte of its source at a time. -/
def zRead (D : Device) (Z : Zlib) : (fuel : Nat) → (n : Nat) → (acc : Bytes) → (Z.S × Reader) × Nat → Option (Res IoErr Bytes × ((Z.S × Reader) × Nat))
  | 0, _, _, _ => none
  | fuel + 1, n, acc, ((s, r), i) =>
    if n = 0 then some (.ok acc, ((s, r), i))
    else match Z.step s with
      | .need k => match readU8 D fuel (r, i) with
        | none => none
        | some (.ok b, (r', i')) => zRead D Z fuel n acc ((k b, r'), i')
        | some (.err e, (r', i')) => some (.err e, ((s, r'), i'))
        | some (.panic p, (r', i')) => some (.panic p, ((s, r'), i'))
      | .emit b s' => zRead D Z fuel (n - 1) (acc ++ [b]) ((s', r), i)
      | .eof => some (.err .unexpectedEof, ((s, r), i))
      | .fail => some (.err .badCompression, ((s, r), i))

/-- `read_exact` on the decoder, `attribute/array.rs:35-42`. -/
def decExact (D : Device) {Z : Zlib} (n : Nat) : CM IoErr (Dec Z × Reader) Bytes := fun fuel s =>
  match s.1.1 with
  | .direct => match readExact D n fuel (s.1.2, s.2) with
    | none => none
    | some (x, (r, i)) => some (x, ((.direct, r), i))
  | .zlib z => match zRead D Z fuel n [] ((z, s.1.2), s.2) with
    | none => none
    | some (x, ((z', r), i)) => some (x, ((.zlib z', r), i))

/-- `attribute/array.rs:24-32` `AttributeStreamDecoder::create`. -/
def decCreate (D : Device) (Z : Zlib) : ArrEnc → CM PErr Reader (Dec Z)
  | .direct => pure .direct
  | .zlib => do
    let a ← CM.mapErr (fun e => PErr.ofData (.brokenCompression e)) (readU8 D)
    let b ← CM.mapErr (fun e => PErr.ofData (.brokenCompression e)) (readU8 D)
    match Z.header a b with
    | some s => pure (.zlib s)
    | none => CM.lift (M.throw (PErr.ofData (.brokenCompression .badCompression)))

/-- `attribute/array.rs:91-110,176-198` `next`. -/
def elemNext (D : Device) {Z : Zlib} {e : Type} (t : ElemTy e) : CM PErr (ElemIter Z × Reader) (Option (Except PErr e)) := fun fuel s =>
  if s.1.1.rest = 0 then some (.ok none, s)
  else match decExact D t.size fuel ((s.1.1.dec, s.1.2), s.2) with
    | none => none
    | some (.ok bs, ((d, r'), i)) =>
      some (.ok (some (.ok (t.ofBytes bs))), (({ s.1.1 with dec := d, rest := s.1.1.rest - 1, odd := s.1.1.odd || t.odd bs }, r'), i))
    | some (.err x, ((d, r'), i)) => some (.ok (some (.error (PErr.ofIo x))), (({ s.1.1 with dec := d, hasError := true }, r'), i))
    | some (.panic x, ((d, r'), i)) => some (.panic x, (({ s.1.1 with dec := d }, r'), i))

/-- Runs a loader's `load_seq_*` on the iterator. -/
def elemRun (D : Device) {Z : Zlib} {e : Type} (t : ElemTy e) : SeqCons e α → CM PErr (ElemIter Z × Reader) α
  | .done r => CM.lift (M.ofExcept r)
  | .pull k => do
    let x ← elemNext D t
    elemRun D t (k x)

/-- What a loader does with a string or binary attribute, if it reads it by `read_to_end` (or `read_to_string`) or not at all. -/
inductive Special (α : Type) where
  | done (r : Except PErr α)
  | toEnd (fin : Bytes → Except PErr α)

/-- A loader (`attribute/loader.rs:15-131`) that reads strings and binaries by `read_to_end` or not at all. A loader that calls `read`
itself sees how the device splits its reads. -/
structure WLoader (α : Type) where
  bool : Bool → Except PErr α
  i16 : BitVec 16 → Except PErr α
  i32 : BitVec 32 → Except PErr α
  i64 : BitVec 64 → Except PErr α
  f32 : BitVec 32 → Except PErr α
  f64 : BitVec 64 → Except PErr α
  seqBool : Nat → SeqCons Bool α
  seqI32 : Nat → SeqCons (BitVec 32) α
  seqI64 : Nat → SeqCons (BitVec 64) α
  seqF32 : Nat → SeqCons (BitVec 32) α
  seqF64 : Nat → SeqCons (BitVec 64) α
  binary : Nat → Special α
  string : Nat → Special α
  binaryBuf : Nat → Special α
  stringBuf : Nat → Special α

/-- The consumer of a whole stream. -/
def Special.cons (len : Nat) : Special α → ReadCons α
  | done r => .done r
  | toEnd fin => Fbx.readToEnd len fin (len + 1) []

/-- The loader on a device that delivers what is available. -/
def WLoader.loader (l : WLoader α) : Loader α where
  bool := l.bool
  i16 := l.i16
  i32 := l.i32
  i64 := l.i64
  f32 := l.f32
  f64 := l.f64
  seqBool := l.seqBool
  seqI32 := l.seqI32
  seqI64 := l.seqI64
  seqF32 := l.seqF32
  seqF64 := l.seqF64
  binary n := (l.binary n).cons n
  string n := (l.string n).cons n
  binaryBuf n := (l.binaryBuf n).cons n
  stringBuf n := (l.stringBuf n).cons n

/-- Runs a loader's `load_binary` or `load_string` on the stream limited to `len` bytes. -/
def special (D : Device) (len : Nat) : Special α → CM PErr Reader α
  | .done r => CM.lift (M.ofExcept r)
  | .toEnd fin => fun fuel s => match Chunked.readToEnd D.sched D.bufs fuel len [] ⟨s.1, s.2⟩ with
    | none => none
    | some (.ok bs, c) => some (match fin bs with | .ok a => .ok a | .error e => .err e, (c.reader, c.calls))
    | some (.err e, c) => some (.err (PErr.ofIo e), (c.reader, c.calls))
    | some (.panic x, c) => some (.panic x, (c.reader, c.calls))

/-- Runs parser code. -/
def par (m : CM PErr Parser α) : CM PErr AP α :=
  CM.zoom AP.parser (fun p a => { a with parser := p }) m

/-- Runs I/O on the parser's reader. -/
def aio (m : CM IoErr Reader α) : CM PErr AP α := par (io m)

/-- `attribute.rs:98-116` `read_next_attr_type`. -/
def readNextType (D : Device) : CM PErr AP (Option AttrType) := do
  let a ← CM.lift M.get
  if a.attrs.rest = 0 then pure none
  else do
    if a.parser.reader.position < a.attrs.next then aio (skipTo D a.attrs.next) else pure ()
    let code ← aio (readU8 D)
    match AttrType.fromTypeCode code with
    | none => CM.lift (M.throw (PErr.ofData (.invalidAttrTypeCode code)))
    | some t => do
      CM.lift (M.modify (fun a => { a with attrs := { a.attrs with rest := a.attrs.rest - 1 } }))
      pure (some t)

/-- `array_attribute.rs:80-92` `ArrayAttributeHeader::from_reader`. -/
def readArrHeader (D : Device) : CM PErr AP ArrHeader := do
  let count ← aio (readLe D 4)
  let raw ← aio (readLe D 4)
  match ArrEnc.fromU32 raw with
  | none => CM.lift (M.throw (PErr.ofData (.invalidArrayEncoding raw)))
  | some enc => do
    let bytelen ← aio (readLe D 4)
    pure ⟨count, enc, bytelen⟩

/-- Runs a consumer on an element iterator over the parser's reader; also reports the iterator flags. -/
def runSeq (D : Device) {e : Type} {Z : Zlib} (t : ElemTy e) (c : SeqCons e α) (d : Dec Z) (count : Nat) :
    CM PErr AP (α × Bool × Bool) := fun fuel s =>
  match elemRun D t c fuel ((⟨d, count, false, false⟩, s.1.parser.reader), s.2) with
  | none => none
  | some (.ok v, ((it, r), i)) => some (.ok (v, it.hasError, it.odd), ({ s.1 with parser := { s.1.parser with reader := r } }, i))
  | some (.err e, ((_, r), i)) => some (.err e, ({ s.1 with parser := { s.1.parser with reader := r } }, i))
  | some (.panic x, ((_, r), i)) => some (.panic x, ({ s.1 with parser := { s.1.parser with reader := r } }, i))

/-- `attribute.rs:208-263`: array attributes. -/
def loadSeq (D : Device) {e : Type} (Z : Zlib) (t : ElemTy e) (c : Nat → SeqCons e α) (start idx : Nat) :
    CM PErr AP α := do
  let h ← readArrHeader D
  CM.lift (AP.updateNext h.bytelen)
  let d ← par (CM.zoom Parser.reader (fun r p => { p with reader := r }) (decCreate D Z h.enc))
  let x ← runSeq D t (c h.count) d h.count
  CM.lift (if x.2.2 then do
    let pos ← AP.position start idx
    AP.par (Parser.warn .incorrectBool pos)
  else pure ())
  CM.lift (if x.2.1 then M.throw (PErr.ofData .nodeAttributeError) else pure x.1)

/-- `attribute.rs:264-287,306-321`: binary and string attributes. -/
def loadSpecial (D : Device) (c : Nat → Special α) : CM PErr AP α := do
  let len ← aio (readLe D 4)
  CM.lift (AP.updateNext len)
  par (CM.zoom Parser.reader (fun r p => { p with reader := r }) (special D len (c len)))

/-- `attribute.rs:172-207`: a fixed-width little-endian attribute. -/
def loadPrim (D : Device) (w : Nat) (f : BitVec (8 * w) → Except PErr α) : CM PErr AP α := do
  let n ← aio (readLe D w)
  CM.lift (AP.updateNext 0)
  CM.lift (M.ofExcept (f (BitVec.ofNat (8 * w) n)))

/-- `attribute.rs:173-184`: boolean attribute. -/
def loadBool (D : Device) (f : Bool → Except PErr α) (start idx : Nat) : CM PErr AP α := do
  let raw ← aio (readU8 D)
  CM.lift (AP.updateNext 0)
  CM.lift (if oddBool raw then do
    let pos ← AP.position start idx
    AP.par (Parser.warn .incorrectBool pos)
  else pure ())
  CM.lift (M.ofExcept (f (boolOfByte raw)))

/-- `attribute.rs:163-324` `load_next_impl` and (with `buffered`) `load_next_buffered_impl`. -/
def loadImpl (D : Device) (Z : Zlib) (buffered : Bool) (t : AttrType) (l : WLoader α) (start idx : Nat) :
    CM PErr AP α :=
  match t with
  | .bool => loadBool D l.bool start idx
  | .i16 => loadPrim D 2 l.i16
  | .i32 => loadPrim D 4 l.i32
  | .i64 => loadPrim D 8 l.i64
  | .f32 => loadPrim D 4 l.f32
  | .f64 => loadPrim D 8 l.f64
  | .arrBool => loadSeq D Z .bool l.seqBool start idx
  | .arrI32 => loadSeq D Z .i32 l.seqI32 start idx
  | .arrI64 => loadSeq D Z .i64 l.seqI64 start idx
  | .arrF32 => loadSeq D Z .f32 l.seqF32 start idx
  | .arrF64 => loadSeq D Z .f64 l.seqF64 start idx
  | .binary => loadSpecial D (if buffered then l.binaryBuf else l.binary)
  | .string => loadSpecial D (if buffered then l.stringBuf else l.string)

/-- `attribute.rs:119-131,137-150`: the closures run under the health check. -/
def loadBody (D : Device) (Z : Zlib) (buffered : Bool) (l : WLoader α) (start idx : Nat) :
    CM PErr AP (Option α) := do
  match ← readNextType D with
  | none => pure none
  | some t => do
    let v ← loadImpl D Z buffered t l start idx
    pure (some v)

/-- `attribute.rs:87-93`: a failure aborts the parser. -/
def loadFailed (start idx : Nat) (e : PErr) : M PErr AP α := fun a => match AP.position start idx a with
  | (.ok pos, a'') => (.err (e.andPosition pos), { a'' with parser := a''.parser.setAborted pos })
  | (.err e', a'') => (.err e', a'')
  | (.panic x, a'') => (.panic x, a'')

/-- `attribute.rs:78-95` `do_with_health_check`, `119-131` `load_next` (`buffered = false`), `137-150` `load_next_buffered`. -/
def load (D : Device) (Z : Zlib) (buffered : Bool) (l : WLoader α) : CM PErr AP (Option α) := do
  CM.lift (AP.par Parser.ensureContinuable)
  let a ← CM.lift M.get
  CM.lift (M.assert (a.attrs.rest ≤ a.attrs.total) .attrIndexUnderflow)
  CM.andThen (loadBody D Z buffered l a.attrs.next (a.attrs.total - a.attrs.rest)) fun
    | .ok v => pure v
    | .err e => CM.lift (loadFailed a.attrs.next (a.attrs.total - a.attrs.rest) e)
    | .panic x => CM.lift (M.panic x)

/-! ## The loaders of the crate -/

/-- `read_to_end` into a `Vec<u8>`. -/
def wBinary (f : Bytes → α) (_ : Nat) : Special α := .toEnd fun bs => .ok (f bs)

/-- `read_to_string` into a `String`. -/
def wString (f : String → α) (_ : Nat) : Special α := .toEnd fun bs => match stringOfUtf8 bs with
  | some s => .ok (f s)
  | none => .error (PErr.ofIo .invalidData)

/-- `loaders/direct.rs:14-110` `DirectLoader`. -/
def direct : WLoader AttrValue where
  bool v := .ok (.bool v)
  i16 v := .ok (.i16 v)
  i32 v := .ok (.i32 v)
  i64 v := .ok (.i64 v)
  f32 v := .ok (.f32 v)
  f64 v := .ok (.f64 v)
  seqBool n := collectSeq .arrBool (n + 1) []
  seqI32 n := collectSeq .arrI32 (n + 1) []
  seqI64 n := collectSeq .arrI64 (n + 1) []
  seqF32 n := collectSeq .arrF32 (n + 1) []
  seqF64 n := collectSeq .arrF64 (n + 1) []
  binary := wBinary .binary
  string := wString .string
  binaryBuf := wBinary .binary
  stringBuf := wString .string

/-! ## `src/tree/v7400/loader.rs`, `src/tree/any.rs` -/

/-- `.into_iter(repeat(DirectLoader)).collect::<Result<Vec<_>, _>>()` (`loader.rs:114-117`). -/
def collectAttrs (D : Device) (Z : Zlib) : (pulls : Nat) → (acc : List AttrValue) → CM PErr AP (List AttrValue)
  | 0, acc => pure acc.reverse
  | pulls + 1, acc => do
    match ← load D Z false direct with
    | none => pure acc.reverse
    | some v => collectAttrs D Z pulls (v :: acc)

/-- `loader.rs:102-134` `add_node`. -/
def addNode (D : Device) (Z : Zlib) (parent : Nat) (name : String) : CM LoadError Load.St Nat := fun fuel s =>
  let (sym, names) := Tree.intern s.1.tree.names name
  let tree := { s.1.tree with names }
  match AP.ofParser s.1.parser with
  | .panic p => some (.panic p, s)
  | .err e => some (.err (.parser e), s)
  | .ok ap => match collectAttrs D Z (ap.attrs.rest + 1) [] fuel (ap, s.2) with
    | none => none
    | some (.panic p, (ap', i)) => some (.panic p, ({ s.1 with parser := ap'.parser }, i))
    | some (.err e, (ap', i)) => some (.err (.parser e), ({ s.1 with parser := ap'.parser }, i))
    | some (.ok attrs, (ap', i)) =>
      let (id, tree) := Tree.newNode tree sym attrs
      match Tree.appendRaw id parent tree with
      | (.ok (), tree') => some (.ok id, ({ s.1 with parser := ap'.parser, tree := tree' }, i))
      | (.panic p, tree') => some (.panic p, ({ s.1 with parser := ap'.parser, tree := tree' }, i))
      | (.err e, _) => nomatch e

/-- `loader.rs:58-94`: the event loop; each iteration handles one event. -/
def loop (D : Device) (Z : Zlib) : (fuel : Nat) → Load.St × Nat → Option (Res LoadError (Except PErr Footer) × (Load.St × Nat))
  | 0, _ => none
  | fuel + 1, (s, i) =>
    match s.stack with
    | [] => some (.panic .loaderStack, (s, i))
    | top :: below =>
      match nextEvent D fuel (s.parser, i) with
      | none => none
      | some (.panic p, (p', i)) => some (.panic p, ({ s with parser := p' }, i))
      | some (.err e, (p', i)) => some (.err (.parser e), ({ s with parser := p' }, i))
      | some (.ok (.startNode name _), (p', i)) =>
        match addNode D Z top name fuel ({ s with parser := p' }, i) with
        | none => none
        | some (.ok id, (s', i)) => loop D Z fuel ({ s' with stack := id :: s'.stack }, i)
        | some (.err e, s') => some (.err e, s')
        | some (.panic p, s') => some (.panic p, s')
      | some (.ok .endNode, (p', i)) => loop D Z fuel ({ s with parser := p', stack := below }, i)
      | some (.ok (.endFbx footer), (p', i)) =>
        if below = [] then some (.ok footer, ({ s with parser := p', stack := below }, i))
        else some (.panic .loaderStack, ({ s with parser := p', stack := below }, i))

/-- `loader.rs:47-99` `Loader::load`. -/
def loadTree (D : Device) (Z : Zlib) (fuel : Nat) (s : Parser × Nat) : Option (Res LoadError (Tree × Except PErr Footer) × (Parser × Nat)) :=
  if s.1.isUsed then some (.err .badParser, s)
  else match loop D Z fuel (⟨s.1, Tree.empty, [0]⟩, s.2) with
    | none => none
    | some (.ok footer, (t, i)) => some (.ok (t.tree, footer), (t.parser, i))
    | some (.err e, (t, i)) => some (.err e, (t.parser, i))
    | some (.panic x, (t, i)) => some (.panic x, (t.parser, i))

/-- `any.rs:27-63` `AnyParser::from_reader` / `from_seekable_reader`. -/
def anyParser (D : Device) (fuel : Nat) (checks seekable : Bool) (bytes : Bytes) (ending : Option IoErr) (cursor seekLimit : Nat) :
    Option (Res AnyError (Parser × Nat)) :=
  match loadHeader D fuel ({ rest := bytes, ending, cursor, position := 0, seekable, seekLimit }, 0) with
  | none => none
  | some (.err e, _) => some (.err (.header e))
  | some (.panic x, _) => some (.panic x)
  | some (.ok v, (r, i)) =>
    match ParserVersion.fromFbxVersion v with
    | none => some (.err (.unsupportedVersion v))
    | some .v7400 =>
      match Parser.create checks v { r with position := headerLen } with
      | .ok p => some (.ok (p, i))
      | .error _ => some (.panic .anyParser)

/-- `tree/any.rs:33-64` `AnyTree::from_reader` / `from_seekable_reader`; the handler only logs. -/
def anyTree (D : Device) (fuel : Nat) (Z : Zlib) (checks seekable : Bool) (bytes : Bytes) (ending : Option IoErr) (cursor seekLimit : Nat) :
    Option (Res AnyTreeError (FbxVersion × Tree × Except PErr Footer)) :=
  match anyParser D fuel checks seekable bytes ending cursor seekLimit with
  | none => none
  | some (.err e) => some (.err (.parserCreation e))
  | some (.panic p) => some (.panic p)
  | some (.ok (p, i)) =>
    match loadTree D Z fuel (p.setHandler (fun _ _ _ => none), i) with
    | none => none
    | some (.ok (t, footer), _) => some (.ok (p.version, t, footer))
    | some (.err e, _) => some (.err (.load e))
    | some (.panic x, _) => some (.panic x)

end Device
end Fbx
