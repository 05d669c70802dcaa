import Verif.Model.ShortReads

/-!
# The parser on a source of any type

The code of `Model/ShortReads.lean` once more, on a value of any type that implements `Read` and `Seek`: the only access to the source are its
`read` and its `seek` (`reader.rs:43-62,151-158`), and the bytes are those which they return. Of the `Reader` in the states, only `position`
and `seekable` are used, which are the fields of the crate's `Reader` besides the source and the function table; the other fields are ghosts
that count what has been consumed, so that states can be compared.
-/

namespace Fbx

/-- A type that implements `Read` and `Seek`. -/
structure Source (ρ : Type) where
  /-- `Read::read` with a buffer of `n` bytes: the bytes that were put into it, or an error; `none`: `ErrorKind::Interrupted` -/
  read : (n : Nat) → ρ → Option (Except IoErr Bytes) × ρ
  /-- `Seek::seek(SeekFrom::Current(d))`, of which the parser only uses whether it failed -/
  seek : (d : Int) → ρ → Except IoErr Unit × ρ
  /-- std: the free space (less one) of the vector in `read_to_end` -/
  bufs : ρ → Nat
  /-- std: the buffer (less one) of `io::copy` -/
  copyBuf : Nat

/-- Fallible code with `&mut` access to a state and to a source. The loops over the reads need not end, so that there is fuel; `none` means
that it was not enough. -/
def SM (ρ ε σ α : Type) := (fuel : Nat) → σ × ρ → Option (Res ε α × (σ × ρ))

namespace SM
variable {ρ ε ε' σ τ α β : Type}

/-- `Ok(a)`. -/
def pure (a : α) : SM ρ ε σ α := fun _ s => some (.ok a, s)

/-- Sequencing with the `?` operator. -/
def bind (m : SM ρ ε σ α) (f : α → SM ρ ε σ β) : SM ρ ε σ β := fun fuel s =>
  match m fuel s with
  | none => none
  | some (.ok a, s') => f a fuel s'
  | some (.err e, s') => some (.err e, s')
  | some (.panic p, s') => some (.panic p, s')

instance : Monad (SM ρ ε σ) where
  pure := SM.pure
  bind := SM.bind

/-- Code that does not access the source. -/
def lift (m : M ε σ α) : SM ρ ε σ α := fun _ s => some ((m s.1).1, ((m s.1).2, s.2))

/-- `map_err`. -/
def mapErr (f : ε → ε') (m : SM ρ ε σ α) : SM ρ ε' σ α := fun fuel s =>
  match m fuel s with
  | none => none
  | some (.ok a, s') => some (.ok a, s')
  | some (.err e, s') => some (.err (f e), s')
  | some (.panic p, s') => some (.panic p, s')

/-- Runs code on a component of the state. -/
def zoom (getter : σ → τ) (setter : τ → σ → σ) (m : SM ρ ε τ α) : SM ρ ε σ α := fun fuel s =>
  match m fuel (getter s.1, s.2) with
  | none => none
  | some (x, (t, i)) => some (x, (setter t s.1, i))

/-- Goes on with the result of a call, also if it failed (`match` on a `Result`). -/
def andThen (m : SM ρ ε σ α) (f : Res ε α → SM ρ ε' σ β) : SM ρ ε' σ β := fun fuel s =>
  match m fuel s with
  | none => none
  | some (.panic p, s') => some (.panic p, s')
  | some (x, s') => f x fuel s'

end SM

namespace Source
open Device (Special WLoader failed settle loadFailed direct)
variable {ρ α ε : Type}

/-! ## `src/pull_parser/reader.rs`, `src/pull_parser/v7400/read.rs` -/

/-- `reader.rs:151-158` `Read::read` for `Reader`, `146-148` `advance`. -/
def readOnce (D : Source ρ) (n : Nat) (s : Reader × ρ) : Option (Res IoErr Bytes) × (Reader × ρ) :=
  match D.read n s.2 with
  | (none, x) => (none, (s.1, x))
  | (some (.error e), x) => (some (.err e), (s.1, x))
  | (some (.ok bs), x) =>
    if s.1.position + bs.length < u64Size then (some (.ok bs), (s.1.consume bs.length, x))
    else (some (.panic .positionOverflow), (s.1, x))

/-- `Read::read_exact` (std, default implementation; `Reader` does not override it): reads into the rest of the buffer until it is full,
retrying interrupted reads. -/
def exactLoop (D : Source ρ) : (fuel : Nat) → (n : Nat) → (acc : Bytes) → Reader × ρ → Option (Res IoErr Bytes × (Reader × ρ))
  | 0, _, _, _ => none
  | fuel + 1, n, acc, s =>
    if n = 0 then some (.ok acc, s)
    else match readOnce D n s with
      | (none, s') => exactLoop D fuel n acc s'
      | (some (.ok []), s') => some (.err .unexpectedEof, s')
      | (some (.ok (b :: bs)), s') => exactLoop D fuel (n - (b :: bs).length) (acc ++ b :: bs) s'
      | (some (.err e), s') => some (.err e, s')
      | (some (.panic x), s') => some (.panic x, s')

/-- `Read::read_exact` (std) on `Reader`. -/
def readExact (D : Source ρ) (n : Nat) : SM ρ IoErr Reader Bytes := fun fuel s => exactLoop D fuel n [] s

/-- `io::copy(&mut inner.take(limit), &mut io::sink())` (`reader.rs:43-48`): reads the source behind the back of the position tracker until the
limit is reached or nothing is read, retrying interrupted reads. -/
def copyLoop (D : Source ρ) : (fuel : Nat) → (limit : Nat) → Reader × ρ → Option (Res IoErr Unit × (Reader × ρ))
  | 0, _, _ => none
  | fuel + 1, limit, s =>
    if limit = 0 then some (.ok (), s)
    else match D.read (min (D.copyBuf + 1) limit) s.2 with
      | (none, x) => copyLoop D fuel limit (s.1, x)
      | (some (.ok []), x) => some (.ok (), (s.1, x))
      | (some (.ok (b :: bs)), x) => copyLoop D fuel (limit - (b :: bs).length) (s.1.consumeInner (b :: bs).length, x)
      | (some (.error e), x) => some (.err e, (s.1, x))

/-- `reader.rs:43-48` `skip_distance_plain`. -/
def skipPlain (D : Source ρ) (d : Nat) : SM ρ IoErr Reader Unit := fun fuel s => copyLoop D fuel d s

/-- The loop of `reader.rs:51-62`; `parts` bounds the number of `i64::MAX` sized parts. -/
def seekLoop (D : Source ρ) : (parts : Nat) → (d : Nat) → Reader × ρ → Res IoErr Unit × (Reader × ρ)
  | 0, _, s => (.ok (), s)
  | parts + 1, d, s =>
    if d = 0 then (.ok (), s)
    else match D.seek ((min d i64Max : Nat) : Int) s.2 with
      | (.error e, x) => (.err e, (s.1, x))
      | (.ok (), x) =>
        if s.1.position + min d i64Max < u64Size then seekLoop D parts (d - min d i64Max) (s.1.consume (min d i64Max), x)
        else (.panic .positionOverflow, (s.1.consumeInner (min d i64Max), x))

/-- `reader.rs:51-62` `skip_distance_seekable`. -/
def skipSeek (D : Source ρ) (d : Nat) : SM ρ IoErr Reader Unit := fun _ s => some (seekLoop D (d / i64Max + 1) d s)

/-- `reader.rs:137-142` `skip_to`, `124-126` `skip_distance`. -/
def skipTo (D : Source ρ) (pos : Nat) : SM ρ IoErr Reader Unit := fun fuel s =>
  if pos < s.1.position then some (.panic .skipBackward, s)
  else if s.1.seekable then skipSeek D (pos - s.1.position) fuel s
  else skipPlain D (pos - s.1.position) fuel s

/-- `Read::read_to_end` on `io::Take` (`single.rs:86,105`, `direct.rs:100,107`): reads until nothing is read, retrying interrupted reads. -/
def endLoop (D : Source ρ) : (fuel : Nat) → (limit : Nat) → (acc : Bytes) → Reader × ρ → Option (Res IoErr Bytes × (Reader × ρ))
  | 0, _, _, _ => none
  | fuel + 1, limit, acc, s =>
    if limit = 0 then some (.ok acc, s)
    else match readOnce D (min (D.bufs s.2 + 1) limit) s with
      | (none, s') => endLoop D fuel limit acc s'
      | (some (.ok []), s') => some (.ok acc, s')
      | (some (.ok (b :: bs)), s') => endLoop D fuel (limit - (b :: bs).length) (acc ++ b :: bs) s'
      | (some (.err e), s') => some (.err e, s')
      | (some (.panic x), s') => some (.panic x, s')

/-- `pull_parser/v7400/read.rs:13-20` `u8::from_reader`. -/
def readU8 (D : Source ρ) : SM ρ IoErr Reader Byte := do
  let bs ← readExact D 1
  pure (bs.headD 0)

/-- `pull_parser/v7400/read.rs:23-43`: `k`-byte little-endian numbers. -/
def readLe (D : Source ρ) (k : Nat) : SM ρ IoErr Reader Nat := do
  let bs ← readExact D k
  pure (fromLe bs)

/-- `low/fbx_header.rs:53-72` `FbxHeader::load`. -/
def loadHeader (D : Source ρ) : SM ρ HeaderError Reader FbxVersion := do
  let m ← SM.mapErr HeaderError.io (readExact D 23)
  if m ≠ magic then SM.lift (M.throw .magicNotDetected)
  else do
    let v ← SM.mapErr HeaderError.io (readExact D 4)
    pure (UInt32.ofNat (fromLe v))

/-! ## `src/pull_parser/v7400/parser.rs` -/

/-- Runs an I/O operation on the parser's reader, converting `io::Error` with `?`. -/
def io (m : SM ρ IoErr Reader α) : SM ρ PErr Parser α :=
  SM.mapErr PErr.ofIo (SM.zoom Parser.reader (fun r p => { p with reader := r }) m)

/-- `low/v7400/node_header.rs:50-75`. -/
def readNodeHeader (D : Source ρ) : SM ρ PErr Parser NodeHeader := do
  let p ← SM.lift M.get
  let w := if p.version < 7500 then 4 else 8
  let eo ← io (readLe D w)
  let na ← io (readLe D w)
  let ba ← io (readLe D w)
  let nl ← io (readLe D 1)
  pure ⟨eo, na, ba, nl⟩

/-- `parser.rs:382-393` `skip_unread_attributes`. -/
def skipUnreadAttributes (D : Source ρ) : SM ρ PErr Parser Unit := do
  let p ← SM.lift M.get
  match p.started with
  | [] => pure ()
  | n :: _ =>
    if n.attrEnd > p.reader.position then io (skipTo D n.attrEnd) else pure ()

/-- `parser.rs:354-376`: the name and the registration of a new node. -/
def startNode (D : Source ρ) (start : Nat) (h : NodeHeader) : SM ρ PErr Parser EvKind := do
  SM.lift (if h.nameLen = 0 then Parser.warnEmptyName start else pure ())
  let bs ← io (readExact D h.nameLen)
  match stringOfUtf8 bs with
  | none => SM.lift (M.throw (PErr.ofData .invalidNodeNameEncoding))
  | some name => do
    let p ← SM.lift M.get
    let attrEnd ← SM.lift (Parser.addAttrEnd p.reader.position h.bytelenAttrs)
    SM.lift (M.modify (Parser.pushNode
      { startOff := start, endOff := h.endOffset, attrCount := h.numAttrs, attrEnd, name, kids := 0 }))
    pure .startNode

/-- `parser.rs:266-377` `next_event_impl`. -/
def nextEventImpl (D : Source ρ) : SM ρ PErr Parser EvKind := do
  let p ← SM.lift M.get
  SM.lift (M.assert (p.health = .running) .badState)
  SM.lift (M.assert (p.last ≠ some .endFbx) .badState)
  skipUnreadAttributes D
  let p ← SM.lift M.get
  let start := p.reader.position
  let ended ← SM.lift Parser.tryImplicitEnd
  if ended then pure .endNode
  else do
    let h ← readNodeHeader D
    if h.isNodeEnd then SM.lift Parser.explicitEnd else startNode D start h

/-- `fbx_footer.rs:53-194` `FbxFooter::read_from_parser`. -/
def readFooter (D : Source ρ) : SM ρ PErr Parser Footer := do
  let p ← SM.lift M.get
  let startPos := p.reader.position
  let unknown1 ← io (readExact D 16)
  let p ← SM.lift M.get
  SM.lift (Parser.warnIf (Parser.footerField1Odd unknown1) .unexpectedFooterField
    { bytePos := p.reader.position - 16, compPos := startPos, path := [], attrIdx := none })
  let bufStart := p.reader.position
  let expPad := Parser.expectedPadding bufStart
  let buf ← io (readExact D 144)
  match (buf.drop 128).findIdx? (· ≠ 0) with
  | none => SM.lift (M.throw (PErr.ofData .brokenFbxFooter))
  | some i => do
    let unknown3Pos := 128 + i
    let paddingLen := unknown3Pos % 16
    SM.lift (M.assert (paddingLen < 16) .footerAssert)
    SM.lift (M.assert (unknown3Pos = paddingLen + 128) .footerAssert)
    let padding := buf.take paddingLen
    let unknown2 := (buf.drop paddingLen).take 4
    let version := UInt32.ofNat (fromLe ((buf.drop (paddingLen + 4)).take 4))
    let zeroes120 := (buf.drop (paddingLen + 8)).take 120
    let part := buf.drop (paddingLen + 128)
    if ¬ padding.all (· = 0) then SM.lift (M.throw (PErr.ofData .brokenFbxFooter))
    else if unknown2 ≠ zeros 4 then SM.lift (M.throw (PErr.ofData .brokenFbxFooter))
    else do
      let p ← SM.lift M.get
      if version ≠ p.version then SM.lift (M.throw (PErr.ofData .brokenFbxFooter))
      else if ¬ zeroes120.all (· = 0) then SM.lift (M.throw (PErr.ofData .brokenFbxFooter))
      else do
        let more ← io (readExact D (16 - part.length))
        let unknown3 := part ++ more
        if unknown3 ≠ Parser.footerUnknown3 then SM.lift (M.throw (PErr.ofData .brokenFbxFooter))
        else do
          SM.lift (Parser.warnIf (paddingLen ≠ expPad) (.invalidFooterPadding expPad paddingLen)
            { bytePos := bufStart, compPos := startPos, path := [], attrIdx := none })
          pure { unknown1, paddingLen, unknown2, version, unknown3 }

/-- `parser.rs:253-261`: creation of the event value. -/
def makeEvent (D : Source ρ) : EvKind → SM ρ PErr Parser Event
  | .endFbx => SM.andThen (readFooter D) fun
    | .ok f => pure (.endFbx (.ok f))
    | .err e => pure (.endFbx (.error e))
    | .panic x => SM.lift (M.panic x)
  | k => SM.lift (Parser.makeEvent k)

/-- `parser.rs:195-262` `next_event`. -/
def nextEvent (D : Source ρ) : SM ρ PErr Parser Event := do
  let p0 ← SM.lift M.get
  SM.lift Parser.ensureContinuable
  SM.andThen (nextEventImpl D) fun
    | .ok k => do
      SM.lift (settle p0.depth k)
      makeEvent D k
    | .err e => SM.lift (failed e)
    | .panic x => SM.lift (M.panic x)

/-- `parser.rs:454-465` `skip_current_node`. -/
def skipCurrentNode (D : Source ρ) : SM ρ PErr Parser Unit := do
  let p ← SM.lift M.get
  match p.started with
  | [] => SM.lift (M.panic .skipRoot)
  | n :: outer => do
    SM.lift (M.set { p with started := outer, last := some .endNode })
    io (skipTo D n.endOff)

/-! ## `src/pull_parser/v7400/attribute.rs`, `attribute/array.rs` -/

/-- `read_exact` on a `ZlibDecoder`, which reads one byte of its source at a time. -/
def zRead (D : Source ρ) (Z : Zlib) : (fuel : Nat) → (n : Nat) → (acc : Bytes) → (Z.S × Reader) × ρ → Option (Res IoErr Bytes × ((Z.S × Reader) × ρ))
  | 0, _, _, _ => none
  | fuel + 1, n, acc, ((s, r), i) =>
    if n = 0 then some (.ok acc, ((s, r), i))
    else match Z.step s with
      | .need k => match readU8 D fuel (r, i) with
        | none => none
        | some (.ok b, (r', i')) => zRead D Z fuel n acc ((k b, r'), i')
        | some (.err e, (r', i')) => some (.err e, ((s, r'), i'))
        | some (.panic p, (r', i')) => some (.panic p, ((s, r'), i'))
      | .emit b s' => zRead D Z fuel (n - 1) (acc ++ [b]) ((s', r), i)
      | .eof => some (.err .unexpectedEof, ((s, r), i))
      | .fail => some (.err .badCompression, ((s, r), i))

/-- `read_exact` on the decoder, `attribute/array.rs:35-42`. -/
def decExact (D : Source ρ) {Z : Zlib} (n : Nat) : SM ρ IoErr (Dec Z × Reader) Bytes := fun fuel s =>
  match s.1.1 with
  | .direct => match readExact D n fuel (s.1.2, s.2) with
    | none => none
    | some (x, (r, i)) => some (x, ((.direct, r), i))
  | .zlib z => match zRead D Z fuel n [] ((z, s.1.2), s.2) with
    | none => none
    | some (x, ((z', r), i)) => some (x, ((.zlib z', r), i))

/-- `attribute/array.rs:24-32` `AttributeStreamDecoder::create`. -/
def decCreate (D : Source ρ) (Z : Zlib) : ArrEnc → SM ρ PErr Reader (Dec Z)
  | .direct => pure .direct
  | .zlib => do
    let a ← SM.mapErr (fun e => PErr.ofData (.brokenCompression e)) (readU8 D)
    let b ← SM.mapErr (fun e => PErr.ofData (.brokenCompression e)) (readU8 D)
    match Z.header a b with
    | some s => pure (.zlib s)
    | none => SM.lift (M.throw (PErr.ofData (.brokenCompression .badCompression)))

/-- `attribute/array.rs:91-110,176-198` `next`. -/
def elemNext (D : Source ρ) {Z : Zlib} {e : Type} (t : ElemTy e) : SM ρ PErr (ElemIter Z × Reader) (Option (Except PErr e)) := fun fuel s =>
  if s.1.1.rest = 0 then some (.ok none, s)
  else match decExact D t.size fuel ((s.1.1.dec, s.1.2), s.2) with
    | none => none
    | some (.ok bs, ((d, r'), i)) =>
      some (.ok (some (.ok (t.ofBytes bs))), (({ s.1.1 with dec := d, rest := s.1.1.rest - 1, odd := s.1.1.odd || t.odd bs }, r'), i))
    | some (.err x, ((d, r'), i)) => some (.ok (some (.error (PErr.ofIo x))), (({ s.1.1 with dec := d, hasError := true }, r'), i))
    | some (.panic x, ((d, r'), i)) => some (.panic x, (({ s.1.1 with dec := d }, r'), i))

/-- Runs a loader's `load_seq_*` on the iterator. -/
def elemRun (D : Source ρ) {Z : Zlib} {e : Type} (t : ElemTy e) : SeqCons e α → SM ρ PErr (ElemIter Z × Reader) α
  | .done r => SM.lift (M.ofExcept r)
  | .pull k => do
    let x ← elemNext D t
    elemRun D t (k x)

/-- Runs a loader's `load_binary` or `load_string` on the stream limited to `len` bytes. -/
def special (D : Source ρ) (len : Nat) : Special α → SM ρ PErr Reader α
  | .done r => SM.lift (M.ofExcept r)
  | .toEnd fin => fun fuel s => match endLoop D fuel len [] s with
    | none => none
    | some (.ok bs, c) => some (match fin bs with | .ok a => .ok a | .error e => .err e, c)
    | some (.err e, c) => some (.err (PErr.ofIo e), c)
    | some (.panic x, c) => some (.panic x, c)

/-- Runs parser code. -/
def par (m : SM ρ PErr Parser α) : SM ρ PErr AP α :=
  SM.zoom AP.parser (fun p a => { a with parser := p }) m

/-- Runs I/O on the parser's reader. -/
def aio (m : SM ρ IoErr Reader α) : SM ρ PErr AP α := par (io m)

/-- `attribute.rs:98-116` `read_next_attr_type`. -/
def readNextType (D : Source ρ) : SM ρ PErr AP (Option AttrType) := do
  let a ← SM.lift M.get
  if a.attrs.rest = 0 then pure none
  else do
    if a.parser.reader.position < a.attrs.next then aio (skipTo D a.attrs.next) else pure ()
    let code ← aio (readU8 D)
    match AttrType.fromTypeCode code with
    | none => SM.lift (M.throw (PErr.ofData (.invalidAttrTypeCode code)))
    | some t => do
      SM.lift (M.modify (fun a => { a with attrs := { a.attrs with rest := a.attrs.rest - 1 } }))
      pure (some t)

/-- `array_attribute.rs:80-92` `ArrayAttributeHeader::from_reader`. -/
def readArrHeader (D : Source ρ) : SM ρ PErr AP ArrHeader := do
  let count ← aio (readLe D 4)
  let raw ← aio (readLe D 4)
  match ArrEnc.fromU32 raw with
  | none => SM.lift (M.throw (PErr.ofData (.invalidArrayEncoding raw)))
  | some enc => do
    let bytelen ← aio (readLe D 4)
    pure ⟨count, enc, bytelen⟩

/-- Runs a consumer on an element iterator over the parser's reader; also reports the iterator flags. -/
def runSeq (D : Source ρ) {e : Type} {Z : Zlib} (t : ElemTy e) (c : SeqCons e α) (d : Dec Z) (count : Nat) :
    SM ρ PErr AP (α × Bool × Bool) := fun fuel s =>
  match elemRun D t c fuel ((⟨d, count, false, false⟩, s.1.parser.reader), s.2) with
  | none => none
  | some (.ok v, ((it, r), i)) => some (.ok (v, it.hasError, it.odd), ({ s.1 with parser := { s.1.parser with reader := r } }, i))
  | some (.err e, ((_, r), i)) => some (.err e, ({ s.1 with parser := { s.1.parser with reader := r } }, i))
  | some (.panic x, ((_, r), i)) => some (.panic x, ({ s.1 with parser := { s.1.parser with reader := r } }, i))

/-- `attribute.rs:208-263`: array attributes. -/
def loadSeq (D : Source ρ) {e : Type} (Z : Zlib) (t : ElemTy e) (c : Nat → SeqCons e α) (start idx : Nat) :
    SM ρ PErr AP α := do
  let h ← readArrHeader D
  SM.lift (AP.updateNext h.bytelen)
  let d ← par (SM.zoom Parser.reader (fun r p => { p with reader := r }) (decCreate D Z h.enc))
  let x ← runSeq D t (c h.count) d h.count
  SM.lift (if x.2.2 then do
    let pos ← AP.position start idx
    AP.par (Parser.warn .incorrectBool pos)
  else pure ())
  SM.lift (if x.2.1 then M.throw (PErr.ofData .nodeAttributeError) else pure x.1)

/-- `attribute.rs:264-287,306-321`: binary and string attributes. -/
def loadSpecial (D : Source ρ) (c : Nat → Special α) : SM ρ PErr AP α := do
  let len ← aio (readLe D 4)
  SM.lift (AP.updateNext len)
  par (SM.zoom Parser.reader (fun r p => { p with reader := r }) (special D len (c len)))

/-- `attribute.rs:172-207`: a fixed-width little-endian attribute. -/
def loadPrim (D : Source ρ) (w : Nat) (f : BitVec (8 * w) → Except PErr α) : SM ρ PErr AP α := do
  let n ← aio (readLe D w)
  SM.lift (AP.updateNext 0)
  SM.lift (M.ofExcept (f (BitVec.ofNat (8 * w) n)))

/-- `attribute.rs:173-184`: boolean attribute. -/
def loadBool (D : Source ρ) (f : Bool → Except PErr α) (start idx : Nat) : SM ρ PErr AP α := do
  let raw ← aio (readU8 D)
  SM.lift (AP.updateNext 0)
  SM.lift (if oddBool raw then do
    let pos ← AP.position start idx
    AP.par (Parser.warn .incorrectBool pos)
  else pure ())
  SM.lift (M.ofExcept (f (boolOfByte raw)))

/-- `attribute.rs:163-324` `load_next_impl` and (with `buffered`) `load_next_buffered_impl`. -/
def loadImpl (D : Source ρ) (Z : Zlib) (buffered : Bool) (t : AttrType) (l : WLoader α) (start idx : Nat) :
    SM ρ PErr AP α :=
  match t with
  | .bool => loadBool D l.bool start idx
  | .i16 => loadPrim D 2 l.i16
  | .i32 => loadPrim D 4 l.i32
  | .i64 => loadPrim D 8 l.i64
  | .f32 => loadPrim D 4 l.f32
  | .f64 => loadPrim D 8 l.f64
  | .arrBool => loadSeq D Z .bool l.seqBool start idx
  | .arrI32 => loadSeq D Z .i32 l.seqI32 start idx
  | .arrI64 => loadSeq D Z .i64 l.seqI64 start idx
  | .arrF32 => loadSeq D Z .f32 l.seqF32 start idx
  | .arrF64 => loadSeq D Z .f64 l.seqF64 start idx
  | .binary => loadSpecial D (if buffered then l.binaryBuf else l.binary)
  | .string => loadSpecial D (if buffered then l.stringBuf else l.string)

/-- `attribute.rs:119-131,137-150`: the closures run under the health check. -/
def loadBody (D : Source ρ) (Z : Zlib) (buffered : Bool) (l : WLoader α) (start idx : Nat) :
    SM ρ PErr AP (Option α) := do
  match ← readNextType D with
  | none => pure none
  | some t => do
    let v ← loadImpl D Z buffered t l start idx
    pure (some v)

/-- `attribute.rs:78-95` `do_with_health_check`, `119-131` `load_next` (`buffered = false`), `137-150` `load_next_buffered`. -/
def load (D : Source ρ) (Z : Zlib) (buffered : Bool) (l : WLoader α) : SM ρ PErr AP (Option α) := do
  SM.lift (AP.par Parser.ensureContinuable)
  let a ← SM.lift M.get
  SM.lift (M.assert (a.attrs.rest ≤ a.attrs.total) .attrIndexUnderflow)
  SM.andThen (loadBody D Z buffered l a.attrs.next (a.attrs.total - a.attrs.rest)) fun
    | .ok v => pure v
    | .err e => SM.lift (loadFailed a.attrs.next (a.attrs.total - a.attrs.rest) e)
    | .panic x => SM.lift (M.panic x)

/-! ## `src/tree/v7400/loader.rs`, `src/tree/any.rs` -/

/-- `.into_iter(repeat(DirectLoader)).collect::<Result<Vec<_>, _>>()` (`loader.rs:114-117`). -/
def collectAttrs (D : Source ρ) (Z : Zlib) : (pulls : Nat) → (acc : List AttrValue) → SM ρ PErr AP (List AttrValue)
  | 0, acc => pure acc.reverse
  | pulls + 1, acc => do
    match ← load D Z false direct with
    | none => pure acc.reverse
    | some v => collectAttrs D Z pulls (v :: acc)

/-- `loader.rs:102-134` `add_node`. -/
def addNode (D : Source ρ) (Z : Zlib) (parent : Nat) (name : String) : SM ρ LoadError Load.St Nat := fun fuel s =>
  let (sym, names) := Tree.intern s.1.tree.names name
  let tree := { s.1.tree with names }
  match AP.ofParser s.1.parser with
  | .panic p => some (.panic p, s)
  | .err e => some (.err (.parser e), s)
  | .ok ap => match collectAttrs D Z (ap.attrs.rest + 1) [] fuel (ap, s.2) with
    | none => none
    | some (.panic p, (ap', i)) => some (.panic p, ({ s.1 with parser := ap'.parser }, i))
    | some (.err e, (ap', i)) => some (.err (.parser e), ({ s.1 with parser := ap'.parser }, i))
    | some (.ok attrs, (ap', i)) =>
      let (id, tree) := Tree.newNode tree sym attrs
      match Tree.appendRaw id parent tree with
      | (.ok (), tree') => some (.ok id, ({ s.1 with parser := ap'.parser, tree := tree' }, i))
      | (.panic p, tree') => some (.panic p, ({ s.1 with parser := ap'.parser, tree := tree' }, i))
      | (.err e, _) => nomatch e

/-- `loader.rs:58-94`: the event loop; each iteration handles one event. -/
def loop (D : Source ρ) (Z : Zlib) : (fuel : Nat) → Load.St × ρ → Option (Res LoadError (Except PErr Footer) × (Load.St × ρ))
  | 0, _ => none
  | fuel + 1, (s, i) =>
    match s.stack with
    | [] => some (.panic .loaderStack, (s, i))
    | top :: below =>
      match nextEvent D fuel (s.parser, i) with
      | none => none
      | some (.panic p, (p', i)) => some (.panic p, ({ s with parser := p' }, i))
      | some (.err e, (p', i)) => some (.err (.parser e), ({ s with parser := p' }, i))
      | some (.ok (.startNode name _), (p', i)) =>
        match addNode D Z top name fuel ({ s with parser := p' }, i) with
        | none => none
        | some (.ok id, (s', i)) => loop D Z fuel ({ s' with stack := id :: s'.stack }, i)
        | some (.err e, s') => some (.err e, s')
        | some (.panic p, s') => some (.panic p, s')
      | some (.ok .endNode, (p', i)) => loop D Z fuel ({ s with parser := p', stack := below }, i)
      | some (.ok (.endFbx footer), (p', i)) =>
        if below = [] then some (.ok footer, ({ s with parser := p', stack := below }, i))
        else some (.panic .loaderStack, ({ s with parser := p', stack := below }, i))

/-- `loader.rs:47-99` `Loader::load`. -/
def loadTree (D : Source ρ) (Z : Zlib) (fuel : Nat) (s : Parser × ρ) : Option (Res LoadError (Tree × Except PErr Footer) × (Parser × ρ)) :=
  if s.1.isUsed then some (.err .badParser, s)
  else match loop D Z fuel (⟨s.1, Tree.empty, [0]⟩, s.2) with
    | none => none
    | some (.ok footer, (t, i)) => some (.ok (t.tree, footer), (t.parser, i))
    | some (.err e, (t, i)) => some (.err e, (t.parser, i))
    | some (.panic x, (t, i)) => some (.panic x, (t.parser, i))

/-- `any.rs:27-63` `AnyParser::from_reader` / `from_seekable_reader`. -/
def anyParser (D : Source ρ) (fuel : Nat) (checks seekable : Bool) (bytes : Bytes) (ending : Option IoErr) (cursor seekLimit : Nat) (x : ρ) :
    Option (Res AnyError (Parser × ρ)) :=
  match loadHeader D fuel ({ rest := bytes, ending, cursor, position := 0, seekable, seekLimit }, x) with
  | none => none
  | some (.err e, _) => some (.err (.header e))
  | some (.panic x, _) => some (.panic x)
  | some (.ok v, (r, i)) =>
    match ParserVersion.fromFbxVersion v with
    | none => some (.err (.unsupportedVersion v))
    | some .v7400 =>
      match Parser.create checks v { r with position := headerLen } with
      | .ok p => some (.ok (p, i))
      | .error _ => some (.panic .anyParser)

/-- `tree/any.rs:33-64` `AnyTree::from_reader` / `from_seekable_reader`; the handler only logs. -/
def anyTree (D : Source ρ) (fuel : Nat) (Z : Zlib) (checks seekable : Bool) (bytes : Bytes) (ending : Option IoErr) (cursor seekLimit : Nat) (x : ρ) :
    Option (Res AnyTreeError (FbxVersion × Tree × Except PErr Footer)) :=
  match anyParser D fuel checks seekable bytes ending cursor seekLimit x with
  | none => none
  | some (.err e) => some (.err (.parserCreation e))
  | some (.panic p) => some (.panic p)
  | some (.ok (p, i)) =>
    match loadTree D Z fuel (p.setHandler (fun _ _ _ => none), i) with
    | none => none
    | some (.ok (t, footer), _) => some (.ok (p.version, t, footer))
    | some (.err e, _) => some (.err (.load e))
    | some (.panic x, _) => some (.panic x)

end Source
/-! ## A file, and std's `BufReader` -/

/-- A file: its bytes, the offset, what it does after the last byte, the largest offset it can seek to, and how it splits its reads. -/
structure Disk where
  file : Bytes
  pos : Nat
  ending : Option IoErr
  limit : Nat
  plan : Schedule
  calls : Nat

namespace Disk

/-- One `read` with a buffer of `n` bytes. -/
def read (n : Nat) (d : Disk) : Option (Except IoErr Bytes) × Disk :=
  match d.plan d.calls with
  | .interrupted => (none, { d with calls := d.calls + 1 })
  | .upTo k =>
    if n ≠ 0 ∧ d.file.drop d.pos = [] then
      (some (match d.ending with | none => .ok [] | some e => .error e), { d with calls := d.calls + 1 })
    else
      (some (.ok ((d.file.drop d.pos).take (min n (k + 1)))),
        { d with calls := d.calls + 1, pos := d.pos + ((d.file.drop d.pos).take (min n (k + 1))).length })

/-- `seek(SeekFrom::Current(by))`. -/
def seek (dist : Int) (d : Disk) : Except IoErr Unit × Disk :=
  if 0 ≤ d.pos + dist ∧ d.pos + dist ≤ d.limit then (.ok (), { d with pos := (d.pos + dist).toNat }) else (.error .invalidSeek, d)

/-- A file as a source. -/
def source (bufs : Disk → Nat) (copyBuf : Nat) : Source Disk := ⟨read, seek, bufs, copyBuf⟩

end Disk

namespace Source
variable {ρ : Type}

/-- `BufReader::read` (std): large reads bypass an empty buffer; otherwise an empty buffer is filled by one `read` of `cap` bytes, and what fits
is taken out of it. The state is that of the inner source and what is in the buffer. -/
def bufRead (S : Source ρ) (cap n : Nat) (b : ρ × Bytes) : Option (Except IoErr Bytes) × (ρ × Bytes) :=
  if b.2 ≠ [] then (some (.ok (b.2.take n)), (b.1, b.2.drop n))
  else if cap ≤ n then ((S.read n b.1).1, ((S.read n b.1).2, []))
  else match S.read cap b.1 with
    | (some (.ok bs), x) => (some (.ok (bs.take n)), (x, bs.drop n))
    | (some (.error e), x) => (some (.error e), (x, []))
    | (none, x) => (none, (x, []))

/-- `BufReader::seek(SeekFrom::Current(d))` (std): the inner source is ahead by what is in the buffer, which is discarded unless the seek failed. -/
def bufSeek (S : Source ρ) (d : Int) (b : ρ × Bytes) : Except IoErr Unit × (ρ × Bytes) :=
  match S.seek (d - b.2.length) b.1 with
  | (.ok (), x) => (.ok (), (x, []))
  | (.error e, x) => (.error e, (x, b.2))

/-- `BufReader::with_capacity(cap, inner)` (std). -/
def bufReader (S : Source ρ) (cap : Nat) : Source (ρ × Bytes) where
  read := bufRead S cap
  seek := bufSeek S
  bufs b := S.bufs b.1
  copyBuf := S.copyBuf

end Source
end Fbx
