import Verif.Model.Zlib

/-!
# `src/pull_parser/v7400/parser.rs` and `src/low/v7400/{node_header,fbx_footer}.rs`
-/

namespace Fbx

/-- `parser.rs:558-565`. -/
inductive Health where
  | running
  | finished
  | aborted (pos : SynPos)
  deriving DecidableEq, Repr

/-- `parser.rs:627-634`. -/
inductive EvKind where
  | startNode | endNode | endFbx
  deriving DecidableEq, Repr

/-- `parser.rs:638-655` `StartedNode`. -/
structure Started where
  startOff : Nat
  endOff : Nat
  attrCount : Nat
  attrEnd : Nat
  name : String
  kids : Nat
  deriving DecidableEq, Repr

/-- A (stateful) warning handler as a function of the history of warnings (`parser.rs:20`); `none` is
`Ok(())`. -/
abbrev Handler := List (Warning × SynPos) → Warning → SynPos → Option PErr

/-- `parser.rs:23-30,572-587`: parser and its state. `started` lists the open nodes innermost first (the
`Vec` reversed). `log` is a ghost record of the raised warnings (newest first) and `checks` tells whether
the build has arithmetic overflow checks. -/
structure Parser where
  version : FbxVersion
  health : Health
  started : List Started
  last : Option EvKind
  toplevel : Nat
  reader : Reader
  handler : Option Handler
  log : List (Warning × SynPos)
  checks : Bool

/-- `event.rs:15-25`. `startNode` carries what `StartNode::name()` and `attributes().total_count()`
return at that moment (`event.rs:44-54`). -/
inductive Event where
  | startNode (name : String) (numAttrs : Nat)
  | endNode
  | endFbx (footer : Except PErr Footer)

namespace Parser

/-- Runs an I/O operation on the parser's reader, converting `io::Error` with `?`. -/
def io {α : Type} (m : M IoErr Reader α) : M PErr Parser α :=
  M.mapErr PErr.ofIo (M.zoom Parser.reader (fun r p => { p with reader := r }) m)

/-- `parser.rs:61-73` `Parser::create`. -/
def create (checks : Bool) (v : FbxVersion) (r : Reader) : Except PErr Parser :=
  if ParserVersion.fromFbxVersion v ≠ some .v7400 then
    .error (PErr.ofOp (.unsupportedFbxVersion .v7400 v))
  else
    .ok { version := v, health := .running, started := [], last := none, toplevel := 0, reader := r,
          handler := none, log := [], checks }

/-- `parser.rs:105-110` `set_warning_handler`. -/
def setHandler (h : Handler) (p : Parser) : Parser := { p with handler := some h }

/-- `parser.rs:156-158` `current_depth`. -/
def depth (p : Parser) : Nat := p.started.length

/-- `parser.rs:133-139` `current_node_name`; `none` if there is no open node, where the call panics. -/
def currentNodeName (p : Parser) : Option String := p.started.head?.map Started.name

/-- `parser.rs:538-540` `is_used`. -/
def isUsed (p : Parser) : Bool := p.last.isSome

/-- `parser.rs:161-170` `ensure_continuable`. -/
def ensureContinuable : M PErr Parser Unit := fun p =>
  match p.health with
  | .running => (.ok (), p)
  | .finished => (.err (PErr.ofOp .alreadyFinished), p)
  | .aborted pos => (.err ⟨.op .alreadyAborted, some pos⟩, p)

/-- `parser.rs:179-187` `warn`; the ghost log is extended. -/
def warn (w : Warning) (pos : SynPos) : M PErr Parser Unit := fun p =>
  let p' := { p with log := (w, pos) :: p.log }
  match p.handler with
  | none => (.ok (), p')
  | some h => match h p.log w pos with
    | none => (.ok (), p')
    | some e => (.err (e.andPosition pos), p')

/-- `parser.rs:482-500`: indices among siblings zipped with the names, outermost first. -/
def nodePath (toplevel : Nat) (started : List Started) : List (Nat × String) :=
  let nodes := started.reverse
  List.zip ((toplevel - 1) :: nodes.map (fun n => n.kids - 1)) (nodes.map Started.name)

/-- `parser.rs:470-508`: the value returned by `position()`. -/
def synPos (p : Parser) : SynPos :=
  match p.started with
  | [] => { bytePos := p.reader.position, compPos := 0, path := [], attrIdx := none }
  | n :: _ =>
    { bytePos := p.reader.position, compPos := n.startOff, path := nodePath p.toplevel p.started,
      attrIdx := none }

/-- `parser.rs:470-508` `position()`, with the `expect` of line 486. -/
def position : M PErr Parser SynPos := fun p =>
  if p.started ≠ [] ∧ p.toplevel = 0 then (.panic .noToplevel, p) else (.ok p.synPos, p)

/-- `low/v7400/node_header.rs:50-75`. -/
def readNodeHeader : M PErr Parser NodeHeader := do
  let p ← M.get
  let w := if p.version < 7500 then 4 else 8
  let eo ← io (Reader.readLe w)
  let na ← io (Reader.readLe w)
  let ba ← io (Reader.readLe w)
  let nl ← io (Reader.readLe 1)
  pure ⟨eo, na, ba, nl⟩

/-- `parser.rs:382-393` `skip_unread_attributes`. -/
def skipUnreadAttributes : M PErr Parser Unit := do
  let p ← M.get
  match p.started with
  | [] => pure ()
  | n :: _ =>
    if n.attrEnd > p.reader.position then io (Reader.skipTo n.attrEnd) else pure ()

/-- `parser.rs:285-307`: the current node may end here without a marker. `true` means it did. -/
def tryImplicitEnd : M PErr Parser Bool := do
  let p ← M.get
  match p.started with
  | [] => pure false
  | n :: outer =>
    if n.endOff < p.reader.position then
      M.throw (PErr.ofData (.nodeLengthMismatch n.endOff none))
    else if n.endOff = p.reader.position then do
      let hasChildren := p.last = some .endNode
      let hasAttributes := n.attrCount ≠ 0
      if hasChildren ∨ ¬ hasAttributes then do
        let pos ← position
        warn .missingNodeEndMarker pos
      else pure ()
      M.modify (fun p => { p with started := outer })
      pure true
    else pure false

/-- `parser.rs:315-335`: an explicit end marker was read. -/
def explicitEnd : M PErr Parser EvKind := do
  let p ← M.get
  match p.started with
  | [] => pure .endFbx
  | n :: outer => do
    M.set { p with started := outer }
    if n.endOff ≠ p.reader.position then
      M.throw (PErr.ofData (.nodeLengthMismatch n.endOff (some p.reader.position)))
    else do
      if n.attrCount ≠ 0 ∧ n.kids = 0 then do
        let pos ← position
        warn .extraNodeEndMarker pos
      else pure ()
      pure .endNode

/-- `parser.rs:337-352`: warning about an empty node name, located at the node being read. -/
def warnEmptyName (start : Nat) : M PErr Parser Unit := do
  let pos ← position
  let p ← M.get
  let idx := match p.started with
    | [] => p.toplevel
    | n :: _ => n.kids
  warn .emptyNodeName
    { pos with bytePos := p.reader.position, compPos := start, path := pos.path ++ [(idx, "")] }

/-- `parser.rs:365`: `current_offset + bytelen_attributes` on `u64` (panics or wraps). -/
def addAttrEnd (off len : Nat) : M PErr Parser Nat := fun p =>
  if off + len < u64Size then (.ok (off + len), p)
  else if p.checks then (.panic .attrEndOverflow, p)
  else (.ok ((off + len) % u64Size), p)

/-- `parser.rs:371-375`: registers a new open node. -/
def pushNode (n : Started) (p : Parser) : Parser :=
  match p.started with
  | [] => { p with toplevel := p.toplevel + 1, started := [n] }
  | parent :: outer => { p with started := n :: { parent with kids := parent.kids + 1 } :: outer }

/-- `parser.rs:337-376`: the header of a new node was read. -/
def startNode (start : Nat) (h : NodeHeader) : M PErr Parser EvKind := do
  if h.nameLen = 0 then warnEmptyName start else pure ()
  let bs ← io (Reader.readExact h.nameLen)
  match stringOfUtf8 bs with
  | none => M.throw (PErr.ofData .invalidNodeNameEncoding)
  | some name => do
    let p ← M.get
    let attrEnd ← addAttrEnd p.reader.position h.bytelenAttrs
    M.modify (pushNode
      { startOff := start, endOff := h.endOffset, attrCount := h.numAttrs, attrEnd, name, kids := 0 })
    pure .startNode

/-- `parser.rs:266-377` `next_event_impl`. -/
def nextEventImpl : M PErr Parser EvKind := do
  let p ← M.get
  M.assert (p.health = .running) .badState
  M.assert (p.last ≠ some .endFbx) .badState
  skipUnreadAttributes
  let p ← M.get
  let start := p.reader.position
  let ended ← tryImplicitEnd
  if ended then pure .endNode
  else do
    let h ← readNodeHeader
    if h.isNodeEnd then explicitEnd else startNode start h

/-! ## Footer -/

/-- `fbx_footer.rs:62-65`. -/
def footerExpected1 : Bytes :=
  [0xf0, 0xb0, 0xa0, 0x00, 0xd0, 0xc0, 0xd0, 0x60, 0xb0, 0x70, 0xf0, 0x80, 0x10, 0xf0, 0x20, 0x70]

/-- `fbx_footer.rs:154-157`. -/
def footerUnknown3 : Bytes :=
  [0xf8, 0x5a, 0x8c, 0x6a, 0xde, 0xf5, 0xd9, 0x7e, 0xec, 0xe9, 0x0c, 0xe3, 0x75, 0x8f, 0x29, 0x0b]

/-- `fbx_footer.rs:69-80`: some byte has an unexpected upper nibble. -/
def footerField1Odd (buf : Bytes) : Bool :=
  (List.zip buf footerExpected1).any (fun (b, e) => (b &&& 0xf0) ≠ e)

/-- `fbx_footer.rs:91`: `pos.wrapping_neg() & 0x0f`. -/
def expectedPadding (pos : Nat) : Nat := (16 - pos % 16) % 16

/-- A warning raised under a condition (`fbx_footer.rs:74-80,186-193`). -/
def warnIf (c : Bool) (w : Warning) (pos : SynPos) : M PErr Parser Unit := if c then warn w pos else pure ()

/-- `fbx_footer.rs:53-194` `FbxFooter::read_from_parser`. -/
def readFooter : M PErr Parser Footer := do
  let p ← M.get
  let startPos := p.reader.position
  let unknown1 ← io (Reader.readExact 16)
  let p ← M.get
  warnIf (footerField1Odd unknown1) .unexpectedFooterField
    { bytePos := p.reader.position - 16, compPos := startPos, path := [], attrIdx := none }
  let bufStart := p.reader.position
  let expPad := expectedPadding bufStart
  let buf ← io (Reader.readExact 144)
  match (buf.drop 128).findIdx? (· ≠ 0) with
  | none => M.throw (PErr.ofData .brokenFbxFooter)
  | some i => do
    let unknown3Pos := 128 + i
    let paddingLen := unknown3Pos % 16
    M.assert (paddingLen < 16) .footerAssert
    M.assert (unknown3Pos = paddingLen + 128) .footerAssert
    let padding := buf.take paddingLen
    let unknown2 := (buf.drop paddingLen).take 4
    let version := UInt32.ofNat (fromLe ((buf.drop (paddingLen + 4)).take 4))
    let zeroes120 := (buf.drop (paddingLen + 8)).take 120
    let part := buf.drop (paddingLen + 128)
    if ¬ padding.all (· = 0) then M.throw (PErr.ofData .brokenFbxFooter)
    else if unknown2 ≠ zeros 4 then M.throw (PErr.ofData .brokenFbxFooter)
    else do
      let p ← M.get
      if version ≠ p.version then M.throw (PErr.ofData .brokenFbxFooter)
      else if ¬ zeroes120.all (· = 0) then M.throw (PErr.ofData .brokenFbxFooter)
      else do
        let more ← io (Reader.readExact (16 - part.length))
        let unknown3 := part ++ more
        if unknown3 ≠ footerUnknown3 then M.throw (PErr.ofData .brokenFbxFooter)
        else do
          warnIf (paddingLen ≠ expPad) (.invalidFooterPadding expPad paddingLen)
            { bytePos := bufStart, compPos := startPos, path := [], attrIdx := none }
          pure { unknown1, paddingLen, unknown2, version, unknown3 }

/-! ## Public operations -/

/-- `parser.rs:217-251`: postcondition assertions of `next_event`. -/
def depthOk (k : EvKind) (prev cur : Nat) : Bool :=
  match k with
  | .startNode => cur = prev + 1
  | .endNode => prev = cur + 1
  | .endFbx => prev = 0 ∧ cur = 0

/-- `parser.rs:253-261`: creation of the event value. -/
def makeEvent (k : EvKind) : M PErr Parser Event := fun p =>
  match k with
  | .startNode => match p.started with
    | [] => (.panic .noCurrentNode, p)
    | n :: _ => (.ok (.startNode n.name n.attrCount), p)
  | .endNode => (.ok .endNode, p)
  | .endFbx => match readFooter p with
    | (.ok f, p') => (.ok (.endFbx (.ok f)), p')
    | (.err e, p') => (.ok (.endFbx (.error e)), p')
    | (.panic x, p') => (.panic x, p')

/-- `parser.rs:397-399` `set_aborted`. -/
def setAborted (pos : SynPos) (p : Parser) : Parser := { p with health := .aborted pos }

/-- `parser.rs:195-262` `next_event`. -/
def nextEvent : M PErr Parser Event := do
  let p0 ← M.get
  let prevDepth := p0.depth
  ensureContinuable
  fun p => match nextEventImpl p with
    | (.panic x, p') => (.panic x, p')
    | (.err e, p') => match position p' with
      | (.ok pos, p'') => (.err (e.andPosition pos), p''.setAborted pos)
      | (.err e', p'') => (.err e', p'')
      | (.panic x, p'') => (.panic x, p'')
    | (.ok k, p') =>
      let p1 := if k = .endFbx then { p' with health := .finished } else p'
      let p2 := { p1 with last := some k }
      if depthOk k prevDepth p2.depth then makeEvent k p2 else (.panic .depthAssert, p2)

/-- `parser.rs:454-465` `skip_current_node`. -/
def skipCurrentNode : M PErr Parser Unit := do
  let p ← M.get
  match p.started with
  | [] => M.panic .skipRoot
  | n :: outer => do
    M.set { p with started := outer, last := some .endNode }
    io (Reader.skipTo n.endOff)

end Parser

/-! ## `src/pull_parser/any.rs` -/

/-- `any/error.rs`: errors of `AnyParser`. -/
inductive AnyError where
  | header (e : HeaderError)
  | unsupportedVersion (v : FbxVersion)
  deriving DecidableEq, Repr

/-- `any.rs:27-63` `AnyParser::from_reader` / `from_seekable_reader` over a device given by its remaining
bytes. `FbxHeader::load` is applied to the raw device (any tracked position is discarded) and the parser
starts at position 27 (`parser.rs:40-56`). -/
def anyParser (checks seekable : Bool) (bytes : Bytes) (ending : Option IoErr) (cursor seekLimit : Nat) :
    Res AnyError Parser :=
  match loadHeader { rest := bytes, ending, cursor, position := 0, seekable, seekLimit } with
  | (.err e, _) => .err (.header e)
  | (.panic x, _) => .panic x
  | (.ok v, r) =>
    match ParserVersion.fromFbxVersion v with
    | none => .err (.unsupportedVersion v)
    | some .v7400 =>
      match Parser.create checks v { r with position := headerLen } with
      | .ok p => .ok p
      | .error _ => .panic .anyParser

end Fbx
