import Verif.Model.ShortReads
import Verif.Model.Flush

/-!
# The writer on a device that takes its bytes in pieces

The code of `Model/Writer.lean`, `Model/Flush.lean` and the `write_tree` part of `Model/TreeIO.lean` once more, with every access to the sink made
by single operations of a device: `write_all` is std's loop over `Write::write`, which may store a part of the bytes, be interrupted, store
nothing or fail. The failure schedule of `Sink` is not used here. Code that does not access the sink is taken over by `CM.lift`.
-/

namespace Fbx

/-- What the device does at one operation. -/
inductive WriteStep where
  /-- stores at most `k + 1` bytes -/
  | takes (k : Nat)
  /-- returns `ErrorKind::Interrupted` from `write`; `seek` and `flush` are not interrupted (if they are, that is a failure: nobody retries) -/
  | interrupted
  /-- returns `Ok(0)` from `write`; `seek` and `flush` succeed -/
  | nothing
  /-- returns another error; no bytes are stored -/
  | fails (e : IoErr)
  deriving DecidableEq, Repr

/-- What the device does at each operation. -/
abbrev WriteSchedule := Nat → WriteStep

namespace Pieces
variable {α : Type}

/-! ## The device -/

/-- `Write::write_all` (std, default implementation), on the device with the schedule `D` of which `i` operations have been made.
`ErrorKind::WriteZero` is `.other 0`; a device does not hold offsets beyond `u64`. -/
def writeLoop (D : WriteSchedule) : (fuel : Nat) → (bs : Bytes) → Sink × Nat → Option (Res IoErr Unit × (Sink × Nat))
  | 0, _, _ => none
  | fuel + 1, bs, (s, i) =>
    if bs = [] then some (.ok (), (s, i))
    else match D i with
      | .interrupted => writeLoop D fuel bs (s, i + 1)
      | .nothing => some (.err (.other 0), (s, i + 1))
      | .fails e => some (.err e, (s, i + 1))
      | .takes k =>
        if s.pos + bs.length < 2 ^ 64 then
          writeLoop D fuel (bs.drop (k + 1))
            ({ s with buf := Sink.store s.buf s.pos (bs.take (k + 1)), pos := s.pos + (bs.take (k + 1)).length }, i + 1)
        else some (.err (.other 1), (s, i + 1))

/-- `Write::write_all`. -/
def writeAll (D : WriteSchedule) (bs : Bytes) : CM IoErr Sink Unit := fun fuel s => writeLoop D fuel bs s

/-- `Seek::seek(SeekFrom::Start(p))`. -/
def seek (D : WriteSchedule) (p : Nat) : CM IoErr Sink Unit := fun _ s =>
  match D s.2 with
  | .fails e => some (.err e, (s.1, s.2 + 1))
  | _ => some (.ok (), ({ s.1 with pos := p }, s.2 + 1))

/-- `Seek::stream_position`. -/
def tell (D : WriteSchedule) : CM IoErr Sink Nat := fun _ s =>
  match D s.2 with
  | .fails e => some (.err e, (s.1, s.2 + 1))
  | _ => some (.ok s.1.pos, (s.1, s.2 + 1))

/-- `Write::flush`. -/
def flush (D : WriteSchedule) : CM IoErr Sink Unit := fun _ s =>
  match D s.2 with
  | .fails e => some (.err e, (s.1, s.2 + 1))
  | _ => some (.ok (), (s.1, s.2 + 1))

/-! ## `src/writer/v7400/binary.rs` -/

/-- Device access; `io::Error` is converted with `?`. -/
def io (m : CM IoErr Sink α) : CM WErr Writer α :=
  CM.mapErr WErr.io (CM.zoom Writer.sink (fun s w => { w with sink := s }) m)

/-- `sink.write_all`. -/
def put (D : WriteSchedule) (bs : Bytes) : CM WErr Writer Unit := io (writeAll D bs)

/-- `binary.rs:135-138`: the part of `Writer::new` that accesses the sink. -/
def start (D : WriteSchedule) (v : FbxVersion) : CM WErr Sink Unit := CM.mapErr WErr.io (do
  seek D 0
  writeAll D magic
  writeAll D (leBytes 4 v.toNat))

/-- `u32::try_from(n).map_err(..)?` followed by `write_all(&n.to_le_bytes())`. -/
def putU32 (D : WriteSchedule) (n : Nat) (e : WErr) : CM WErr Writer Unit :=
  if n < 2 ^ 32 then put D (leBytes 4 n) else CM.lift (M.throw e)

/-- `binary.rs:170-191`: the first three fields of a node header. -/
def writeHeaderFields (D : WriteSchedule) (h : NodeHeader) (v : FbxVersion) : CM WErr Writer Unit :=
  if v < 7500 then do
    putU32 D h.endOffset (.fileTooLarge h.endOffset)
    putU32 D h.numAttrs (.tooManyAttributes h.numAttrs)
    putU32 D h.bytelenAttrs (.attributeTooLong h.bytelenAttrs)
  else do
    put D (leBytes 8 h.endOffset)
    put D (leBytes 8 h.numAttrs)
    put D (leBytes 8 h.bytelenAttrs)

/-- `binary.rs:169-195` `write_node_header`. -/
def writeNodeHeader (D : WriteSchedule) (h : NodeHeader) : CM WErr Writer Unit := do
  let w ← CM.lift M.get
  writeHeaderFields D h w.version
  put D (leBytes 1 h.nameLen)

/-- `binary.rs:198-202` `write_fbx_verison`. -/
def writeFbxVersion (D : WriteSchedule) : CM WErr Writer Unit := do
  let w ← CM.lift M.get
  put D (leBytes 4 w.version.toNat)

/-- `binary.rs:205-227` `finalize_attributes`. -/
def finalizeAttributes (D : WriteSchedule) : CM WErr Writer Unit := do
  let w ← CM.lift M.get
  match w.opened with
  | [] => pure ()
  | n :: _ =>
    if n.finalized then pure ()
    else do
      let cur ← io (tell D)
      CM.lift (M.assert (n.bodyPos ≤ cur) .bodyPosUnderflow)
      CM.lift (M.modify (Writer.modifyTop (fun n =>
        { n with header := { n.header with bytelenAttrs := cur - n.bodyPos }, finalized := true })))

/-- `binary.rs:230-272` `new_node`. -/
def newNode (D : WriteSchedule) (name : String) : CM WErr Writer Unit := do
  finalizeAttributes D
  CM.lift (M.modify (Writer.modifyTop (fun n => { n with hasChild := true })))
  let len := (strBytes name).length
  if len < 256 then do
    let headerPos ← io (tell D)
    let header : NodeHeader := ⟨0, 0, 0, len⟩
    writeNodeHeader D header
    put D (strBytes name)
    let bodyPos ← io (tell D)
    CM.lift (M.modify (fun w => { w with opened := ⟨headerPos, bodyPos, header, false, false⟩ :: w.opened }))
  else CM.lift (M.throw (.nodeNameTooLong len))

/-- `binary.rs:284-287`: the end marker of a node, if it needs one. -/
def writeMarker (D : WriteSchedule) (n : OpenNode) : CM WErr Writer Unit :=
  if n.hasChild ∨ n.header.numAttrs = 0 then writeNodeHeader D NodeHeader.nodeEnd else pure ()

/-- `binary.rs:275-302` `close_node`. -/
def closeNode (D : WriteSchedule) : CM WErr Writer Unit := do
  finalizeAttributes D
  let w ← CM.lift M.get
  match w.opened with
  | [] => CM.lift (M.throw .noNodesToClose)
  | n :: outer => do
    CM.lift (M.modify (fun w => { w with opened := outer }))
    writeMarker D n
    let endPos ← io (tell D)
    io (seek D n.headerPos)
    CM.lift (M.assert ((n.header.numAttrs == 0) == (n.header.bytelenAttrs == 0)) .attrLenAssert)
    writeNodeHeader D { n.header with endOffset := endPos }
    io (seek D endPos)

/-! ## `src/writer/v7400/binary/attributes.rs`, `attributes/array.rs` -/

/-- `attributes.rs:159-164` `write_type_code`. -/
def writeTypeCode (D : WriteSchedule) (t : AttrType) : CM WErr Writer Unit := put D [t.typeCode]

/-- `attributes.rs:82-97`: single value attributes. -/
def appendSingle (D : WriteSchedule) (t : AttrType) (bs : Bytes) : CM WErr Writer Unit := do
  CM.lift Writer.updateNodeHeader
  writeTypeCode D t
  put D bs

/-- `attributes/array.rs:58-67` `write_array_header`. -/
def writeArrHeader (D : WriteSchedule) (h : ArrHeader) : CM WErr Writer Unit := do
  put D (leBytes 4 h.count)
  put D (leBytes 4 h.enc.toU32)
  put D (leBytes 4 h.bytelen)

/-- `attributes.rs:205-224` `initialize_array`. -/
def initializeArray (D : WriteSchedule) (t : AttrType) (enc : ArrEnc) : CM WErr Writer Nat := do
  CM.lift Writer.updateNodeHeader
  writeTypeCode D t
  let headerPos ← io (tell D)
  writeArrHeader D ⟨0, enc, 0⟩
  pure headerPos

/-- `attributes.rs:229-237` `finalize_array`. -/
def finalizeArray (D : WriteSchedule) (headerPos : Nat) (h : ArrHeader) : CM WErr Writer Unit := do
  let endPos ← io (tell D)
  io (seek D headerPos)
  writeArrHeader D h
  io (seek D endPos)

/-- `attributes/array.rs:25-36,39-55`: one `write_all` per element. -/
def writeElements (D : WriteSchedule) : List (Except WErr Bytes) → (count : Nat) → CM WErr Writer Nat
  | [], count =>
    if count < 2 ^ 32 then pure count else CM.lift (M.throw (.tooManyArrayElements (count + 1)))
  | .error e :: _, _ => CM.lift (M.throw e)
  | .ok bs :: rest, count => do
    put D bs
    writeElements D rest (count + 1)

/-- `attributes/array.rs:84-91`: elements written through a zlib encoder, as in `Writer.writeElementsZlib`. -/
def writeElementsZlib (D : WriteSchedule) (Z : Zlib) (elems : List (Except WErr Bytes)) : CM WErr Writer Nat := do
  put D [Z.encHeader.1, Z.encHeader.2]
  put D (Z.encEarly (Writer.okPrefix elems))
  let count ← CM.lift (M.ofExcept (Writer.elementsResult elems 0))
  CM.mapErr (fun
    | .io e => .compression e
    | e => e) (put D (Z.encLate (Writer.okPrefix elems)))
  pure count

/-- `attributes/array.rs:80-92`: the elements, in the chosen encoding. -/
def writeArrayElements (D : WriteSchedule) (Z : Zlib) (enc : ArrEnc) (elems : List (Except WErr Bytes)) : CM WErr Writer Nat :=
  match enc with
  | .direct => writeElements D elems 0
  | .zlib => writeElementsZlib D Z elems

/-- `attributes/array.rs:70-110` `write_array_attr_result_iter`. -/
def appendArray (D : WriteSchedule) (Z : Zlib) (t : AttrType) (enc : Option ArrEnc) (elems : List (Except WErr Bytes)) :
    CM WErr Writer Unit := do
  let enc := enc.getD .direct
  let headerPos ← initializeArray D t enc
  let startPos ← io (tell D)
  let count ← writeArrayElements D Z enc elems
  let endPos ← io (tell D)
  let bytelen := endPos - startPos
  if bytelen < 2 ^ 32 then finalizeArray D headerPos ⟨count, enc, bytelen⟩
  else CM.lift (M.throw (.attributeTooLong bytelen))

/-- `attributes.rs:273-284` `initialize_special`. -/
def initializeSpecial (D : WriteSchedule) (t : AttrType) : CM WErr Writer Nat := do
  CM.lift Writer.updateNodeHeader
  writeTypeCode D t
  let headerPos ← io (tell D)
  put D (leBytes 4 0)
  pure headerPos

/-- `attributes.rs:289-300` `finalize_special`. -/
def finalizeSpecial (D : WriteSchedule) (headerPos bytelen : Nat) : CM WErr Writer Unit :=
  if bytelen < 2 ^ 32 then do
    let endPos ← io (tell D)
    io (seek D headerPos)
    put D (leBytes 4 bytelen)
    io (seek D endPos)
  else CM.lift (M.throw (.attributeTooLong bytelen))

/-- `attributes.rs:303-322` `append_binary_direct`, `append_string_direct`. -/
def appendDirect (D : WriteSchedule) (t : AttrType) (bs : Bytes) : CM WErr Writer Unit := do
  let headerPos ← initializeSpecial D t
  put D bs
  finalizeSpecial D headerPos bs.length

/-- `io::copy` from a reader delivering the given chunks: one `write_all` per chunk. -/
def copyChunks (D : WriteSchedule) (ending : Option IoErr) : List Bytes → (written : Nat) → CM WErr Writer Nat
  | [], written => match ending with
    | none => pure written
    | some e => CM.lift (M.throw (.io e))
  | c :: cs, written => do
    put D c
    copyChunks D ending cs (written + c.length)

/-- `attributes.rs:325-334` `append_binary_from_reader`. -/
def appendBinaryReader (D : WriteSchedule) (chunks : List Bytes) (ending : Option IoErr) : CM WErr Writer Unit := do
  let headerPos ← initializeSpecial D .binary
  let len ← copyChunks D ending chunks 0
  finalizeSpecial D headerPos len

/-- `attributes.rs:341-348,366-374`: the loop over bytes. -/
def putEach (D : WriteSchedule) : List (Except WErr Byte) → (len : Nat) → CM WErr Writer Nat
  | [], len => pure len
  | .error e :: _, _ => CM.lift (M.throw e)
  | .ok b :: rest, len => do
    put D [b]
    putEach D rest (len + 1)

/-- `attributes.rs:337-379` `append_binary_from_iter`, `append_binary_from_result_iter`. -/
def appendBinaryIter (D : WriteSchedule) (items : List (Except WErr Byte)) : CM WErr Writer Unit := do
  let headerPos ← initializeSpecial D .binary
  let len ← putEach D items 0
  finalizeSpecial D headerPos len

/-- `attributes.rs:386-396,412-423`: the loop over characters. -/
def putChars (D : WriteSchedule) : List (Except WErr Char) → (buf : Bytes) → (len : Nat) → CM WErr Writer Nat
  | [], _, len => pure len
  | .error e :: _, _, _ => CM.lift (M.throw e)
  | .ok c :: rest, buf, len => do
    put D (Writer.encodeInto buf c)
    putChars D rest (Writer.encodeInto buf c) (len + (String.utf8EncodeChar c).length)

/-- `attributes.rs:382-428` `append_string_from_iter`, `append_string_from_result_iter`. -/
def appendStringIter (D : WriteSchedule) (items : List (Except WErr Char)) : CM WErr Writer Unit := do
  let headerPos ← initializeSpecial D .string
  let len ← putChars D items (zeros 4) 0
  finalizeSpecial D headerPos len

/-- `attributes.rs:183-428`: the `append_*` methods. -/
def append (D : WriteSchedule) (Z : Zlib) : Writer.Append → CM WErr Writer Unit
  | .bool v => appendSingle D .bool (Writer.boolBytes v)
  | .i16 v => appendSingle D .i16 (leBytes 2 v.toNat)
  | .i32 v => appendSingle D .i32 (leBytes 4 v.toNat)
  | .i64 v => appendSingle D .i64 (leBytes 8 v.toNat)
  | .f32 v => appendSingle D .f32 (leBytes 4 v.toNat)
  | .f64 v => appendSingle D .f64 (leBytes 8 v.toNat)
  | .arrBool enc items => appendArray D Z .arrBool enc (Writer.elemBytes Writer.boolBytes items)
  | .arrI32 enc items => appendArray D Z .arrI32 enc (Writer.elemBytes Writer.b32Bytes items)
  | .arrI64 enc items => appendArray D Z .arrI64 enc (Writer.elemBytes Writer.b64Bytes items)
  | .arrF32 enc items => appendArray D Z .arrF32 enc (Writer.elemBytes Writer.b32Bytes items)
  | .arrF64 enc items => appendArray D Z .arrF64 enc (Writer.elemBytes Writer.b64Bytes items)
  | .binary v => appendDirect D .binary v
  | .string v => appendDirect D .string (strBytes v)
  | .binaryReader cs e => appendBinaryReader D cs e
  | .binaryIter items => appendBinaryIter D items
  | .stringIter items => appendStringIter D items

/-! ## Finalization -/

/-- `binary.rs:400-406`: the padding length. -/
def paddingLen (D : WriteSchedule) (p : Writer.PadLen) : CM WErr Writer Nat :=
  match p with
  | .default => do
    let cur ← io (tell D)
    pure ((16 - cur % 16) % 16)
  | .forced n => pure n.toNat

/-- `binary.rs:389-419` `finalize_impl`. The zeros (at most 255) pass `io::copy`'s buffer at once. -/
def finalize (D : WriteSchedule) (f : Writer.FooterSpec) : CM WErr Writer Unit := do
  let w ← CM.lift M.get
  if w.opened ≠ [] then CM.lift (M.throw (.unclosedNode w.opened.length))
  else do
    writeNodeHeader D NodeHeader.nodeEnd
    put D f.field1
    let len ← paddingLen D f.padding
    put D (zeros len)
    put D f.field2
    writeFbxVersion D
    put D (zeros 120)
    put D f.field3

/-- `binary.rs:381-386` `finalize_and_flush`. -/
def finalizeAndFlush (D : WriteSchedule) (f : Writer.FooterSpec) : CM WErr Writer Unit := do
  finalize D f
  io (flush D)

/-! ## `write_tree` -/

/-- `binary.rs:317-347`: the loop over attributes. -/
def appendAll (D : WriteSchedule) (Z : Zlib) : List AttrValue → CM WErr Writer Unit
  | [] => pure ()
  | v :: vs => do
    append D Z (Writer.appendOf v)
    appendAll D Z vs

/-- `binary.rs:307-369`: the loops of `write_tree`, as in `Writer.writeTreeLoop`. -/
def writeTreeLoop (D : WriteSchedule) (Z : Zlib) (t : Tree) : (steps : Nat) → (opening : Bool) → (id : Nat) → CM WErr Writer Unit
  | 0, _, _ => CM.lift (M.panic .fuel)
  | steps + 1, true, id =>
    match t.name? id with
    | none => CM.lift (M.panic .badSymbol)
    | some name => do
      newNode D name
      appendAll D Z (t.nodes id).attrs
      match (t.nodes id).first with
      | some c => writeTreeLoop D Z t steps true c
      | none => writeTreeLoop D Z t steps false id
  | steps + 1, false, id => do
    closeNode D
    match (t.nodes id).next with
    | some s => writeTreeLoop D Z t steps true s
    | none => match (t.nodes id).parent with
      | none => CM.lift (M.panic .writeTreeRoot)
      | some p => if p = t.root then pure () else writeTreeLoop D Z t steps false p

/-- `binary.rs:307-369` `write_tree`. -/
def writeTree (D : WriteSchedule) (Z : Zlib) (t : Tree) : CM WErr Writer Unit :=
  match (t.nodes t.root).first with
  | none => pure ()
  | some c => writeTreeLoop D Z t (2 * t.size + 1) true c

/-! ## Sessions -/

/-- One call. -/
def exec (D : WriteSchedule) (Z : Zlib) : Writer.Op → CM WErr Writer Unit
  | .newNode name => newNode D name
  | .closeNode => closeNode D
  | .append a => append D Z a

/-- A sequence of calls, given up at the first error (as with `?`). -/
def run (D : WriteSchedule) (Z : Zlib) : List Writer.Op → CM WErr Writer Unit
  | [] => pure ()
  | o :: os => do
    exec D Z o
    run D Z os

/-- `Writer::new` (`binary.rs:129-145`), then the calls `body`, each followed by `?`; the outcome, and the device afterwards. -/
def withNew (D : WriteSchedule) (fuel : Nat) (s : Sink) (v : FbxVersion) (body : CM WErr Writer Unit) : Option (Res WErr Unit × Sink) :=
  if v.major ≠ 7 then some (.err (.unsupportedFbxVersion v), s)
  else match start D v fuel (s, 0) with
    | none => none
    | some (.err e, (s', _)) => some (.err e, s')
    | some (.panic p, (s', _)) => some (.panic p, s')
    | some (.ok (), (s', i)) => match body fuel (⟨s', v, []⟩, i) with
      | none => none
      | some (x, (w, _)) => some (x, w.sink)

/-- `Writer::new`, the calls, `finalize`. `none`: the fuel was not enough for the loops over the writes. -/
def session (D : WriteSchedule) (Z : Zlib) (fuel : Nat) (s : Sink) (v : FbxVersion) (ops : List Writer.Op) (f : Writer.FooterSpec) :
    Option (Res WErr Unit × Sink) :=
  withNew D fuel s v (do run D Z ops; finalize D f)

/-- `Writer::new`, the calls, `finalize_and_flush`. -/
def flushedSession (D : WriteSchedule) (Z : Zlib) (fuel : Nat) (s : Sink) (v : FbxVersion) (ops : List Writer.Op) (f : Writer.FooterSpec) :
    Option (Res WErr Unit × Sink) :=
  withNew D fuel s v (do run D Z ops; finalizeAndFlush D f)

/-- `Writer::new`, `write_tree`, `finalize`. -/
def treeSession (D : WriteSchedule) (Z : Zlib) (fuel : Nat) (s : Sink) (v : FbxVersion) (t : Tree) (f : Writer.FooterSpec) :
    Option (Res WErr Unit × Sink) :=
  withNew D fuel s v (do writeTree D Z t; finalize D f)

end Pieces
end Fbx
