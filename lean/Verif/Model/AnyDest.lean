import Verif.Model.TreeIO
import Verif.Model.Flush

/-!
# The writer on any destination, and on a `BufWriter`

The code of `Model/Writer.lean`, `Model/Flush.lean` and the `write_tree` part of `Model/TreeIO.lean` once more, for an arbitrary type of destination
(`W: Write + Seek`). One such type is std's `BufWriter`, in front of a `Sink`.
-/

namespace Fbx

/-- The operations of a destination (`W: Write + Seek`) which the writer uses, as functions on its state `δ`. -/
structure Dest (δ : Type) where
  /-- `Write::write_all` -/
  writeAll : Bytes → M IoErr δ Unit
  /-- `Seek::seek(SeekFrom::Start(p))` -/
  seek : Nat → M IoErr δ Unit
  /-- `Seek::stream_position` -/
  tell : M IoErr δ Nat
  /-- `Write::flush` -/
  flush : M IoErr δ Unit

/-- `writer/v7400/binary.rs:117-125` `Writer`, with a sink of type `δ`. -/
structure WriterOn (δ : Type) where
  sink : δ
  version : FbxVersion
  opened : List OpenNode

namespace AnyDest
variable {α δ : Type}

/-! ## `src/writer/v7400/binary.rs` -/

/-- Device access; `io::Error` is converted with `?`. -/
def io (m : M IoErr δ α) : M WErr (WriterOn δ) α :=
  M.mapErr WErr.io (M.zoom WriterOn.sink (fun s w => { w with sink := s }) m)

/-- Changes the innermost open node, as `Writer.modifyTop`. -/
def modifyTop (f : OpenNode → OpenNode) (w : WriterOn δ) : WriterOn δ :=
  match w.opened with
  | [] => w
  | n :: outer => { w with opened := f n :: outer }

/-- `attributes.rs:167-181` `update_node_header`, as `Writer.updateNodeHeader`. -/
def updateNodeHeader : M WErr (WriterOn δ) Unit := do
  let w ← M.get
  match w.opened with
  | [] => M.panic .noOpenNode
  | n :: _ =>
    if n.header.numAttrs + 1 < 2 ^ 64 then
      M.modify (modifyTop (fun n => { n with header := { n.header with numAttrs := n.header.numAttrs + 1 } }))
    else M.throw (.tooManyAttributes n.header.numAttrs)

/-- `sink.write_all`. -/
def put (D : Dest δ) (bs : Bytes) : M WErr (WriterOn δ) Unit := io (D.writeAll bs)

/-- `binary.rs:135-138`: the part of `Writer::new` that accesses the sink. -/
def start (D : Dest δ) (v : FbxVersion) : M WErr δ Unit := M.mapErr WErr.io (do
  D.seek 0
  D.writeAll magic
  D.writeAll (leBytes 4 v.toNat))

/-- `u32::try_from(n).map_err(..)?` followed by `write_all(&n.to_le_bytes())`. -/
def putU32 (D : Dest δ) (n : Nat) (e : WErr) : M WErr (WriterOn δ) Unit :=
  if n < 2 ^ 32 then put D (leBytes 4 n) else M.throw e

/-- `binary.rs:170-191`: the first three fields of a node header. -/
def writeHeaderFields (D : Dest δ) (h : NodeHeader) (v : FbxVersion) : M WErr (WriterOn δ) Unit :=
  if v < 7500 then do
    putU32 D h.endOffset (.fileTooLarge h.endOffset)
    putU32 D h.numAttrs (.tooManyAttributes h.numAttrs)
    putU32 D h.bytelenAttrs (.attributeTooLong h.bytelenAttrs)
  else do
    put D (leBytes 8 h.endOffset)
    put D (leBytes 8 h.numAttrs)
    put D (leBytes 8 h.bytelenAttrs)

/-- `binary.rs:169-195` `write_node_header`. -/
def writeNodeHeader (D : Dest δ) (h : NodeHeader) : M WErr (WriterOn δ) Unit := do
  let w ← M.get
  writeHeaderFields D h w.version
  put D (leBytes 1 h.nameLen)

/-- `binary.rs:198-202` `write_fbx_verison`. -/
def writeFbxVersion (D : Dest δ) : M WErr (WriterOn δ) Unit := do
  let w ← M.get
  put D (leBytes 4 w.version.toNat)

/-- `binary.rs:205-227` `finalize_attributes`. -/
def finalizeAttributes (D : Dest δ) : M WErr (WriterOn δ) Unit := do
  let w ← M.get
  match w.opened with
  | [] => pure ()
  | n :: _ =>
    if n.finalized then pure ()
    else do
      let cur ← io D.tell
      M.assert (n.bodyPos ≤ cur) .bodyPosUnderflow
      M.modify (modifyTop (fun n =>
        { n with header := { n.header with bytelenAttrs := cur - n.bodyPos }, finalized := true }))

/-- `binary.rs:230-272` `new_node`. -/
def newNode (D : Dest δ) (name : String) : M WErr (WriterOn δ) Unit := do
  finalizeAttributes D
  M.modify (modifyTop (fun n => { n with hasChild := true }))
  let len := (strBytes name).length
  if len < 256 then do
    let headerPos ← io D.tell
    let header : NodeHeader := ⟨0, 0, 0, len⟩
    writeNodeHeader D header
    put D (strBytes name)
    let bodyPos ← io D.tell
    M.modify (fun w => { w with opened := ⟨headerPos, bodyPos, header, false, false⟩ :: w.opened })
  else M.throw (.nodeNameTooLong len)

/-- `binary.rs:284-287`: the end marker of a node, if it needs one. -/
def writeMarker (D : Dest δ) (n : OpenNode) : M WErr (WriterOn δ) Unit :=
  if n.hasChild ∨ n.header.numAttrs = 0 then writeNodeHeader D NodeHeader.nodeEnd else pure ()

/-- `binary.rs:275-302` `close_node`. -/
def closeNode (D : Dest δ) : M WErr (WriterOn δ) Unit := do
  finalizeAttributes D
  let w ← M.get
  match w.opened with
  | [] => M.throw .noNodesToClose
  | n :: outer => do
    M.modify (fun w => { w with opened := outer })
    writeMarker D n
    let endPos ← io D.tell
    io (D.seek n.headerPos)
    M.assert ((n.header.numAttrs == 0) == (n.header.bytelenAttrs == 0)) .attrLenAssert
    writeNodeHeader D { n.header with endOffset := endPos }
    io (D.seek endPos)

/-! ## `src/writer/v7400/binary/attributes.rs`, `attributes/array.rs` -/

/-- `attributes.rs:159-164` `write_type_code`. -/
def writeTypeCode (D : Dest δ) (t : AttrType) : M WErr (WriterOn δ) Unit := put D [t.typeCode]

/-- `attributes.rs:82-97`: single value attributes. -/
def appendSingle (D : Dest δ) (t : AttrType) (bs : Bytes) : M WErr (WriterOn δ) Unit := do
  updateNodeHeader
  writeTypeCode D t
  put D bs

/-- `attributes/array.rs:58-67` `write_array_header`. -/
def writeArrHeader (D : Dest δ) (h : ArrHeader) : M WErr (WriterOn δ) Unit := do
  put D (leBytes 4 h.count)
  put D (leBytes 4 h.enc.toU32)
  put D (leBytes 4 h.bytelen)

/-- `attributes.rs:205-224` `initialize_array`. -/
def initializeArray (D : Dest δ) (t : AttrType) (enc : ArrEnc) : M WErr (WriterOn δ) Nat := do
  updateNodeHeader
  writeTypeCode D t
  let headerPos ← io D.tell
  writeArrHeader D ⟨0, enc, 0⟩
  pure headerPos

/-- `attributes.rs:229-237` `finalize_array`. -/
def finalizeArray (D : Dest δ) (headerPos : Nat) (h : ArrHeader) : M WErr (WriterOn δ) Unit := do
  let endPos ← io D.tell
  io (D.seek headerPos)
  writeArrHeader D h
  io (D.seek endPos)

/-- `attributes/array.rs:25-36,39-55`: one `write_all` per element. -/
def writeElements (D : Dest δ) : List (Except WErr Bytes) → (count : Nat) → M WErr (WriterOn δ) Nat
  | [], count =>
    if count < 2 ^ 32 then pure count else M.throw (.tooManyArrayElements (count + 1))
  | .error e :: _, _ => M.throw e
  | .ok bs :: rest, count => do
    put D bs
    writeElements D rest (count + 1)

/-- `attributes/array.rs:84-91`: elements written through a zlib encoder, as in `Writer.writeElementsZlib`. -/
def writeElementsZlib (D : Dest δ) (Z : Zlib) (elems : List (Except WErr Bytes)) : M WErr (WriterOn δ) Nat := do
  put D [Z.encHeader.1, Z.encHeader.2]
  put D (Z.encEarly (Writer.okPrefix elems))
  let count ← M.ofExcept (Writer.elementsResult elems 0)
  M.mapErr (fun
    | .io e => .compression e
    | e => e) (put D (Z.encLate (Writer.okPrefix elems)))
  pure count

/-- `attributes/array.rs:80-92`: the elements, in the chosen encoding. -/
def writeArrayElements (D : Dest δ) (Z : Zlib) (enc : ArrEnc) (elems : List (Except WErr Bytes)) : M WErr (WriterOn δ) Nat :=
  match enc with
  | .direct => writeElements D elems 0
  | .zlib => writeElementsZlib D Z elems

/-- `attributes/array.rs:70-110` `write_array_attr_result_iter`. -/
def appendArray (D : Dest δ) (Z : Zlib) (t : AttrType) (enc : Option ArrEnc) (elems : List (Except WErr Bytes)) :
    M WErr (WriterOn δ) Unit := do
  let enc := enc.getD .direct
  let headerPos ← initializeArray D t enc
  let startPos ← io D.tell
  let count ← writeArrayElements D Z enc elems
  let endPos ← io D.tell
  let bytelen := endPos - startPos
  if bytelen < 2 ^ 32 then finalizeArray D headerPos ⟨count, enc, bytelen⟩
  else M.throw (.attributeTooLong bytelen)

/-- `attributes.rs:273-284` `initialize_special`. -/
def initializeSpecial (D : Dest δ) (t : AttrType) : M WErr (WriterOn δ) Nat := do
  updateNodeHeader
  writeTypeCode D t
  let headerPos ← io D.tell
  put D (leBytes 4 0)
  pure headerPos

/-- `attributes.rs:289-300` `finalize_special`. -/
def finalizeSpecial (D : Dest δ) (headerPos bytelen : Nat) : M WErr (WriterOn δ) Unit :=
  if bytelen < 2 ^ 32 then do
    let endPos ← io D.tell
    io (D.seek headerPos)
    put D (leBytes 4 bytelen)
    io (D.seek endPos)
  else M.throw (.attributeTooLong bytelen)

/-- `attributes.rs:303-322` `append_binary_direct`, `append_string_direct`. -/
def appendDirect (D : Dest δ) (t : AttrType) (bs : Bytes) : M WErr (WriterOn δ) Unit := do
  let headerPos ← initializeSpecial D t
  put D bs
  finalizeSpecial D headerPos bs.length

/-- `io::copy` from a reader delivering the given chunks: one `write_all` per chunk. -/
def copyChunks (D : Dest δ) (ending : Option IoErr) : List Bytes → (written : Nat) → M WErr (WriterOn δ) Nat
  | [], written => match ending with
    | none => pure written
    | some e => M.throw (.io e)
  | c :: cs, written => do
    put D c
    copyChunks D ending cs (written + c.length)

/-- `attributes.rs:325-334` `append_binary_from_reader`. -/
def appendBinaryReader (D : Dest δ) (chunks : List Bytes) (ending : Option IoErr) : M WErr (WriterOn δ) Unit := do
  let headerPos ← initializeSpecial D .binary
  let len ← copyChunks D ending chunks 0
  finalizeSpecial D headerPos len

/-- `attributes.rs:341-348,366-374`: the loop over bytes. -/
def putEach (D : Dest δ) : List (Except WErr Byte) → (len : Nat) → M WErr (WriterOn δ) Nat
  | [], len => pure len
  | .error e :: _, _ => M.throw e
  | .ok b :: rest, len => do
    put D [b]
    putEach D rest (len + 1)

/-- `attributes.rs:337-379` `append_binary_from_iter`, `append_binary_from_result_iter`. -/
def appendBinaryIter (D : Dest δ) (items : List (Except WErr Byte)) : M WErr (WriterOn δ) Unit := do
  let headerPos ← initializeSpecial D .binary
  let len ← putEach D items 0
  finalizeSpecial D headerPos len

/-- `attributes.rs:386-396,412-423`: the loop over characters. -/
def putChars (D : Dest δ) : List (Except WErr Char) → (buf : Bytes) → (len : Nat) → M WErr (WriterOn δ) Nat
  | [], _, len => pure len
  | .error e :: _, _, _ => M.throw e
  | .ok c :: rest, buf, len => do
    put D (Writer.encodeInto buf c)
    putChars D rest (Writer.encodeInto buf c) (len + (String.utf8EncodeChar c).length)

/-- `attributes.rs:382-428` `append_string_from_iter`, `append_string_from_result_iter`. -/
def appendStringIter (D : Dest δ) (items : List (Except WErr Char)) : M WErr (WriterOn δ) Unit := do
  let headerPos ← initializeSpecial D .string
  let len ← putChars D items (zeros 4) 0
  finalizeSpecial D headerPos len

/-- `attributes.rs:183-428`: the `append_*` methods. -/
def append (D : Dest δ) (Z : Zlib) : Writer.Append → M WErr (WriterOn δ) Unit
  | .bool v => appendSingle D .bool (Writer.boolBytes v)
  | .i16 v => appendSingle D .i16 (leBytes 2 v.toNat)
  | .i32 v => appendSingle D .i32 (leBytes 4 v.toNat)
  | .i64 v => appendSingle D .i64 (leBytes 8 v.toNat)
  | .f32 v => appendSingle D .f32 (leBytes 4 v.toNat)
  | .f64 v => appendSingle D .f64 (leBytes 8 v.toNat)
  | .arrBool enc items => appendArray D Z .arrBool enc (Writer.elemBytes Writer.boolBytes items)
  | .arrI32 enc items => appendArray D Z .arrI32 enc (Writer.elemBytes Writer.b32Bytes items)
  | .arrI64 enc items => appendArray D Z .arrI64 enc (Writer.elemBytes Writer.b64Bytes items)
  | .arrF32 enc items => appendArray D Z .arrF32 enc (Writer.elemBytes Writer.b32Bytes items)
  | .arrF64 enc items => appendArray D Z .arrF64 enc (Writer.elemBytes Writer.b64Bytes items)
  | .binary v => appendDirect D .binary v
  | .string v => appendDirect D .string (strBytes v)
  | .binaryReader cs e => appendBinaryReader D cs e
  | .binaryIter items => appendBinaryIter D items
  | .stringIter items => appendStringIter D items

/-! ## Finalization -/

/-- `binary.rs:400-406`: the padding length. -/
def paddingLen (D : Dest δ) (p : Writer.PadLen) : M WErr (WriterOn δ) Nat :=
  match p with
  | .default => do
    let cur ← io D.tell
    pure ((16 - cur % 16) % 16)
  | .forced n => pure n.toNat

/-- `binary.rs:389-419` `finalize_impl`. The zeros (at most 255) pass `io::copy`'s buffer at once. -/
def finalize (D : Dest δ) (f : Writer.FooterSpec) : M WErr (WriterOn δ) Unit := do
  let w ← M.get
  if w.opened ≠ [] then M.throw (.unclosedNode w.opened.length)
  else do
    writeNodeHeader D NodeHeader.nodeEnd
    put D f.field1
    let len ← paddingLen D f.padding
    put D (zeros len)
    put D f.field2
    writeFbxVersion D
    put D (zeros 120)
    put D f.field3

/-- `binary.rs:381-386` `finalize_and_flush`. -/
def finalizeAndFlush (D : Dest δ) (f : Writer.FooterSpec) : M WErr (WriterOn δ) Unit := do
  finalize D f
  io D.flush

/-! ## `write_tree` -/

/-- `binary.rs:317-347`: the loop over attributes. -/
def appendAll (D : Dest δ) (Z : Zlib) : List AttrValue → M WErr (WriterOn δ) Unit
  | [] => pure ()
  | v :: vs => do
    append D Z (Writer.appendOf v)
    appendAll D Z vs

/-- `binary.rs:307-369`: the loops of `write_tree`, as in `Writer.writeTreeLoop`. -/
def writeTreeLoop (D : Dest δ) (Z : Zlib) (t : Tree) : (steps : Nat) → (opening : Bool) → (id : Nat) → M WErr (WriterOn δ) Unit
  | 0, _, _ => M.panic .fuel
  | steps + 1, true, id =>
    match t.name? id with
    | none => M.panic .badSymbol
    | some name => do
      newNode D name
      appendAll D Z (t.nodes id).attrs
      match (t.nodes id).first with
      | some c => writeTreeLoop D Z t steps true c
      | none => writeTreeLoop D Z t steps false id
  | steps + 1, false, id => do
    closeNode D
    match (t.nodes id).next with
    | some s => writeTreeLoop D Z t steps true s
    | none => match (t.nodes id).parent with
      | none => M.panic .writeTreeRoot
      | some p => if p = t.root then pure () else writeTreeLoop D Z t steps false p

/-- `binary.rs:307-369` `write_tree`. -/
def writeTree (D : Dest δ) (Z : Zlib) (t : Tree) : M WErr (WriterOn δ) Unit :=
  match (t.nodes t.root).first with
  | none => pure ()
  | some c => writeTreeLoop D Z t (2 * t.size + 1) true c

/-! ## Sessions -/

/-- One call. -/
def exec (D : Dest δ) (Z : Zlib) : Writer.Op → M WErr (WriterOn δ) Unit
  | .newNode name => newNode D name
  | .closeNode => closeNode D
  | .append a => append D Z a

/-- A sequence of calls, given up at the first error (as with `?`). -/
def run (D : Dest δ) (Z : Zlib) : List Writer.Op → M WErr (WriterOn δ) Unit
  | [] => pure ()
  | o :: os => do
    exec D Z o
    run D Z os

/-- `Writer::new` (`binary.rs:129-145`), then the calls `body`, each followed by `?`; the outcome, and the destination afterwards. -/
def withNew (D : Dest δ) (s : δ) (v : FbxVersion) (body : M WErr (WriterOn δ) Unit) : Res WErr Unit × δ :=
  if v.major ≠ 7 then (.err (.unsupportedFbxVersion v), s)
  else match start D v s with
    | (.err e, s') => (.err e, s')
    | (.panic p, s') => (.panic p, s')
    | (.ok (), s') => ((body ⟨s', v, []⟩).1, (body ⟨s', v, []⟩).2.sink)

/-- `Writer::new`, the calls, `finalize`. -/
def session (D : Dest δ) (Z : Zlib) (s : δ) (v : FbxVersion) (ops : List Writer.Op) (f : Writer.FooterSpec) : Res WErr Unit × δ :=
  withNew D s v (do run D Z ops; finalize D f)

/-- `Writer::new`, the calls, `finalize_and_flush`. -/
def flushedSession (D : Dest δ) (Z : Zlib) (s : δ) (v : FbxVersion) (ops : List Writer.Op) (f : Writer.FooterSpec) : Res WErr Unit × δ :=
  withNew D s v (do run D Z ops; finalizeAndFlush D f)

/-- `Writer::new`, `write_tree`, `finalize`. -/
def treeSession (D : Dest δ) (Z : Zlib) (s : δ) (v : FbxVersion) (t : Tree) (f : Writer.FooterSpec) : Res WErr Unit × δ :=
  withNew D s v (do writeTree D Z t; finalize D f)

/-- `Writer::new`, `write_tree`, `finalize_and_flush`. -/
def flushedTreeSession (D : Dest δ) (Z : Zlib) (s : δ) (v : FbxVersion) (t : Tree) (f : Writer.FooterSpec) : Res WErr Unit × δ :=
  withNew D s v (do writeTree D Z t; finalizeAndFlush D f)

end AnyDest

/-! ## `std::io::BufWriter` -/

/-- `BufWriter<W>` (std): the inner device, the capacity, and the bytes it holds back, which belong at the cursor of the inner device. -/
structure BufOut where
  inner : Sink
  cap : Nat
  held : Bytes

namespace BufOut

/-- `BufWriter::flush_buf` (std): a loop over `write` of the inner device, which is `write_all` except that after an error the bytes which were
not written stay in the buffer. -/
def flushBuf : M IoErr BufOut Unit := fun b =>
  match Sink.writeAll b.held b.inner with
  | (.ok (), s) => (.ok (), { b with inner := s, held := [] })
  | (.err e, s) => (.err e, { b with inner := s, held := b.held.drop (s.pos - b.inner.pos) })
  | (.panic p, s) => (.panic p, { b with inner := s })

/-- `BufWriter::write_all_cold` (std), the part after flushing. -/
def pass (bs : Bytes) : M IoErr BufOut Unit := fun b =>
  if b.cap ≤ bs.length then match Sink.writeAll bs b.inner with
    | (x, s) => (x, { b with inner := s })
  else (.ok (), { b with held := b.held ++ bs })

/-- `BufWriter::write_all` (std). Simplified: bytes beyond the offsets a device can have are refused here already; std refuses them when they
are flushed. -/
def writeAll (bs : Bytes) : M IoErr BufOut Unit := fun b =>
  if bs = [] then (.ok (), b)
  else if 2 ^ 64 ≤ b.inner.pos + b.held.length + bs.length then (.err (.other 1), b)
  else if bs.length < b.cap - b.held.length then (.ok (), { b with held := b.held ++ bs })
  else if b.cap - b.held.length < bs.length then match flushBuf b with
    | (.ok (), b') => pass bs b'
    | (x, b') => (x, b')
  else pass bs b

/-- `BufWriter::seek` (std): `flush_buf`, then the seek of the inner device. -/
def seek (p : Nat) : M IoErr BufOut Unit := fun b => match flushBuf b with
  | (.ok (), b') => match Sink.seek p b'.inner with
    | (x, s) => (x, { b' with inner := s })
  | (x, b') => (x, b')

/-- `Seek::stream_position` (std), which is `seek(SeekFrom::Current(0))` for a `BufWriter`: `flush_buf`, then the position of the inner device. -/
def tell : M IoErr BufOut Nat := fun b => match flushBuf b with
  | (.ok (), b') => match Sink.tell b'.inner with
    | (x, s) => (x, { b' with inner := s })
  | (.err e, b') => (.err e, b')
  | (.panic p, b') => (.panic p, b')

/-- `BufWriter::flush` (std): `flush_buf`, then the flush of the inner device. -/
def flush : M IoErr BufOut Unit := fun b => match flushBuf b with
  | (.ok (), b') => match Sink.flush b'.inner with
    | (x, s) => (x, { b' with inner := s })
  | (x, b') => (x, b')

/-- `impl Drop for BufWriter` (std): `flush_buf`, the result of which nobody sees. What is left of the inner device. -/
def drop (b : BufOut) : Sink := (flushBuf b).2.inner

/-- `BufWriter` as the destination of the writer. -/
def dest : Dest BufOut := ⟨writeAll, seek, tell, flush⟩

/-- `BufWriter::with_capacity`. -/
def create (cap : Nat) (s : Sink) : BufOut := ⟨s, cap, []⟩

end BufOut
end Fbx
