import Verif.Model.Sink
import Verif.Model.Zlib

/-!
# `src/writer/v7400/binary.rs`, `binary/attributes.rs`, `binary/attributes/array.rs`, `binary/footer.rs`
-/

namespace Fbx

/-- `writer/v7400/binary/error.rs:12-35` (a user error is represented by an opaque number). -/
inductive WErr where
  | attributeTooLong (n : Nat)
  | compression (e : IoErr)
  | fileTooLarge (n : Nat)
  | io (e : IoErr)
  | noNodesToClose
  | nodeNameTooLong (n : Nat)
  | tooManyArrayElements (n : Nat)
  | tooManyAttributes (n : Nat)
  | unclosedNode (n : Nat)
  | unsupportedFbxVersion (v : FbxVersion)
  | userDefined (e : Nat)
  deriving DecidableEq, Repr

/-- `binary.rs:424-435` `OpenNode`. -/
structure OpenNode where
  headerPos : Nat
  bodyPos : Nat
  header : NodeHeader
  hasChild : Bool
  finalized : Bool
  deriving DecidableEq, Repr

/-- `binary.rs:117-124` `Writer`. `opened` lists the open nodes innermost first (the `Vec` reversed). -/
structure Writer where
  sink : Sink
  version : FbxVersion
  opened : List OpenNode

namespace Writer

/-- Device access; `io::Error` is converted with `?`. -/
def io {α : Type} (m : M IoErr Sink α) : M WErr Writer α :=
  M.mapErr WErr.io (M.zoom Writer.sink (fun s w => { w with sink := s }) m)

/-- `sink.write_all`. -/
def put (bs : Bytes) : M WErr Writer Unit := io (Sink.writeAll bs)

/-- `binary.rs:129-145` `Writer::new`. -/
def new (s : Sink) (v : FbxVersion) : Res WErr Writer × Sink :=
  if v.major ≠ 7 then (.err (.unsupportedFbxVersion v), s)
  else
    let m : M WErr Sink Unit := M.mapErr WErr.io (do
      Sink.seek 0
      Sink.writeAll magic
      Sink.writeAll (leBytes 4 v.toNat))
    match m s with
    | (.ok (), s') => (.ok ⟨s', v, []⟩, s')
    | (.err e, s') => (.err e, s')
    | (.panic p, s') => (.panic p, s')

/-- `u32::try_from(n).map_err(..)?` followed by `write_all(&n.to_le_bytes())`. -/
def putU32 (n : Nat) (e : WErr) : M WErr Writer Unit :=
  if n < 2 ^ 32 then put (leBytes 4 n) else M.throw e

/-- `binary.rs:169-195` `write_node_header`. -/
def writeNodeHeader (h : NodeHeader) : M WErr Writer Unit := do
  let w ← M.get
  if w.version < 7500 then do
    putU32 h.endOffset (.fileTooLarge h.endOffset)
    putU32 h.numAttrs (.tooManyAttributes h.numAttrs)
    putU32 h.bytelenAttrs (.attributeTooLong h.bytelenAttrs)
  else do
    put (leBytes 8 h.endOffset)
    put (leBytes 8 h.numAttrs)
    put (leBytes 8 h.bytelenAttrs)
  put (leBytes 1 h.nameLen)

/-- `binary.rs:198-202` `write_fbx_verison`. -/
def writeFbxVersion : M WErr Writer Unit := do
  let w ← M.get
  put (leBytes 4 w.version.toNat)

/-- Updates the innermost open node. -/
def modifyTop (f : OpenNode → OpenNode) (w : Writer) : Writer :=
  match w.opened with
  | [] => w
  | n :: outer => { w with opened := f n :: outer }

/-- `binary.rs:205-227` `finalize_attributes`; the `u64` subtraction panics on underflow (builds with
overflow checks). -/
def finalizeAttributes : M WErr Writer Unit := do
  let w ← M.get
  match w.opened with
  | [] => pure ()
  | n :: _ =>
    if n.finalized then pure ()
    else do
      let cur ← io Sink.tell
      M.assert (n.bodyPos ≤ cur) .bodyPosUnderflow
      M.modify (modifyTop (fun n =>
        { n with header := { n.header with bytelenAttrs := cur - n.bodyPos }, finalized := true }))

/-- `binary.rs:230-272` `new_node`. -/
def newNode (name : String) : M WErr Writer Unit := do
  finalizeAttributes
  M.modify (modifyTop (fun n => { n with hasChild := true }))
  let len := (strBytes name).length
  if len < 256 then do
    let headerPos ← io Sink.tell
    let header : NodeHeader := ⟨0, 0, 0, len⟩
    writeNodeHeader header
    put (strBytes name)
    let bodyPos ← io Sink.tell
    M.modify (fun w => { w with opened := ⟨headerPos, bodyPos, header, false, false⟩ :: w.opened })
  else M.throw (.nodeNameTooLong len)

/-- `binary.rs:275-302` `close_node`. -/
def closeNode : M WErr Writer Unit := do
  finalizeAttributes
  let w ← M.get
  match w.opened with
  | [] => M.throw .noNodesToClose
  | n :: outer => do
    M.modify (fun w => { w with opened := outer })
    if n.hasChild ∨ n.header.numAttrs = 0 then writeNodeHeader NodeHeader.nodeEnd else pure ()
    let endPos ← io Sink.tell
    io (Sink.seek n.headerPos)
    M.assert ((n.header.numAttrs == 0) == (n.header.bytelenAttrs == 0)) .attrLenAssert
    writeNodeHeader { n.header with endOffset := endPos }
    io (Sink.seek endPos)

/-! ## Attributes -/

/-- `attributes.rs:167-181` `update_node_header`. -/
def updateNodeHeader : M WErr Writer Unit := do
  let w ← M.get
  match w.opened with
  | [] => M.panic .noOpenNode
  | n :: _ =>
    if n.header.numAttrs + 1 < 2 ^ 64 then
      M.modify (modifyTop (fun n => { n with header := { n.header with numAttrs := n.header.numAttrs + 1 } }))
    else M.throw (.tooManyAttributes n.header.numAttrs)

/-- `attributes.rs:159-164` `write_type_code`. -/
def writeTypeCode (t : AttrType) : M WErr Writer Unit := put [t.typeCode]

/-- `attributes.rs:82-97`: single value attributes. -/
def appendSingle (t : AttrType) (bs : Bytes) : M WErr Writer Unit := do
  updateNodeHeader
  writeTypeCode t
  put bs

/-- `attributes.rs:30-36`: `bool` bytes. -/
def boolByte (b : Bool) : Byte := if b then 0x59 else 0x54

/-- `attributes/array.rs:58-67` `write_array_header`. -/
def writeArrHeader (h : ArrHeader) : M WErr Writer Unit := do
  put (leBytes 4 h.count)
  put (leBytes 4 h.enc.toU32)
  put (leBytes 4 h.bytelen)

/-- `attributes.rs:205-224` `initialize_array`. -/
def initializeArray (t : AttrType) (enc : ArrEnc) : M WErr Writer Nat := do
  updateNodeHeader
  writeTypeCode t
  let headerPos ← io Sink.tell
  writeArrHeader ⟨0, enc, 0⟩
  pure headerPos

/-- `attributes.rs:229-237` `finalize_array`. -/
def finalizeArray (headerPos : Nat) (h : ArrHeader) : M WErr Writer Unit := do
  let endPos ← io Sink.tell
  io (Sink.seek headerPos)
  writeArrHeader h
  io (Sink.seek endPos)

/-- `attributes/array.rs:25-36,39-55` on the sink itself: one write per element; returns the number of
elements. Elements are given by their bytes. -/
def writeElements : List (Except WErr Bytes) → (count : Nat) → M WErr Writer Nat
  | [], count =>
    if count < 2 ^ 32 then pure count else M.throw (.tooManyArrayElements (count + 1))
  | .error e :: _, _ => M.throw e
  | .ok bs :: rest, count => do
    put bs
    writeElements rest (count + 1)

/-- The elements written before the iterator ends or fails. -/
def okPrefix : List (Except WErr Bytes) → Bytes
  | [] => []
  | .error _ :: _ => []
  | .ok bs :: rest => bs ++ okPrefix rest

/-- Outcome of iterating the elements without sink errors. -/
def elementsResult : List (Except WErr Bytes) → (count : Nat) → Except WErr Nat
  | [], count => if count < 2 ^ 32 then .ok count else .error (.tooManyArrayElements (count + 1))
  | .error e :: _, _ => .error e
  | .ok _ :: rest, count => elementsResult rest (count + 1)

/-- `attributes/array.rs:84-91`: elements written through a zlib encoder. The encoder's early output is
written in one operation; errors of elements surface after it. -/
def writeElementsZlib (Z : Zlib) (elems : List (Except WErr Bytes)) : M WErr Writer Nat := do
  put [Z.encHeader.1, Z.encHeader.2]
  put (Z.encEarly (okPrefix elems))
  let count ← M.ofExcept (elementsResult elems 0)
  M.mapErr (fun
    | .io e => .compression e
    | e => e) (put (Z.encLate (okPrefix elems)))
  pure count

/-- `attributes/array.rs:80-92`: the elements, in the chosen encoding. -/
def writeArrayElements (Z : Zlib) (enc : ArrEnc) (elems : List (Except WErr Bytes)) : M WErr Writer Nat :=
  match enc with
  | .direct => writeElements elems 0
  | .zlib => writeElementsZlib Z elems

/-- `attributes/array.rs:70-110` `write_array_attr_result_iter`. -/
def appendArray (Z : Zlib) (t : AttrType) (enc : Option ArrEnc) (elems : List (Except WErr Bytes)) :
    M WErr Writer Unit := do
  let enc := enc.getD .direct
  let headerPos ← initializeArray t enc
  let startPos ← io Sink.tell
  let count ← writeArrayElements Z enc elems
  let endPos ← io Sink.tell
  let bytelen := endPos - startPos
  if bytelen < 2 ^ 32 then finalizeArray headerPos ⟨count, enc, bytelen⟩
  else M.throw (.attributeTooLong bytelen)

/-- `attributes.rs:273-284` `initialize_special`. -/
def initializeSpecial (t : AttrType) : M WErr Writer Nat := do
  updateNodeHeader
  writeTypeCode t
  let headerPos ← io Sink.tell
  put (leBytes 4 0)
  pure headerPos

/-- `attributes.rs:289-300` `finalize_special`. -/
def finalizeSpecial (headerPos bytelen : Nat) : M WErr Writer Unit :=
  if bytelen < 2 ^ 32 then do
    let endPos ← io Sink.tell
    io (Sink.seek headerPos)
    put (leBytes 4 bytelen)
    io (Sink.seek endPos)
  else M.throw (.attributeTooLong bytelen)

/-- `attributes.rs:303-322` `append_binary_direct`, `append_string_direct`. -/
def appendDirect (t : AttrType) (bs : Bytes) : M WErr Writer Unit := do
  let headerPos ← initializeSpecial t
  put bs
  finalizeSpecial headerPos bs.length

/-- `io::copy` from a reader delivering the given chunks and then ending (or failing). -/
def copyChunks (ending : Option IoErr) : List Bytes → (written : Nat) → M WErr Writer Nat
  | [], written => match ending with
    | none => pure written
    | some e => M.throw (.io e)
  | c :: cs, written => do
    put c
    copyChunks ending cs (written + c.length)

/-- `attributes.rs:325-334` `append_binary_from_reader`. -/
def appendBinaryReader (chunks : List Bytes) (ending : Option IoErr) : M WErr Writer Unit := do
  let headerPos ← initializeSpecial .binary
  let len ← copyChunks ending chunks 0
  finalizeSpecial headerPos len

/-- `attributes.rs:341-348,366-374`: the loop over bytes. -/
def putEach : List (Except WErr Byte) → (len : Nat) → M WErr Writer Nat
  | [], len => pure len
  | .error e :: _, _ => M.throw e
  | .ok b :: rest, len => do
    put [b]
    putEach rest (len + 1)

/-- `attributes.rs:337-379` `append_binary_from_iter`, `append_binary_from_result_iter`. -/
def appendBinaryIter (items : List (Except WErr Byte)) : M WErr Writer Unit := do
  let headerPos ← initializeSpecial .binary
  let len ← putEach items 0
  finalizeSpecial headerPos len

/-- `c.encode_utf8(buf)`: overwrites the beginning of the four byte buffer. -/
def encodeInto (buf : Bytes) (c : Char) : Bytes :=
  let e := String.utf8EncodeChar c
  e ++ buf.drop e.length

/-- `attributes.rs:386-396,412-423`: the loop over characters. The *whole* buffer is written. -/
def putChars : List (Except WErr Char) → (buf : Bytes) → (len : Nat) → M WErr Writer Nat
  | [], _, len => pure len
  | .error e :: _, _, _ => M.throw e
  | .ok c :: rest, buf, len => do
    put (encodeInto buf c)
    putChars rest (encodeInto buf c) (len + (String.utf8EncodeChar c).length)

/-- `attributes.rs:382-428` `append_string_from_iter`, `append_string_from_result_iter`. -/
def appendStringIter (items : List (Except WErr Char)) : M WErr Writer Unit := do
  let headerPos ← initializeSpecial .string
  let len ← putChars items (zeros 4) 0
  finalizeSpecial headerPos len

/-- The element bytes of an array given as result items, `attributes.rs:26-70`. -/
def elemBytes {e : Type} (f : e → Bytes) (items : List (Except WErr e)) : List (Except WErr Bytes) :=
  items.map (fun
    | .ok x => .ok (f x)
    | .error e => .error e)

/-- `attributes.rs:26-70`: bytes of one element. -/
def boolBytes (b : Bool) : Bytes := [boolByte b]
/-- `attributes.rs:26-70`: bytes of one 32-bit element. -/
def b32Bytes (v : BitVec 32) : Bytes := leBytes 4 v.toNat
/-- `attributes.rs:26-70`: bytes of one 64-bit element. -/
def b64Bytes (v : BitVec 64) : Bytes := leBytes 8 v.toNat

/-- The public `append_*` methods of `AttributesWriter`. The `*_from_iter` variants are the
`*_from_result_iter` ones on items that are all `Ok` (`attributes.rs:100-145`). -/
inductive Append where
  | bool (v : Bool)
  | i16 (v : BitVec 16)
  | i32 (v : BitVec 32)
  | i64 (v : BitVec 64)
  | f32 (v : BitVec 32)
  | f64 (v : BitVec 64)
  | arrBool (enc : Option ArrEnc) (items : List (Except WErr Bool))
  | arrI32 (enc : Option ArrEnc) (items : List (Except WErr (BitVec 32)))
  | arrI64 (enc : Option ArrEnc) (items : List (Except WErr (BitVec 64)))
  | arrF32 (enc : Option ArrEnc) (items : List (Except WErr (BitVec 32)))
  | arrF64 (enc : Option ArrEnc) (items : List (Except WErr (BitVec 64)))
  | binary (v : Bytes)
  | string (v : String)
  | binaryReader (chunks : List Bytes) (ending : Option IoErr)
  | binaryIter (items : List (Except WErr Byte))
  | stringIter (items : List (Except WErr Char))

/-- `attributes.rs:183-428`: the `append_*` methods. -/
def append (Z : Zlib) : Append → M WErr Writer Unit
  | .bool v => appendSingle .bool (boolBytes v)
  | .i16 v => appendSingle .i16 (leBytes 2 v.toNat)
  | .i32 v => appendSingle .i32 (leBytes 4 v.toNat)
  | .i64 v => appendSingle .i64 (leBytes 8 v.toNat)
  | .f32 v => appendSingle .f32 (leBytes 4 v.toNat)
  | .f64 v => appendSingle .f64 (leBytes 8 v.toNat)
  | .arrBool enc items => appendArray Z .arrBool enc (elemBytes boolBytes items)
  | .arrI32 enc items => appendArray Z .arrI32 enc (elemBytes b32Bytes items)
  | .arrI64 enc items => appendArray Z .arrI64 enc (elemBytes b64Bytes items)
  | .arrF32 enc items => appendArray Z .arrF32 enc (elemBytes b32Bytes items)
  | .arrF64 enc items => appendArray Z .arrF64 enc (elemBytes b64Bytes items)
  | .binary v => appendDirect .binary v
  | .string v => appendDirect .string (strBytes v)
  | .binaryReader cs e => appendBinaryReader cs e
  | .binaryIter items => appendBinaryIter items
  | .stringIter items => appendStringIter items

/-! ## Finalization -/

/-- `footer.rs:5-10` `FbxFooterPaddingLength`. -/
inductive PadLen where
  | default
  | forced (n : UInt8)
  deriving DecidableEq, Repr

/-- `footer.rs:21-47` `FbxFooter` of the writer. -/
structure FooterSpec where
  unknown1 : Option Bytes
  padding : PadLen
  unknown2 : Option Bytes
  unknown3 : Option Bytes
  deriving DecidableEq, Repr

/-- `footer.rs:52-60` `unknown1()`. -/
def FooterSpec.field1 (f : FooterSpec) : Bytes := f.unknown1.getD
  [0xf0, 0xb1, 0xa2, 0x03, 0xd4, 0xc5, 0xd6, 0x67, 0xb8, 0x79, 0xfa, 0x8b, 0x1c, 0xfd, 0x2e, 0x7f]

/-- `footer.rs:62-69` `unknown2()`. -/
def FooterSpec.field2 (f : FooterSpec) : Bytes := f.unknown2.getD [0, 0, 0, 0]

/-- `footer.rs:71-81` `unknown3()`. -/
def FooterSpec.field3 (f : FooterSpec) : Bytes := f.unknown3.getD
  [0xf8, 0x5a, 0x8c, 0x6a, 0xde, 0xf5, 0xd9, 0x7e, 0xec, 0xe9, 0x0c, 0xe3, 0x75, 0x8f, 0x29, 0x0b]

/-- `binary.rs:397-403`: the padding length. -/
def paddingLen (p : PadLen) : M WErr Writer Nat :=
  match p with
  | .default => do
    let cur ← io Sink.tell
    pure ((16 - cur % 16) % 16)
  | .forced n => pure n.toNat

/-- `binary.rs:389-419` `finalize_impl`. -/
def finalize (f : FooterSpec) : M WErr Writer Unit := do
  let w ← M.get
  if w.opened ≠ [] then M.throw (.unclosedNode w.opened.length)
  else do
    writeNodeHeader NodeHeader.nodeEnd
    put f.field1
    let len ← paddingLen f.padding
    put (zeros len)
    put f.field2
    writeFbxVersion
    put (zeros 120)
    put f.field3

/-! ## Sessions: what a user of the writer can do

`AttributesWriter` borrows the writer and only exists after a successful `new_node`, until another writer
method is called. -/

/-- Calls a user can make. -/
inductive Op where
  | newNode (name : String)
  | closeNode
  | append (a : Append)

/-- One call. -/
def exec (Z : Zlib) : Op → M WErr Writer Unit
  | .newNode name => newNode name
  | .closeNode => closeNode
  | .append a => append Z a

/-- A sequence of calls, given up at the first error (as with `?`). -/
def run (Z : Zlib) : List Op → M WErr Writer Unit
  | [] => pure ()
  | o :: os => do
    exec Z o
    run Z os

/-- The borrow checker accepts the sequence of calls (each followed by `?`); `alive` tells whether an
`AttributesWriter` exists at the beginning. -/
def legal : (alive : Bool) → List Op → Bool
  | _, [] => true
  | _, .newNode _ :: os => legal true os
  | _, .closeNode :: os => legal false os
  | alive, .append _ :: os => alive && legal alive os

/-- A complete use of the writer: `Writer::new`, the calls, `finalize`, each followed by `?`. -/
def session (Z : Zlib) (s : Sink) (v : FbxVersion) (ops : List Op) (f : FooterSpec) : Res WErr Unit × Sink :=
  match new s v with
  | (.ok w, _) =>
    let r := (do run Z ops; finalize f : M WErr Writer Unit) w
    (r.1, r.2.sink)
  | (.err e, s') => (.err e, s')
  | (.panic p, s') => (.panic p, s')

/-- Writer plus whether an `AttributesWriter` is alive; for histories that go on after errors. -/
structure Session where
  writer : Writer
  alive : Bool

/-- One call of such a history; `none` if the borrow checker rules it out. -/
def Session.step (Z : Zlib) (s : Session) (o : Op) : Option (Res WErr Unit × Session) :=
  let r := exec Z o s.writer
  match o with
  | .newNode _ => some (r.1, ⟨r.2, match r.1 with | .ok _ => true | _ => false⟩)
  | .closeNode => some (r.1, ⟨r.2, false⟩)
  | .append _ => if s.alive then some (r.1, ⟨r.2, true⟩) else none

end Writer
end Fbx
