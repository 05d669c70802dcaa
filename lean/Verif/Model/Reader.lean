import Verif.Model.Error

/-!
# `src/pull_parser/reader.rs`: the position tracking source

A source is modelled by the bytes that remain, what happens after them (EOF or a persistent device error),
the true stream offset (`cursor`) and the position tracked by the code. `read_exact` is std's documented
contract (see `Verif/Model/Chunked.lean` for the loop over short reads).
-/

namespace Fbx

/-- `u64`/`usize` range. -/
def u64Size : Nat := 2 ^ 64

/-- `i64::MAX`. -/
def i64Max : Nat := 2 ^ 63 - 1

/-- `reader.rs:67-74`, together with the inner device. -/
structure Reader where
  /-- bytes not yet consumed -/
  rest : Bytes
  /-- device behaviour after the last byte: `none` is EOF, `some e` a persistent error -/
  ending : Option IoErr
  /-- true offset of the device -/
  cursor : Nat
  /-- `position` field -/
  position : Nat
  /-- which `skip_distance` implementation is in the function table -/
  seekable : Bool
  /-- largest offset the device can seek to -/
  seekLimit : Nat
  deriving DecidableEq, Repr

namespace Reader

/-- Consumes `k` bytes and advances the tracked position. -/
def consume (k : Nat) (r : Reader) : Reader :=
  { r with rest := r.rest.drop k, cursor := r.cursor + k, position := r.position + k }

/-- Consumes `k` bytes of the inner device behind the tracker's back. -/
def consumeInner (k : Nat) (r : Reader) : Reader :=
  { r with rest := r.rest.drop k, cursor := r.cursor + k }

/-- `reader.rs:89-95` `Reader::new`. -/
def new (rest : Bytes) (ending : Option IoErr) (cursor pos seekLimit : Nat) : Reader :=
  { rest, ending, cursor, position := pos, seekable := false, seekLimit }

/-- `reader.rs:98-109` `Reader::with_seekable`. -/
def withSeekable (rest : Bytes) (ending : Option IoErr) (cursor pos seekLimit : Nat) : Reader :=
  { rest, ending, cursor, position := pos, seekable := true, seekLimit }

/-- `read_exact` through `reader.rs:151-158`: every successful inner read advances the position
(`reader.rs:146-148`, panicking on overflow); on a short source everything left is consumed. -/
def readExact (n : Nat) : M IoErr Reader Bytes := fun r =>
  if n ≤ r.rest.length then
    if r.position + n < u64Size then (.ok (r.rest.take n), r.consume n)
    else (.panic .positionOverflow, r)
  else
    if r.position + r.rest.length < u64Size then
      (.err (r.ending.getD .unexpectedEof), r.consume r.rest.length)
    else (.panic .positionOverflow, r)

/-- One `read` call with a buffer of `n` bytes (`reader.rs:151-158`): delivers what is available. -/
def read (n : Nat) : M IoErr Reader Bytes := fun r =>
  let k := min n r.rest.length
  if k = 0 then
    if n = 0 then (.ok [], r)
    else match r.ending with
      | none => (.ok [], r)
      | some e => (.err e, r)
  else
    if r.position + k < u64Size then (.ok (r.rest.take k), r.consume k)
    else (.panic .positionOverflow, r)

/-- `reader.rs:43-48` `skip_distance_plain`: `io::copy` from the *inner* reader. The position is not
advanced. -/
def skipPlain (d : Nat) : M IoErr Reader Unit := fun r =>
  if d ≤ r.rest.length then (.ok (), r.consumeInner d)
  else match r.ending with
    | none => (.ok (), r.consumeInner r.rest.length)
    | some e => (.err e, r.consumeInner r.rest.length)

/-- The loop of `reader.rs:51-62`; `fuel` bounds the number of `i64::MAX` sized parts. -/
def skipSeekLoop : (fuel : Nat) → (d : Nat) → M IoErr Reader Unit
  | 0, _ => pure ()
  | fuel + 1, d => fun r =>
    if d = 0 then (.ok (), r)
    else
      let part := min d i64Max
      if r.cursor + part ≤ r.seekLimit then
        if r.position + part < u64Size then skipSeekLoop fuel (d - part) (r.consume part)
        else (.panic .positionOverflow, r.consumeInner part)
      else (.err .invalidSeek, r)

/-- `reader.rs:51-62` `skip_distance_seekable`. -/
def skipSeek (d : Nat) : M IoErr Reader Unit := skipSeekLoop (d / i64Max + 1) d

/-- `reader.rs:124-126` `skip_distance`. -/
def skipDistance (d : Nat) : M IoErr Reader Unit := fun r =>
  if r.seekable then skipSeek d r else skipPlain d r

/-- `reader.rs:137-142` `skip_to`. -/
def skipTo (pos : Nat) : M IoErr Reader Unit := fun r =>
  if pos < r.position then (.panic .skipBackward, r)
  else skipDistance (pos - r.position) r

/-- `pull_parser/v7400/read.rs:13-20` `u8::from_reader`. -/
def readU8 : M IoErr Reader Byte := do
  let bs ← readExact 1
  pure (bs.headD 0)

/-- `pull_parser/v7400/read.rs:23-43`: `k`-byte little-endian numbers. -/
def readLe (k : Nat) : M IoErr Reader Nat := do
  let bs ← readExact k
  pure (fromLe bs)

end Reader

/-- `low/fbx_header.rs:17-22`. -/
inductive HeaderError where
  | io (e : IoErr)
  | magicNotDetected
  deriving DecidableEq, Repr

/-- `low/fbx_header.rs:53-72` `FbxHeader::load`, on a source tracked from any offset. -/
def loadHeader : M HeaderError Reader FbxVersion := do
  let m ← M.mapErr HeaderError.io (Reader.readExact 23)
  if m ≠ magic then M.throw .magicNotDetected
  else do
    let v ← M.mapErr HeaderError.io (Reader.readExact 4)
    pure (UInt32.ofNat (fromLe v))

end Fbx
