import Verif.Model.Error

/-!
# The destination of the writer (`W: Write + Seek`)

A growable byte buffer with a cursor, like `Cursor<Vec<u8>>` or a file opened for writing, with arbitrary
previous content. `fault i = some f` makes the `i`-th device operation from now on fail with the error `f.error`; a failing write has
already stored `f.stored` bytes. A device cannot hold offsets beyond `u64`.
-/

namespace Fbx

/-- How an operation of the device fails: its error and, if it is a write, how many bytes have been stored. -/
structure Fault where
  stored : Nat
  error : IoErr
  deriving DecidableEq, Repr

/-- Device state. -/
structure Sink where
  buf : Bytes
  pos : Nat
  /-- failure schedule of the coming device operations -/
  fault : Nat → Option Fault

namespace Sink

/-- Content after storing `bs` at offset `p` (a gap is filled with zeros). -/
def store (buf : Bytes) (p : Nat) (bs : Bytes) : Bytes :=
  (buf ++ zeros (p - buf.length)).take p ++ bs ++ buf.drop (p + bs.length)

/-- The schedule after one operation. -/
def later (s : Sink) : Nat → Option Fault := fun i => s.fault (i + 1)

/-- `Write::write_all` as a single device operation. Writing nothing is no operation. -/
def writeAll (bs : Bytes) : M IoErr Sink Unit := fun s =>
  if bs = [] then (.ok (), s)
  else match s.fault 0 with
    | some f =>
      let part := bs.take f.stored
      (.err f.error,
        { buf := if part = [] then s.buf else store s.buf s.pos part
          pos := s.pos + part.length
          fault := s.later })
    | none =>
      if s.pos + bs.length < 2 ^ 64 then
        (.ok (), { buf := store s.buf s.pos bs, pos := s.pos + bs.length, fault := s.later })
      else (.err (.other 1), { s with fault := s.later })

/-- `Seek::seek(SeekFrom::Start(p))`. -/
def seek (p : Nat) : M IoErr Sink Unit := fun s =>
  match s.fault 0 with
  | some f => (.err f.error, { s with fault := s.later })
  | none => (.ok (), { s with pos := p, fault := s.later })

/-- `Seek::stream_position`. -/
def tell : M IoErr Sink Nat := fun s =>
  match s.fault 0 with
  | some f => (.err f.error, { s with fault := s.later })
  | none => (.ok s.pos, { s with fault := s.later })

end Sink
end Fbx
