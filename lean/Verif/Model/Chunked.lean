import Verif.Model.Loaders

/-!
# Sources that deliver their bytes in pieces

`std`'s loops over `Read::read`, on a source that may return short or interrupted reads. The rest of the model uses
`Reader.readExact`, `Reader.skipPlain` and `readToEnd`, which deliver what is available at once; `Verif/Props/Chunked.lean`
shows that nothing depends on the pieces.

The loops need not terminate (if every read is interrupted), so they take fuel; `none` means that it was not enough.
-/

namespace Fbx

/-- What the device does at one call of `read`. -/
inductive ReadStep where
  /-- returns `ErrorKind::Interrupted` -/
  | interrupted
  /-- delivers at most `k + 1` bytes -/
  | upTo (k : Nat)
  deriving DecidableEq, Repr

/-- What the device does at each call of `read`. -/
abbrev Schedule := Nat → ReadStep

/-- A source together with the number of `read` calls made so far. -/
structure Chunked where
  reader : Reader
  calls : Nat
  deriving DecidableEq, Repr

namespace Chunked

/-- `reader.rs:151-158` `Read::read` for `Reader`, on the inner device with the schedule `σ`. `none`: interrupted. -/
def read (σ : Schedule) (n : Nat) (c : Chunked) : Option (Res IoErr Bytes) × Chunked :=
  match σ c.calls with
  | .interrupted => (none, ⟨c.reader, c.calls + 1⟩)
  | .upTo k => let x := Reader.read (min n (k + 1)) c.reader; (some x.1, ⟨x.2, c.calls + 1⟩)

/-- `Read::read_exact` (std, default implementation; `Reader` does not override it): reads into the rest of the buffer
until it is full, retrying interrupted reads. Used by `read.rs:13-43`, `parser.rs:357`, `array.rs:96,181`,
`fbx_header.rs:53-72` and `fbx_footer.rs:67,102,162`. -/
def readExact (σ : Schedule) : (fuel : Nat) → (n : Nat) → (acc : Bytes) → Chunked → Option (Res IoErr Bytes × Chunked)
  | 0, _, _, _ => none
  | fuel + 1, n, acc, c =>
    if n = 0 then some (.ok acc, c)
    else match c.read σ n with
      | (none, c') => readExact σ fuel n acc c'
      | (some (.ok []), c') => some (.err .unexpectedEof, c')
      | (some (.ok (b :: bs)), c') => readExact σ fuel (n - (b :: bs).length) (acc ++ b :: bs) c'
      | (some (.err e), c') => some (.err e, c')
      | (some (.panic x), c') => some (.panic x, c')

/-- One read of the inner device, behind the back of the position tracker. -/
def readInner (σ : Schedule) (n : Nat) (c : Chunked) : Option (Except IoErr Bytes) × Chunked :=
  match σ c.calls with
  | .interrupted => (none, ⟨c.reader, c.calls + 1⟩)
  | .upTo k =>
    let m := min (min n (k + 1)) c.reader.rest.length
    if m = 0 ∧ n ≠ 0 then (some (match c.reader.ending with | none => .ok [] | some e => .error e), ⟨c.reader, c.calls + 1⟩)
    else (some (.ok (c.reader.rest.take m)), ⟨c.reader.consumeInner m, c.calls + 1⟩)

/-- `io::copy(&mut inner.take(limit), &mut io::sink())` (`reader.rs:43-48`): reads into a buffer of `b + 1` bytes until the
limit is reached or nothing is read, retrying interrupted reads. -/
def copyToSink (σ : Schedule) (b : Nat) : (fuel : Nat) → (limit : Nat) → Chunked → Option (Res IoErr Unit × Chunked)
  | 0, _, _ => none
  | fuel + 1, limit, c =>
    if limit = 0 then some (.ok (), c)
    else match c.readInner σ (min (b + 1) limit) with
      | (none, c') => copyToSink σ b fuel limit c'
      | (some (.ok []), c') => some (.ok (), c')
      | (some (.ok (x :: xs)), c') => copyToSink σ b fuel (limit - (x :: xs).length) c'
      | (some (.error e), c') => some (.err e, c')

/-- `Read::read_to_end` on `io::Take` (`single.rs:86,105`, `direct.rs:100,107`): reads until nothing is read, retrying
interrupted reads. `bufs` gives the free space of the vector at each call, which std never lets become zero. -/
def readToEnd (σ : Schedule) (bufs : Nat → Nat) : (fuel : Nat) → (limit : Nat) → (acc : Bytes) → Chunked → Option (Res IoErr Bytes × Chunked)
  | 0, _, _, _ => none
  | fuel + 1, limit, acc, c =>
    if limit = 0 then some (.ok acc, c)
    else match c.read σ (min (bufs c.calls + 1) limit) with
      | (none, c') => readToEnd σ bufs fuel limit acc c'
      | (some (.ok []), c') => some (.ok acc, c')
      | (some (.ok (x :: xs)), c') => readToEnd σ bufs fuel (limit - (x :: xs).length) (acc ++ x :: xs) c'
      | (some (.err e), c') => some (.err e, c')
      | (some (.panic x), c') => some (.panic x, c')

end Chunked
end Fbx
