import Verif.Model.Attribute

/-!
# The `io::BufRead` side of the attribute loaders

`load_next_buffered` hands an `io::Take` of the parser's `Reader` to `load_binary_buffered` and `load_string_buffered`,
which can use it by `read`, `fill_buf` and `consume`. Here the device below is one which has its own buffer, delivers as
much as it likes at a time, and can fail now and then.
-/

namespace Fbx
variable {α : Type}

/-- A program over a `BufRead`: a loader's `load_binary_buffered` or `load_string_buffered`
(`attribute/loader.rs:110-116,125-131`). A loader which only has a `Read` (`load_binary`, `load_string`) is one without `fill`
and `consume`. -/
inductive BufCons (α : Type) where
  | done (r : Except PErr α)
  /-- `Read::read` with a buffer of `n` bytes -/
  | read (n : Nat) (k : Except IoErr Bytes → BufCons α)
  /-- `BufRead::fill_buf`: the bytes shown -/
  | fill (k : Except IoErr Bytes → BufCons α)
  /-- `BufRead::consume(n)` -/
  | consume (n : Nat) (k : BufCons α)

/-- What the device does when it is asked for more data. -/
inductive Fetch where
  /-- it delivers `n + 1` bytes, or what is left -/
  | piece (n : Nat)
  /-- it reports an error, without consuming anything -/
  | fail (e : IoErr)

/-- A device with a buffer, below the position tracking `Reader` (`reader.rs:67-74`): `buffered` of the bytes to come
are in the buffer, `plan` tells what further requests will get. Simplification: what is in the buffer is part of
`reader.rest`. -/
structure Dev where
  reader : Reader
  buffered : Nat
  plan : Nat → Fetch

namespace Dev

/-- The device after a request. -/
def step (d : Dev) (buffered : Nat) : Dev := { d with buffered, plan := fun i => d.plan (i + 1) }

/-- `reader.rs:162-164` `fill_buf`, which is the device's: what is in the buffer, or a new piece if that is nothing. -/
def fill (d : Dev) : Except IoErr Bytes × Dev :=
  if d.buffered = 0 then
    match d.plan 0 with
    | .fail e => (.error e, d.step 0)
    | .piece n =>
      if d.reader.rest = [] then
        match d.reader.ending with
        | none => (.ok [], d.step 0)
        | some e => (.error e, d.step 0)
      else (.ok (d.reader.rest.take (n + 1)), d.step (min (n + 1) d.reader.rest.length))
  else (.ok (d.reader.rest.take d.buffered), d)

/-- `reader.rs:167-170` `consume`: the device drops at most what is in its buffer (as `io::BufReader` does), while the
position advances by the number given (`reader.rs:146-148`, panicking on overflow; the state after a panic is of no
interest). -/
def consume (n : Nat) (d : Dev) : Except Panic Dev :=
  if n = 0 ∨ d.reader.position + n < u64Size then
    .ok { d with
      reader := { d.reader with
        rest := d.reader.rest.drop (min n d.buffered)
        cursor := d.reader.cursor + min n d.buffered
        position := d.reader.position + n }
      buffered := d.buffered - n }
  else .error .positionOverflow

/-- `reader.rs:151-158` `read`: a copy out of the buffer. A device without a buffer, or which fills large requests
directly, is one whose pieces are not longer than the request. -/
def read (n : Nat) (d : Dev) : Res IoErr Bytes × Dev :=
  if n = 0 then (.ok [], d)
  else match d.fill with
    | (.error e, d') => (.err e, d')
    | (.ok bs, d') =>
      if bs = [] then (.ok [], d')
      else if d'.reader.position + min n bs.length < u64Size then
        (.ok (bs.take n), { d' with
          reader := d'.reader.consume (min n bs.length)
          buffered := d'.buffered - min n bs.length })
      else (.panic .positionOverflow, d)

end Dev

/-- `io::Take::read` (std): as `takeRead`, over such a device. -/
def Dev.takeRead (n : Nat) : Nat × Dev → Res IoErr Bytes × (Nat × Dev) := fun (limit, d) =>
  if limit = 0 then (.ok [], (limit, d))
  else match d.read (min n limit) with
    | (.ok bs, d') => (.ok bs, (limit - bs.length, d'))
    | (.err e, d') => (.err e, (limit, d'))
    | (.panic x, d') => (.panic x, (limit, d'))

/-- `io::Take::fill_buf` (std): nothing beyond the limit is shown, and nothing is asked for after it. -/
def Dev.takeFill : Nat × Dev → Except IoErr Bytes × (Nat × Dev) := fun (limit, d) =>
  if limit = 0 then (.ok [], (limit, d))
  else match d.fill with
    | (.ok bs, d') => (.ok (bs.take limit), (limit, d'))
    | (.error e, d') => (.error e, (limit, d'))

/-- `io::Take::consume` (std): at most the limit. -/
def Dev.takeConsume (n : Nat) : Nat × Dev → Except Panic (Nat × Dev) := fun (limit, d) =>
  match d.consume (min n limit) with
  | .ok d' => .ok (limit - min n limit, d')
  | .error x => .error x

/-- Runs a loader's hook on the limited stream (`attribute.rs:310-311,319-320`). -/
def BufCons.run : BufCons α → Nat × Dev → Res PErr α × (Nat × Dev)
  | .done r, s => M.ofExcept r s
  | .read n k, s => match Dev.takeRead n s with
    | (.ok bs, s') => (k (.ok bs)).run s'
    | (.err e, s') => (k (.error e)).run s'
    | (.panic x, s') => (.panic x, s')
  | .fill k, s => match Dev.takeFill s with
    | (x, s') => (k x).run s'
  | .consume n k, s => match Dev.takeConsume n s with
    | .ok s' => k.run s'
    | .error x => (.panic x, s)

/-- A loader whose hooks for strings and binary data are programs over a `BufRead`; the other hooks are those of
`base`. -/
structure BufLoader (α : Type) where
  base : Loader α
  binary : Nat → BufCons α
  string : Nat → BufCons α

/-- How a device with a buffer stands when a loader gets it: how many bytes are in the buffer, and what it will do. -/
structure Setting where
  buffered : Nat
  plan : Nat → Fetch

/-- The device: not more than what is left can be in the buffer. -/
def Setting.dev (s : Setting) (r : Reader) : Dev := ⟨r, min s.buffered r.rest.length, s.plan⟩

namespace AP

/-- `attribute.rs:304-321`: as `loadSpecial`, with such a hook on such a device. -/
def loadSpecialBuf (w : Setting) (c : Nat → BufCons α) : M PErr AP α := do
  let len ← io (Reader.readLe 4)
  updateNext len
  fun a => match (c len).run (len, w.dev a.parser.reader) with
    | (x, (_, d)) => (x, { a with parser := { a.parser with reader := d.reader } })

/-- `attribute.rs:292-324` `load_next_buffered_impl`: as `loadImpl`. -/
def loadImplBuf (Z : Zlib) (w : Setting) (t : AttrType) (l : BufLoader α) (start idx : Nat) : M PErr AP α :=
  match t with
  | .binary => loadSpecialBuf w l.binary
  | .string => loadSpecialBuf w l.string
  | t => loadImpl Z true t l.base start idx

/-- `attribute.rs:137-150`: as `loadBody`. -/
def loadBodyBuf (Z : Zlib) (w : Setting) (l : BufLoader α) (start idx : Nat) : M PErr AP (Option α) := do
  match ← readNextType with
  | none => pure none
  | some t => do
    let v ← loadImplBuf Z w t l start idx
    pure (some v)

/-- `attribute.rs:137-150` `load_next_buffered` over a device with a buffer. -/
def loadBuf (Z : Zlib) (w : Setting) (l : BufLoader α) : M PErr AP (Option α) :=
  withHealthCheck (loadBodyBuf Z w l)

end AP
end Fbx
