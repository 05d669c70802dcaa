import Verif.Model.Reader

/-!
# libflate's zlib codec, as an abstract parameter

The decoder is an arbitrary deterministic machine that asks the source for one byte at a time and emits
output bytes; the encoder is an arbitrary pair of functions. Nothing else is assumed except where a theorem
has the hypothesis `Zlib.Lawful`.
-/

namespace Fbx

/-- What a decoder does next. -/
inductive ZStep (S : Type) where
  /-- reads one input byte -/
  | need (k : Byte → S)
  /-- produces one output byte -/
  | emit (b : Byte) (s : S)
  /-- end of the compressed stream -/
  | eof
  /-- corrupted stream -/
  | fail

/-- A zlib implementation (`libflate::zlib::{Decoder, Encoder}`). -/
structure Zlib where
  /-- decoder states -/
  S : Type
  /-- `Decoder::new` reads the two byte zlib header; `none` rejects it -/
  header : Byte → Byte → Option S
  /-- decoding machine -/
  step : S → ZStep S
  /-- header bytes written by `Encoder::new` -/
  encHeader : Byte × Byte
  /-- bytes written to the sink while the given data is written to the encoder -/
  encEarly : Bytes → Bytes
  /-- bytes written by `Encoder::finish` after the given data -/
  encLate : Bytes → Bytes

namespace Zlib

/-- The complete compressed form of some data. -/
def encode (Z : Zlib) (bs : Bytes) : Bytes :=
  [Z.encHeader.1, Z.encHeader.2] ++ Z.encEarly bs ++ Z.encLate bs

/-- `Decodes s inp out`: from state `s` the machine can emit `out` while reading only bytes of `inp`. -/
inductive Decodes (Z : Zlib) : Z.S → Bytes → Bytes → Prop where
  | done (s inp) : Decodes Z s inp []
  | need {s k b inp out} : Z.step s = .need k → Decodes Z (k b) inp out → Decodes Z s (b :: inp) out
  | emit {s b s' inp out} : Z.step s = .emit b s' → Decodes Z s' inp out → Decodes Z s inp (b :: out)

/-- The codec is correct: the encoder's header is accepted and decoding the encoder's output yields the
data, without needing any byte beyond the encoder's output. -/
structure Lawful (Z : Zlib) : Prop where
  roundtrip : ∀ bs, ∃ s, Z.header Z.encHeader.1 Z.encHeader.2 = some s ∧
    Decodes Z s (Z.encEarly bs ++ Z.encLate bs) bs

/-- A simple lawful codec ("stored" data after a `78 9c` header). Shows that `Lawful` is satisfiable. -/
def stored : Zlib where
  S := Option Byte
  header a b := if a = 0x78 ∧ b = 0x9c then some none else none
  step
    | none => .need some
    | some b => .emit b none
  encHeader := (0x78, 0x9c)
  encEarly bs := bs
  encLate _ := []

theorem stored_lawful : stored.Lawful where
  roundtrip bs := by
    refine ⟨none, rfl, ?_⟩
    simp only [stored, List.append_nil]
    induction bs with
    | nil => exact .done _ _
    | cons b bs ih => exact .need rfl (.emit rfl ih)

end Zlib

/-- `attribute/array.rs:15-20` `AttributeStreamDecoder` (the reader is kept separately). -/
inductive Dec (Z : Zlib) where
  | direct
  | zlib (s : Z.S)

namespace Dec
variable {Z : Zlib}

/-- `read_exact` on a `ZlibDecoder`: runs the machine until `n` bytes were emitted. The fuel given by
`readExact` below always suffices. -/
def zRead (Z : Zlib) : (fuel : Nat) → (n : Nat) → (acc : Bytes) → M IoErr (Z.S × Reader) Bytes
  | 0, _, _ => M.panic .fuel
  | fuel + 1, n, acc => fun (s, r) =>
    if n = 0 then (.ok acc, (s, r))
    else match Z.step s with
      | .need k => match Reader.readU8 r with
        | (.ok b, r') => zRead Z fuel n acc (k b, r')
        | (.err e, r') => (.err e, (s, r'))
        | (.panic p, r') => (.panic p, (s, r'))
      | .emit b s' => zRead Z fuel (n - 1) (acc ++ [b]) (s', r)
      | .eof => (.err .unexpectedEof, (s, r))
      | .fail => (.err .badCompression, (s, r))

/-- `read_exact` on the decoder, `attribute/array.rs:35-42`. -/
def readExact (n : Nat) : M IoErr (Dec Z × Reader) Bytes := fun (d, r) =>
  match d with
  | .direct => let x := Reader.readExact n r; (x.1, (.direct, x.2))
  | .zlib s => let x := zRead Z (n + r.rest.length + 1) n [] (s, r); (x.1, (.zlib x.2.1, x.2.2))

/-- `attribute/array.rs:24-32` `AttributeStreamDecoder::create`: for zlib the stream header is read at
once, any failure becoming `BrokenCompression`. -/
def create (Z : Zlib) : ArrEnc → M PErr Reader (Dec Z)
  | .direct => pure .direct
  | .zlib => do
    let a ← M.mapErr (fun e => PErr.ofData (.brokenCompression e)) Reader.readU8
    let b ← M.mapErr (fun e => PErr.ofData (.brokenCompression e)) Reader.readU8
    match Z.header a b with
    | some s => pure (.zlib s)
    | none => M.throw (PErr.ofData (.brokenCompression .badCompression))

end Dec
end Fbx
