import Verif.Spec.Decision

/-! # What `load_next` with `DirectLoader` has to answer, from the bytes ahead

A table over the file format: no parser, no loader, no handlers, no I/O, just the bytes that follow. -/

namespace Fbx.Spec

/-- What becomes of an attribute: the value or the error; whether a boolean byte is neither `T` nor `Y`; how many bytes
are read; and the length which the attribute declares. -/
structure Loaded where
  answer : Except ErrKind AttrValue
  odd : Bool
  read : Nat
  len : Nat

/-- An error after `n` bytes. -/
def Loaded.fails (k : ErrKind) (n : Nat) : Loaded := ⟨.error k, false, n, n⟩

/-- How a source ends: `none` for the end of the file, `some e` for the error of the last read. -/
abbrev Ending := Option IoErr

/-- The error of a read for which the bytes do not suffice. -/
def Ending.error (e : Ending) : IoErr := e.getD .unexpectedEof

/-! ## Compressed data -/

/-- The next byte from a zlib decoder, and the input left. -/
def inflateByte (Z : Zlib) (e : Ending) (s : Z.S) : Bytes → Except IoErr (Byte × Z.S) × Bytes
  | [] => match Z.step s with
    | .emit b s' => (.ok (b, s'), [])
    | .need _ => (.error e.error, [])
    | .eof => (.error .unexpectedEof, [])
    | .fail => (.error .badCompression, [])
  | x :: xs => match Z.step s with
    | .emit b s' => (.ok (b, s'), x :: xs)
    | .need k => inflateByte Z e (k x) xs
    | .eof => (.error .unexpectedEof, x :: xs)
    | .fail => (.error .badCompression, x :: xs)

/-- The next `n` bytes from a zlib decoder, and the input left. -/
def inflate (Z : Zlib) (e : Ending) : Nat → Z.S → Bytes → Except IoErr Bytes × Bytes
  | 0, _, bs => (.ok [], bs)
  | n + 1, s, bs => match inflateByte Z e s bs with
    | (.error x, left) => (.error x, left)
    | (.ok (b, s'), left) => match inflate Z e n s' left with
      | (.error x, left) => (.error x, left)
      | (.ok out, left) => (.ok (b :: out), left)

/-- The `n` bytes of the elements of an array, plain or compressed, and the input left. Plain data does not end at the
declared length. -/
def payload (Z : Zlib) (e : Ending) (enc : ArrEnc) (n : Nat) (bs : Bytes) : Except ErrKind Bytes × Bytes :=
  match enc with
  | .direct => if n ≤ bs.length then (.ok (bs.take n), bs.drop n) else (.error (.io e.error), [])
  | .zlib => match bs with
    | a :: b :: rest => match Z.header a b with
      | none => (.error (.data (.brokenCompression .badCompression)), rest)
      | some s => match inflate Z e n s rest with
        | (.error x, left) => (.error (.io x), left)
        | (.ok out, left) => (.ok out, left)
    | _ => (.error (.data (.brokenCompression e.error)), [])

/-! ## The types of attributes -/

/-- A number of `w` bytes. -/
def fixed (e : Ending) (w : Nat) (f : Nat → AttrValue) (bs : Bytes) : Loaded :=
  if bs.length < w then .fails (.io e.error) bs.length else ⟨.ok (f (fromLe (bs.take w))), false, w, w⟩

/-- A byte which is neither `T` nor `Y`. -/
def neither (b : Byte) : Bool := b ≠ 84 ∧ b ≠ 89

/-- A boolean: the lowest bit counts. -/
def boolean (e : Ending) : Bytes → Loaded
  | [] => .fails (.io e.error) 0
  | b :: _ => ⟨.ok (.bool (b.toNat % 2 = 1)), neither b, 1, 1⟩

/-- The elements of an array. -/
def pieces (w count : Nat) (data : Bytes) : List Bytes := (List.range count).map (fun i => (data.drop (i * w)).take w)

/-- An array with elements of `w` bytes: number of elements, encoding, length of the data, 4 bytes each, and the data. -/
def array (Z : Zlib) (e : Ending) (w : Nat) (bools : Bool) (f : List Bytes → AttrValue) (bs : Bytes) : Loaded :=
  if bs.length < 8 then .fails (.io e.error) bs.length
  else
    let count := fromLe (bs.take 4)
    let code := fromLe ((bs.drop 4).take 4)
    match (if code = 0 then some ArrEnc.direct else if code = 1 then some .zlib else none) with
    | none => .fails (.data (.invalidArrayEncoding code)) 8
    | some enc =>
      if bs.length < 12 then .fails (.io e.error) bs.length
      else match payload Z e enc (count * w) (bs.drop 12) with
        | (.error k, left) => .fails k (bs.length - left.length)
        | (.ok data, left) => ⟨.ok (f (pieces w count data)), bools && data.any neither, bs.length - left.length,
            12 + fromLe ((bs.drop 8).take 4)⟩

/-- Binary data or a string: length, 4 bytes, and the data. Data cut off by the end of the file is loaded as far as it
goes. -/
def special (e : Ending) (f : Bytes → Except ErrKind AttrValue) (bs : Bytes) : Loaded :=
  if bs.length < 4 then .fails (.io e.error) bs.length
  else
    let len := fromLe (bs.take 4)
    let data := (bs.drop 4).take len
    match (if data.length < len then e else none) with
    | some x => .fails (.io x) (4 + data.length)
    | none => ⟨f data, false, 4 + data.length, 4 + len⟩

/-- Numbers of two's complement or floating point numbers as bits. -/
def bits (w : Nat) (bs : Bytes) : BitVec w := BitVec.ofNat w (fromLe bs)

/-- The contents of an attribute of some type. -/
def contents (Z : Zlib) (e : Ending) : AttrType → Bytes → Loaded
  | .bool => boolean e
  | .i16 => fixed e 2 (fun n => .i16 (BitVec.ofNat 16 n))
  | .i32 => fixed e 4 (fun n => .i32 (BitVec.ofNat 32 n))
  | .i64 => fixed e 8 (fun n => .i64 (BitVec.ofNat 64 n))
  | .f32 => fixed e 4 (fun n => .f32 (BitVec.ofNat 32 n))
  | .f64 => fixed e 8 (fun n => .f64 (BitVec.ofNat 64 n))
  | .arrBool => array Z e 1 true (fun l => .arrBool (l.map (fun bs => fromLe bs % 2 = 1)))
  | .arrI32 => array Z e 4 false (fun l => .arrI32 (l.map (bits 32)))
  | .arrI64 => array Z e 8 false (fun l => .arrI64 (l.map (bits 64)))
  | .arrF32 => array Z e 4 false (fun l => .arrF32 (l.map (bits 32)))
  | .arrF64 => array Z e 8 false (fun l => .arrF64 (l.map (bits 64)))
  | .binary => special e (fun bs => .ok (.binary bs))
  | .string => special e (fun bs => match stringOfUtf8 bs with
    | some s => .ok (.string s)
    | none => .error (.io .invalidData))

/-- The type codes. -/
def typeOfChar : Char → Option AttrType
  | 'C' => some .bool
  | 'Y' => some .i16
  | 'I' => some .i32
  | 'L' => some .i64
  | 'F' => some .f32
  | 'D' => some .f64
  | 'b' => some .arrBool
  | 'i' => some .arrI32
  | 'l' => some .arrI64
  | 'f' => some .arrF32
  | 'd' => some .arrF64
  | 'R' => some .binary
  | 'S' => some .string
  | _ => none

/-- The attribute in front: the type code and the contents. -/
def attrInFront (Z : Zlib) (e : Ending) : Bytes → Loaded
  | [] => .fails (.io e.error) 0
  | c :: bs => match typeOfChar (Char.ofNat c.toNat) with
    | none => .fails (.data (.invalidAttrTypeCode c)) 1
    | some t =>
      let l := contents Z e t bs
      { l with read := 1 + l.read, len := 1 + l.len }

/-- `load_next` does what the table says: the outcome `o` and the state `t` it leads to from `s`, where the attribute
reader `a` expects the next attribute at `a.next`. What is left of the previous attribute is passed over first. -/
def LoadAnswers (Z : Zlib) (e : Ending) (s : Client) (a : Attrs) (o : Outcome AttrValue) (t : Client) : Prop :=
  let here := (look s.parser).move (a.next - (look s.parser).pos)
  let l := attrInFront Z e here.bytes
  let pos : SynPos := { (here.move l.read).here with compPos := a.next, attrIdx := some (a.total - a.rest) }
  look t.parser = here.move l.read ∧ match l.answer with
  | .ok v => o = .value v ∧ t.parser.log = (if l.odd then [(.incorrectBool, pos)] else []) ++ s.parser.log ∧
      t.parser.health = .running ∧ t.attrs = some ⟨a.total, a.rest - 1, here.pos + l.len⟩
  | .error k => o = .err ⟨k, some pos⟩ ∧ t.parser.log = s.parser.log ∧ t.parser.health = .aborted pos

/-- The source can seek to the next attribute. -/
def canReach (p : Parser) (a : Attrs) : Prop := p.reader.cursor + (a.next - p.reader.position) ≤ p.reader.seekLimit

/-! ## All the attributes of a node -/

/-- What becomes of the attributes of a node: the values; the warnings, newest first; the error of the first attribute
which cannot be loaded; and what lies ahead then. -/
structure Attributes where
  values : List AttrValue
  warnings : List (Warning × SynPos)
  error : Option PErr
  ahead : Ahead

/-- The last `n` of the `total` attributes of a node, the first of which should begin at `next`. -/
def attributes (Z : Zlib) (e : Ending) (total : Nat) : (n next : Nat) → Ahead → Attributes
  | 0, _, a => ⟨[], [], none, a⟩
  | n + 1, next, a =>
    let here := a.move (next - a.pos)
    let l := attrInFront Z e here.bytes
    let b := here.move l.read
    let pos : SynPos := { b.here with compPos := next, attrIdx := some (total - (n + 1)) }
    match l.answer with
    | .error k => ⟨[], [], some ⟨k, some pos⟩, b⟩
    | .ok v =>
      let r := attributes Z e total n (here.pos + l.len) b
      ⟨v :: r.values, r.warnings ++ (if l.odd then [(.incorrectBool, pos)] else []), r.error, r.ahead⟩

/-- The attributes of the node which has just been started and has `n` of them. -/
def attributesHere (Z : Zlib) (e : Ending) (n : Nat) (a : Ahead) : Attributes := attributes Z e n n a.pos a

/-- The outcomes of loading them. -/
def Attributes.outcomes (r : Attributes) : List (Outcome AttrValue) := r.values.map .value ++ r.error.toList.map .err

/-- The source can seek 4 GiB beyond its end. -/
def farSeeking (p : Parser) : Prop := p.reader.cursor + p.reader.rest.length + 2 ^ 32 ≤ p.reader.seekLimit

end Fbx.Spec
