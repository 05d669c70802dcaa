import Verif.Spec.AnySource

/-! # What any loader makes of the bytes ahead

`attrInFront` and `readingFrom` are about `DirectLoader`. Here are the tables for the loaders of a user: a loader is a function (of a
number or a boolean), a program which pulls elements (of an array) or a program which reads bytes (of a string or of binary data). -/

namespace Fbx.Spec

/-- What a loader makes of an attribute: the value or the error; whether the warning about a boolean byte which is neither `T` nor `Y` is
raised; how many bytes are read; and the length which the attribute declares. -/
structure Taking (α : Type) where
  answer : Except ErrKind α
  odd : Bool
  read : Nat
  len : Nat

/-- An error after `n` bytes. -/
def Taking.fails {α : Type} (k : ErrKind) (n : Nat) : Taking α := ⟨.error k, false, n, n⟩

/-- The answer of a loader. The position in an error is replaced anyway. -/
def answerOf {α : Type} : Except PErr α → Except ErrKind α
  | .ok v => .ok v
  | .error e => .error e.kind

/-! ## The data of arrays -/

/-- The next byte from a zlib decoder or the error, the state of the decoder then, and the input left. -/
def unpackByte (Z : Zlib) (e : Ending) (s : Z.S) : Bytes → Except IoErr Byte × Z.S × Bytes
  | [] => match Z.step s with
    | .emit b s' => (.ok b, s', [])
    | .need _ => (.error e.error, s, [])
    | .eof => (.error .unexpectedEof, s, [])
    | .fail => (.error .badCompression, s, [])
  | x :: xs => match Z.step s with
    | .emit b s' => (.ok b, s', x :: xs)
    | .need k => unpackByte Z e (k x) xs
    | .eof => (.error .unexpectedEof, s, x :: xs)
    | .fail => (.error .badCompression, s, x :: xs)

/-- The next `n` bytes from a zlib decoder or the error, the state of the decoder then, and the input left. -/
def unpack (Z : Zlib) (e : Ending) : Nat → Z.S → Bytes → Except IoErr Bytes × Z.S × Bytes
  | 0, s, bs => (.ok [], s, bs)
  | n + 1, s, bs => match unpackByte Z e s bs with
    | (.error x, s', left) => (.error x, s', left)
    | (.ok b, s', left) => match unpack Z e n s' left with
      | (.error x, t, left) => (.error x, t, left)
      | (.ok out, t, left) => (.ok (b :: out), t, left)

/-- The next `n` bytes of plain data (`none`) or from a zlib decoder in some state. -/
def element (Z : Zlib) (e : Ending) (n : Nat) : Option Z.S → Bytes → Except IoErr Bytes × Option Z.S × Bytes
  | none, bs => if n ≤ bs.length then (.ok (bs.take n), none, bs.drop n) else (.error e.error, none, [])
  | some s, bs => match unpack Z e n s bs with
    | (x, t, left) => (x, some t, left)

/-- The beginning of the data of an array: plain data, or the two bytes of the zlib header; and the input left. -/
def dataStart (Z : Zlib) (e : Ending) : ArrEnc → Bytes → Except ErrKind (Option Z.S) × Bytes
  | .direct, bs => (.ok none, bs)
  | .zlib, a :: b :: rest => match Z.header a b with
    | none => (.error (.data (.brokenCompression .badCompression)), rest)
    | some s => (.ok (some s), rest)
  | .zlib, _ => (.error (.data (.brokenCompression e.error)), [])

/-- What a program made of the elements of an array: its answer; whether it met an error; whether it met an odd boolean; and the input
left. -/
structure Pulled (α : Type) where
  answer : Except PErr α
  failed : Bool
  odd : Bool
  left : Bytes

/-- Runs a program which pulls elements of `w` bytes each: there are `rest` more of them. After an error the program may go on: the
elements are not counted then. -/
def pulling {ε α : Type} (Z : Zlib) (e : Ending) (w : Nat) (bools : Bool) (value : Bytes → ε) :
    SeqCons ε α → (rest : Nat) → (failed odd : Bool) → Option Z.S → Bytes → Pulled α
  | .done r, _, failed, odd, _, bs => ⟨r, failed, odd, bs⟩
  | .pull k, rest, failed, odd, d, bs =>
    if rest = 0 then pulling Z e w bools value (k none) rest failed odd d bs
    else match element Z e w d bs with
      | (.ok x, d', left) => pulling Z e w bools value (k (some (.ok (value x)))) (rest - 1) failed (odd || (bools && x.any neither)) d' left
      | (.error x, d', left) => pulling Z e w bools value (k (some (.error ⟨.io x, none⟩))) rest true odd d' left

/-! ## Strings and binary data -/

/-- Runs a program which reads from the next `limit` bytes; its answer, and the input left. One read delivers whatever there is, up to
the size of the buffer. -/
def reads {α : Type} (e : Ending) : ReadCons α → (limit : Nat) → Bytes → Except PErr α × Bytes
  | .done r, _, bs => (r, bs)
  | .read n k, limit, bs =>
    let got := bs.take (min n limit)
    match (if got = [] ∧ n ≠ 0 ∧ limit ≠ 0 then e else none) with
    | some x => reads e (k (.error x)) limit bs
    | none => reads e (k (.ok got)) (limit - got.length) (bs.drop got.length)

/-! ## The types of attributes -/

/-- A number of `w` bytes. -/
def numberFor {α : Type} (e : Ending) (w : Nat) (f : Nat → Except PErr α) (bs : Bytes) : Taking α :=
  if bs.length < w then .fails (.io e.error) bs.length else ⟨answerOf (f (fromLe (bs.take w))), false, w, w⟩

/-- A boolean: the lowest bit counts. -/
def booleanFor {α : Type} (e : Ending) (f : Bool → Except PErr α) : Bytes → Taking α
  | [] => .fails (.io e.error) 0
  | b :: _ => ⟨answerOf (f (b.toNat % 2 = 1)), neither b, 1, 1⟩

/-- The answer of `load_next` for an array: errors which the program has passed over are reported, too. A program which fails is not
asked for odd booleans. -/
def arrayAnswer {α : Type} : Pulled α → Except ErrKind α × Bool
  | ⟨.error x, _, _, _⟩ => (.error x.kind, false)
  | ⟨.ok _, true, odd, _⟩ => (.error (.data .nodeAttributeError), odd)
  | ⟨.ok v, false, odd, _⟩ => (.ok v, odd)

/-- An array with elements of `w` bytes: number of elements, encoding, length of the data, 4 bytes each, and the data. -/
def arrayFor {ε α : Type} (Z : Zlib) (e : Ending) (w : Nat) (bools : Bool) (value : Bytes → ε) (f : Nat → SeqCons ε α) (bs : Bytes) : Taking α :=
  if bs.length < 8 then .fails (.io e.error) bs.length
  else
    let count := fromLe (bs.take 4)
    let code := fromLe ((bs.drop 4).take 4)
    match (if code = 0 then some ArrEnc.direct else if code = 1 then some .zlib else none) with
    | none => .fails (.data (.invalidArrayEncoding code)) 8
    | some enc =>
      if bs.length < 12 then .fails (.io e.error) bs.length
      else match dataStart Z e enc (bs.drop 12) with
        | (.error k, left) => .fails k (bs.length - left.length)
        | (.ok d, left) =>
          let p := pulling Z e w bools value (f count) count false false d left
          ⟨(arrayAnswer p).1, (arrayAnswer p).2, bs.length - p.left.length, 12 + fromLe ((bs.drop 8).take 4)⟩

/-- Binary data or a string: length, 4 bytes, and the data. -/
def specialFor {α : Type} (e : Ending) (f : Nat → ReadCons α) (bs : Bytes) : Taking α :=
  if bs.length < 4 then .fails (.io e.error) bs.length
  else
    let len := fromLe (bs.take 4)
    let r := reads e (f len) len (bs.drop 4)
    ⟨answerOf r.1, false, bs.length - r.2.length, 4 + len⟩

/-- The contents of an attribute of some type. -/
def contentsFor {α : Type} (Z : Zlib) (e : Ending) (buffered : Bool) (l : Loader α) : AttrType → Bytes → Taking α
  | .bool => booleanFor e l.bool
  | .i16 => numberFor e 2 (fun n => l.i16 (BitVec.ofNat 16 n))
  | .i32 => numberFor e 4 (fun n => l.i32 (BitVec.ofNat 32 n))
  | .i64 => numberFor e 8 (fun n => l.i64 (BitVec.ofNat 64 n))
  | .f32 => numberFor e 4 (fun n => l.f32 (BitVec.ofNat 32 n))
  | .f64 => numberFor e 8 (fun n => l.f64 (BitVec.ofNat 64 n))
  | .arrBool => arrayFor Z e 1 true (fun bs => decide (fromLe bs % 2 = 1)) l.seqBool
  | .arrI32 => arrayFor Z e 4 false (bits 32) l.seqI32
  | .arrI64 => arrayFor Z e 8 false (bits 64) l.seqI64
  | .arrF32 => arrayFor Z e 4 false (bits 32) l.seqF32
  | .arrF64 => arrayFor Z e 8 false (bits 64) l.seqF64
  | .binary => specialFor e (if buffered then l.binaryBuf else l.binary)
  | .string => specialFor e (if buffered then l.stringBuf else l.string)

/-- The attribute in front: the type code and the contents. -/
def inFrontFor {α : Type} (Z : Zlib) (e : Ending) (buffered : Bool) (l : Loader α) : Bytes → Taking α
  | [] => .fails (.io e.error) 0
  | c :: bs => match typeOfChar (Char.ofNat c.toNat) with
    | none => .fails (.data (.invalidAttrTypeCode c)) 1
    | some t =>
      let x := contentsFor Z e buffered l t bs
      { x with read := 1 + x.read, len := 1 + x.len }

/-- There is a type code in front. -/
def typed : Bytes → Bool
  | [] => false
  | c :: _ => (typeOfChar (Char.ofNat c.toNat)).isSome

/-- `load_next` with a loader does what the table says: the counterpart of `LoadAnswersFrom`. -/
def LoadAnswersFor {α : Type} (Z : Zlib) (m : Skipping) (e : Ending) (buffered : Bool) (l : Loader α) (s : Client) (a : Attrs) (o : Outcome α) (t : Client) : Prop :=
  let idx := some (a.total - a.rest)
  match (look s.parser).skip m e (a.next - (look s.parser).pos) with
  | (some x, here) =>
    let pos : SynPos := { here.here with compPos := a.next, attrIdx := idx }
    o = .err ⟨.io x, some pos⟩ ∧ look t.parser = here ∧ t.parser.log = s.parser.log ∧ t.parser.health = .aborted pos
  | (none, here) =>
    let x := inFrontFor Z e buffered l here.bytes
    let pos : SynPos := { (here.move x.read).here with compPos := a.next, attrIdx := idx }
    look t.parser = here.move x.read ∧ t.parser.log = (if x.odd then [(.incorrectBool, pos)] else []) ++ s.parser.log ∧ match x.answer with
    | .ok v => o = .value v ∧ t.parser.health = .running ∧ t.attrs = some ⟨a.total, a.rest - 1, here.pos + x.len⟩
    | .error k => o = .err ⟨k, some pos⟩ ∧ t.parser.health = .aborted pos

/-! ## `TypeLoader` -/

/-- The number of bytes, after the type code, in which the number or the lengths are. -/
def headPart : AttrType → Nat
  | .bool => 1 | .i16 => 2 | .i32 => 4 | .i64 => 8 | .f32 => 4 | .f64 => 8
  | .arrBool => 12 | .arrI32 => 12 | .arrI64 => 12 | .arrF32 => 12 | .arrF64 => 12
  | .binary => 4 | .string => 4

/-- An array can be begun: it is plain, or there is a zlib header. Other types can always be begun. -/
def canBegin (Z : Zlib) (t : AttrType) (bs : Bytes) : Prop :=
  headPart t = 12 → let code := fromLe ((bs.drop 4).take 4)
    code = 0 ∨ code = 1 ∧ ∃ a b rest, bs.drop 12 = a :: b :: rest ∧ (Z.header a b).isSome

/-! ## Whole files -/

/-- What becomes of the attributes of a node: what the loaders return (nothing, once there are no more attributes); the warnings, newest
first; the error; and what lies ahead then. -/
structure AttributesFor (α : Type) where
  values : List (Option α)
  warnings : List (Warning × SynPos)
  error : Option PErr
  ahead : Ahead

/-- Loads the last `n` of the `total` attributes of a node with some loaders: the counterpart of `attributesFrom`. -/
def attributesFor {α : Type} (Z : Zlib) (m : Skipping) (e : Ending) (buffered : Bool) (total : Nat) : (ls : List (Loader α)) → (n next : Nat) → Ahead → AttributesFor α
  | [], _, _, a => ⟨[], [], none, a⟩
  | _ :: ls, 0, next, a =>
    let r := attributesFor Z m e buffered total ls 0 next a
    { r with values := none :: r.values }
  | l :: ls, n + 1, next, a =>
    match a.skip m e (next - a.pos) with
    | (some x, here) => ⟨[], [], some ⟨.io x, some { here.here with compPos := next, attrIdx := some (total - (n + 1)) }⟩, here⟩
    | (none, here) =>
      let x := inFrontFor Z e buffered l here.bytes
      let b := here.move x.read
      let pos : SynPos := { b.here with compPos := next, attrIdx := some (total - (n + 1)) }
      let w := if x.odd then [(.incorrectBool, pos)] else []
      match x.answer with
      | .error k => ⟨[], w, some ⟨k, some pos⟩, b⟩
      | .ok v =>
        let r := attributesFor Z m e buffered total ls n (here.pos + x.len) b
        { r with values := some v :: r.values, warnings := r.warnings ++ w }

/-- What was read: what the client has seen, the warnings (newest first), and what comes then. -/
structure ReadingFor (α : Type) where
  seen : List (Obs α)
  warnings : List (Warning × SynPos)
  close : Close

/-- After `o` and the warnings `ws`. -/
def ReadingFor.after {α : Type} (r : ReadingFor α) (o : Obs α) (ws : List (Warning × SynPos)) : ReadingFor α := ⟨o :: r.seen, r.warnings ++ ws, r.close⟩

/-- What a client sees of what lies ahead with `n` calls of `next_event` if it loads the attributes of the `k`-th node with the loaders
`plan` says: the counterpart of `readingFrom`. -/
def readingFor {α : Type} (Z : Zlib) (m : Skipping) (e : Ending) (checks buffered : Bool) (plan : Nat → String → Nat → List (Loader α)) : (n k : Nat) → Ahead → ReadingFor α
  | 0, _, a => ⟨[], [], .more a⟩
  | n + 1, k, a => match a.nextFrom m e checks with
    | (.starts name count, w, b) =>
      let r := attributesFor Z m e buffered count (plan k name count) count b.pos b
      match r.error with
      | some x => ⟨[], r.warnings ++ w.toList, .error x⟩
      | none => (readingFor Z m e checks buffered plan n (k + 1) r.ahead).after (.start name count r.values) (r.warnings ++ w.toList)
    | (.ends, w, b) => (readingFor Z m e checks buffered plan n k b).after .end w.toList
    | (.finishes, _, b) => ⟨[], [], .footer b⟩
    | (.fails x, w, b) => ⟨[], w.toList, .error ⟨x, some b.here⟩⟩
    | (.overflows, _, _) => ⟨[], [], .overflow⟩

/-- What a client makes of a reading of a file of version `v`: the counterpart of `Sees`. -/
def SeesFor {α : Type} (v : FbxVersion) (r : ReadingFor α) (seen : List (Obs α)) (log : List (Warning × SynPos)) (x : Res PErr (List (Obs α)) × Parser) : Prop :=
  match r.close with
  | .footer b => ∃ footer, x.1 = .ok (seen ++ r.seen ++ [.fbx footer]) ∧ footerSays v.toNat b footer (r.warnings ++ log) x.2.log
  | .error e => x.1 = .err e ∧ x.2.log = r.warnings ++ log
  | .overflow => x.1 = .panic .attrEndOverflow
  | .more b => x.1 = .ok (seen ++ r.seen) ∧ x.2.log = r.warnings ++ log ∧ look x.2 = b

end Fbx.Spec
