import Verif.Model.Zlib

/-!
# An instance of the codec: RFC 1950 and RFC 1951

`attribute/array.rs:5` uses `libflate::zlib::Decoder` (libflate 1.0.1, `Cargo.toml:33`), which is outside of the repository; all theorems
are about any codec (`Model/Zlib.lean`). This is a real one, by which the theorems can be tried on real files. As in libflate, the data of a
block is delivered when the block has been read to its end, and the checksum is read and compared when the data has been delivered and more
is asked for. Which codes are refused is taken from the RFC (an unused code is refused when it occurs). The encoder is the simplest one:
stored blocks.
-/

namespace Fbx
namespace Inflate

/-- A canonical Huffman code (RFC 1951, 3.2.2): how many codes there are of each length 1, 2, …, and the symbols in the order of the codes. -/
structure Huff where
  counts : List Nat
  symbols : List Nat
  deriving Inhabited

/-- RFC 1951, 3.2.2: the code with the given lengths of the codes of 0, 1, …; 0 is an unused symbol. -/
def Huff.ofLengths (ls : List Nat) : Huff where
  counts := (List.range 15).map (fun n => (ls.filter (· = n + 1)).length)
  symbols := (List.range 15).flatMap (fun n => (ls.zipIdx.filter (fun x => x.1 = n + 1)).map Prod.snd)

/-- Where a code is being read: the counts of the longer codes, the bits so far, the first code of this length, its place among the symbols. -/
structure Walk where
  counts : List Nat
  code : Nat
  first : Nat
  index : Nat

def Huff.begin (h : Huff) : Walk := ⟨h.counts, 0, 0, 0⟩

/-- One bit of a code: no such code, or the walk goes on, or the place of a symbol. -/
def Walk.bit (w : Walk) (b : Bool) : Option (Walk ⊕ Nat) :=
  match w.counts with
  | [] => none
  | c :: cs =>
    let code := w.code + b.toNat
    if code < w.first + c then some (.inr (w.index + (code - w.first)))
    else some (.inl ⟨cs, 2 * code, 2 * (w.first + c), w.index + c⟩)

/-- RFC 1951, 3.2.5: base and number of extra bits of the length codes 257 … 285. -/
def lengthCodes : List (Nat × Nat) :=
  [(3, 0), (4, 0), (5, 0), (6, 0), (7, 0), (8, 0), (9, 0), (10, 0), (11, 1), (13, 1), (15, 1), (17, 1), (19, 2), (23, 2), (27, 2), (31, 2),
    (35, 3), (43, 3), (51, 3), (59, 3), (67, 4), (83, 4), (99, 4), (115, 4), (131, 5), (163, 5), (195, 5), (227, 5), (258, 0)]

/-- RFC 1951, 3.2.5: base and number of extra bits of the distance codes 0 … 29. -/
def distanceCodes : List (Nat × Nat) :=
  [(1, 0), (2, 0), (3, 0), (4, 0), (5, 1), (7, 1), (9, 2), (13, 2), (17, 3), (25, 3), (33, 4), (49, 4), (65, 5), (97, 5), (129, 6), (193, 6),
    (257, 7), (385, 7), (513, 8), (769, 8), (1025, 9), (1537, 9), (2049, 10), (3073, 10), (4097, 11), (6145, 11), (8193, 12), (12289, 12),
    (16385, 13), (24577, 13)]

/-- RFC 1951, 3.2.6: the fixed codes. -/
def fixedLit : Huff := .ofLengths (List.replicate 144 8 ++ List.replicate 112 9 ++ List.replicate 24 7 ++ List.replicate 8 8)
def fixedDist : Huff := .ofLengths (List.replicate 30 5)

/-- RFC 1951, 3.2.7: the order of the lengths of the codes for lengths. -/
def orderOfLengths : List Nat := [16, 17, 18, 0, 8, 7, 9, 6, 10, 5, 11, 4, 12, 3, 13, 2, 14, 1, 15]

/-- What is being read. Numbers are read bit by bit: `have` is the value of the bits so far, `n` how many there are. -/
inductive Phase where
  /-- the three bits in front of a block -/
  | head (n have_ : Nat)
  /-- the rest of the byte before a stored block -/
  | align
  /-- the lengths of a stored block -/
  | lens (bs : Bytes)
  /-- the data of a stored block -/
  | copy (left : Nat)
  /-- the numbers of codes of a block with its own codes -/
  | sizes (n have_ : Nat)
  /-- the lengths of the codes for lengths: those found, how many are to come -/
  | codeLens (lits dists : Nat) (found : List Nat) (left n have_ : Nat)
  /-- the lengths of the codes -/
  | codes (lits dists : Nat) (h : Huff) (w : Walk) (found : List Nat)
  /-- how often a length is repeated -/
  | again (lits dists : Nat) (h : Huff) (found : List Nat) (what base left n have_ : Nat)
  /-- a literal, a length or the end of the block -/
  | symbol (lit dist : Huff) (w : Walk)
  /-- the extra bits of a length -/
  | lengthBits (lit dist : Huff) (base left n have_ : Nat)
  /-- the code of a distance -/
  | distance (lit dist : Huff) (len : Nat) (w : Walk)
  /-- the extra bits of a distance -/
  | distanceBits (lit dist : Huff) (len base left n have_ : Nat)
  /-- the checksum -/
  | sum (bs : Bytes)
  | over
  | bad

/-- The decoder: whether this is the last block, the data so far (last byte first), how much of it is in the current block, the data to be
delivered. -/
structure State where
  phase : Phase
  last : Bool
  out : Bytes
  block : Nat
  ready : Bytes

/-- The end of a block: its data can be delivered. -/
def State.close (s : State) : State :=
  { s with phase := if s.last then .sum [] else .head 0 0, block := 0, ready := s.ready ++ (s.out.take s.block).reverse }

def State.fail (s : State) : State := { s with phase := .bad }

/-- A byte of data. -/
def State.push (s : State) (b : Byte) : State := { s with out := b :: s.out, block := s.block + 1 }

/-- RFC 1951, 3.2.3: a copy of earlier data. -/
def State.repeat_ (dist : Nat) : (len : Nat) → State → State
  | 0, s => s
  | len + 1, s => State.repeat_ dist len (s.push (s.out.getD (dist - 1) 0))

/-- All lengths of codes are there, or more are to come. -/
def afterCodes (lits dists : Nat) (h : Huff) (found : List Nat) (s : State) : State :=
  if found.length < lits + dists then { s with phase := .codes lits dists h h.begin found }
  else if found.length = lits + dists then
    let lit := Huff.ofLengths (found.take lits)
    { s with phase := .symbol lit (.ofLengths (found.drop lits)) lit.begin }
  else s.fail

/-- The length of a copy is known. -/
def afterLength (lit dist : Huff) (len : Nat) (s : State) : State := { s with phase := .distance lit dist len dist.begin }

/-- The distance of a copy is known. -/
def afterDistance (lit dist : Huff) (len d : Nat) (s : State) : State :=
  if d ≤ s.out.length then { s.repeat_ d len with phase := .symbol lit dist lit.begin } else s.fail

/-- A code for a length of a code has been read; `i` is its place. -/
def afterLengthCode (lits dists : Nat) (h : Huff) (found : List Nat) (i : Nat) (s : State) : State :=
  match h.symbols[i]? with
  | none => s.fail
  | some x =>
    if x ≤ 15 then afterCodes lits dists h (found ++ [x]) s
    else if x = 16 then (if found = [] then s.fail else { s with phase := .again lits dists h found (found.getLastD 0) 3 2 0 0 })
    else if x = 17 then { s with phase := .again lits dists h found 0 3 3 0 0 }
    else { s with phase := .again lits dists h found 0 11 7 0 0 }

/-- The code of a literal, a length or the end of the block has been read. -/
def afterSymbol (lit dist : Huff) (i : Nat) (s : State) : State :=
  match lit.symbols[i]? with
  | none => s.fail
  | some x =>
    if x < 256 then { s.push (UInt8.ofNat x) with phase := .symbol lit dist lit.begin }
    else if x = 256 then s.close
    else match lengthCodes[x - 257]? with
      | none => s.fail
      | some (base, k) => if k = 0 then afterLength lit dist base s else { s with phase := .lengthBits lit dist base k 0 0 }

/-- The code of a distance has been read. -/
def afterDistanceCode (lit dist : Huff) (len i : Nat) (s : State) : State :=
  match dist.symbols[i]? with
  | none => s.fail
  | some x =>
    match distanceCodes[x]? with
    | none => s.fail
    | some (base, k) => if k = 0 then afterDistance lit dist len base s else { s with phase := .distanceBits lit dist len base k 0 0 }

/-- One bit. -/
def State.bit (s : State) (b : Bool) : State :=
  match s.phase with
  | .head n v =>
    let v := v + b.toNat * 2 ^ n
    if n + 1 < 3 then { s with phase := .head (n + 1) v }
    else
      let s := { s with last := v % 2 = 1 }
      match v / 2 with
      | 0 => { s with phase := .align }
      | 1 => { s with phase := .symbol fixedLit fixedDist fixedLit.begin }
      | 2 => { s with phase := .sizes 0 0 }
      | _ => s.fail
  | .sizes n v =>
    let v := v + b.toNat * 2 ^ n
    if n + 1 < 14 then { s with phase := .sizes (n + 1) v }
    else { s with phase := .codeLens (v % 32 + 257) (v / 32 % 32 + 1) [] (v / 1024 + 4) 0 0 }
  | .codeLens lits dists found left n v =>
    let v := v + b.toNat * 2 ^ n
    if n + 1 < 3 then { s with phase := .codeLens lits dists found left (n + 1) v }
    else
      let found := found ++ [v]
      if 1 < left then { s with phase := .codeLens lits dists found (left - 1) 0 0 }
      else
        let h := Huff.ofLengths ((List.range 19).map (fun i => found.getD (orderOfLengths.idxOf i) 0))
        { s with phase := .codes lits dists h h.begin [] }
  | .codes lits dists h w found =>
    match w.bit b with
    | none => s.fail
    | some (.inl w) => { s with phase := .codes lits dists h w found }
    | some (.inr i) => afterLengthCode lits dists h found i s
  | .again lits dists h found what base left n v =>
    let v := v + b.toNat * 2 ^ n
    if 1 < left then { s with phase := .again lits dists h found what base (left - 1) (n + 1) v }
    else afterCodes lits dists h (found ++ List.replicate (base + v) what) s
  | .symbol lit dist w =>
    match w.bit b with
    | none => s.fail
    | some (.inl w) => { s with phase := .symbol lit dist w }
    | some (.inr i) => afterSymbol lit dist i s
  | .lengthBits lit dist base left n v =>
    let v := v + b.toNat * 2 ^ n
    if 1 < left then { s with phase := .lengthBits lit dist base (left - 1) (n + 1) v } else afterLength lit dist (base + v) s
  | .distance lit dist len w =>
    match w.bit b with
    | none => s.fail
    | some (.inl w) => { s with phase := .distance lit dist len w }
    | some (.inr i) => afterDistanceCode lit dist len i s
  | .distanceBits lit dist len base left n v =>
    let v := v + b.toNat * 2 ^ n
    if 1 < left then { s with phase := .distanceBits lit dist len base (left - 1) (n + 1) v } else afterDistance lit dist len (base + v) s
  | _ => s

/-- RFC 1950, 8.2: the checksum. -/
def adler (bs : Bytes) : Nat :=
  let x := bs.foldl (fun x b => ((x.1 + b.toNat) % 65521, (x.2 + x.1 + b.toNat) % 65521)) (1, 0)
  x.2 * 65536 + x.1

def adlerBytes (bs : Bytes) : Bytes := [UInt8.ofNat (adler bs / 2 ^ 24), UInt8.ofNat (adler bs / 2 ^ 16), UInt8.ofNat (adler bs / 2 ^ 8), UInt8.ofNat (adler bs)]

/-- The bits of a byte, RFC 1951, 3.1.1. -/
def bitsOf (b : Byte) : List Bool := (List.range 8).map (fun i => b.toNat.testBit i)

/-- A number of two bytes. -/
def two (a b : Byte) : Nat := a.toNat + 256 * b.toNat

/-- One byte. -/
def State.byte (s : State) (b : Byte) : State :=
  match s.phase with
  | .lens bs =>
    match bs ++ [b] with
    | [l0, l1, n0, n1] =>
      if two l0 l1 + two n0 n1 = 65535 then (if two l0 l1 = 0 then s.close else { s with phase := .copy (two l0 l1) }) else s.fail
    | bs => { s with phase := .lens bs }
  | .copy left => if 1 < left then { s.push b with phase := .copy (left - 1) } else (s.push b).close
  | .sum bs =>
    if bs.length < 3 then { s with phase := .sum (bs ++ [b]) }
    else if bs ++ [b] = adlerBytes s.out.reverse then { s with phase := .over } else s.fail
  | _ =>
    let s := (bitsOf b).foldl State.bit s
    match s.phase with
    | .align => { s with phase := .lens [] }
    | _ => s

/-- The decoder asks for a byte if there is nothing to deliver. -/
def State.next (s : State) : ZStep State :=
  match s.ready with
  | b :: bs => .emit b { s with ready := bs }
  | [] => match s.phase with
    | .over => .eof
    | .bad => .fail
    | _ => .need s.byte

/-- RFC 1950, 2.2: deflate with a window of at most 32768 bytes, no preset dictionary. -/
def begin (cmf flg : Byte) : Option State :=
  if (cmf.toNat * 256 + flg.toNat) % 31 = 0 ∧ cmf.toNat % 16 = 8 ∧ cmf.toNat / 16 ≤ 7 ∧ flg.toNat / 32 % 2 = 0 then
    some ⟨.head 0 0, false, [], 0, []⟩
  else none

/-- A stored block, RFC 1951, 3.2.4. -/
def storedBlock (last : Bool) (bs : Bytes) : Bytes :=
  [if last then 1 else 0, UInt8.ofNat bs.length, UInt8.ofNat (bs.length / 256), UInt8.ofNat (65535 - bs.length), UInt8.ofNat ((65535 - bs.length) / 256)] ++ bs

/-- The data as stored blocks, divided as given. -/
def storedBlocks : List Bytes → Bytes
  | [] => []
  | [bs] => storedBlock true bs
  | bs :: rest => storedBlock false bs ++ storedBlocks rest

/-- Pieces of at most 65535 bytes; the first argument bounds their number. -/
def pieces : Nat → Bytes → List Bytes
  | 0, bs => [bs]
  | n + 1, bs => if bs.length ≤ 65535 then [bs] else bs.take 65535 :: pieces n (bs.drop 65535)

end Inflate

/-- Zlib by the RFCs, with any encoder: the header it writes, what it writes while it is given the data, and when it is finished. -/
def Zlib.rfcFor (cmf flg : Byte) (early late : Bytes → Bytes) : Zlib where
  S := Inflate.State
  header := Inflate.begin
  step := Inflate.State.next
  encHeader := (cmf, flg)
  encEarly := early
  encLate := late

/-- The simplest encoder: stored blocks, as few as possible, and the checksum. -/
def Zlib.rfc : Zlib := Zlib.rfcFor 0x78 0x01 (fun _ => []) (fun bs => Inflate.storedBlocks (Inflate.pieces bs.length bs) ++ Inflate.adlerBytes bs)

end Fbx
