import Verif.Model.Base

/-!
# Specification: zlib streams (RFC 1950, RFC 1951)

Which byte strings are compressed forms of some data. This is what compressors may write; there are many compressed forms of the same data.
Nothing here says how they are read.
-/

namespace Fbx.Spec

/-- The bits of a byte, in the order of RFC 1951, 3.1.1: the least significant first. -/
def byteBits (b : Byte) : List Bool := (List.range 8).map (fun i => b.toNat.testBit i)

/-- A number of `n` bits, the least significant first (numbers in RFC 1951). -/
def numberBits (n v : Nat) : List Bool := (List.range n).map (fun i => v.testBit i)

/-- The same with the most significant first (codes in RFC 1951). -/
def codeBits (n v : Nat) : List Bool := (numberBits n v).reverse

/-! ## Codes -/

/-- How many symbols have a code of this length (3.2.2, step 1). -/
def howMany (lens : List Nat) (l : Nat) : Nat := if l = 0 then 0 else (lens.filter (· = l)).length

/-- The smallest code of each length (3.2.2, step 2). -/
def firstCode (lens : List Nat) : Nat → Nat
  | 0 => 0
  | l + 1 => 2 * (firstCode lens l + howMany lens l)

/-- `w` is the code of the symbol `i`, if the lengths of the codes of 0, 1, … are `lens` (3.2.2, step 3: consecutive codes for the symbols with
codes of the same length). Symbols with length 0 have no code. -/
def Coded (lens : List Nat) (i : Nat) (w : List Bool) : Prop :=
  ∃ l, lens[i]? = some l ∧ 1 ≤ l ∧ l ≤ 15 ∧ ∃ c, c = firstCode lens l + ((lens.take i).filter (· = l)).length ∧ c < 2 ^ l ∧ w = codeBits l c

/-! ## Data of a block -/

/-- A byte, or a copy of `len` bytes from `dist` bytes back (3.2.3). -/
inductive Token where
  | byte (b : Byte)
  | copy (len dist : Nat)

/-- Length codes 257 … 285: base, number of extra bits (3.2.5). -/
def lengthTable : List (Nat × Nat) :=
  [(3, 0), (4, 0), (5, 0), (6, 0), (7, 0), (8, 0), (9, 0), (10, 0), (11, 1), (13, 1), (15, 1), (17, 1), (19, 2), (23, 2), (27, 2), (31, 2),
    (35, 3), (43, 3), (51, 3), (59, 3), (67, 4), (83, 4), (99, 4), (115, 4), (131, 5), (163, 5), (195, 5), (227, 5), (258, 0)]

/-- Distance codes 0 … 29: base, number of extra bits (3.2.5). -/
def distanceTable : List (Nat × Nat) :=
  [(1, 0), (2, 0), (3, 0), (4, 0), (5, 1), (7, 1), (9, 2), (13, 2), (17, 3), (25, 3), (33, 4), (49, 4), (65, 5), (97, 5), (129, 6), (193, 6),
    (257, 7), (385, 7), (513, 8), (769, 8), (1025, 9), (1537, 9), (2049, 10), (3073, 10), (4097, 11), (6145, 11), (8193, 12), (12289, 12),
    (16385, 13), (24577, 13)]

/-- The bits of a token, if `lit` and `dist` are the lengths of the codes. -/
inductive TokenBits (lit dist : List Nat) : Token → List Bool → Prop where
  | byte {b : Byte} {w} : Coded lit b.toNat w → TokenBits lit dist (.byte b) w
  | copy {i base k e w j base' k' e' w'} : lengthTable[i]? = some (base, k) → e < 2 ^ k → Coded lit (257 + i) w →
      distanceTable[j]? = some (base', k') → e' < 2 ^ k' → Coded dist j w' →
      TokenBits lit dist (.copy (base + e) (base' + e')) (w ++ numberBits k e ++ (w' ++ numberBits k' e'))

/-- The data of the tokens, after the data `before`: copies may overlap what they produce (3.2.3). -/
def copied (dist : Nat) : (len : Nat) → Bytes → Bytes
  | 0, out => out
  | len + 1, out => copied dist len (out ++ [out.getD (out.length - dist) 0])

/-- All data after the tokens; copies stay within it. -/
inductive Expands : Bytes → List Token → Bytes → Prop where
  | nil {out} : Expands out [] out
  | byte {out b ts out'} : Expands (out ++ [b]) ts out' → Expands out (.byte b :: ts) out'
  | copy {out len dist ts out'} : dist ≤ out.length → Expands (copied dist len out) ts out' → Expands out (.copy len dist :: ts) out'

/-- The bits of some tokens and the end of the block. -/
inductive TokensBits (lit dist : List Nat) : List Token → List Bool → Prop where
  | over {w} : Coded lit 256 w → TokensBits lit dist [] w
  | token {t ts w w'} : TokenBits lit dist t w → TokensBits lit dist ts w' → TokensBits lit dist (t :: ts) (w ++ w')

/-! ## Codes of a block (3.2.6, 3.2.7) -/

/-- The fixed codes (3.2.6). -/
def fixedLiterals : List Nat := List.replicate 144 8 ++ List.replicate 112 9 ++ List.replicate 24 7 ++ List.replicate 8 8
def fixedDistances : List Nat := List.replicate 30 5

/-- The order in which the lengths of the codes for lengths are given (3.2.7). -/
def orderOfCodes : List Nat := [16, 17, 18, 0, 8, 7, 9, 6, 10, 5, 11, 4, 12, 3, 13, 2, 14, 1, 15]

/-- The bits of the lengths of the codes of a block, which follow the lengths `before`; `cl` are the lengths of the codes for lengths (3.2.7). -/
inductive LengthsBits (cl : List Nat) : (before after : List Nat) → List Bool → Prop where
  | nil {ls} : LengthsBits cl ls ls []
  | length {ls l w ls' w'} : l ≤ 15 → Coded cl l w → LengthsBits cl (ls ++ [l]) ls' w' → LengthsBits cl ls ls' (w ++ w')
  | previous {ls l e w ls' w'} : e < 4 → Coded cl 16 w → LengthsBits cl (ls ++ [l] ++ List.replicate (3 + e) l) ls' w' →
      LengthsBits cl (ls ++ [l]) ls' (w ++ numberBits 2 e ++ w')
  | zeros {ls e w ls' w'} : e < 8 → Coded cl 17 w → LengthsBits cl (ls ++ List.replicate (3 + e) 0) ls' w' →
      LengthsBits cl ls ls' (w ++ numberBits 3 e ++ w')
  | manyZeros {ls e w ls' w'} : e < 128 → Coded cl 18 w → LengthsBits cl (ls ++ List.replicate (11 + e) 0) ls' w' →
      LengthsBits cl ls ls' (w ++ numberBits 7 e ++ w')

/-- The bits which give the codes of a block. `given` are the lengths of the codes for lengths, in their order, the rest being 0. -/
inductive CodesBits : (lit dist : List Nat) → List Bool → Prop where
  | mk {given lit dist : List Nat} {w} : 4 ≤ given.length → given.length ≤ 19 → (∀ l ∈ given, l < 8) → 257 ≤ lit.length → lit.length ≤ 288 → 1 ≤ dist.length →
      dist.length ≤ 32 → LengthsBits ((List.range 19).map (fun i => given.getD (orderOfCodes.idxOf i) 0)) [] (lit ++ dist) w →
      CodesBits lit dist (numberBits 5 (lit.length - 257) ++ numberBits 5 (dist.length - 1) ++ numberBits 4 (given.length - 4) ++
        given.flatMap (numberBits 3) ++ w)

/-! ## Blocks and streams -/

/-- A block: the number of bits before it (in the stream), the data before it, whether it is the last one, its bits, the data after it (3.2.3). -/
inductive BlockBits (n : Nat) (before : Bytes) (last : Bool) : List Bool → Bytes → Prop where
  /-- stored, from the next byte on (3.2.4) -/
  | stored {pad : List Bool} {l0 l1 n0 n1 : Byte} {data : Bytes} : pad.length < 8 → (n + 3 + pad.length) % 8 = 0 → l0.toNat + 256 * l1.toNat = data.length →
      n0.toNat + 256 * n1.toNat = 65535 - data.length →
      BlockBits n before last ([last, false, false] ++ pad ++ ([l0, l1, n0, n1] ++ data).flatMap byteBits) (before ++ data)
  /-- with the fixed codes -/
  | fixed {ts w after} : TokensBits fixedLiterals fixedDistances ts w → Expands before ts after → BlockBits n before last ([last, true, false] ++ w) after
  /-- with its own codes -/
  | coded {lit dist w ts w' after} : CodesBits lit dist w → TokensBits lit dist ts w' → Expands before ts after →
      BlockBits n before last ([last, false, true] ++ w ++ w') after

/-- Blocks up to the last one. -/
inductive StreamBits : (n : Nat) → (before : Bytes) → List Bool → (after : Bytes) → Prop where
  | last {n before w after} : BlockBits n before true w after → StreamBits n before w after
  | more {n before w mid w' after} : BlockBits n before false w mid → StreamBits (n + w.length) mid w' after → StreamBits n before (w ++ w') after

/-- The compressed form of some data, without the checksum: RFC 1950, 2.2 (method 8, window at most 32768, no preset dictionary), and
blocks; the last byte is filled with any bits. -/
def Compressed (z data : Bytes) : Prop :=
  ∃ cmf flg bs w pad, z = cmf :: flg :: bs ∧ (cmf.toNat * 256 + flg.toNat) % 31 = 0 ∧ cmf.toNat % 16 = 8 ∧ cmf.toNat / 16 ≤ 7 ∧ flg.toNat / 32 % 2 = 0 ∧
    StreamBits 0 [] w data ∧ bs.flatMap byteBits = w ++ pad ∧ pad.length < 8

end Fbx.Spec
