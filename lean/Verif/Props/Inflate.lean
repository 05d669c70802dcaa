import Verif.Proof.Inflate
import Verif.Proof.Packed
import Verif.Props.PlainSources

/-!
# C79: compressed arrays of any program are read

`Spec/Deflate.lean` says what the compressed forms of some data are (RFC 1950, RFC 1951), `Spec/Packed.lean` what a document with
compressed arrays looks like, and `Zlib.rfc` (`Model/Inflate.lean`) is a decoder by the RFCs, which stands for `libflate`.
-/

namespace Fbx
open Spec
open Tree Writer Parser

/-! ## Proof -/

theorem decodes_other {x y x' y' : Byte} {e l e' l' : Bytes → Bytes} {s : (Zlib.rfcFor x y e l).S} {inp out : Bytes} (h : (Zlib.rfcFor x y e l).Decodes s inp out) :
    (Zlib.rfcFor x' y' e' l').Decodes s inp out := by
  induction h with
  | done s inp => exact @Zlib.Decodes.done (Zlib.rfcFor x' y' e' l') s inp
  | need h _ ih => exact @Zlib.Decodes.need (Zlib.rfcFor x' y' e' l') _ _ _ _ _ h ih
  | emit h _ ih => exact @Zlib.Decodes.emit (Zlib.rfcFor x' y' e' l') _ _ _ _ _ h ih

theorem forest_decodes (F : Forest Packed) (h : F.All (fun _ as => ∀ p ∈ as, p.Conforming)) :
    F.All (fun _ as => ∀ p ∈ as, ∀ z, p.zipped = some z → ∃ a b rest s, z = a :: b :: rest ∧ Zlib.rfc.header a b = some s ∧ Zlib.rfc.Decodes s rest (arrayData p.value)) := by
  induction F with
  | nil => trivial
  | cons name as ch r ih1 ih2 =>
    obtain ⟨h1, h2, h3⟩ := h
    refine ⟨fun p hp z hz => ?_, ih1 h2, ih2 h3⟩
    obtain ⟨c, sum, rfl, hc⟩ := h1 p hp z hz
    obtain ⟨a, b, rest, h4⟩ : ∃ a b rest, c = a :: b :: rest := by
      obtain ⟨a, b, rest, w, pad, h, -⟩ := hc
      exact ⟨a, b, rest, h⟩
    subst h4
    obtain ⟨s, h5, h6⟩ := Inflate.decodes_compressed (early := fun _ => []) (late := fun _ => []) hc sum
    exact ⟨a, b, rest ++ sum, s, rfl, h5, decodes_other h6⟩

theorem events_packed (F : Forest Packed) : events (F.map Packed.plain) = events (F.map Packed.value).plain := by
  induction F with
  | nil => rfl
  | cons name as ch r ih1 ih2 =>
    simp only [Forest.map, events, Forest.plain, List.length_map, List.map_map, ih1, ih2]
    rfl

theorem packed_ne (p : Packed) : p.bytes ≠ [] := by
  unfold Packed.bytes
  split <;> simp [attrBytes]

/-! ## The theorems -/

/-- **C79** (parsing). A document in which every compressed array is stored in any of its compressed forms, with any bytes in place of the
checksum: the client sees the nodes, and loads the elements. What follows the nodes does not matter for this. -/
theorem C79_parsed (v : FbxVersion) (hv : supported v.toNat) (F : Forest Packed) (hfit : forestFits v.toNat Packed.bytes Packed.fits F 27)
    (hc : F.All (fun _ as => ∀ p ∈ as, p.Conforming)) (bs : List UInt8) (hlen : (body v.toNat Packed.bytes F ++ bs).length < 2 ^ 64)
    {α : Type} (buffered checks : Bool) (plan : Nat → String → Nat → List (Loader α)) (hplan : planOk buffered plan (F.map Packed.plain) 0)
    (H : Option Handler) (hH : indulgent H) (ending : Option IoErr) (cursor limit : Nat)
    (hlim : cursor + (body v.toNat Packed.bytes F ++ bs).length ≤ limit) :
    ∃ footer q, parseFile Zlib.rfc checks H ending cursor limit buffered plan (2 * F.count + 1) (body v.toNat Packed.bytes F ++ bs) =
      some (.ok (expected buffered plan (F.map Packed.plain) 0 ++ [.fbx footer]), q) := by
  obtain ⟨P, -, -, -, -, -, -, hP⟩ := parse_nodes (Z := Zlib.rfc) Packed.bytes Packed.plain Packed.fits packed_ne true buffered plan checks H ending cursor limit v F bs hv hfit
    hplan (.inl rfl) (forest_loads_packed true buffered v.toNat F 27 hfit (forest_decodes F hc)) hlen (fun _ => hlim) (.inr hH)
  exact ⟨_, _, hP⟩

/-- **C79** (trees). Such a document is loaded as the tree of its nodes and values. -/
theorem C79_loaded (v : FbxVersion) (hv : supported v.toNat) (F : Forest Packed) (hfit : forestFits v.toNat Packed.bytes Packed.fits F 27)
    (hc : F.All (fun _ as => ∀ p ∈ as, p.Conforming)) (bs : List UInt8) (hlen : (body v.toNat Packed.bytes F ++ bs).length + 2 ^ 32 ≤ 2 ^ 64)
    (checks : Bool) (H : Option Handler) (hH : indulgent H) (ending : Option IoErr) (cursor limit : Nat)
    (hlim : cursor + (body v.toNat Packed.bytes F ++ bs).length ≤ limit) :
    ∃ u footer q, loadFile Zlib.rfc checks H ending cursor limit (body v.toNat Packed.bytes F ++ bs) = some (.ok (u, footer), q) ∧ WF u ∧
      Rep u u.root (.node "" [] (F.map Packed.value).roses) := by
  obtain ⟨footer, q, hP⟩ := C79_parsed v hv F hfit hc bs (by omega) false checks everything (everything_ok _ _ _) H hH ending cursor limit hlim
  rw [everything_expected, events_packed] at hP
  obtain ⟨p, u, h1, h2, h3, h4⟩ := parse_load_source hlen hP
  refine ⟨u, footer, q, ?_, h3, h4⟩
  simp only [loadFile, h1, h2]

/-- **C79** (any compressor). Whatever program compresses the arrays, if what it gives is a compressed form of the data and then anything, all
theorems about written files hold. -/
theorem C79_lawful (cmf flg : Byte) (early late : Bytes → Bytes)
    (h : ∀ data, ∃ c sum, cmf :: flg :: (early data ++ late data) = c ++ sum ∧ Compressed c data) : (Zlib.rfcFor cmf flg early late).Lawful := by
  refine ⟨fun data => ?_⟩
  obtain ⟨c, sum, h1, hc⟩ := h data
  obtain ⟨a, b, rest, h4⟩ : ∃ a b rest, c = a :: b :: rest := by
    obtain ⟨a, b, rest, w, pad, h, -⟩ := hc
    exact ⟨a, b, rest, h⟩
  subst h4
  simp only [List.cons_append, List.cons.injEq] at h1
  obtain ⟨rfl, rfl, h1⟩ := h1
  obtain ⟨s, h5, h6⟩ := Inflate.decodes_compressed (early := early) (late := late) hc sum
  refine ⟨s, h5, ?_⟩
  show (Zlib.rfcFor cmf flg early late).Decodes s (early data ++ late data) data
  rw [h1]
  exact h6

/-- The bits of a stored block, at the beginning of a byte. -/
theorem stored_bits (n : Nat) (hn : n % 8 = 0) (last : Bool) (before data : Bytes) (h : data.length ≤ 65535) :
    BlockBits n before last ((Inflate.storedBlock last data).flatMap byteBits) (before ++ data) := by
  have e : (Inflate.storedBlock last data).flatMap byteBits = [last, false, false] ++ [false, false, false, false, false] ++
      ([UInt8.ofNat data.length, UInt8.ofNat (data.length / 256), UInt8.ofNat (65535 - data.length), UInt8.ofNat ((65535 - data.length) / 256)] ++ data).flatMap byteBits := by
    rw [Inflate.storedBlock, List.cons_append, List.flatMap_cons]
    have : byteBits (if last = true then 1 else 0) = [last, false, false] ++ [false, false, false, false, false] := by cases last <;> rfl
    rw [this]
  rw [e]
  refine .stored (by simp) (by simp; omega) ?_ ?_
  · simp only [UInt8.toNat_ofNat']
    omega
  · simp only [UInt8.toNat_ofNat']
    omega

theorem flatMap_bits_length (bs : Bytes) : (bs.flatMap byteBits).length = 8 * bs.length := by
  induction bs with
  | nil => rfl
  | cons b bs ih => simp only [List.flatMap_cons, List.length_append, ih, Inflate.byteBits_length, List.length_cons]; omega

/-- Data divided into small pieces are compressed by storing these. -/
theorem stored_compressed : ∀ (ps : List Bytes) (n : Nat) (before : Bytes), ps ≠ [] → n % 8 = 0 → (∀ p ∈ ps, p.length ≤ 65535) →
    StreamBits n before ((Inflate.storedBlocks ps).flatMap byteBits) (before ++ ps.flatten)
  | [], _, _, h, _, _ => absurd rfl h
  | [p], n, before, _, hn, hp => by
    rw [Inflate.storedBlocks, List.flatten_cons, List.flatten_nil, List.append_nil]
    exact .last (stored_bits n hn true before p (hp p (by simp)))
  | p :: q :: ps, n, before, _, hn, hp => by
    rw [Inflate.storedBlocks, List.flatMap_append, List.flatten_cons, ← List.append_assoc]
    refine .more (stored_bits n hn false before p (hp p (by simp))) (stored_compressed (q :: ps) _ _ (by simp) ?_ (fun x hx => hp x (by simp [hx])))
    rw [flatMap_bits_length]
    omega
    simp

theorem pieces_flatten : ∀ (n : Nat) (bs : Bytes), bs.length ≤ n → Inflate.pieces n bs ≠ [] ∧ (Inflate.pieces n bs).flatten = bs ∧ ∀ p ∈ Inflate.pieces n bs, p.length ≤ 65535
  | 0, bs, h => ⟨by simp [Inflate.pieces], by simp [Inflate.pieces], by simp [Inflate.pieces]; omega⟩
  | n + 1, bs, h => by
    by_cases hb : bs.length ≤ 65535
    · simp [Inflate.pieces, hb]
    · obtain ⟨h1, h2, h3⟩ := pieces_flatten n (bs.drop 65535) (by rw [List.length_drop]; omega)
      simp only [Inflate.pieces, if_neg hb]
      refine ⟨by simp, ?_, ?_⟩
      · rw [List.flatten_cons, h2, List.take_append_drop]
      · intro p hp
        simp only [List.mem_cons] at hp
        rcases hp with rfl | hp
        · rw [List.length_take]; omega
        · exact h3 p hp

/-- **C79** (a compressor). There is one: data can be stored, in blocks of up to 65535 bytes. -/
theorem C79_stored : Zlib.rfc.Lawful := by
  refine C79_lawful _ _ _ _ fun data => ⟨0x78 :: 0x01 :: Inflate.storedBlocks (Inflate.pieces data.length data), Inflate.adlerBytes data, rfl, ?_⟩
  obtain ⟨h1, h2, h3⟩ := pieces_flatten data.length data (Nat.le_refl _)
  have := stored_compressed _ 0 [] h1 rfl h3
  rw [h2] at this
  exact ⟨_, _, _, _, [], rfl, by decide, by decide, by decide, by decide, this, by simp, by simp⟩

/-- **C79** (the checksum). Documents with the same nodes and values, however their arrays are compressed and whatever the checksums are,
are the same to the client. -/
theorem C79_checksum (v : FbxVersion) (hv : supported v.toNat) (F G : Forest Packed) (hF : forestFits v.toNat Packed.bytes Packed.fits F 27)
    (hG : forestFits v.toNat Packed.bytes Packed.fits G 27) (hcF : F.All (fun _ as => ∀ p ∈ as, p.Conforming))
    (hcG : G.All (fun _ as => ∀ p ∈ as, p.Conforming)) (hFG : F.map Packed.value = G.map Packed.value)
    (hlenF : (body v.toNat Packed.bytes F).length < 2 ^ 64) (hlenG : (body v.toNat Packed.bytes G).length < 2 ^ 64)
    (buffered checks : Bool) (H : Option Handler) (hH : indulgent H) (ending : Option IoErr) :
    ∃ n es f g p q, parseFile Zlib.rfc checks H ending 0 (2 ^ 64) buffered everything n (body v.toNat Packed.bytes F) = some (.ok (es ++ [.fbx f]), p) ∧
      parseFile Zlib.rfc checks H ending 0 (2 ^ 64) buffered everything n (body v.toNat Packed.bytes G) = some (.ok (es ++ [.fbx g]), q) := by
  have hn : F.count = G.count := by
    have := congrArg Forest.count hFG
    rwa [Forest.count_map, Forest.count_map] at this
  obtain ⟨f, p, h1⟩ := C79_parsed v hv F hF hcF [] (by simpa using hlenF) buffered checks everything (everything_ok _ _ _) H hH ending 0 (2 ^ 64) (by simp; omega)
  obtain ⟨g, q, h2⟩ := C79_parsed v hv G hG hcG [] (by simpa using hlenG) buffered checks everything (everything_ok _ _ _) H hH ending 0 (2 ^ 64) (by simp; omega)
  rw [List.append_nil, everything_expected, events_packed] at h1 h2
  rw [← hn, ← hFG] at h2
  exact ⟨_, _, _, _, _, _, h1, h2⟩

/-! ## Streams made by zlib -/

/-- The code of a symbol. -/
theorem coded_of {lens : List Nat} {i l c : Nat} (h : lens[i]? = some l ∧ 1 ≤ l ∧ l ≤ 15 ∧ c = firstCode lens l + ((lens.take i).filter (· = l)).length ∧ c < 2 ^ l) :
    Coded lens i (codeBits l c) := ⟨l, h.1, h.2.1, h.2.2.1, c, h.2.2.2.1, h.2.2.2.2, rfl⟩

theorem fixed_byte (b : Byte) (c : Nat) (h : fixedLiterals[b.toNat]? = some 8 ∧ 1 ≤ 8 ∧ 8 ≤ 15 ∧ c = firstCode fixedLiterals 8 + ((fixedLiterals.take b.toNat).filter (· = 8)).length ∧ c < 2 ^ 8) :
    TokenBits fixedLiterals fixedDistances (.byte b) (codeBits 8 c) := .byte (coded_of h)

/-- What zlib makes of the integers 1 and 2, three times, without the checksum: bytes with the fixed codes, and copies. -/
theorem exFixed : Compressed [120, 218, 99, 100, 96, 96, 96, 2, 98, 70, 52, 26, 0] [1, 0, 0, 0, 2, 0, 0, 0, 1, 0, 0, 0, 2, 0, 0, 0, 1, 0, 0, 0, 2, 0, 0, 0] := by
  have hE : Expands [] [.byte 1, .byte 0, .byte 0, .byte 0, .byte 2, .copy (3 + 0) (4 + 0), .byte 1, .copy (15 + 0) (7 + 1)]
      [1, 0, 0, 0, 2, 0, 0, 0, 1, 0, 0, 0, 2, 0, 0, 0, 1, 0, 0, 0, 2, 0, 0, 0] :=
    .byte (.byte (.byte (.byte (.byte (.copy (by decide) (.byte (.copy (by decide) .nil)))))))
  have hT := TokensBits.token (fixed_byte 1 49 (by decide +kernel)) (.token (fixed_byte 0 48 (by decide +kernel)) (.token (fixed_byte 0 48 (by decide +kernel))
    (.token (fixed_byte 0 48 (by decide +kernel)) (.token (fixed_byte 2 50 (by decide +kernel))
    (.token (.copy (i := 0) (base := 3) (k := 0) (e := 0) (j := 3) (base' := 4) (k' := 0) (e' := 0) rfl (by decide) (coded_of (l := 7) (c := 1) (by decide +kernel)) rfl (by decide)
      (coded_of (l := 5) (c := 3) (by decide +kernel)))
    (.token (fixed_byte 1 49 (by decide +kernel))
    (.token (.copy (i := 10) (base := 15) (k := 1) (e := 0) (j := 5) (base' := 7) (k' := 1) (e' := 1) rfl (by decide) (coded_of (l := 7) (c := 11) (by decide +kernel)) rfl (by decide)
      (coded_of (l := 5) (c := 5) (by decide +kernel))) (.over (coded_of (l := 7) (c := 0) (by decide +kernel))))))))))
  exact ⟨120, 218, _, _, [false, false, false, false], rfl, by decide, by decide, by decide, by decide, .last (.fixed hT hE), by decide +kernel, by decide⟩

set_option maxRecDepth 10000 in
/-- The literal 97 (eight times) in a block with codes of its own. -/
theorem exCoded : Compressed [120, 1, 5, 192, 129, 0, 0, 0, 0, 0, 144, 86, 255, 19, 0, 4] [97, 97, 97, 97, 97, 97, 97, 97] := by
  have hE : Expands [] (List.replicate 8 (.byte 97)) [97, 97, 97, 97, 97, 97, 97, 97] := .byte (.byte (.byte (.byte (.byte (.byte (.byte (.byte .nil)))))))
  let cl : List Nat := (List.range 19).map (fun i => ([0, 0, 1] ++ List.replicate 14 0 ++ [1]).getD (orderOfCodes.idxOf i) 0)
  have h1 : Coded cl 1 (codeBits 1 0) := coded_of (by decide +kernel)
  have h18 : Coded cl 18 (codeBits 1 1) := coded_of (by decide +kernel)
  have hL : LengthsBits cl [] ((List.replicate 97 0 ++ [1] ++ List.replicate 158 0 ++ [1]) ++ [1]) _ :=
    .manyZeros (e := 86) (by decide) h18 (.length (l := 1) (by decide) h1 (.manyZeros (e := 127) (by decide) h18 (.manyZeros (e := 9) (by decide) h18
      (.length (l := 1) (by decide) h1 (.length (l := 1) (by decide) h1 .nil)))))
  have hC := CodesBits.mk (given := [0, 0, 1] ++ List.replicate 14 0 ++ [1]) (by decide) (by decide) (by decide) (by decide) (by decide) (by decide) (by decide) hL
  have ha : Coded (List.replicate 97 0 ++ [1] ++ List.replicate 158 0 ++ [1]) (97 : Byte).toNat (codeBits 1 0) := coded_of (by decide +kernel)
  have he : Coded (List.replicate 97 0 ++ [1] ++ List.replicate 158 0 ++ [1]) 256 (codeBits 1 1) := coded_of (by decide +kernel)
  have hT : TokensBits (List.replicate 97 0 ++ [1] ++ List.replicate 158 0 ++ [1]) [1] (List.replicate 8 (.byte 97)) _ :=
    .token (.byte ha) (.token (.byte ha) (.token (.byte ha) (.token (.byte ha) (.token (.byte ha) (.token (.byte ha) (.token (.byte ha) (.token (.byte ha) (.over he))))))))
  exact ⟨120, 1, _, _, [false, false, false, false, false], rfl, by decide, by decide, by decide, by decide, .last (.coded hC hT hE), by decide +kernel, by decide⟩

/-- Arrays compressed in these ways, with checksums right and wrong and without, and one that is not compressed. -/
def exPacked : Forest Packed :=
  .cons "A" [⟨.arrI32 [1, 2, 1, 2, 1, 2], some [120, 218, 99, 100, 96, 96, 96, 2, 98, 70, 52, 26, 0, 0, 144, 0, 10]⟩,
      ⟨.arrI32 [1, 2, 1, 2, 1, 2], some [120, 218, 99, 100, 96, 96, 96, 2, 98, 70, 52, 26, 0]⟩, ⟨.bool true, none⟩]
    (.cons "B" [⟨.arrI64 [0x6161616161616161], some [120, 1, 5, 192, 129, 0, 0, 0, 0, 0, 144, 86, 255, 19, 0, 4, 1, 2, 3]⟩, ⟨.arrI32 [3], none⟩] .nil .nil) .nil

theorem exPacked_conforming : exPacked.All (fun _ as => ∀ p ∈ as, p.Conforming) := by
  refine ⟨?_, ⟨?_, trivial, trivial⟩, trivial⟩
  · intro p hp z hz
    simp only [List.mem_cons, List.not_mem_nil, or_false] at hp
    rcases hp with rfl | rfl | rfl
    · cases hz; exact ⟨_, [0, 144, 0, 10], rfl, exFixed⟩
    · cases hz; exact ⟨_, [], rfl, exFixed⟩
    · cases hz
  · intro p hp z hz
    simp only [List.mem_cons, List.not_mem_nil, or_false] at hp
    rcases hp with rfl | rfl
    · cases hz; exact ⟨_, [1, 2, 3], rfl, exCoded⟩
    · cases hz

theorem exPacked_fits : forestFits 7400 Packed.bytes Packed.fits exPacked 27 := by
  simp only [exPacked, forestFits, Packed.fits, List.mem_cons, List.not_mem_nil, or_false, forall_eq_or_imp, forall_eq, attrFits]
  decide +kernel

example := C79_parsed 7400 (by simp [supported]) exPacked exPacked_fits exPacked_conforming (footer 7400 (footOf exFooter) 300) (by decide +kernel)
  false true everything (everything_ok _ _ _) none (by intro f hf; cases hf) none 0 (2 ^ 64) (by decide +kernel)
example := C79_loaded 7400 (by simp [supported]) exPacked exPacked_fits exPacked_conforming (footer 7400 (footOf exFooter) 300) (by decide +kernel)
  true none (by intro f hf; cases hf) none 0 (2 ^ 64) (by decide +kernel)

/-- The same file, run: the values are loaded. -/
example : seenOrError (parseSource true Zlib.rfc true none none 0 (2 ^ 64) false everything 5 (body 7400 Packed.bytes exPacked)) =
    some (.ok [("A", [some (.arrI32 [1, 2, 1, 2, 1, 2]), some (.arrI32 [1, 2, 1, 2, 1, 2]), some (.bool true)]),
      ("B", [some (.arrI64 [0x6161616161616161]), some (.arrI32 [3])])]) := by decide +kernel

/-- A node with an array, stored with the given bytes and the checksum of other ones. -/
def exDamaged (stored summed : Bytes) : Forest Packed :=
  .cons "A" [⟨.arrI32 [1, 2], some ([0x78, 0x01] ++ Inflate.storedBlocks [stored] ++ Inflate.adlerBytes summed)⟩] .nil .nil

/-- **C79** (damaged files). The checksum is there to detect damage, but the damage is not detected: here a bit of an element has changed, and
the changed element is loaded without an error. -/
theorem C79_damage_unnoticed :
    seenOrError (parseSource true Zlib.rfc true none none 0 (2 ^ 64) false everything 3 (body 7400 Packed.bytes (exDamaged [1, 0, 0, 0, 2, 0, 0, 0] [1, 0, 0, 0, 2, 0, 0, 0]))) =
      some (.ok [("A", [some (.arrI32 [1, 2])])]) ∧
    seenOrError (parseSource true Zlib.rfc true none none 0 (2 ^ 64) false everything 3 (body 7400 Packed.bytes (exDamaged [1, 0, 0, 0, 2, 0, 0, 64] [1, 0, 0, 0, 2, 0, 0, 0]))) =
      some (.ok [("A", [some (.arrI32 [1, 0x40000002])])]) := by
  constructor <;> decide +kernel

/-- **C79** (plain sources). With a compressor and a decoder by the RFCs, too, a file with one compressed array that the writer wrote is not read
from a source that cannot seek (C30): the checksum is not consumed, and is taken for the next node. -/
theorem C79_plain_derails :
    Zlib.rfc.Lawful ∧ (session Zlib.rfc exSink 7400 (calls (exArray (some .zlib))) exFooter).1 = .ok () ∧
    seenOrError (parseSource true Zlib.rfc true none none 0 (2 ^ 64) false everything 3
      (session Zlib.rfc exSink 7400 (calls (exArray (some .zlib))) exFooter).2.buf) = some (.ok [("A", [some (.arrI32 [1, 2])])]) ∧
    seenOrError (parseSource false Zlib.rfc true none none 0 (2 ^ 64) false everything 3
      (session Zlib.rfc exSink 7400 (calls (exArray (some .zlib))) exFooter).2.buf) = some (.error (.data (.nodeLengthMismatch 73 (some 82)))) := by
  refine ⟨C79_stored, ?_, ?_, ?_⟩ <;> decide +kernel

end Fbx
