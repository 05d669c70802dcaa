import Verif.Proof.Memory
import Verif.Props.Standing
import Verif.Proof.WriterAt

/-! # C83 What the loaders set aside for strings and binary data

What is set aside is modelled in `Verif/Model/Memory.lean`; which clients are meant is said in `Verif/Spec/Memory.lean`. -/

namespace Fbx
open Reader Parser Spec
variable {α : Type} {Z : Zlib}

theorem readBinary_all (f : Bytes → α) (len : Nat) : ReadsAll len (readBinary f len) := .inr ⟨_, rfl⟩
theorem readString_all (f : String → α) (len : Nat) : ReadsAll len (readString f len) := .inr ⟨_, rfl⟩
theorem done_all (r : Except PErr α) (len : Nat) : ReadsAll len (.done r) := .inl ⟨_, rfl⟩

theorem le4_length (n : Nat) : (le 4 n).length = 4 := by simp [le]

theorem le4_from {n : Nat} (h : n < 2 ^ 32) : fromLe (le 4 n) = n := by
  rw [Writer.le_eq]
  exact fromLe_leBytes h

theorem front_declared (e : Ending) (b : Bool) {c : UInt8} (hc : c = 82 ∨ c = 83) {n : Nat} (hlt : n < 2 ^ 32) (data : Bytes) :
    (inFrontFor Z e b directLoader.meter (c :: (le 4 n ++ data))).answer = .ok n ∧ (inFrontFor Z e b directLoader.meter (c :: (le 4 n ++ data))).odd = false := by
  have hs : ∀ f : Nat → ReadCons AttrValue, (∀ len, (f len).setsAside len = len) →
      (specialFor e (fun len => .done (.ok ((f len).setsAside len))) (le 4 n ++ data)).answer = .ok n ∧
      (specialFor e (fun len => .done (.ok ((f len).setsAside len))) (le 4 n ++ data)).odd = false := by
    intro f hf
    have ht : (le 4 n ++ data).take 4 = le 4 n := by
      rw [List.take_append_of_le_length (by rw [le4_length]; omega), List.take_of_length_le (by rw [le4_length]; omega)]
    simp only [specialFor]
    rw [if_neg (by rw [List.length_append, le4_length]; omega)]
    simp only [reads, answerOf, ht, le4_from hlt, hf, and_self]
  rcases hc with rfl | rfl
  · have ht : typeOfChar (Char.ofNat (82 : UInt8).toNat) = some .binary := by decide
    simp only [inFrontFor, ht, contentsFor]
    cases b
    · exact hs directLoader.binary (fun _ => rfl)
    · exact hs directLoader.binaryBuf (fun _ => rfl)
  · have ht : typeOfChar (Char.ofNat (83 : UInt8).toNat) = some .string := by decide
    simp only [inFrontFor, ht, contentsFor]
    cases b
    · exact hs directLoader.string (fun _ => rfl)
    · exact hs directLoader.stringBuf (fun _ => rfl)

theorem skip_none (a : Ahead) (m : Skipping) (e : Ending) : a.skip m e 0 = (none, a) := by
  cases m <;> simp [Ahead.skip, Ahead.move]

theorem aside_declared {L : Nat} {s : Client} (hi : CInv L s) (hL : L + 2 ^ 32 ≤ 2 ^ 64) {a : Attrs} (ha : s.attrs = some a) (hrest : a.rest ≠ 0)
    (hrun : s.parser.health = .running) (hat : a.next = s.parser.reader.position)
    {c : UInt8} (hc : c = 82 ∨ c = 83) {n : Nat} (hlt : n < 2 ^ 32) {data : Bytes} (hb : s.parser.reader.rest = c :: (le 4 n ++ data)) (b : Bool) :
    s.setsAside Z (.load b directLoader) = n := by
  have hf : InSetting s.parser (settingOf s.parser) := ⟨rfl, rfl, rfl, rfl⟩
  have hd : ∃ e, s.standing.load Z (settingOf s.parser) b directLoader.meter = some (.value n, e) := by
    obtain ⟨h1, h2⟩ := front_declared (Z := Z) (settingOf s.parser).ends b hc hlt data
    have e1 : s.standing.attrs = some a := ha
    have e2 : s.standing.health = .running := hrun
    have e3 : a.next - s.standing.ahead.pos = 0 := by
      show a.next - s.parser.reader.position = 0
      omega
    have e4 : s.standing.ahead.bytes = c :: (le 4 n ++ data) := hb
    simp only [Standing.load, e1, e2, e3, skip_none, e4, h1, h2, if_neg hrest]
    simp [objection]
  obtain ⟨e, hd⟩ := hd
  rcases load_stands (Z := Z) hL hi hf s.stands b directLoader.meter with ⟨-, h2⟩ | ⟨o, t, e', h1, h2, -⟩
  · rw [hd] at h2; cases h2
  · rw [hd] at h2
    cases h2
    simp only [Client.setsAside, h1]

/-- **C83** (the loaders). The loaders of the library read strings and binary data as a whole or not at all. -/
theorem C83_thorough : Thorough directLoader ∧ Thorough binaryLoader ∧ Thorough stringLoader ∧ Thorough typeLoader ∧
    Thorough primBool ∧ Thorough primI16 ∧ Thorough primI32 ∧ Thorough primI64 ∧ Thorough primF32 ∧ Thorough primF64 ∧
    Thorough arrLoaderBool ∧ Thorough arrLoaderI32 ∧ Thorough arrLoaderI64 ∧ Thorough arrLoaderF32 ∧ Thorough arrLoaderF64 := by
  refine ⟨?_, ?_, ?_, ?_, ?_, ?_, ?_, ?_, ?_, ?_, ?_, ?_, ?_, ?_, ?_⟩ <;> intro len <;> refine ⟨?_, ?_, ?_, ?_⟩ <;>
    first | exact done_all _ _ | exact readBinary_all _ _ | exact readString_all _ _

/-- **C83** (all of it). Whatever the bytes, the source and the client, which makes any calls and uses loaders of the library: what the
loaders set aside before they read, all of it together, is less than the bytes there are and 4 GiB. -/
theorem C83_all {p : Parser} {bytes : Bytes} (hp : Opens p bytes) (hsz : Sized bytes) (r : Routine α) (hr : r.Uses Thorough) :
    (r.setsAside Z ⟨p, none⟩).sum < bytes.length + 2 ^ 32 := by
  obtain ⟨hi, hL⟩ := open_inv hp hsz
  have := (routine_aside (Z := Z) hL r _ hi hr).1
  rwa [show (⟨p, none⟩ : Client).parser.reader.rest = bytes from hp.state.2.2.2.2.2.2.1] at this

/-- **C83** (before). When a loader sets something aside, it is less than 4 GiB, and what was set aside before is in the file: only the last
string or binary can be larger than the file. -/
theorem C83_before {p : Parser} {bytes : Bytes} (hp : Opens p bytes) (hsz : Sized bytes) (r : Routine α) (hr : r.Uses Thorough)
    {before after : List Nat} {x : Nat} (h : r.setsAside Z ⟨p, none⟩ = before ++ x :: after) (hx : x ≠ 0) :
    x < 2 ^ 32 ∧ before.sum < bytes.length := by
  obtain ⟨hi, hL⟩ := open_inv hp hsz
  have := routine_before (Z := Z) hL r _ hi hr before x after h hx
  rwa [show (⟨p, none⟩ : Client).parser.reader.rest = bytes from hp.state.2.2.2.2.2.2.1] at this

/-- **C83** (what is declared). In front of a string or of binary data, `DirectLoader` sets aside the length which the four bytes behind
the type code declare, whatever follows. -/
theorem C83_declared {p : Parser} {bytes : Bytes} (hp : Opens p bytes) (hsz : Sized bytes) {h : History AttrValue} {s : Client} (hr : Runs Z ⟨p, none⟩ h s)
    (hn : h.calm) {a : Attrs} (ha : s.attrs = some a) (hrest : a.rest ≠ 0) (hrun : s.parser.health = .running) (hat : a.next = s.parser.reader.position)
    {c : UInt8} (hc : c = 82 ∨ c = 83) {n : Nat} (hlt : n < 2 ^ 32) {data : Bytes} (hb : s.parser.reader.rest = c :: (le 4 n ++ data)) (b : Bool) :
    s.setsAside Z (.load b directLoader) = n := by
  obtain ⟨hi, hL⟩ := open_inv hp hsz
  refine aside_declared (hr.inv hL hi hn) hL ha hrest hrun hat hc hlt hb b

/-! ## The bound is reached -/

/-- The beginning of a file of 46 bytes: a node `A` with one attribute, a string of `n` bytes, none of which are there. -/
def exPromise (n : Nat) : Bytes := [46, 0, 0, 0, 1, 0, 0, 0, 5, 0, 0, 0, 1, 65, 83] ++ le 4 n

/-- Enters the first node and loads its first attribute. -/
def exTrusting : Routine AttrValue := .ofCalls [.next, .load false directLoader]

theorem exPromise_from (n : Nat) (checks : Bool) (m : Skipping) (e : Ending) :
    (bodyStart 7400 e (exPromise n)).nextFrom m e checks = (.starts "A" 1, none, ⟨4, [⟨27, 46, 1, 46, "A", 0⟩], 1, 41, 83 :: le 4 n, e.error⟩) := by
  have hw : (bodyStart 7400 e (exPromise n)) = ⟨4, [], 0, 27, exPromise n, e.error⟩ := rfl
  have hh : headerAt 4 (exPromise n) = ⟨46, 1, 5, 1⟩ := by rfl
  have hl : (exPromise n).length = 19 := by simp [exPromise, le]
  have hn : stringOfUtf8 [65] = some "A" := by decide +kernel
  have hsk : (⟨4, [], 0, 27, exPromise n, e.error⟩ : Ahead).skip m e 0 = (none, ⟨4, [], 0, 27, exPromise n, e.error⟩) := by
    cases m <;> simp [Ahead.skip, Ahead.move]
  rw [hw]
  simp only [Ahead.nextFrom, Ahead.unread, hsk]
  simp only [Ahead.resume, Ahead.header, hl, hh]
  rw [if_neg (by decide), if_neg (by decide)]
  simp only [Ahead.start, hh, Ahead.move]
  have ht : ((exPromise n).drop (3 * 4 + 1)).take 1 = [65] := by rfl
  rw [ht, hn]
  have hl2 : ¬ ((exPromise n).drop (3 * 4 + 1)).length < 1 := by rw [List.length_drop, hl]; decide
  rw [if_neg hl2]
  simp only
  rw [if_neg (by omega)]
  rfl

/-- **C83** (the bound is reached; a defect). For every `n` below 4 GiB there is a file of 46 bytes for which `DirectLoader` sets aside `n`
bytes: `anyParser` opens it, from any source, the first event is the start of a node, and so much is set aside for its attribute. -/
theorem C83_reached (Z : Zlib) {n : Nat} (hlt : n < 2 ^ 32) (checks seekable : Bool) (ending : Option IoErr) (cursor limit : Nat) :
    ∃ file p, file.length = 46 ∧ anyParser checks seekable file ending cursor limit = .ok p ∧ exTrusting.direct ∧
      exTrusting.setsAside Z ⟨p, none⟩ = [0, n] := by
  have hpl : (exPromise n).length = 19 := by simp [exPromise, le]
  have hfl : (signature ++ [0xe8, 0x1c, 0, 0] ++ exPromise n).length = 46 := by
    rw [List.length_append, hpl]; rfl
  obtain ⟨p, h1, h2, h3, -⟩ := open_file (checks := checks) (seekable := seekable) (ending := ending) (cursor := cursor) (limit := limit)
    (bytes := signature ++ [0xe8, 0x1c, 0, 0] ++ exPromise n) (v := 7400) (by rw [hfl]; decide) rfl (by decide) (by unfold supported; decide)
  refine ⟨_, p, hfl, h1, ?_, ?_⟩
  · refine ⟨fun b l h => ?_, fun _ _ => ⟨fun b l h => ?_, fun _ _ => trivial⟩⟩
    · cases h
    · cases h; rfl
  have ho : Opens p (exPromise n) := ⟨_, _, _, _, _, _, h2⟩
  obtain ⟨hi, hL⟩ := open_inv ho h3
  obtain ⟨hs, hf⟩ := begin_stands h2
  obtain ⟨o, t, k1, k2, k3⟩ := next_stands (Z := Z) (α := AttrValue) hL hi hf hs (fun _ n outer h => by
    rw [show (⟨p, none⟩ : Client).parser.started = [] from ho.state.2.1] at h; cases h)
  have hx := exPromise_from n checks (skippingOf seekable (cursor + 27) limit) ending
  have hm : ((Standing.begin ⟨7400, checks, skippingOf seekable (cursor + 27) limit, ending⟩ (exPromise n)).next
      ⟨7400, checks, skippingOf seekable (cursor + 27) limit, ending⟩ : Outcome AttrValue × Standing) =
      (.event (.startNode "A" 1), ⟨⟨4, [⟨27, 46, 1, 46, "A", 0⟩], 1, 41, 83 :: le 4 n, Ending.error ending⟩, .running, true, none, [], some ⟨1, 1, 41⟩⟩) := by
    simp only [Standing.next, Standing.begin, hx, objection]
    rfl
  rw [hm] at k2 k3
  simp only at k2 k3
  subst k2
  have hst := k3 (by simp)
  have hit : CInv (headerLen + (exPromise n).length) t := (Runs.snoc .nil (fun _ _ h => by cases h) k1).inv hL hi (fun c' x' hm => by
    simp only [List.nil_append, List.mem_singleton] at hm
    cases (Prod.mk.inj hm).2)
  have hn := aside_declared (Z := Z) (data := []) (c := 83) (a := ⟨1, 1, 41⟩) hit hL (hst.attrs hst.health) (by decide) hst.health
    (congrArg Ahead.pos hst.look).symm (.inr rfl) hlt (by rw [List.append_nil]; exact congrArg Ahead.bytes hst.look) false
  have hl : ∃ o' t', t.call Z (.load false directLoader) = some (o', t') := by
    rcases load_stands (Z := Z) (f := settingOf t.parser) hL hit ⟨rfl, rfl, rfl, rfl⟩ t.stands false directLoader with ⟨-, h⟩ | ⟨o', t', -, h, -⟩
    · have : t.standing.attrs = some ⟨1, 1, 41⟩ := hst.attrs hst.health
      simp only [Standing.load, this] at h
      cases h
    · exact ⟨o', t', h⟩
  obtain ⟨o', t', hl⟩ := hl
  have h0 : (⟨p, none⟩ : Client).setsAside Z (.next : Call AttrValue) = 0 := rfl
  simp only [exTrusting, Routine.ofCalls, Routine.setsAside, k1, hl, hn, h0]
  cases o' <;> rfl

/-! ## Examples -/

/-- Loads the attribute of the node, tries to load one more, and leaves the node. -/
def exSaving : Routine AttrValue := .ofCalls [.next, .load false directLoader, .load true directLoader, .skip]

/-- The data of the string is there: three bytes. -/
def exKept : Bytes := [49, 0, 0, 0, 1, 0, 0, 0, 8, 0, 0, 0, 1, 65, 83, 3, 0, 0, 0, 120, 121, 122]

example : Sized exKept ∧ exSaving.Uses Thorough := by
  refine ⟨by unfold Sized headerLen; decide, ?_⟩
  have h : ∀ (c : Call AttrValue), c ∈ [.next, .load false directLoader, .load true directLoader, .skip] → ∀ b l, c = .load b l → Thorough l := by
    intro c hc b l h
    subst h
    simp at hc
    rcases hc with hc | hc <;> rw [hc.2] <;> exact C83_thorough.1
  exact ⟨h _ (by simp), fun _ _ => ⟨h _ (by simp), fun _ _ => ⟨h _ (by simp), fun _ _ => ⟨h _ (by simp), fun _ _ => trivial⟩⟩⟩⟩

/-- Three bytes are set aside for it; nothing when there are no more attributes. -/
example : (match Parser.create true 7400 ⟨exKept, none, 27, 27, true, 2 ^ 64⟩ with
    | .ok p => some (exSaving.setsAside Zlib.stored ⟨p, none⟩)
    | .error _ => none) = some [0, 3, 0, 0] := by decide +kernel

/-- As much as can be declared: almost 4 GiB, for a file of 46 bytes. -/
example := C83_reached Zlib.stored (n := 2 ^ 32 - 1) (by decide) true true none 0 (2 ^ 64)

end Fbx
