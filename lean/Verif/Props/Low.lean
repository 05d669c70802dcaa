import Verif.Spec.Low
import Verif.Proof.Basic
import Verif.Model.Writer
import Verif.Model.Parser

/-! # Properties C01–C05: headers, versions, type codes, values -/

namespace Fbx

open Spec

/-! ## C01 Header recognition is exact -/

theorem magic_eq_signature : magic = signature := by decide

theorem readExact_ok {n : Nat} {r : Reader} (h : n ≤ r.rest.length) (hp : r.position + n < u64Size) :
    Reader.readExact n r = (.ok (r.rest.take n), r.consume n) := by
  simp [Reader.readExact, h, hp]

theorem readExact_short {n : Nat} {r : Reader} (h : r.rest.length < n)
    (hp : r.position + r.rest.length < u64Size) :
    Reader.readExact n r = (.err (r.ending.getD .unexpectedEof), r.consume r.rest.length) := by
  simp [Reader.readExact, Nat.not_le.mpr h, hp]

theorem list4 {l : Bytes} (h : l.length = 4) : ∃ a b c d, l = [a, b, c, d] := by
  match l, h with
  | [a, b, c, d], _ => exact ⟨a, b, c, d, rfl⟩

theorem fromLe4 (a b c d : UInt8) : fromLe [a, b, c, d] = le32 a b c d := by
  simp only [fromLe, le32]; omega

theorem le32_lt (a b c d : UInt8) : le32 a b c d < 2 ^ 32 := by
  have := a.toNat_lt; have := b.toNat_lt; have := c.toNat_lt; have := d.toNat_lt
  simp only [le32]; omega

/-- Loading succeeds exactly on the signature followed by four bytes, which are the version in
little-endian order; then exactly 27 bytes have been consumed. -/
theorem C01_header_ok_iff (r : Reader) (hp : r.position + r.rest.length < 2 ^ 64) (v : FbxVersion)
    (r' : Reader) :
    loadHeader r = (.ok v, r') ↔
      ∃ a b c d tail, r.rest = signature ++ [a, b, c, d] ++ tail ∧ v.toNat = le32 a b c d ∧
        r' = { r with rest := tail, cursor := r.cursor + 27, position := r.position + 27 } := by
  have hp' : r.position + r.rest.length < u64Size := hp
  have hu : u64Size = 2 ^ 64 := rfl
  have hm : signature.length = 23 := by decide
  simp only [loadHeader, M.bind_apply, M.mapErr_apply, magic_eq_signature]
  by_cases h23 : 23 ≤ r.rest.length
  · rw [readExact_ok h23 (by omega)]
    simp only [M.ite_apply, M.throw_apply, M.bind_apply, M.mapErr_apply]
    by_cases hmag : r.rest.take 23 = signature
    · simp only [hmag, ne_eq, not_true_eq_false, ite_false]
      by_cases h27 : 27 ≤ r.rest.length
      · rw [readExact_ok (by simp [Reader.consume]; omega) (by simp [Reader.consume]; omega)]
        obtain ⟨a, b, c, d, habcd⟩ := list4 (l := (r.rest.drop 23).take 4) (by simp; omega)
        have hdec : r.rest = signature ++ [a, b, c, d] ++ r.rest.drop 27 := by
          rw [← habcd, ← hmag, List.append_assoc]
          rw [show r.rest.drop 27 = (r.rest.drop 23).drop 4 by simp [List.drop_drop]]
          rw [List.take_append_drop, List.take_append_drop]
        simp only [Reader.consume, habcd, fromLe4, M.pure_apply, Prod.mk.injEq, Res.ok.injEq, List.drop_drop]
        constructor
        · rintro ⟨rfl, rfl⟩
          refine ⟨a, b, c, d, r.rest.drop 27, hdec, ?_, ?_⟩
          · rw [UInt32.toNat_ofNat', Nat.mod_eq_of_lt (le32_lt a b c d)]
          · simp
        · rintro ⟨a', b', c', d', tail, hr, hv, rfl⟩
          rw [hr] at habcd
          simp only [List.append_assoc, List.drop_append, hm] at habcd
          simp only [List.drop_eq_nil_of_le (show signature.length ≤ 23 by omega)] at habcd
          simp at habcd
          obtain ⟨rfl, rfl, rfl, rfl⟩ := habcd
          refine ⟨?_, ?_⟩
          · rw [← hv, UInt32.ofNat_toNat]
          · rw [show (27 : Nat) = 23 + 4 from rfl, hr, List.append_assoc, ← List.drop_drop]
            rw [List.drop_append_of_le_length (by omega), List.drop_eq_nil_of_le (as := signature) (by omega)]
            simp
      · rw [readExact_short (by simp [Reader.consume]; omega) (by simp [Reader.consume]; omega)]
        simp only [Prod.mk.injEq, reduceCtorEq, false_and, false_iff, not_exists, not_and]
        rintro a b c d tail hr
        rw [hr] at h27
        simp [hm] at h27
        omega
    · simp only [ne_eq, hmag, not_false_eq_true, ite_true, Prod.mk.injEq, reduceCtorEq, false_and, false_iff,
        not_exists, not_and]
      rintro a b c d tail hr
      exact absurd (by rw [hr, List.append_assoc, List.take_append_of_le_length (by omega), ← hm, List.take_length]) hmag
  · rw [readExact_short (by omega) (by omega)]
    simp only [Prod.mk.injEq, reduceCtorEq, false_and, false_iff, not_exists, not_and]
    rintro a b c d tail hr
    rw [hr] at h23
    simp [hm] at h23

/-- A source of at least 23 bytes that does not start with the signature gives `MagicNotDetected`, after
consuming exactly 23 bytes. -/
theorem C01_header_mismatch (r : Reader) (hp : r.position + r.rest.length < 2 ^ 64)
    (h : 23 ≤ r.rest.length) (hne : r.rest.take 23 ≠ signature) :
    loadHeader r = (.err .magicNotDetected,
      { r with rest := r.rest.drop 23, cursor := r.cursor + 23, position := r.position + 23 }) := by
  have hp' : r.position + r.rest.length < u64Size := hp
  have hu : u64Size = 2 ^ 64 := rfl
  simp only [loadHeader, M.bind_apply, M.mapErr_apply, magic_eq_signature]
  rw [readExact_ok h (by omega)]
  simp [hne, Reader.consume]

/-- A source too short to hold a header (or failing before its end) gives its I/O error. -/
theorem C01_header_short (r : Reader) (hp : r.position + r.rest.length < 2 ^ 64)
    (h : r.rest.length < 23 ∨ (r.rest.take 23 = signature ∧ r.rest.length < 27)) :
    (loadHeader r).1 = .err (.io (r.ending.getD .unexpectedEof)) := by
  have hp' : r.position + r.rest.length < u64Size := hp
  have hu : u64Size = 2 ^ 64 := rfl
  simp only [loadHeader, M.bind_apply, M.mapErr_apply, magic_eq_signature]
  by_cases h23 : r.rest.length < 23
  · rw [readExact_short h23 (by omega)]
  · have h' : r.rest.take 23 = signature ∧ r.rest.length < 27 := h.resolve_left h23
    rw [readExact_ok (by omega) (by omega)]
    simp only [h'.1, ne_eq, not_true_eq_false, ite_false, M.bind_apply, M.mapErr_apply]
    rw [readExact_short (by simp [Reader.consume]; omega) (by simp [Reader.consume]; omega)]
    rfl

/-- Non-vacuity: a 7.4 header followed by two bytes. -/
example : ((loadHeader (Reader.new (signature ++ [0xe8, 0x1c, 0, 0, 1, 2]) none 0 0 100)).1,
    (loadHeader (Reader.new (signature ++ [0xe8, 0x1c, 0, 0, 1, 2]) none 0 0 100)).2.rest) =
      (.ok 7400, [1, 2]) := by decide

/-! ## C02 Reader and writer accept the same FBX versions -/

theorem fromFbxVersion_iff (v : FbxVersion) :
    ParserVersion.fromFbxVersion v = some .v7400 ↔ supported v.toNat := by
  simp only [ParserVersion.fromFbxVersion, UInt32.le_iff_toNat_le, supported]
  split <;> simp_all

theorem major_iff (v : FbxVersion) : v.major = 7 ↔ supported v.toNat := by
  simp only [FbxVersion.major, ← UInt32.toNat_inj, UInt32.toNat_div, supported]
  have h1 : (1000 : UInt32).toNat = 1000 := rfl
  have h2 : (7 : UInt32).toNat = 7 := rfl
  rw [h1, h2]
  omega

/-- The parser can be created exactly for the supported versions. -/
theorem C02_parser_versions (checks : Bool) (v : FbxVersion) (r : Reader) :
    (∃ p, Parser.create checks v r = .ok p) ↔ 7000 ≤ v.toNat ∧ v.toNat ≤ 7999 := by
  have h := fromFbxVersion_iff v
  simp only [Parser.create]
  split
  · rename_i hne
    simp only [reduceCtorEq, exists_false, false_iff]
    intro hs; exact hne (h.mpr hs)
  · rename_i heq
    simp only [ne_eq, Decidable.not_not] at heq
    simpa [supported] using h.mp heq

/-- `Writer::new` on a sink that does not fail accepts exactly the same versions … -/
theorem C02_writer_versions (s : Sink) (hs : ∀ i, s.fault i = none) (v : FbxVersion) :
    (∃ w, (Writer.new s v).1 = .ok w) ↔ 7000 ≤ v.toNat ∧ v.toNat ≤ 7999 := by
  have h := major_iff v
  simp only [Writer.new]
  split
  · rename_i hne
    simp only [reduceCtorEq, exists_false, false_iff]
    intro hs; exact hne (h.mpr hs)
  · rename_i heq
    simp only [ne_eq, Decidable.not_not] at heq
    have hv : leBytes 4 v.toNat ≠ [] := by
      intro h0; have := congrArg List.length h0; simp at this
    have hm : magic.length = 23 := rfl
    have hm0 : magic ≠ [] := by decide
    constructor
    · intro _; exact h.mp heq
    · intro _
      simp [M.mapErr_apply, Sink.seek, Sink.writeAll, Sink.later, hs, hv, hm, hm0]

/-- … and otherwise reports the version and does not touch the sink, whatever the sink. -/
theorem C02_writer_unsupported (s : Sink) (v : FbxVersion) (h : v.toNat < 7000 ∨ 7999 < v.toNat) :
    Writer.new s v = (.err (.unsupportedFbxVersion v), s) := by
  have hm : v.major ≠ 7 := by
    intro hc
    have := (major_iff v).mp hc
    simp only [supported] at this
    omega
  simp [Writer.new, hm]

/-- `AnyParser` creation never panics: on every source it returns a parser of the file's version, the
header error, or `UnsupportedVersion`. -/
theorem C02_any_parser (checks seekable : Bool) (bytes : Bytes) (ending : Option IoErr)
    (cursor seekLimit : Nat) (hlen : bytes.length < 2 ^ 64) :
    (∃ e, anyParser checks seekable bytes ending cursor seekLimit = .err (.header e)) ∨
    (∃ v, ¬ (7000 ≤ v.toNat ∧ v.toNat ≤ 7999) ∧
      anyParser checks seekable bytes ending cursor seekLimit = .err (.unsupportedVersion v)) ∨
    (∃ p, 7000 ≤ p.version.toNat ∧ p.version.toNat ≤ 7999 ∧
      anyParser checks seekable bytes ending cursor seekLimit = .ok p) := by
  simp only [anyParser]
  generalize hr : ({ rest := bytes, ending, cursor, position := 0, seekable, seekLimit } : Reader) = r
  have hlen' : r.position + r.rest.length < u64Size := by subst hr; simpa [u64Size] using hlen
  have hnp : ∀ x, (loadHeader r).1 ≠ .panic x := by
    intro x
    simp only [loadHeader, M.bind_apply, M.mapErr_apply]
    by_cases h23 : 23 ≤ r.rest.length
    · rw [readExact_ok h23 (by omega)]
      simp only [M.ite_apply, M.throw_apply, M.bind_apply, M.mapErr_apply]
      split
      · simp
      · by_cases h27 : 27 ≤ r.rest.length
        · rw [readExact_ok (by simp [Reader.consume]; omega) (by simp [Reader.consume]; omega)]
          simp
        · rw [readExact_short (by simp [Reader.consume]; omega) (by simp [Reader.consume]; omega)]
          simp
    · rw [readExact_short (by omega) (by omega)]
      simp
  generalize hl : loadHeader r = l at hnp
  obtain ⟨x, r'⟩ := l
  cases x with
  | panic x => exact absurd rfl (hnp x)
  | err e => exact .inl ⟨e, rfl⟩
  | ok v =>
    right
    simp only
    have hv := fromFbxVersion_iff v
    cases hpv : ParserVersion.fromFbxVersion v with
    | none =>
      left
      refine ⟨v, ?_, rfl⟩
      intro hs
      have := hv.mpr hs
      rw [hpv] at this
      simp at this
    | some pv =>
      cases pv
      right
      have hs := hv.mp hpv
      simp [Parser.create, hpv]
      exact hs

example : ∃ w, (Writer.new ⟨[1, 2, 3], 2, fun _ => none⟩ 7400).1 = .ok w ∧
    w.sink.buf = signature ++ [0xe8, 0x1c, 0, 0] := by
  exact ⟨_, rfl, by decide⟩

/-! ## C03 Type codes -/

/-- Decoding inverts encoding. -/
theorem C03_type_code_roundtrip (t : AttrType) : AttrType.fromTypeCode t.typeCode = some t := by
  cases t <;> decide

/-- A byte decodes to a type iff it is that type's documented character. -/
theorem C03_type_code_iff (b : UInt8) (t : AttrType) :
    AttrType.fromTypeCode b = some t ↔ (t, Char.ofNat b.toNat) ∈ typeChars := by
  have key : ∀ n : Fin 256, ∀ t ∈ typeChars.map Prod.fst,
      (AttrType.fromTypeCode (UInt8.ofNat n.val) = some t ↔ (t, Char.ofNat n.val) ∈ typeChars) := by
    decide +kernel
  have ht : t ∈ typeChars.map Prod.fst := by cases t <;> decide
  have := key ⟨b.toNat, b.toNat_lt⟩ t ht
  simpa using this

/-- Distinct types have distinct codes. -/
theorem C03_type_code_injective (t u : AttrType) (h : t.typeCode = u.typeCode) : t = u := by
  have := C03_type_code_roundtrip t
  rw [h, C03_type_code_roundtrip] at this
  exact (Option.some.inj this).symm

/-- Array encodings: `0` is direct, `1` is zlib, nothing else is accepted. -/
theorem C03_encoding (n : Nat) (e : ArrEnc) :
    ArrEnc.fromU32 n = some e ↔ (n = 0 ∧ e = .direct) ∨ (n = 1 ∧ e = .zlib) := by
  simp only [ArrEnc.fromU32]
  by_cases h0 : n = 0
  · subst h0; simp [eq_comm]
  · by_cases h1 : n = 1
    · subst h1; simp [eq_comm]
    · simp [h0, h1]

theorem C03_encoding_roundtrip (e : ArrEnc) : ArrEnc.fromU32 e.toU32 = some e := by
  cases e <;> rfl

example : AttrType.fromTypeCode 0x43 = some .bool ∧ AttrType.fromTypeCode 0x00 = none := by decide

/-! ## C04 `strict_eq` -/

theorem iterEq_iff {α : Type} [DecidableEq α] (l r : List α) : AttrValue.iterEq l r = true ↔ l = r := by
  induction l generalizing r with
  | nil => cases r <;> simp [AttrValue.iterEq]
  | cons a as ih =>
    cases r with
    | nil => simp [AttrValue.iterEq]
    | cons b bs =>
      simp only [AttrValue.iterEq]
      split <;> simp_all

/-- `strict_eq` is equality of variant and bits. -/
theorem C04_strict_eq_iff (a b : AttrValue) : a.strictEq b = true ↔ a = b := by
  cases a <;> cases b <;> simp [AttrValue.strictEq, iterEq_iff]

/-- Hence it is an equivalence relation (stated explicitly). -/
theorem C04_strict_eq_equivalence :
    (∀ a : AttrValue, a.strictEq a = true) ∧
    (∀ a b : AttrValue, a.strictEq b = true → b.strictEq a = true) ∧
    (∀ a b c : AttrValue, a.strictEq b = true → b.strictEq c = true → a.strictEq c = true) := by
  simp only [C04_strict_eq_iff]
  exact ⟨fun _ => trivial, fun _ _ h => h.symm, fun _ _ _ h h' => h.trans h'⟩

/-- Bit patterns of NaNs (IEEE 754): exponent all ones, fraction not zero. -/
def nan32 (b : BitVec 32) : Prop := b.toNat / 2 ^ 23 % 2 ^ 8 = 2 ^ 8 - 1 ∧ b.toNat % 2 ^ 23 ≠ 0
/-- The same for `f64`. -/
def nan64 (b : BitVec 64) : Prop := b.toNat / 2 ^ 52 % 2 ^ 11 = 2 ^ 11 - 1 ∧ b.toNat % 2 ^ 52 ≠ 0

/-- Equality of floats (IEEE 754): neither is a NaN, and either the bits are equal or both are zeros. -/
def same32 (a b : BitVec 32) : Prop := ¬ nan32 a ∧ ¬ nan32 b ∧ (a = b ∨ a.toNat % 2 ^ 31 = 0 ∧ b.toNat % 2 ^ 31 = 0)
/-- The same for `f64`. -/
def same64 (a b : BitVec 64) : Prop := ¬ nan64 a ∧ ¬ nan64 b ∧ (a = b ∨ a.toNat % 2 ^ 63 = 0 ∧ b.toNat % 2 ^ 63 = 0)

/-- Equality of values: as strict equality, but floats are compared as floats. -/
def sameValue : AttrValue → AttrValue → Prop
  | .f32 a, .f32 b => same32 a b
  | .f64 a, .f64 b => same64 a b
  | .arrF32 a, .arrF32 b => a.length = b.length ∧ ∀ x ∈ List.zip a b, same32 x.1 x.2
  | .arrF64 a, .arrF64 b => a.length = b.length ∧ ∀ x ∈ List.zip a b, same64 x.1 x.2
  | a, b => a = b

/-- A value without floats that are NaN. -/
def noNaN : AttrValue → Prop
  | .f32 b => ¬ nan32 b
  | .f64 b => ¬ nan64 b
  | .arrF32 bs => ∀ b ∈ bs, ¬ nan32 b
  | .arrF64 bs => ∀ b ∈ bs, ¬ nan64 b
  | _ => True

theorem f32Eq_iff (a b : BitVec 32) : AttrValue.f32Eq a b = true ↔ same32 a b := by
  have hn : ∀ x : BitVec 32, (x &&& 0x7fffffff#32) > 0x7f800000#32 ↔ nan32 x := by
    intro x
    have : (x &&& 0x7fffffff#32).toNat = x.toNat % 2 ^ 31 := by
      rw [BitVec.toNat_and]
      exact Nat.and_two_pow_sub_one_eq_mod x.toNat 31
    simp only [GT.gt, BitVec.lt_def, this, nan32]
    have := x.isLt
    constructor
    · intro h
      have h' : 0x7f800000 < x.toNat % 2 ^ 31 := h
      omega
    · intro h
      show 0x7f800000 < x.toNat % 2 ^ 31
      omega
  have hz : ∀ x : BitVec 32, (x &&& 0x7fffffff#32) = 0#32 ↔ x.toNat % 2 ^ 31 = 0 := by
    intro x
    rw [← BitVec.toNat_inj, BitVec.toNat_and]
    have := Nat.and_two_pow_sub_one_eq_mod x.toNat 31
    simp only [BitVec.toNat_ofNat] at *
    rw [show (2147483647 % 2 ^ 32) = 2 ^ 31 - 1 by decide, this]
  simp [AttrValue.f32Eq, same32, hn, hz]
  simp [← hn, and_assoc]

theorem f64Eq_iff (a b : BitVec 64) : AttrValue.f64Eq a b = true ↔ same64 a b := by
  have hn : ∀ x : BitVec 64, (x &&& 0x7fffffffffffffff#64) > 0x7ff0000000000000#64 ↔ nan64 x := by
    intro x
    have : (x &&& 0x7fffffffffffffff#64).toNat = x.toNat % 2 ^ 63 := by
      rw [BitVec.toNat_and]
      exact Nat.and_two_pow_sub_one_eq_mod x.toNat 63
    simp only [GT.gt, BitVec.lt_def, this, nan64]
    have := x.isLt
    constructor
    · intro h
      have h' : 0x7ff0000000000000 < x.toNat % 2 ^ 63 := h
      omega
    · intro h
      show 0x7ff0000000000000 < x.toNat % 2 ^ 63
      omega
  have hz : ∀ x : BitVec 64, (x &&& 0x7fffffffffffffff#64) = 0#64 ↔ x.toNat % 2 ^ 63 = 0 := by
    intro x
    rw [← BitVec.toNat_inj, BitVec.toNat_and]
    have := Nat.and_two_pow_sub_one_eq_mod x.toNat 63
    simp only [BitVec.toNat_ofNat] at *
    rw [show (9223372036854775807 % 2 ^ 64) = 2 ^ 63 - 1 by decide, this]
  simp [AttrValue.f64Eq, same64, hn, hz]
  simp [← hn, and_assoc]

theorem sliceEq_iff {α : Type} (eq : α → α → Bool) (l r : List α) :
    AttrValue.sliceEq eq l r = true ↔ l.length = r.length ∧ ∀ x ∈ List.zip l r, eq x.1 x.2 = true := by
  induction l generalizing r with
  | nil => cases r <;> simp [AttrValue.sliceEq]
  | cons x xs ih => cases r with
    | nil => simp [AttrValue.sliceEq]
    | cons y ys =>
      simp only [AttrValue.sliceEq, Bool.and_eq_true, ih, List.length_cons, List.zip_cons_cons, List.mem_cons, forall_eq_or_imp, Nat.add_right_cancel_iff]
      constructor
      · rintro ⟨h1, h2, h3⟩; exact ⟨h2, h1, h3⟩
      · rintro ⟨h1, h2, h3⟩; exact ⟨h2, h1, h3⟩

/-- `==` compares the variants and the contents, floats as IEEE 754 prescribes. -/
theorem C04_eq_iff (a b : AttrValue) : a.eq b = true ↔ sameValue a b := by
  cases a <;> cases b <;> simp [AttrValue.eq, sameValue, sliceEq_iff, f32Eq_iff, f64Eq_iff]

theorem zip_self {α : Type} (l : List α) (P : α → α → Prop) : (∀ x ∈ List.zip l l, P x.1 x.2) ↔ ∀ x ∈ l, P x x := by
  induction l with
  | nil => simp
  | cons x xs ih => simp only [List.zip_cons_cons, List.mem_cons, forall_eq_or_imp, ih]

/-- Strictly equal values are `==` exactly if they contain no NaN. -/
theorem C04_strict_eq_implies_eq (a b : AttrValue) (h : a.strictEq b = true) :
    a.eq b = true ↔ noNaN a := by
  rw [C04_strict_eq_iff] at h
  subst h
  rw [C04_eq_iff]
  cases a <;> simp only [sameValue, noNaN, zip_self _ same32, zip_self _ same64, true_and] <;> simp [same32, same64]

/-- NaN: strictly equal to itself, not `==`; the zeros: `==` but not strictly equal. -/
example : (AttrValue.f32 0x7fc00000#32).strictEq (.f32 0x7fc00000#32) = true ∧
    (AttrValue.f32 0x7fc00000#32).eq (.f32 0x7fc00000#32) = false ∧
    (AttrValue.f32 0x80000000#32).eq (.f32 0#32) = true ∧
    (AttrValue.f32 0x80000000#32).strictEq (.f32 0#32) = false := by decide

/-! ## C05 Getters -/

/-- `get_X` returns `Some(v)` iff the value is of variant `X` with content `v`. -/
theorem C05_getters (a : AttrValue) :
    (∀ v, a.getBool = some v ↔ a = .bool v) ∧ (∀ v, a.getI16 = some v ↔ a = .i16 v) ∧
    (∀ v, a.getI32 = some v ↔ a = .i32 v) ∧ (∀ v, a.getI64 = some v ↔ a = .i64 v) ∧
    (∀ v, a.getF32 = some v ↔ a = .f32 v) ∧ (∀ v, a.getF64 = some v ↔ a = .f64 v) ∧
    (∀ v, a.getArrBool = some v ↔ a = .arrBool v) ∧ (∀ v, a.getArrI32 = some v ↔ a = .arrI32 v) ∧
    (∀ v, a.getArrI64 = some v ↔ a = .arrI64 v) ∧ (∀ v, a.getArrF32 = some v ↔ a = .arrF32 v) ∧
    (∀ v, a.getArrF64 = some v ↔ a = .arrF64 v) ∧ (∀ v, a.getString = some v ↔ a = .string v) ∧
    (∀ v, a.getBinary = some v ↔ a = .binary v) := by
  cases a <;> simp [AttrValue.getBool, AttrValue.getI16, AttrValue.getI32, AttrValue.getI64,
    AttrValue.getF32, AttrValue.getF64, AttrValue.getArrBool, AttrValue.getArrI32, AttrValue.getArrI64,
    AttrValue.getArrF32, AttrValue.getArrF64, AttrValue.getString, AttrValue.getBinary]

/-- The result `get_X_or_type` must have: the value if `get_X` has one, else the actual type. -/
def orType {α : Type} (g : Option α) (t : AttrType) : Except AttrType α :=
  match g with
  | some v => .ok v
  | none => .error t

theorem C05_getters_or_type (a : AttrValue) :
    a.getBoolOrType = orType a.getBool a.type_ ∧ a.getI16OrType = orType a.getI16 a.type_ ∧
    a.getI32OrType = orType a.getI32 a.type_ ∧ a.getI64OrType = orType a.getI64 a.type_ ∧
    a.getF32OrType = orType a.getF32 a.type_ ∧ a.getF64OrType = orType a.getF64 a.type_ ∧
    a.getArrBoolOrType = orType a.getArrBool a.type_ ∧ a.getArrI32OrType = orType a.getArrI32 a.type_ ∧
    a.getArrI64OrType = orType a.getArrI64 a.type_ ∧ a.getArrF32OrType = orType a.getArrF32 a.type_ ∧
    a.getArrF64OrType = orType a.getArrF64 a.type_ ∧ a.getStringOrType = orType a.getString a.type_ ∧
    a.getBinaryOrType = orType a.getBinary a.type_ := by
  cases a <;> exact ⟨rfl, rfl, rfl, rfl, rfl, rfl, rfl, rfl, rfl, rfl, rfl, rfl, rfl⟩

/-- The reported type is the one whose variant the value has. -/
theorem C05_type (a : AttrValue) :
    (a.type_ = .bool ↔ ∃ v, a = .bool v) ∧ (a.type_ = .i16 ↔ ∃ v, a = .i16 v) ∧
    (a.type_ = .i32 ↔ ∃ v, a = .i32 v) ∧ (a.type_ = .i64 ↔ ∃ v, a = .i64 v) ∧
    (a.type_ = .f32 ↔ ∃ v, a = .f32 v) ∧ (a.type_ = .f64 ↔ ∃ v, a = .f64 v) ∧
    (a.type_ = .arrBool ↔ ∃ v, a = .arrBool v) ∧ (a.type_ = .arrI32 ↔ ∃ v, a = .arrI32 v) ∧
    (a.type_ = .arrI64 ↔ ∃ v, a = .arrI64 v) ∧ (a.type_ = .arrF32 ↔ ∃ v, a = .arrF32 v) ∧
    (a.type_ = .arrF64 ↔ ∃ v, a = .arrF64 v) ∧ (a.type_ = .string ↔ ∃ v, a = .string v) ∧
    (a.type_ = .binary ↔ ∃ v, a = .binary v) := by
  cases a <;> simp [AttrValue.type_]

example : (AttrValue.i32 5).getI32 = some 5 ∧ (AttrValue.i32 5).getI64 = none := by decide

end Fbx
