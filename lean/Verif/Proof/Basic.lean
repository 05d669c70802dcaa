import Verif.Model.Error

/-! # Basic lemmas: byte strings, little-endian numbers, UTF-8 -/

namespace Fbx

@[simp] theorem leBytes_length (k n : Nat) : (leBytes k n).length = k := by
  induction k generalizing n with
  | zero => rfl
  | succ k ih => simp [leBytes, ih]

theorem fromLe_lt (bs : Bytes) : fromLe bs < 256 ^ bs.length := by
  induction bs with
  | nil => simp [fromLe]
  | cons b bs ih =>
    have hb : b.toNat < 256 := b.toNat_lt
    simp only [fromLe, List.length_cons, Nat.pow_succ]
    omega

theorem fromLe_leBytes_mod (k n : Nat) : fromLe (leBytes k n) = n % 256 ^ k := by
  induction k generalizing n with
  | zero => simp [leBytes, fromLe, Nat.mod_one]
  | succ k ih =>
    simp only [leBytes, fromLe, ih, UInt8.toNat_ofNat']
    rw [Nat.pow_succ 256 k, Nat.mul_comm (256 ^ k) 256, Nat.mod_mul]

theorem fromLe_leBytes {k n : Nat} (h : n < 256 ^ k) : fromLe (leBytes k n) = n := by
  rw [fromLe_leBytes_mod, Nat.mod_eq_of_lt h]

theorem leBytes_fromLe (bs : Bytes) : leBytes bs.length (fromLe bs) = bs := by
  induction bs with
  | nil => rfl
  | cons b bs ih =>
    have hb : b.toNat < 256 := b.toNat_lt
    simp only [List.length_cons, leBytes, fromLe]
    congr 1
    · apply UInt8.toNat_inj.mp
      rw [UInt8.toNat_ofNat']
      omega
    · rw [show (b.toNat + 256 * fromLe bs) / 256 = fromLe bs by omega, ih]

theorem leBytes_inj {k m n : Nat} (hm : m < 256 ^ k) (hn : n < 256 ^ k)
    (h : leBytes k m = leBytes k n) : m = n := by
  rw [← fromLe_leBytes hm, ← fromLe_leBytes hn, h]

@[simp] theorem zeros_length (k : Nat) : (zeros k).length = k := by simp [zeros]

theorem leBytes_zero (k : Nat) : leBytes k 0 = zeros k := by
  induction k with
  | zero => rfl
  | succ k ih => simp only [leBytes, Nat.zero_div, ih, zeros, List.replicate_succ]; rfl

theorem stringOfUtf8_strBytes (s : String) : stringOfUtf8 (strBytes s) = some s := by
  simp only [stringOfUtf8, strBytes, String.fromUTF8?]
  simp [s.isValidUTF8]
  rfl

theorem strBytes_of_stringOfUtf8 {bs : Bytes} {s : String} (h : stringOfUtf8 bs = some s) :
    strBytes s = bs := by
  simp only [stringOfUtf8, String.fromUTF8?] at h
  split at h
  · simp only [Option.some.injEq] at h
    subst h
    rfl
  · simp at h

theorem strBytes_inj {s t : String} (h : strBytes s = strBytes t) : s = t := by
  have := stringOfUtf8_strBytes s
  rw [h, stringOfUtf8_strBytes] at this
  exact (Option.some.inj this).symm

theorem strBytes_eq_nil {s : String} : strBytes s = [] ↔ s = "" := by
  constructor
  · intro h
    exact strBytes_inj h
  · rintro rfl; rfl

end Fbx
