import Verif.Proof.Inflate

/-! # A stream which expands by 1032 -/

namespace Fbx.Spec

theorem eight_bits : ∀ a b c d e f g h : Bool, ∃ x : Byte, byteBits x = [a, b, c, d, e, f, g, h] := by
  intro a b c d e f g h
  refine ⟨UInt8.ofNat (a.toNat + 2 * b.toNat + 4 * c.toNat + 8 * d.toNat + 16 * e.toNat + 32 * f.toNat + 64 * g.toNat + 128 * h.toNat), ?_⟩
  cases a <;> cases b <;> cases c <;> cases d <;> cases e <;> cases f <;> cases g <;> cases h <;> decide +kernel

theorem bits_bytes : ∀ (n : Nat) (l : List Bool), l.length = 8 * n → ∃ bs : Bytes, bs.flatMap byteBits = l ∧ bs.length = n
  | 0, l, h => ⟨[], by cases l with | nil => rfl | cons => simp at h, rfl⟩
  | n + 1, l, h => by
    match l, h with
    | a :: b :: c :: d :: e :: f :: g :: i :: l, h =>
      obtain ⟨x, hx⟩ := eight_bits a b c d e f g i
      obtain ⟨bs, h1, h2⟩ := bits_bytes n l (by simp only [List.length_cons] at h; omega)
      exact ⟨x :: bs, by rw [List.flatMap_cons, hx, h1]; rfl, by rw [List.length_cons, h2]⟩

theorem copied_zeros : ∀ (k n : Nat), copied 1 k (List.replicate (n + 1) 0) = List.replicate (n + 1 + k) 0
  | 0, n => rfl
  | k + 1, n => by
    unfold copied
    have : List.replicate (n + 1) (0 : Byte) ++ [(List.replicate (n + 1) (0 : Byte)).getD ((List.replicate (n + 1) (0 : Byte)).length - 1) 0] = List.replicate (n + 1 + 1) 0 := by
      rw [List.replicate_succ' (n := n + 1)]
      simp
    rw [this, copied_zeros k (n + 1)]
    congr 1
    omega

theorem expands_zeros (len : Nat) : ∀ (k n : Nat), Expands (List.replicate (n + 1) 0) (List.replicate k (.copy len 1)) (List.replicate (n + 1 + len * k) 0)
  | 0, n => .nil
  | k + 1, n => by
    have h := expands_zeros len k (n + len)
    have hc := copied_zeros len n
    have e1 : n + 1 + len = n + len + 1 := by omega
    have e2 : n + 1 + len * (k + 1) = n + len + 1 + len * k := by rw [Nat.mul_succ]; omega
    rw [e1] at hc
    rw [← hc] at h
    rw [e2]
    exact .copy (by simp) h

/-- The codes of the stream: one bit for copies of 258 bytes and for the distance 1. -/
def reachLit : List Nat := [2] ++ List.replicate 255 0 ++ [2] ++ List.replicate 28 0 ++ [1]
def reachDist : List Nat := [1]
def reachGiven : List Nat := [0, 0, 1] ++ List.replicate 12 0 ++ [2, 0, 2]
def reachCl : List Nat := (List.range 19).map (fun i => reachGiven.getD (orderOfCodes.idxOf i) 0)

theorem coded_at {lens : List Nat} {i l c : Nat} (h : lens[i]? = some l ∧ 1 ≤ l ∧ l ≤ 15 ∧ c = firstCode lens l + ((lens.take i).filter (· = l)).length ∧ c < 2 ^ l) :
    Coded lens i (codeBits l c) := ⟨l, h.1, h.2.1, h.2.2.1, c, h.2.2.2.1, h.2.2.2.2, rfl⟩

theorem reach_codes : ∃ w, CodesBits reachLit reachDist w ∧ w.length = 100 := by
  have h18 : Coded reachCl 18 (codeBits 1 0) := coded_at (by decide +kernel)
  have h1 : Coded reachCl 1 (codeBits 2 2) := coded_at (by decide +kernel)
  have h2 : Coded reachCl 2 (codeBits 2 3) := coded_at (by decide +kernel)
  have hL : ∃ w, LengthsBits reachCl [] (reachLit ++ reachDist) w ∧ w.length = 32 := by
    have hn : LengthsBits reachCl (([] : List Nat) ++ [2] ++ List.replicate (11 + 127) 0 ++ List.replicate (11 + 106) 0 ++ [2] ++ List.replicate (11 + 17) 0 ++ [1] ++ [1])
        (reachLit ++ reachDist) [] := by
      have : ([] : List Nat) ++ [2] ++ List.replicate (11 + 127) 0 ++ List.replicate (11 + 106) 0 ++ [2] ++ List.replicate (11 + 17) 0 ++ [1] ++ [1] = reachLit ++ reachDist := by
        decide +kernel
      rw [this]
      exact .nil
    exact ⟨_, .length (l := 2) (by decide) h2 (.manyZeros (e := 127) (by decide) h18 (.manyZeros (e := 106) (by decide) h18 (.length (l := 2) (by decide) h2
      (.manyZeros (e := 17) (by decide) h18 (.length (l := 1) (by decide) h1 (.length (l := 1) (by decide) h1 hn)))))), by decide⟩
  obtain ⟨w, hw, hl⟩ := hL
  exact ⟨_, .mk (given := reachGiven) (by decide) (by decide) (by decide) (by decide +kernel) (by decide +kernel) (by decide) (by decide) hw, by
    simp only [List.length_append, hl]
    decide +kernel⟩

theorem reach_copies : ∀ k, ∃ w, TokensBits reachLit reachDist (List.replicate k (.copy 258 1)) w ∧ w.length = 2 * k + 2
  | 0 => ⟨_, .over (coded_at (l := 2) (c := 3) (by decide +kernel)), rfl⟩
  | k + 1 => by
    obtain ⟨w, h1, h2⟩ := reach_copies k
    have hc : TokenBits reachLit reachDist (.copy (258 + 0) (1 + 0)) _ := .copy (i := 28) (k := 0) (e := 0) (j := 0) (k' := 0) (e' := 0) rfl (by decide)
      (coded_at (l := 1) (c := 0) (by decide +kernel)) rfl (by decide) (coded_at (l := 1) (c := 0) (by decide +kernel))
    refine ⟨_, .token hc h1, ?_⟩
    rw [List.length_append, h2]
    simp [codeBits, numberBits]
    omega

theorem reach_tokens (k : Nat) : ∃ w, TokensBits reachLit reachDist (List.replicate 4 (.byte 0) ++ List.replicate k (.copy 258 1)) w ∧ w.length = 2 * k + 10 := by
  obtain ⟨w, h1, h2⟩ := reach_copies k
  have hb : TokenBits reachLit reachDist (.byte 0) (codeBits 2 2) := .byte (coded_at (by decide +kernel))
  exact ⟨_, .token hb (.token hb (.token hb (.token hb h1))), by simp only [List.length_append, h2]; simp [codeBits, numberBits]; omega⟩

/-- Of `m + 17` bytes, `1032 * m` and four more are made. -/
theorem reach (m : Nat) : ∃ z, z.length = m + 17 ∧ Compressed z (List.replicate (4 + 1032 * m) 0) := by
  obtain ⟨w1, h1, l1⟩ := reach_codes
  obtain ⟨w2, h2, l2⟩ := reach_tokens (4 * m)
  have hE : Expands [] (List.replicate 4 (.byte 0) ++ List.replicate (4 * m) (.copy 258 1)) (List.replicate (4 + 1032 * m) 0) := by
    have h := expands_zeros 258 (4 * m) 3
    have e : 4 + 1032 * m = 3 + 1 + 258 * (4 * m) := by omega
    rw [e]
    exact .byte (.byte (.byte (.byte h)))
  obtain ⟨bs, h3, h4⟩ := bits_bytes (m + 15) ([true, false, true] ++ w1 ++ w2 ++ List.replicate 7 false) (by
    simp only [List.length_append, l1, l2, List.length_replicate, List.length_cons, List.length_nil]; omega)
  exact ⟨0x78 :: 0x01 :: bs, by simp only [List.length_cons, h4], 0x78, 0x01, bs, _, List.replicate 7 false, rfl, by decide, by decide, by decide, by decide,
    .last (.coded h1 h2 hE), h3, by decide⟩

end Fbx.Spec
