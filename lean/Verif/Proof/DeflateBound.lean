import Verif.Spec.Bomb

/-! # Deflate does not expand by more than 1032 -/

namespace Fbx
namespace Inflate

/-- The part of 129 bytes for each bit which has been read that is kept for the copy being read. -/
def owed : Phase → Nat
  | .lengthBits .. => 129
  | .distance .. => 129
  | .distanceBits .. => 258
  | _ => 0

/-- The length of the copy being read is at most 258. -/
def short : Phase → Prop
  | .lengthBits _ _ base left n v => v < 2 ^ n ∧ base + 2 ^ (n + left) ≤ 259 ∧ 1 ≤ left
  | .distance _ _ len _ => len ≤ 258
  | .distanceBits _ _ len _ _ _ _ => len ≤ 258
  | _ => True

/-- The state after `bits` bits, of which `given` bytes have been delivered. -/
structure Fits (s : State) (bits given : Nat) : Prop where
  made : s.out.length + owed s.phase ≤ 129 * bits
  copy : short s.phase
  held : given + s.ready.length + s.block ≤ s.out.length

variable {s : State} {bits given : Nat}

theorem Fits.more (h : Fits s bits given) {m : Nat} (hm : bits ≤ m) : Fits s m given := ⟨by have := h.made; omega, h.copy, h.held⟩

theorem Fits.phase (h : Fits s bits given) {p : Phase} (l : Bool) (h1 : s.out.length + owed p ≤ 129 * bits) (h2 : short p) : Fits { s with phase := p, last := l } bits given :=
  ⟨h1, h2, h.held⟩

theorem Fits.plain (h : Fits s bits given) {p : Phase} (l : Bool) (h1 : owed p = 0) (h2 : short p) : Fits { s with phase := p, last := l } bits given :=
  h.phase l (by have := h.made; omega) h2

theorem Fits.plain' (h : Fits s bits given) {p : Phase} (h1 : owed p = 0) (h2 : short p) : Fits { s with phase := p } bits given :=
  h.phase s.last (by have := h.made; omega) h2

theorem Fits.fail (h : Fits s bits given) : Fits s.fail bits given := h.plain' rfl trivial

theorem Fits.close (h : Fits s bits given) : Fits s.close bits given := by
  have h1 := h.made
  have h3 := h.held
  refine ⟨?_, ?_, ?_⟩
  · unfold State.close
    simp only
    split <;> simp only [owed] <;> omega
  · unfold State.close
    simp only
    split <;> trivial
  · unfold State.close
    simp only [List.length_append, List.length_reverse, List.length_take]
    omega

theorem repeat_len (d : Nat) : ∀ (len : Nat) (s : State), (s.repeat_ d len).out.length = s.out.length + len ∧ (s.repeat_ d len).block = s.block + len ∧
    (s.repeat_ d len).ready = s.ready
  | 0, s => ⟨rfl, rfl, rfl⟩
  | len + 1, s => by
    obtain ⟨h1, h2, h3⟩ := repeat_len d len (s.push (s.out.getD (d - 1) 0))
    unfold State.repeat_
    rw [h1, h2, h3]
    simp only [State.push, List.length_cons]
    exact ⟨by omega, by omega, trivial⟩

theorem Fits.afterCodes (h : Fits s bits given) (lits dists : Nat) (c : Huff) (found : List Nat) : Fits (afterCodes lits dists c found s) bits given := by
  unfold Inflate.afterCodes
  split
  · exact h.plain' rfl trivial
  · split
    · exact h.plain' rfl trivial
    · exact h.fail

theorem Fits.afterLengthCode (h : Fits s bits given) (lits dists : Nat) (c : Huff) (found : List Nat) (i : Nat) :
    Fits (afterLengthCode lits dists c found i s) bits given := by
  unfold Inflate.afterLengthCode
  split
  · exact h.fail
  · split
    · exact h.afterCodes ..
    · split
      · split
        · exact h.fail
        · exact h.plain' rfl trivial
      · split <;> exact h.plain' rfl trivial

theorem Fits.afterDistance (h : Fits s bits given) (lit dist : Huff) {len : Nat} (d : Nat) (hl : len ≤ 258) (ho : s.out.length + 258 ≤ 129 * bits) :
    Fits (afterDistance lit dist len d s) bits given := by
  unfold Inflate.afterDistance
  split
  · obtain ⟨h1, h2, h3⟩ := repeat_len d len s
    have h4 := h.held
    refine ⟨?_, trivial, ?_⟩
    · simp only [owed, h1]; omega
    · simp only [h1, h2, h3]; omega
  · exact h.fail

theorem Fits.afterDistanceCode (h : Fits s bits given) (lit dist : Huff) {len : Nat} (i : Nat) (hl : len ≤ 258) (ho : s.out.length + 258 ≤ 129 * bits) :
    Fits (afterDistanceCode lit dist len i s) bits given := by
  unfold Inflate.afterDistanceCode
  split
  · exact h.fail
  · split
    · exact h.fail
    · split
      · exact h.afterDistance _ _ _ hl ho
      · exact h.phase s.last ho hl

theorem lengthCodes_short : ∀ x ∈ lengthCodes, x.1 + 2 ^ x.2 ≤ 259 := by decide

theorem Fits.afterSymbol (h : Fits s bits given) (lit dist : Huff) (i : Nat) (ho : s.out.length + 129 ≤ 129 * bits) :
    Fits (afterSymbol lit dist i s) bits given := by
  unfold Inflate.afterSymbol
  split
  · exact h.fail
  · split
    · have := h.held
      refine ⟨?_, trivial, ?_⟩ <;> simp only [State.push, owed, List.length_cons] <;> omega
    · split
      · exact h.close
      · split
        · exact h.fail
        · rename_i base k heq
          have hs := lengthCodes_short _ (List.mem_of_getElem? heq)
          simp only at hs
          split
          · rename_i hk
            subst hk
            exact h.phase s.last ho (by simp only [short]; omega)
          · refine h.phase s.last ho ⟨by simp, ?_, by omega⟩
            simpa using hs

theorem Fits.bit (h : Fits s bits given) (b : Bool) : Fits (s.bit b) (bits + 1) given := by
  have hm := h.more (Nat.le_succ bits)
  have h1 := h.made
  have h2 := h.copy
  unfold State.bit
  split
  · simp only
    split
    · exact hm.plain' rfl trivial
    · split
      · exact hm.plain _ rfl trivial
      · exact hm.plain _ rfl trivial
      · exact hm.plain _ rfl trivial
      · exact hm.plain _ rfl trivial
  · simp only
    split <;> exact hm.plain' rfl trivial
  · simp only
    split
    · exact hm.plain' rfl trivial
    · split <;> exact hm.plain' rfl trivial
  · split
    · exact hm.fail
    · exact hm.plain' rfl trivial
    · exact hm.afterLengthCode ..
  · simp only
    split
    · exact hm.plain' rfl trivial
    · exact hm.afterCodes ..
  · rename_i heq
    rw [heq] at h1 h2
    simp only [owed] at h1
    split
    · exact hm.fail
    · exact hm.plain' rfl trivial
    · exact hm.afterSymbol _ _ _ (by omega)
  · rename_i lit dist base left n v heq
    rw [heq] at h1 h2
    simp only [owed, short] at h1 h2
    obtain ⟨k1, k2, k3⟩ := h2
    have hv : v + b.toNat * 2 ^ n < 2 ^ (n + 1) := by
      rw [Nat.pow_succ]
      cases b <;> simp <;> omega
    simp only
    split
    · refine hm.phase s.last (by simp only [owed]; omega) ⟨hv, ?_, by omega⟩
      rw [show n + 1 + (left - 1) = n + left by omega]
      exact k2
    · rename_i hl
      have : left = 1 := by omega
      subst this
      refine hm.phase s.last (by simp only [owed]; omega) ?_
      simp only [short]
      omega
  · rename_i lit dist len w heq
    rw [heq] at h1 h2
    simp only [owed, short] at h1 h2
    split
    · exact hm.fail
    · exact hm.phase s.last (by simp only [owed]; omega) h2
    · exact hm.afterDistanceCode _ _ _ h2 (by omega)
  · rename_i lit dist len base left n v heq
    rw [heq] at h1 h2
    simp only [owed, short] at h1 h2
    simp only
    split
    · exact hm.phase s.last (by simp only [owed]; omega) h2
    · exact hm.afterDistance _ _ _ h2 (by omega)
  · exact hm

theorem Fits.fold (l : List Bool) : ∀ {s : State} {bits : Nat}, Fits s bits given → Fits (l.foldl State.bit s) (bits + l.length) given := by
  induction l with
  | nil => exact fun h => h
  | cons b l ih =>
    intro s bits h
    have := ih (h.bit b)
    rw [List.length_cons, show bits + (l.length + 1) = bits + 1 + l.length by omega]
    exact this

theorem Fits.push (h : Fits s bits given) (b : Byte) (ho : s.out.length < 129 * bits) (hp : owed s.phase = 0) : Fits (s.push b) bits given := by
  have := h.held
  refine ⟨?_, h.copy, ?_⟩ <;> simp only [State.push, List.length_cons, hp] <;> omega

theorem Fits.byte (h : Fits s bits given) (b : Byte) : Fits (s.byte b) (bits + 8) given := by
  have hm := h.more (m := bits + 8) (by omega)
  have h1 := h.made
  unfold State.byte
  split
  · split
    · split
      · split
        · exact hm.close
        · exact hm.plain' rfl trivial
      · exact hm.fail
    · exact hm.plain' rfl trivial
  · rename_i heq
    have hp := hm.push b (by omega) (by rw [heq]; rfl)
    split
    · exact hp.plain' rfl trivial
    · exact hp.close
  · split
    · exact hm.plain' rfl trivial
    · split
      · exact hm.plain' rfl trivial
      · exact hm.fail
  · have hf := h.fold (bitsOf b)
    have hl : (bitsOf b).length = 8 := by simp [bitsOf]
    rw [hl] at hf
    simp only
    split
    · exact hf.plain' rfl trivial
    · exact hf

theorem decodes_fits {cmf flg : Byte} {early late : Bytes → Bytes} {s : (Zlib.rfcFor cmf flg early late).S} {inp out : Bytes}
    (hd : (Zlib.rfcFor cmf flg early late).Decodes s inp out) : ∀ {bits given : Nat}, Fits s bits given → given + out.length ≤ 129 * (bits + 8 * inp.length) := by
  induction hd with
  | done s inp =>
    intro bits given h
    have h1 := h.made
    have h2 := h.held
    simp only [List.length_nil]
    omega
  | @need s k b inp out hk _ ih =>
    intro bits given h
    have hk : State.next s = .need k := hk
    unfold State.next at hk
    split at hk
    · cases hk
    · split at hk
      · cases hk
      · cases hk
      · cases hk
        have := ih (h.byte b)
        simp only [List.length_cons]
        omega
  | @emit s b s' inp out hk _ ih =>
    intro bits given h
    have hk : State.next s = .emit b s' := hk
    unfold State.next at hk
    split at hk
    · rename_i heq
      cases hk
      have h3 := h.held
      rw [heq] at h3
      have := ih (bits := bits) (given := given + 1) ⟨h.made, h.copy, by simp only [List.length_cons] at h3; simp only; omega⟩
      simp only [List.length_cons]
      omega
    · split at hk <;> cases hk

end Inflate

theorem rfc_expands (cmf flg : Byte) (early late : Bytes → Bytes) : (Zlib.rfcFor cmf flg early late).Expands 1032 := by
  intro a b s inp out hs hd
  have hs : Inflate.begin a b = some s := hs
  unfold Inflate.begin at hs
  split at hs
  · cases hs
    have := Inflate.decodes_fits hd (bits := 0) (given := 0) ⟨by simp [Inflate.owed], trivial, by simp⟩
    omega
  · cases hs

end Fbx
