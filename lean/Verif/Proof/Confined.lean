import Verif.Model.Buffered

/-! # Any loader stays within its attribute -/

namespace Fbx
open Reader
variable {α : Type}

/-- The device `d'` is behind `d`, and what is to come of the limit was lowered accordingly. -/
def Confined (limit : Nat) (d : Dev) (limit' : Nat) (d' : Dev) : Prop :=
  ∃ moved taken, limit = limit' + moved ∧ taken ≤ moved ∧ d'.reader.position = d.reader.position + moved ∧ d'.reader.cursor = d.reader.cursor + taken ∧
    d'.reader.rest = d.reader.rest.drop taken

theorem Confined.refl (limit : Nat) (d : Dev) : Confined limit d limit d := ⟨0, 0, rfl, Nat.le_refl _, rfl, rfl, rfl⟩

theorem Confined.trans {l₁ l₂ l₃ : Nat} {d₁ d₂ d₃ : Dev} (h : Confined l₁ d₁ l₂ d₂) (h' : Confined l₂ d₂ l₃ d₃) : Confined l₁ d₁ l₃ d₃ := by
  obtain ⟨m, t, h1, h2, h3, h4, h5⟩ := h
  obtain ⟨m', t', k1, k2, k3, k4, k5⟩ := h'
  exact ⟨m + m', t + t', by omega, by omega, by omega, by omega, by rw [k5, h5, List.drop_drop]⟩

theorem Confined.room {l₁ l₂ b : Nat} {d₁ d₂ : Dev} (h : Confined l₁ d₁ l₂ d₂) (hx : d₁.reader.position + l₁ < b) : d₂.reader.position + l₂ < b := by
  obtain ⟨m, t, h1, h2, h3, h4, h5⟩ := h
  omega

theorem Dev.fill_reader (d : Dev) : d.fill.2.reader = d.reader := by
  unfold Dev.fill
  split
  · split
    · rfl
    · split
      · split <;> rfl
      · rfl
  · rfl

theorem Dev.takeFill_confined (limit : Nat) (d : Dev) : Confined limit d (Dev.takeFill (limit, d)).2.1 (Dev.takeFill (limit, d)).2.2 := by
  have h := d.fill_reader
  unfold Dev.takeFill
  simp only
  split
  · exact .refl _ _
  · split <;> rename_i heq <;> rw [heq] at h <;> simp only at h <;> exact ⟨0, 0, rfl, Nat.le_refl _, by rw [h]; rfl, by rw [h]; rfl, by rw [h]; rfl⟩

theorem Dev.takeRead_confined (n limit : Nat) (d : Dev) (hx : d.reader.position + limit < u64Size) :
    (∀ x, (Dev.takeRead n (limit, d)).1 ≠ .panic x) ∧ Confined limit d (Dev.takeRead n (limit, d)).2.1 (Dev.takeRead n (limit, d)).2.2 := by
  have hf := d.fill_reader
  have hr : (∀ x, (d.read (min n limit)).1 ≠ .panic x) ∧ ∃ k, k ≤ min n limit ∧ (∀ bs, (d.read (min n limit)).1 = .ok bs → bs.length = k) ∧
      (∀ e, (d.read (min n limit)).1 = .err e → k = 0) ∧ (d.read (min n limit)).2.reader = d.reader.consume k := by
    unfold Dev.read
    split
    · exact ⟨fun x => by simp, 0, by omega, (fun bs h => by cases h; rfl), fun e h => rfl, by simp [Reader.consume]⟩
    · split
      · rename_i heq
        rw [heq] at hf
        exact ⟨fun x => by simp, 0, by omega, (fun bs h => by cases h), fun e h => rfl, by rw [hf]; simp [Reader.consume]⟩
      · rename_i bs d' heq
        rw [heq] at hf
        simp only at hf
        split
        · exact ⟨fun x => by simp, 0, by omega, (fun bs h => by cases h; rfl), fun e h => rfl, by rw [hf]; simp [Reader.consume]⟩
        · rw [if_pos (by rw [hf]; omega)]
          exact ⟨fun x => by simp, min (min n limit) bs.length, by omega, (fun bs' h => by cases h; simp), (fun e h => by cases h), by simp only [hf]⟩
  obtain ⟨h1, k, h2, h3, h4, h5⟩ := hr
  unfold Dev.takeRead
  simp only
  split
  · exact ⟨fun x => by simp, .refl _ _⟩
  · split
    · rename_i bs d' heq
      rw [heq] at h3 h5
      have hk := h3 bs rfl
      simp only at h5 ⊢
      refine ⟨fun x => by simp, k, k, by omega, Nat.le_refl _, ?_, ?_, ?_⟩ <;> rw [h5] <;> rfl
    · rename_i e d' heq
      rw [heq] at h4 h5
      have hk := h4 e rfl
      subst hk
      simp only at h5 ⊢
      refine ⟨fun x => by simp, 0, 0, by omega, Nat.le_refl _, ?_, ?_, ?_⟩ <;> rw [h5] <;> rfl
    · rename_i x d' heq
      rw [heq] at h1
      exact absurd rfl (h1 x)

theorem Dev.takeConsume_confined (n limit : Nat) (d : Dev) (hx : d.reader.position + limit < u64Size) :
    ∃ s, Dev.takeConsume n (limit, d) = .ok s ∧ Confined limit d s.1 s.2 := by
  unfold Dev.takeConsume Dev.consume
  simp only
  rw [if_pos (by omega)]
  exact ⟨_, rfl, min n limit, min (min n limit) d.buffered, by simp only; omega, by omega, rfl, rfl, rfl⟩

end Fbx
