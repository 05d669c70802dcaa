import Verif.Model.Base

/-! # Inversion lemmas for the result monad -/

namespace Fbx.M
variable {ε ε' σ τ α β : Type}

theorem bind_ok_iff (m : M ε σ α) (f : α → M ε σ β) (s s' : σ) (b : β) :
    (m >>= f) s = (.ok b, s') ↔ ∃ a s1, m s = (.ok a, s1) ∧ f a s1 = (.ok b, s') := by
  rw [bind_apply]
  rcases h : m s with ⟨r, s1⟩
  cases r <;> simp only [Prod.mk.injEq, Res.ok.injEq, reduceCtorEq, false_and, exists_false]
  constructor
  · intro h; exact ⟨_, _, ⟨rfl, rfl⟩, h⟩
  · rintro ⟨_, _, ⟨rfl, rfl⟩, h⟩; exact h

theorem pure_ok_iff (a b : α) (s s' : σ) :
    (Pure.pure a : M ε σ α) s = (.ok b, s') ↔ b = a ∧ s' = s := by
  simp [eq_comm]

theorem throw_ok_iff (e : ε) (b : α) (s s' : σ) : (throw e : M ε σ α) s = (.ok b, s') ↔ False := by
  simp

theorem panic_ok_iff (p : Panic) (b : α) (s s' : σ) : (panic p : M ε σ α) s = (.ok b, s') ↔ False := by
  simp

theorem get_ok_iff (b s s' : σ) : (get : M ε σ σ) s = (.ok b, s') ↔ b = s ∧ s' = s := by
  simp [eq_comm]

theorem modify_ok_iff (f : σ → σ) (u : Unit) (s s' : σ) :
    (modify f : M ε σ Unit) s = (.ok u, s') ↔ s' = f s := by
  simp [eq_comm]

theorem assert_ok_iff (b : Bool) (p : Panic) (u : Unit) (s s' : σ) :
    (assert b p : M ε σ Unit) s = (.ok u, s') ↔ b = true ∧ s' = s := by
  cases b <;> simp [eq_comm]

theorem mapErr_ok_iff (f : ε → ε') (m : M ε σ α) (s s' : σ) (a : α) :
    (mapErr f m) s = (.ok a, s') ↔ m s = (.ok a, s') := by
  rw [mapErr_apply]
  rcases h : m s with ⟨r, s1⟩
  cases r <;> simp

theorem zoom_ok_iff (g : σ → τ) (st : τ → σ → σ) (m : M ε τ α) (s s' : σ) (a : α) :
    (zoom g st m) s = (.ok a, s') ↔ ∃ t', m (g s) = (.ok a, t') ∧ s' = st t' s := by
  rw [zoom_apply]
  rcases h : m (g s) with ⟨r, s1⟩
  simp only [Prod.mk.injEq]
  constructor
  · rintro ⟨rfl, rfl⟩; exact ⟨_, ⟨rfl, rfl⟩, rfl⟩
  · rintro ⟨_, ⟨rfl, rfl⟩, rfl⟩; exact ⟨rfl, rfl⟩

theorem ofExcept_ok_iff (r : Except ε α) (s s' : σ) (a : α) :
    (ofExcept r : M ε σ α) s = (.ok a, s') ↔ r = .ok a ∧ s' = s := by
  cases r <;> simp [eq_comm]

/-- Associativity of sequencing. -/
theorem bind_assoc' {γ : Type} (m : M ε σ α) (f : α → M ε σ β) (g : β → M ε σ γ) :
    (m >>= f) >>= g = m >>= fun a => f a >>= g := by
  funext s
  simp only [bind_apply]
  rcases m s with ⟨r, s1⟩
  cases r <;> simp

theorem pure_bind' (a : α) (f : α → M ε σ β) : (Pure.pure a : M ε σ α) >>= f = f a := rfl

end Fbx.M

namespace Fbx.M
variable {ε σ α : Type}

theorem get_bind (f : σ → M ε σ α) (s : σ) : (get >>= f) s = f s s := rfl
theorem modify_bind (g : σ → σ) (f : Unit → M ε σ α) (s : σ) : (modify g >>= f) s = f () (g s) := rfl
theorem set_bind (t : σ) (f : Unit → M ε σ α) (s : σ) : (set t >>= f) s = f () t := rfl
theorem assert_bind (b : Bool) (p : Panic) (f : Unit → M ε σ α) (s : σ) :
    (assert b p >>= f) s = if b then f () s else (.panic p, s) := by
  cases b <;> rfl

end Fbx.M

namespace Fbx.M
variable {ε σ α β : Type}

/-- Sequencing after a step with a known outcome. -/
theorem bind_of {m : M ε σ α} {s s0 : σ} {C : Prop} {a0 : α}
    (h : ∀ a s', m s = (.ok a, s') ↔ C ∧ a = a0 ∧ s' = s0) (f : α → M ε σ β) (b : β) (s' : σ) :
    (m >>= f) s = (.ok b, s') ↔ C ∧ f a0 s0 = (.ok b, s') := by
  rw [bind_ok_iff]
  constructor
  · rintro ⟨a, s1, h1, h2⟩
    obtain ⟨hc, rfl, rfl⟩ := (h _ _).mp h1
    exact ⟨hc, h2⟩
  · rintro ⟨hc, h2⟩
    exact ⟨a0, s0, (h _ _).mpr ⟨hc, rfl, rfl⟩, h2⟩

theorem bind_of_unit {m : M ε σ Unit} {s s0 : σ} {C : Prop}
    (h : ∀ u s', m s = (.ok u, s') ↔ C ∧ s' = s0) (f : Unit → M ε σ β) (b : β) (s' : σ) :
    (m >>= f) s = (.ok b, s') ↔ C ∧ f () s0 = (.ok b, s') :=
  bind_of (a0 := ()) (fun a s' => by rw [h]; simp) f b s'

/-- Evaluation of sequencing after a successful step. -/
theorem bind_val {m : M ε σ α} {s s1 : σ} {a : α} (h : m s = (.ok a, s1)) (f : α → M ε σ β) :
    (m >>= f) s = f a s1 := by
  rw [bind_apply, h]

/-- Evaluation of sequencing after a failing step. -/
theorem bind_fail {m : M ε σ α} {s s1 : σ} {e : ε} (h : m s = (.err e, s1)) (f : α → M ε σ β) :
    (m >>= f) s = (.err e, s1) := by
  rw [bind_apply, h]

end Fbx.M
