import Verif.Model.Base

/-! # Weakest preconditions for the result monad -/

namespace Fbx.M
variable {ε ε' σ τ α β : Type}

/-- All outcomes of `m` from `s` satisfy the postconditions: `P` after `Ok`, `E` after `Err`, `X` after a panic. -/
def wp (m : M ε σ α) (P : α → σ → Prop) (E : ε → σ → Prop) (X : Panic → σ → Prop) (s : σ) : Prop :=
  match m s with
  | (.ok a, s') => P a s'
  | (.err e, s') => E e s'
  | (.panic p, s') => X p s'

theorem wp_def (m : M ε σ α) (P E X) (s : σ) : wp m P E X s ↔ match m s with
  | (.ok a, s') => P a s'
  | (.err e, s') => E e s'
  | (.panic p, s') => X p s' := Iff.rfl

theorem wp_bind (m : M ε σ α) (f : α → M ε σ β) (P E X) (s : σ) :
    wp (m >>= f) P E X s ↔ wp m (fun a => wp (f a) P E X) E X s := by
  simp only [wp, bind_apply]
  rcases m s with ⟨r, s'⟩
  cases r <;> simp

theorem wp_pure (a : α) (P E X) (s : σ) : wp (Pure.pure a : M ε σ α) P E X s ↔ P a s := Iff.rfl
theorem wp_throw (e : ε) (P : α → σ → Prop) (E X) (s : σ) : wp (throw e : M ε σ α) P E X s ↔ E e s := Iff.rfl
theorem wp_panic (p : Panic) (P : α → σ → Prop) (E X) (s : σ) : wp (panic p : M ε σ α) P E X s ↔ X p s := Iff.rfl
theorem wp_get (P E X) (s : σ) : wp (get : M ε σ σ) P E X s ↔ P s s := Iff.rfl
theorem wp_set (t : σ) (P E X) (s : σ) : wp (set t : M ε σ Unit) P E X s ↔ P () t := Iff.rfl
theorem wp_modify (f : σ → σ) (P E X) (s : σ) : wp (modify f : M ε σ Unit) P E X s ↔ P () (f s) := Iff.rfl
theorem wp_assert (b : Bool) (p : Panic) (P E X) (s : σ) :
    wp (assert b p : M ε σ Unit) P E X s ↔ if b then P () s else X p s := by
  cases b <;> rfl
theorem wp_ite (c : Prop) [Decidable c] (m n : M ε σ α) (P E X) (s : σ) :
    wp (if c then m else n) P E X s ↔ if c then wp m P E X s else wp n P E X s := by split <;> rfl
theorem wp_mapErr (g : ε → ε') (m : M ε σ α) (P E X) (s : σ) :
    wp (mapErr g m) P E X s ↔ wp m P (fun e => E (g e)) X s := by
  simp only [wp, mapErr_apply]
  rcases m s with ⟨r, s'⟩
  cases r <;> rfl
theorem wp_zoom (g : σ → τ) (st : τ → σ → σ) (m : M ε τ α) (P E X) (s : σ) :
    wp (zoom g st m) P E X s ↔ wp m (fun a t => P a (st t s)) (fun e t => E e (st t s)) (fun p t => X p (st t s)) (g s) := by
  simp only [wp, zoom_apply]
  rcases m (g s) with ⟨r, s'⟩
  cases r <;> rfl
theorem wp_ofExcept (r : Except ε α) (P E X) (s : σ) :
    wp (ofExcept r : M ε σ α) P E X s ↔ match r with | .ok a => P a s | .error e => E e s := by
  cases r <;> rfl

theorem wp_mono {m : M ε σ α} {P P' : α → σ → Prop} {E E' : ε → σ → Prop} {X X' : Panic → σ → Prop} {s : σ}
    (h : wp m P E X s) (hP : ∀ a s', P a s' → P' a s') (hE : ∀ e s', E e s' → E' e s')
    (hX : ∀ p s', X p s' → X' p s') : wp m P' E' X' s := by
  simp only [wp] at *
  rcases hm : m s with ⟨r, s'⟩
  rw [hm] at h
  cases r
  · exact hP _ _ h
  · exact hE _ _ h
  · exact hX _ _ h

theorem wp_and {m : M ε σ α} {P P' : α → σ → Prop} {E E' : ε → σ → Prop} {X X' : Panic → σ → Prop} {s : σ}
    (h : wp m P E X s) (h' : wp m P' E' X' s) :
    wp m (fun a t => P a t ∧ P' a t) (fun a t => E a t ∧ E' a t) (fun a t => X a t ∧ X' a t) s := by
  simp only [wp] at *
  rcases hm : m s with ⟨r, s'⟩
  rw [hm] at h h'
  cases r
  · exact ⟨h, h'⟩
  · exact ⟨h, h'⟩
  · exact ⟨h, h'⟩

theorem wp_ok {m : M ε σ α} {P E X} {s s' : σ} {a : α} (h : wp m P E X s) (hm : m s = (.ok a, s')) : P a s' := by
  simp only [wp, hm] at h; exact h
theorem wp_err {m : M ε σ α} {P E X} {s s' : σ} {e : ε} (h : wp m P E X s) (hm : m s = (.err e, s')) : E e s' := by
  simp only [wp, hm] at h; exact h
theorem wp_pan {m : M ε σ α} {P E X} {s s' : σ} {p : Panic} (h : wp m P E X s) (hm : m s = (.panic p, s')) :
    X p s' := by
  simp only [wp, hm] at h; exact h

end Fbx.M
