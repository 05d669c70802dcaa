import Verif.Proof.Monad
import Verif.Model.Base

/-! # Two runs side by side -/

namespace Fbx

/-- Equal results, related final states. -/
def Agree {ε σ τ α : Type} (R : σ → τ → Prop) (x : Res ε α × σ) (y : Res ε α × τ) : Prop := x.1 = y.1 ∧ R x.2 y.2

namespace Agree
variable {ε σ τ α β : Type} {R : σ → τ → Prop}

theorem bind {m : M ε σ α} {m' : M ε τ α} {f : α → M ε σ β} {f' : α → M ε τ β} {s : σ} {s' : τ} (h : Agree R (m s) (m' s'))
    (hf : ∀ a t t', R t t' → Agree R (f a t) (f' a t')) : Agree R ((m >>= f) s) ((m' >>= f') s') := by
  rw [M.bind_apply, M.bind_apply]
  obtain ⟨h1, h2⟩ := h
  rcases hm : m s with ⟨r, t⟩
  rcases hm' : m' s' with ⟨r', t'⟩
  rw [hm, hm'] at h1 h2
  simp only at h1 h2
  subst h1
  cases r with
  | ok a => exact hf a t t' h2
  | err e => exact ⟨rfl, h2⟩
  | panic p => exact ⟨rfl, h2⟩

theorem get {f : σ → M ε σ β} {f' : τ → M ε τ β} {s : σ} {s' : τ} (h : Agree R (f s s) (f' s' s')) :
    Agree R ((M.get >>= f) s) ((M.get >>= f') s') := h

theorem pure (a : α) {s : σ} {s' : τ} (h : R s s') : Agree (ε := ε) R ((Pure.pure a : M ε σ α) s) ((Pure.pure a : M ε τ α) s') := ⟨rfl, h⟩
theorem throw (e : ε) {s : σ} {s' : τ} (h : R s s') : Agree (α := α) R (M.throw e s) (M.throw e s') := ⟨rfl, h⟩
theorem panic (e : Panic) {s : σ} {s' : τ} (h : R s s') : Agree (α := α) (ε := ε) R (M.panic e s) (M.panic e s') := ⟨rfl, h⟩
theorem ofExcept (r : Except ε α) {s : σ} {s' : τ} (h : R s s') : Agree R (M.ofExcept r s) (M.ofExcept r s') := by
  cases r <;> exact ⟨rfl, h⟩
theorem assert (b : Bool) (e : Panic) {s : σ} {s' : τ} (h : R s s') : Agree (ε := ε) R (M.assert b e s) (M.assert b e s') := by
  cases b <;> exact ⟨rfl, h⟩
theorem modify {g : σ → σ} {g' : τ → τ} {s : σ} {s' : τ} (h : R (g s) (g' s')) : Agree (ε := ε) R (M.modify g s) (M.modify g' s') := ⟨rfl, h⟩
theorem set {t : σ} {t' : τ} {s : σ} {s' : τ} (h : R t t') : Agree (ε := ε) R (M.set t s) (M.set t' s') := ⟨rfl, h⟩

theorem ite {c : Prop} [Decidable c] {m n : M ε σ α} {m' n' : M ε τ α} {s : σ} {s' : τ} (h1 : c → Agree R (m s) (m' s'))
    (h2 : ¬ c → Agree R (n s) (n' s')) : Agree R ((if c then m else n) s) ((if c then m' else n') s') := by
  by_cases hc : c
  · rw [if_pos hc, if_pos hc]; exact h1 hc
  · rw [if_neg hc, if_neg hc]; exact h2 hc

end Agree
end Fbx
