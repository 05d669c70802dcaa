import Verif.Proof.Rel
import Verif.Spec.History

/-! # Two runs side by side, until the second one escapes -/

namespace Fbx
open Reader

def Res.isOk {ε α : Type} : Res ε α → Bool
  | .ok _ => true
  | _ => false

/-- Equal results and related states, or the second run has escaped (when strict, with a failure). -/
def Sim {ε σ τ α : Type} (b : Bool) (R : σ → τ → Prop) (E : τ → Prop) (x : Res ε α × σ) (y : Res ε α × τ) : Prop :=
  Agree R x y ∨ (E y.2 ∧ (b = true → y.1.isOk = false))

/-- Once escaped, always escaped. -/
def Keeps {ε σ α : Type} (E : σ → Prop) (m : M ε σ α) : Prop := ∀ s, E s → E (m s).2

namespace Keeps
variable {ε ε' σ τ α β : Type} {E : σ → Prop}

theorem bind {m : M ε σ α} {f : α → M ε σ β} (h : Keeps E m) (hf : ∀ a, Keeps E (f a)) : Keeps E (m >>= f) := by
  intro s hs
  have := h s hs
  rw [M.bind_apply]
  generalize m s = x at this ⊢
  rcases x with ⟨_ | _ | _, t⟩
  · exact hf _ t this
  · exact this
  · exact this

theorem pure (a : α) : Keeps E (Pure.pure a : M ε σ α) := fun _ h => h
theorem throw (e : ε) : Keeps E (M.throw e : M ε σ α) := fun _ h => h
theorem panic (e : Panic) : Keeps E (M.panic e : M ε σ α) := fun _ h => h
theorem get : Keeps E (M.get : M ε σ σ) := fun _ h => h
theorem ofExcept (r : Except ε α) : Keeps E (M.ofExcept r : M ε σ α) := by cases r <;> exact fun _ h => h
theorem assert (b : Bool) (e : Panic) : Keeps E (M.assert b e : M ε σ Unit) := by cases b <;> exact fun _ h => h
theorem modify {g : σ → σ} (h : ∀ s, E s → E (g s)) : Keeps E (M.modify g : M ε σ Unit) := h
theorem getSet {g : σ → σ} {f : σ → Unit → M ε σ α} (h : ∀ s, E s → E (g s)) (hf : ∀ s u, Keeps E (f s u)) :
    Keeps E (M.get >>= fun s => M.set (g s) >>= f s : M ε σ α) := fun s hs => hf s () _ (h s hs)

theorem ite {c : Prop} [Decidable c] {m n : M ε σ α} (h1 : Keeps E m) (h2 : Keeps E n) : Keeps E (if c then m else n) := by
  split
  · exact h1
  · exact h2

theorem mapErr {f : ε → ε'} {m : M ε σ α} (h : Keeps E m) : Keeps E (M.mapErr f m) := by
  intro s hs
  have := h s hs
  rw [M.mapErr_apply]
  generalize m s = x at this ⊢
  rcases x with ⟨_ | _ | _, t⟩ <;> exact this

theorem zoom {F : τ → Prop} {g : σ → τ} {st : τ → σ → σ} {m : M ε τ α} (h : Keeps F m) (h1 : ∀ s, E s → F (g s)) (h2 : ∀ t s, F t → E (st t s)) :
    Keeps E (M.zoom g st m) := fun s hs => h2 _ _ (h _ (h1 s hs))

end Keeps

namespace Sim
variable {ε ε' σ τ α β : Type} {R : σ → τ → Prop} {E : τ → Prop} {b : Bool}

theorem bind {m : M ε σ α} {m' : M ε τ α} {f : α → M ε σ β} {f' : α → M ε τ β} {s : σ} {s' : τ} (h : Sim true R E (m s) (m' s'))
    (hf : ∀ a t t', R t t' → Sim b R E (f a t) (f' a t')) : Sim b R E ((m >>= f) s) ((m' >>= f') s') := by
  rw [M.bind_apply, M.bind_apply]
  rcases hm : m s with ⟨r, t⟩
  rcases hm' : m' s' with ⟨r', t'⟩
  rw [hm, hm'] at h
  rcases h with ⟨h1, h2⟩ | ⟨h1, h2⟩
  · simp only at h1 h2
    subst h1
    cases r with
    | ok a => exact hf a t t' h2
    | err e => exact .inl ⟨rfl, h2⟩
    | panic p => exact .inl ⟨rfl, h2⟩
  · cases r' with
    | ok a => exact absurd (h2 rfl) (by simp [Res.isOk])
    | err e => exact .inr ⟨h1, fun _ => rfl⟩
    | panic p => exact .inr ⟨h1, fun _ => rfl⟩

theorem bind' {m : M ε σ α} {m' : M ε τ α} {f : α → M ε σ β} {f' : α → M ε τ β} {s : σ} {s' : τ} (h : Sim false R E (m s) (m' s'))
    (hf : ∀ a t t', R t t' → Sim false R E (f a t) (f' a t')) (hk : ∀ a, Keeps E (f' a)) :
    Sim false R E ((m >>= f) s) ((m' >>= f') s') := by
  rw [M.bind_apply, M.bind_apply]
  rcases hm : m s with ⟨r, t⟩
  rcases hm' : m' s' with ⟨r', t'⟩
  rw [hm, hm'] at h
  rcases h with ⟨h1, h2⟩ | ⟨h1, h2⟩
  · simp only at h1 h2
    subst h1
    cases r with
    | ok a => exact hf a t t' h2
    | err e => exact .inl ⟨rfl, h2⟩
    | panic p => exact .inl ⟨rfl, h2⟩
  · refine .inr ⟨?_, fun h => nomatch h⟩
    cases r' with
    | ok a => exact hk a t' h1
    | err e => exact h1
    | panic p => exact h1

theorem loose {x : Res ε α × σ} {y : Res ε α × τ} (h : Sim b R E x y) : Sim false R E x y := by
  rcases h with h | h
  · exact .inl h
  · exact .inr ⟨h.1, fun h => nomatch h⟩

theorem strict {x : Res ε α × σ} {y : Res ε α × τ} (h : Sim true R E x y) : Sim b R E x y := by
  rcases h with h | h
  · exact .inl h
  · exact .inr ⟨h.1, fun _ => h.2 rfl⟩

theorem get {f : σ → M ε σ β} {f' : τ → M ε τ β} {s : σ} {s' : τ} (h : Sim b R E (f s s) (f' s' s')) :
    Sim b R E ((M.get >>= f) s) ((M.get >>= f') s') := h

theorem pure (a : α) {s : σ} {s' : τ} (h : R s s') : Sim (ε := ε) b R E ((Pure.pure a : M ε σ α) s) ((Pure.pure a : M ε τ α) s') := .inl ⟨rfl, h⟩
theorem throw (e : ε) {s : σ} {s' : τ} (h : R s s') : Sim (α := α) b R E (M.throw e s) (M.throw e s') := .inl ⟨rfl, h⟩
theorem panic (e : Panic) {s : σ} {s' : τ} (h : R s s') : Sim (α := α) (ε := ε) b R E (M.panic e s) (M.panic e s') := .inl ⟨rfl, h⟩
theorem ofExcept (r : Except ε α) {s : σ} {s' : τ} (h : R s s') : Sim b R E (M.ofExcept r s) (M.ofExcept r s') := .inl (.ofExcept r h)
theorem assert (c : Bool) (e : Panic) {s : σ} {s' : τ} (h : R s s') : Sim (ε := ε) b R E (M.assert c e s) (M.assert c e s') := .inl (.assert c e h)
theorem modify {g : σ → σ} {g' : τ → τ} {s : σ} {s' : τ} (h : R (g s) (g' s')) : Sim (ε := ε) b R E (M.modify g s) (M.modify g' s') := .inl ⟨rfl, h⟩
theorem set {t : σ} {t' : τ} {s : σ} {s' : τ} (h : R t t') : Sim (ε := ε) b R E (M.set t s) (M.set t' s') := .inl ⟨rfl, h⟩

theorem ite {c : Prop} [Decidable c] {m n : M ε σ α} {m' n' : M ε τ α} {s : σ} {s' : τ} (h1 : c → Sim b R E (m s) (m' s'))
    (h2 : ¬ c → Sim b R E (n s) (n' s')) : Sim b R E ((if c then m else n) s) ((if c then m' else n') s') := by
  by_cases hc : c
  · rw [if_pos hc, if_pos hc]; exact h1 hc
  · rw [if_neg hc, if_neg hc]; exact h2 hc

theorem assertThen (c : Bool) (e : Panic) {f : Unit → M ε σ β} {f' : Unit → M ε τ β} {s : σ} {s' : τ} (h : R s s')
    (hf : Sim b R E (f () s) (f' () s')) : Sim b R E ((M.assert c e >>= f) s) ((M.assert c e >>= f') s') := by
  cases c
  · exact .inl ⟨rfl, h⟩
  · exact hf

theorem mapErr {f : ε → ε'} {m : M ε σ α} {m' : M ε τ α} {s : σ} {s' : τ} (h : Sim b R E (m s) (m' s')) :
    Sim b R E (M.mapErr f m s) (M.mapErr f m' s') := by
  rw [M.mapErr_apply, M.mapErr_apply]
  rcases hm : m s with ⟨r, t⟩
  rcases hm' : m' s' with ⟨r', t'⟩
  rw [hm, hm'] at h
  rcases h with ⟨h1, h2⟩ | ⟨h1, h2⟩
  · simp only at h1 h2
    subst h1
    cases r <;> exact .inl ⟨rfl, h2⟩
  · cases r' <;> exact .inr ⟨h1, h2⟩

end Sim

/-- What is needed of related sources. -/
structure Related (R : Reader → Reader → Prop) (E : Reader → Prop) : Prop where
  pos : ∀ {r s}, R r s → s.position = r.position
  len : ∀ {r s}, R r s → s.rest.length ≤ r.rest.length
  exact_ : ∀ {r s} (n : Nat), R r s → Sim true R E (readExact n r) (readExact n s)
  read : ∀ {r s} (n : Nat), R r s → Sim false R E (Reader.read n r) (Reader.read n s)
  esc : ∀ {s} (n : Nat), E s → 0 < n → (readExact n s).1.isOk = false
  keepExact : ∀ n, Keeps E (readExact n)
  keepRead : ∀ n, Keeps E (Reader.read n)
  keepSkip : ∀ q, Keeps E (skipTo q)

namespace Related
variable {R : Reader → Reader → Prop} {E : Reader → Prop} (H : Related R E) {Z : Zlib}
include H

theorem readLe {r s : Reader} (n : Nat) (h : R r s) : Sim true R E (Reader.readLe n r) (Reader.readLe n s) :=
  .bind (H.exact_ n h) fun _ _ _ h => .pure _ h

theorem readU8 {r s : Reader} (h : R r s) : Sim true R E (Reader.readU8 r) (Reader.readU8 s) :=
  .bind (H.exact_ 1 h) fun _ _ _ h => .pure _ h

theorem keepLe (n : Nat) : Keeps E (Reader.readLe n) := .bind (H.keepExact n) fun _ => .pure _
theorem keepU8 : Keeps E Reader.readU8 := .bind (H.keepExact 1) fun _ => .pure _

end Related

theorem readU8_len {r r' : Reader} {b : Byte} (h : Reader.readU8 r = (.ok b, r')) : r'.rest.length + 1 = r.rest.length := by
  simp only [Reader.readU8, M.bind_apply, readExact] at h
  split at h
  · rename_i h1
    split at h1
    · split at h1
      · cases h1; cases h; simp [Reader.consume]; omega
      · cases h1
    · split at h1 <;> cases h1
  · cases h
  · cases h

namespace Related
variable {R : Reader → Reader → Prop} {E : Reader → Prop} (H : Related R E) {Z : Zlib}

/-- Related decoder states. -/
def decRel (R : Reader → Reader → Prop) {S : Type} (x y : S × Reader) : Prop := y.1 = x.1 ∧ R x.2 y.2

include H

theorem zRead : ∀ (fuel fuel' n : Nat) (acc : Bytes) (z : Z.S) (r s : Reader), R r s → n + r.rest.length < fuel → n + s.rest.length < fuel' →
    Sim true (decRel R) (fun y => E y.2) (Dec.zRead Z fuel n acc (z, r)) (Dec.zRead Z fuel' n acc (z, s)) := by
  intro fuel
  induction fuel with
  | zero => intro fuel' n acc z r s h h1; omega
  | succ fuel ih =>
    intro fuel' n acc z r s h h1 h2
    cases fuel' with
    | zero => omega
    | succ fuel' =>
      simp only [Dec.zRead]
      by_cases hn : n = 0
      · rw [if_pos hn, if_pos hn]; exact .inl ⟨rfl, rfl, h⟩
      · rw [if_neg hn, if_neg hn]
        cases hz : Z.step z with
        | need k =>
          simp only []
          have hb := H.readU8 h
          rcases hr : Reader.readU8 r with ⟨x, r'⟩
          rcases hs : Reader.readU8 s with ⟨y, s'⟩
          rw [hr, hs] at hb
          rcases hb with ⟨e1, e2⟩ | ⟨e1, e2⟩
          · simp only at e1 e2
            subst e1
            cases x with
            | ok b =>
              have l1 := readU8_len hr
              have l2 := readU8_len hs
              exact ih fuel' n acc (k b) r' s' e2 (by omega) (by omega)
            | err e => exact .inl ⟨rfl, rfl, e2⟩
            | panic e => exact .inl ⟨rfl, rfl, e2⟩
          · cases y with
            | ok b => exact absurd (e2 rfl) (by simp [Res.isOk])
            | err e => exact .inr ⟨e1, fun _ => rfl⟩
            | panic e => exact .inr ⟨e1, fun _ => rfl⟩
        | emit b z' => exact ih fuel' (n - 1) (acc ++ [b]) z' r s h (by omega) (by omega)
        | eof => exact .inl ⟨rfl, rfl, h⟩
        | fail => exact .inl ⟨rfl, rfl, h⟩

theorem keepZ : ∀ (fuel n : Nat) (acc : Bytes), Keeps (fun y => E y.2) (Dec.zRead Z fuel n acc) := by
  intro fuel
  induction fuel with
  | zero => intro n acc s h; exact h
  | succ fuel ih =>
    intro n acc s h
    obtain ⟨z, r⟩ := s
    simp only [Dec.zRead]
    split
    · exact h
    · split
      · have := H.keepU8 r h
        split
        · rename_i hr; rw [hr] at this; exact ih _ _ _ this
        · rename_i hr; rw [hr] at this; exact this
        · rename_i hr; rw [hr] at this; exact this
      · exact ih _ _ _ h
      · exact h
      · exact h

theorem dec {r s : Reader} (d : Dec Z) (n : Nat) (h : R r s) :
    Sim true (decRel R) (fun y => E y.2) (Dec.readExact n (d, r)) (Dec.readExact n (d, s)) := by
  cases d with
  | direct =>
    simp only [Dec.readExact]
    rcases H.exact_ n h with ⟨h1, h2⟩ | h
    · exact .inl ⟨h1, rfl, h2⟩
    · exact .inr h
  | zlib z =>
    simp only [Dec.readExact]
    rcases H.zRead (n + r.rest.length + 1) (n + s.rest.length + 1) n [] z r s h (by omega) (by omega) with ⟨h1, h2⟩ | h
    · exact .inl ⟨h1, by show Dec.zlib _ = Dec.zlib _; rw [h2.1], h2.2⟩
    · exact .inr h

theorem keepDec (n : Nat) : Keeps (fun y => E y.2) (Dec.readExact (Z := Z) n) := by
  intro x h
  obtain ⟨d, r⟩ := x
  cases d with
  | direct => exact H.keepExact n r h
  | zlib z => exact H.keepZ _ _ _ (z, r) h

theorem create {r s : Reader} (enc : ArrEnc) (h : R r s) : Sim true R E (Dec.create Z enc r) (Dec.create Z enc s) := by
  cases enc with
  | direct => exact .pure _ h
  | zlib =>
    refine .bind (.mapErr (H.readU8 h)) fun a _ _ h => .bind (.mapErr (H.readU8 h)) fun b _ _ h => ?_
    cases Z.header a b with
    | none => exact .throw _ h
    | some z => exact .pure _ h

theorem keepCreate (enc : ArrEnc) : Keeps E (Dec.create Z enc) := by
  cases enc with
  | direct => exact .pure _
  | zlib =>
    refine .bind (.mapErr H.keepU8) fun a => .bind (.mapErr H.keepU8) fun b => ?_
    cases Z.header a b with
    | none => exact .throw _
    | some z => exact .pure _

/-! ## Element iterators -/

theorem elemNext {e : Type} (t : ElemTy e) (it : ElemIter Z) {r s : Reader} (h : R r s) :
    Sim false (decRel R) (fun y => E y.2) (ElemIter.next t (it, r)) (ElemIter.next t (it, s)) := by
  simp only [ElemIter.next]
  by_cases hr : it.rest = 0
  · rw [if_pos hr, if_pos hr]; exact .inl ⟨rfl, rfl, h⟩
  · rw [if_neg hr, if_neg hr]
    have hd := H.dec it.dec t.size h
    rcases h1 : Dec.readExact t.size (it.dec, r) with ⟨x, d1, r1⟩
    rcases h2 : Dec.readExact t.size (it.dec, s) with ⟨y, d2, s1⟩
    rw [h1, h2] at hd
    rcases hd with ⟨e1, e2⟩ | ⟨e1, e2⟩
    · obtain ⟨e2, e3⟩ := e2
      simp only at e1 e2 e3
      subst e1 e2
      cases x <;> exact .inl ⟨rfl, rfl, e3⟩
    · cases y <;> exact .inr ⟨e1, fun h => nomatch h⟩

theorem keepElem {e : Type} (t : ElemTy e) : Keeps (fun y => E y.2) (ElemIter.next (Z := Z) t) := by
  intro x h
  obtain ⟨it, r⟩ := x
  have := H.keepDec (Z := Z) t.size (it.dec, r) h
  simp only [ElemIter.next]
  split
  · exact h
  · split <;> (rename_i h1; rw [h1] at this; exact this)

theorem keepRun {e α : Type} (t : ElemTy e) (c : SeqCons e α) : Keeps (fun y => E y.2) (ElemIter.run (Z := Z) t c) := by
  induction c with
  | done r => exact .ofExcept _
  | pull k ih => exact .bind (H.keepElem t) fun x => ih x

theorem run {e α : Type} (t : ElemTy e) (c : SeqCons e α) : ∀ (it : ElemIter Z) {r s : Reader}, R r s →
    Sim false (decRel R) (fun y => E y.2) (ElemIter.run t c (it, r)) (ElemIter.run t c (it, s)) := by
  induction c with
  | done r => exact fun it _ _ h => .ofExcept r ⟨rfl, h⟩
  | pull k ih =>
    intro it r s h
    refine .bind' (H.elemNext t it h) (fun x u v h => ?_) (fun x => H.keepRun t (k x))
    obtain ⟨i1, r1⟩ := u
    obtain ⟨i2, r2⟩ := v
    obtain ⟨h1, h2⟩ := h
    simp only at h1 h2
    subst h1
    exact ih x i2 h2

/-! ## Limited streams -/

theorem takeRead (n l : Nat) {r s : Reader} (h : R r s) : Sim false (decRel R) (fun y => E y.2) (takeRead n (l, r)) (takeRead n (l, s)) := by
  simp only [Fbx.takeRead]
  by_cases hl : l = 0
  · rw [if_pos hl, if_pos hl]; exact .inl ⟨rfl, rfl, h⟩
  · rw [if_neg hl, if_neg hl]
    have hd := H.read (min n l) h
    rcases h1 : Reader.read (min n l) r with ⟨x, r1⟩
    rcases h2 : Reader.read (min n l) s with ⟨y, s1⟩
    rw [h1, h2] at hd
    rcases hd with ⟨e1, e2⟩ | ⟨e1, e2⟩
    · simp only at e1 e2
      subst e1
      cases x <;> exact .inl ⟨rfl, rfl, e2⟩
    · cases y <;> exact .inr ⟨e1, fun h => nomatch h⟩

theorem keepTake (n : Nat) : Keeps (fun y => E y.2) (Fbx.takeRead n) := by
  intro x h
  obtain ⟨l, r⟩ := x
  have := H.keepRead (min n l) r h
  simp only [Fbx.takeRead]
  split
  · exact h
  · split <;> (rename_i h1; rw [h1] at this; exact this)

theorem keepCons {α : Type} (c : ReadCons α) : Keeps (fun y => E y.2) c.run := by
  induction c with
  | done r => exact .ofExcept r
  | read n k ih =>
    intro x h
    have := H.keepTake n x h
    simp only [ReadCons.run]
    split
    · rename_i h1; rw [h1] at this; exact ih _ _ this
    · rename_i h1; rw [h1] at this; exact ih _ _ this
    · rename_i h1; rw [h1] at this; exact this

theorem cons {α : Type} (c : ReadCons α) : ∀ (l : Nat) {r s : Reader}, R r s →
    Sim false (decRel R) (fun y => E y.2) (c.run (l, r)) (c.run (l, s)) := by
  induction c with
  | done r => exact fun it _ _ h => .ofExcept r ⟨rfl, h⟩
  | read n k ih =>
    intro l r s h
    have hd := H.takeRead n l h
    simp only [ReadCons.run]
    rcases h1 : Fbx.takeRead n (l, r) with ⟨x, l1, r1⟩
    rcases h2 : Fbx.takeRead n (l, s) with ⟨y, l2, s1⟩
    rw [h1, h2] at hd
    rcases hd with ⟨e1, e2⟩ | ⟨e1, e2⟩
    · obtain ⟨e2, e3⟩ := e2
      simp only at e1 e2 e3
      subst e1 e2
      cases x with
      | ok bs => exact ih _ _ e3
      | err bs => exact ih _ _ e3
      | panic bs => exact .inl ⟨rfl, rfl, e3⟩
    · refine .inr ⟨?_, fun h => nomatch h⟩
      cases y with
      | ok bs => exact H.keepCons _ _ e1
      | err bs => exact H.keepCons _ _ e1
      | panic bs => exact e1

end Related
end Fbx
