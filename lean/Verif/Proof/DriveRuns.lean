import Verif.Proof.TreeFile
import Verif.Proof.Histories
import Verif.Proof.Plain

/-! # Clients as histories -/

namespace Fbx
open Spec

variable {α : Type} {Z : Zlib}

/-- The calls that load the values of a node. -/
def loadCalls (b : Bool) : List (Loader α) → List (Option α) → History α
  | l :: ls, v :: vs => (.load b l, match v with | some x => .value x | none => .noValue) :: loadCalls b ls vs
  | _, _ => []

/-- The history of a client that saw the given things, beginning with the `k`-th node. -/
def hist (b : Bool) (plan : Nat → String → Nat → List (Loader α)) : Nat → List (Obs α) → History α
  | _, [] => []
  | k, .start name n vals :: os => (.next, .event (.startNode name n)) :: (loadCalls b (plan k name n) vals ++ hist b plan (k + 1) os)
  | k, .end :: os => (.next, .event .endNode) :: hist b plan k os
  | k, .fbx f :: os => (.next, .event (.endFbx f)) :: hist b plan k os

theorem loadCalls_calm (b : Bool) : ∀ (ls : List (Loader α)) (vs : List (Option α)), (loadCalls b ls vs).calm := by
  intro ls
  induction ls with
  | nil => intro vs c x h; cases h
  | cons l ls ih =>
    intro vs c x h
    cases vs with
    | nil => cases h
    | cons v vs =>
      simp only [loadCalls, List.mem_cons, Prod.mk.injEq] at h
      rcases h with ⟨-, h⟩ | h
      · cases v <;> cases h
      · exact ih vs c x h

theorem hist_calm (b : Bool) (plan : Nat → String → Nat → List (Loader α)) : ∀ (os : List (Obs α)) (k : Nat), (hist b plan k os).calm := by
  intro os
  induction os with
  | nil => intro k c x h; cases h
  | cons o os ih =>
    intro k c x h
    cases o with
    | start name n vals =>
      simp only [hist, List.mem_cons, List.mem_append, Prod.mk.injEq] at h
      rcases h with ⟨-, h⟩ | h | h
      · cases h
      · exact loadCalls_calm _ _ _ c x h
      · exact ih _ c x h
    | «end» =>
      simp only [hist, List.mem_cons, Prod.mk.injEq] at h
      rcases h with ⟨-, h⟩ | h
      · cases h
      · exact ih _ c x h
    | fbx f =>
      simp only [hist, List.mem_cons, Prod.mk.injEq] at h
      rcases h with ⟨-, h⟩ | h
      · cases h
      · exact ih _ c x h

theorem hist_append (b : Bool) (plan : Nat → String → Nat → List (Loader α)) : ∀ (os : List (Obs α)) (k : Nat), ∃ k', ∀ os', hist b plan k (os ++ os') = hist b plan k os ++ hist b plan k' os' := by
  intro os
  induction os with
  | nil => intro k; exact ⟨k, fun _ => rfl⟩
  | cons o os ih =>
    intro k
    cases o with
    | start name n vals =>
      obtain ⟨k', h⟩ := ih (k + 1)
      exact ⟨k', fun os' => by simp only [List.cons_append, hist, h, List.append_assoc]⟩
    | «end» =>
      obtain ⟨k', h⟩ := ih k
      exact ⟨k', fun os' => by simp only [List.cons_append, hist, h]⟩
    | fbx f =>
      obtain ⟨k', h⟩ := ih k
      exact ⟨k', fun os' => by simp only [List.cons_append, hist, h]⟩

theorem Runs.cons {s t u : Client} {c : Call α} {o : Outcome α} {h : History α} (h1 : s.call Z c = some (o, t)) (hx : ∀ x, o ≠ .panic x)
    (h2 : Runs Z t h u) : Runs Z s ((c, o) :: h) u := by
  have h3 : Runs Z s ([] ++ [(c, o)]) t := .snoc .nil (fun c x h => by cases h) h1
  refine Runs.trans h3 ?_ h2
  intro c' x hm
  simp only [List.nil_append, List.mem_singleton, Prod.mk.injEq] at hm
  exact hx x hm.2.symm

theorem Runs.uncons {s u : Client} {c : Call α} {o : Outcome α} {h : History α} (hr : Runs Z s ((c, o) :: h) u) :
    ∃ t, s.call Z c = some (o, t) ∧ Runs Z t h u := by
  obtain ⟨t, h1, h2, -⟩ := Runs.split (a := [(c, o)]) (b := h) hr
  exact ⟨t, h1.one, h2⟩

theorem load_runs (b : Bool) : ∀ (ls : List (Loader α)) (a a' : AP) (vs : List (Option α)), loadEach Z b ls a = (.ok vs, a') →
    vs.length = ls.length ∧ Runs Z ⟨a.parser, some a.attrs⟩ (loadCalls b ls vs) ⟨a'.parser, some a'.attrs⟩ := by
  intro ls
  induction ls with
  | nil => intro a a' vs h; cases h; exact ⟨rfl, .nil⟩
  | cons l ls ih =>
    intro a a' vs h
    rw [loadEach, M.bind_ok_iff] at h
    obtain ⟨v, a1, h1, h2⟩ := h
    rw [M.bind_ok_iff] at h2
    obtain ⟨ws, a2, h2, h3⟩ := h2
    cases h3
    obtain ⟨h4, h5⟩ := ih _ _ _ h2
    refine ⟨by simp [h4], ?_⟩
    refine Runs.cons (t := ⟨a1.parser, some a1.attrs⟩) ?_ (by intro x hx; cases v <;> cases hx) h5
    simp only [Client.call]
    rw [h1]
    cases v <;> rfl

theorem runs_load (b : Bool) : ∀ (ls : List (Loader α)) (a : AP) (t : Client) (vs : List (Option α)), vs.length = ls.length →
    Runs Z ⟨a.parser, some a.attrs⟩ (loadCalls b ls vs) t → ∃ a', loadEach Z b ls a = (.ok vs, a') ∧ t = ⟨a'.parser, some a'.attrs⟩ := by
  intro ls
  induction ls with
  | nil =>
    intro a t vs hl h
    cases vs with
    | nil => exact ⟨a, rfl, h.nil_eq⟩
    | cons => cases hl
  | cons l ls ih =>
    intro a t vs hl h
    cases vs with
    | nil => cases hl
    | cons v vs =>
      simp only [loadCalls] at h
      obtain ⟨u, h1, h2⟩ := h.uncons
      have : ∃ a1, AP.load Z b l a = (.ok v, a1) ∧ u = ⟨a1.parser, some a1.attrs⟩ := by
        simp only [Client.call] at h1
        rcases hx : AP.load Z b l ⟨a.parser, a.attrs⟩ with ⟨r, a1⟩
        rw [hx] at h1
        refine ⟨a1, ?_⟩
        rcases r with (_ | y) | e | x <;> cases v <;> simp at h1
        · exact ⟨rfl, h1.symm⟩
        · obtain ⟨rfl, h1⟩ := h1; exact ⟨rfl, h1.symm⟩
      obtain ⟨a1, h3, rfl⟩ := this
      obtain ⟨a', h4, h5⟩ := ih a1 t vs (by simpa using hl) h2
      refine ⟨a', ?_, h5⟩
      simp only [loadEach, M.bind_apply, h3, h4]
      rfl

/-- As many values as loaders, and the document ends at the end. -/
def Fitting (plan : Nat → String → Nat → List (Loader α)) : Nat → List (Obs α) → Prop
  | _, [] => False
  | k, .start name n vals :: os => vals.length = (plan k name n).length ∧ Fitting plan (k + 1) os
  | k, .end :: os => Fitting plan k os
  | _, .fbx _ :: os => os = []

theorem Fitting.last {plan : Nat → String → Nat → List (Loader α)} : ∀ {os : List (Obs α)} {k : Nat}, Fitting plan k os →
    ∃ o f, os = o ++ [.fbx f] ∧ (∀ g, .fbx g ∉ o) ∧ ∀ g, Fitting plan k (o ++ [.fbx g]) := by
  intro os
  induction os with
  | nil => intro k h; exact h.elim
  | cons x os ih =>
    intro k h
    cases x with
    | start name n vals =>
      obtain ⟨o, f, rfl, h2, h3⟩ := ih h.2
      exact ⟨.start name n vals :: o, f, rfl, by simpa using h2, fun g => ⟨h.1, h3 g⟩⟩
    | «end» =>
      obtain ⟨o, f, rfl, h2, h3⟩ := ih (k := k) h
      exact ⟨.end :: o, f, rfl, by simpa using h2, fun g => h3 g⟩
    | fbx f =>
      have : os = [] := h
      subst this
      exact ⟨[], f, rfl, by simp, fun g => rfl⟩

/-- A client that saw the end of the document made a history. -/
theorem drive_runs (b : Bool) (plan : Nat → String → Nat → List (Loader α)) : ∀ (n k : Nat) (seen obs : List (Obs α)) (p q : Parser) (f : Except PErr Footer) (at_ : Option Attrs),
    drive Z b plan n k seen p = (.ok (seen ++ (obs ++ [.fbx f])), q) → Runs Z ⟨p, at_⟩ (hist b plan k (obs ++ [.fbx f])) ⟨q, none⟩ ∧
      Fitting plan k (obs ++ [.fbx f]) := by
  intro n
  induction n with
  | zero =>
    intro k seen obs p q f at_ h
    have h : (Res.ok seen, p) = (Res.ok (ε := PErr) (seen ++ (obs ++ [.fbx f])), q) := h
    simp at h
  | succ n ih =>
    intro k seen obs p q f at_ h
    rw [drive, M.bind_ok_iff] at h
    obtain ⟨ev, s1, h1, h2⟩ := h
    -- what was seen first
    have hhead : ∀ {m k'} {x : Obs α} {p' : Parser}, (∀ g, x ≠ .fbx g) → drive Z b plan m k' (seen ++ [x]) p' = (.ok (seen ++ (obs ++ [.fbx f])), q) →
        ∃ obs', obs = x :: obs' ∧ drive Z b plan m k' (seen ++ [x]) p' = (.ok (seen ++ [x] ++ (obs' ++ [.fbx f])), q) := by
      intro m k' x p' hx h
      obtain ⟨o, ho⟩ := drive_extends _ _ _ _ _ _ _ _ h
      rw [List.append_assoc, List.append_cancel_left_eq] at ho
      cases obs with
      | nil =>
        simp only [List.nil_append, List.cons_append, List.cons.injEq] at ho
        exact absurd ho.1.symm (hx f)
      | cons y obs' =>
        simp only [List.cons_append, List.nil_append, List.cons.injEq] at ho
        obtain ⟨rfl, -⟩ := ho
        exact ⟨obs', rfl, by rw [h]; simp⟩
    cases ev with
    | startNode name m =>
      simp only at h2
      rw [M.bind_ok_iff] at h2
      obtain ⟨vs, s2, h3, h4⟩ := h2
      obtain ⟨obs', rfl, h5⟩ := hhead (by intro g hg; cases hg) h4
      cases ha : AP.ofParser s1 with
      | err e => simp [withAttrs, ha] at h3
      | panic x => simp [withAttrs, ha] at h3
      | ok a =>
        simp only [withAttrs, ha] at h3
        have hap : a.parser = s1 := by
          unfold AP.ofParser at ha
          split at ha <;> cases ha <;> rfl
        rcases hl : loadEach Z b (plan k name m) a with ⟨r, a'⟩
        rw [hl] at h3
        simp only [Prod.mk.injEq] at h3
        obtain ⟨rfl, rfl⟩ := h3
        obtain ⟨h6, h7⟩ := load_runs b _ _ _ _ hl
        obtain ⟨h8, h9⟩ := ih _ _ _ _ _ _ (some a'.attrs) h5
        refine ⟨?_, h6, h9⟩
        simp only [List.cons_append, hist]
        refine Runs.cons (t := ⟨s1, some a.attrs⟩) ?_ (by intro x hx; cases hx) ?_
        · simp only [Client.call, h1, attrsOf, ha]
        · rw [hap] at h7
          exact h7.trans (loadCalls_calm _ _ _) h8
    | endNode =>
      obtain ⟨obs', rfl, h5⟩ := hhead (by intro g hg; cases hg) h2
      obtain ⟨h8, h9⟩ := ih _ _ _ _ _ _ none h5
      refine ⟨?_, h9⟩
      simp only [List.cons_append, hist]
      refine Runs.cons (t := ⟨s1, none⟩) ?_ (by intro x hx; cases hx) h8
      simp only [Client.call, h1]
    | endFbx g =>
      have h3 : (Res.ok (seen ++ [.fbx g]), s1) = (Res.ok (ε := PErr) (seen ++ (obs ++ [.fbx f])), q) := h2
      clear h2
      simp only [Prod.mk.injEq, Res.ok.injEq, List.append_cancel_left_eq] at h3
      obtain ⟨h2, rfl⟩ := h3
      cases obs with
      | nil =>
        simp only [List.nil_append, List.cons.injEq, Obs.fbx.injEq, and_true] at h2
        subst h2
        refine ⟨?_, rfl⟩
        simp only [List.nil_append, hist]
        refine Runs.cons (t := ⟨s1, none⟩) ?_ (by intro x hx; cases hx) .nil
        simp only [Client.call, h1]
      | cons y obs' => simp at h2

/-- The other way round. -/
theorem runs_drive {L : Nat} (hL : L + 2 ^ 32 ≤ 2 ^ 64) (b : Bool) (plan : Nat → String → Nat → List (Loader α)) : ∀ (obs seen : List (Obs α)) (k : Nat) (p : Parser) (t : Client) (at_ : Option Attrs),
    CInv L ⟨p, at_⟩ → Runs Z ⟨p, at_⟩ (hist b plan k obs) t → Fitting plan k obs → drive Z b plan obs.length k seen p = (.ok (seen ++ obs), t.parser) := by
  have hnext : ∀ {p : Parser} {at_ : Option Attrs} {ev : Event} {u : Client}, (Client.mk p at_).call Z (.next : Call α) = some (.event ev, u) →
      Parser.nextEvent p = (.ok ev, u.parser) ∧ u.attrs = (match ev with | .startNode _ _ => attrsOf u.parser | _ => none) := by
    intro p at_ ev u h
    simp only [Client.call] at h
    rcases hx : Parser.nextEvent p with ⟨_ | _ | _, q⟩ <;> rw [hx] at h <;> simp at h
    obtain ⟨rfl, rfl⟩ := h
    exact ⟨rfl, rfl⟩
  intro obs
  induction obs with
  | nil => intro seen k p t at_ hi h hf; exact hf.elim
  | cons x obs ih =>
    intro seen k p t at_ hi h hf
    rw [List.length_cons, drive, M.bind_apply]
    cases x with
    | start name n vals =>
      simp only [hist] at h
      obtain ⟨u, h1, h2⟩ := h.uncons
      obtain ⟨v, h3, h4, -⟩ := h2.split
      have hiu := (Runs.cons h1 (by intro x hx; cases hx) .nil).inv hL hi (by intro c x hx; simp at hx)
      have hiv := h3.inv hL hiu (loadCalls_calm _ _ _)
      obtain ⟨h5, h6⟩ := hnext h1
      simp only [h5, M.bind_apply]
      obtain ⟨up, ua⟩ := u
      simp only at h5 h6
      cases ha : AP.ofParser up with
      | ok a =>
        have hap : a.parser = up := by
          unfold AP.ofParser at ha
          split at ha <;> cases ha <;> rfl
        simp only [attrsOf, ha] at h6
        subst h6
        rw [← hap] at h3
        obtain ⟨a', h7, rfl⟩ := runs_load b _ _ _ _ hf.1 h3
        simp only [withAttrs, ha, h7]
        rw [ih _ _ _ _ _ hiv h4 hf.2]
        simp
      | err e =>
        exfalso
        unfold AP.ofParser at ha
        split at ha <;> cases ha
      | panic e =>
        exfalso
        unfold AP.ofParser at ha
        split at ha
        · rename_i hst
          have hd := call_did hL hi h1
          cases hd with
          | event hrun he hi ha =>
            cases he with
            | start hs hst' hq =>
              simp only at hq
              rw [hq] at hst
              rw [show _ = [] from hst] at hst'
              cases hst'
        · cases ha
    | «end» =>
      simp only [hist] at h
      obtain ⟨u, h1, h2⟩ := h.uncons
      obtain ⟨h5, h6⟩ := hnext h1
      simp only [h5]
      have hiu := (Runs.cons h1 (by intro x hx; cases hx) .nil).inv hL hi (by intro c x hx; simp at hx)
      rw [ih _ _ _ _ _ hiu h2 hf]
      simp
    | fbx f =>
      simp only [hist] at h
      obtain ⟨u, h1, h2⟩ := h.uncons
      have : obs = [] := hf
      subst this
      obtain ⟨h5, h6⟩ := hnext h1
      simp only [h5]
      have := h2.nil_eq
      subst this
      rfl

end Fbx
