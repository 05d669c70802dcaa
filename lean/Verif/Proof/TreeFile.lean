import Verif.Proof.TreeLoad
import Verif.Props.ParseWritten

/-! # Loading trees from files -/

namespace Fbx
open Spec Tree
open Forest (plain)

variable {α : Type} {Z : Zlib}

/-! ## Clients with more calls -/

theorem drive_extends (buffered : Bool) (plan : Nat → String → Nat → List (Loader α)) : ∀ (n k : Nat) (seen : List (Obs α)) (p : Parser) (obs : List (Obs α)) (q : Parser),
    drive Z buffered plan n k seen p = (.ok obs, q) → ∃ o, obs = seen ++ o := by
  intro n
  induction n with
  | zero => intro k seen p obs q h; cases h; exact ⟨[], by simp⟩
  | succ n ih =>
    intro k seen p obs q h
    rw [drive, M.bind_ok_iff] at h
    obtain ⟨ev, s1, h1, h2⟩ := h
    cases ev with
    | startNode name m =>
      simp only at h2
      rw [M.bind_ok_iff] at h2
      obtain ⟨vs, s2, -, h3⟩ := h2
      obtain ⟨o, ho⟩ := ih _ _ _ _ _ h3
      exact ⟨_, by rw [ho, List.append_assoc]⟩
    | endNode =>
      obtain ⟨o, ho⟩ := ih _ _ _ _ _ h2
      exact ⟨_, by rw [ho, List.append_assoc]⟩
    | endFbx f => cases h2; exact ⟨_, rfl⟩

/-- The client stopped because the document ended or something failed. -/
def Ended (seen : List (Obs α)) : Res PErr (List (Obs α)) → Prop
  | .ok obs => ∃ o f, obs = seen ++ o ++ [.fbx f]
  | _ => True

theorem drive_more (buffered : Bool) (plan : Nat → String → Nat → List (Loader α)) (m : Nat) : ∀ (n k : Nat) (seen : List (Obs α)) (p : Parser),
    Ended seen (drive Z buffered plan n k seen p).1 → drive Z buffered plan (n + m) k seen p = drive Z buffered plan n k seen p := by
  intro n
  induction n with
  | zero =>
    intro k seen p h
    obtain ⟨o, f, h⟩ := h
    have := congrArg List.length h
    simp at this
  | succ n ih =>
    intro k seen p h
    rw [Nat.add_right_comm, drive, drive, M.bind_apply, M.bind_apply]
    rw [drive, M.bind_apply] at h
    generalize Parser.nextEvent p = x at h ⊢
    have hstep : ∀ (k : Nat) (o : Obs α) (p : Parser), (∀ f, o ≠ .fbx f) → Ended seen (drive Z buffered plan n k (seen ++ [o]) p).1 →
        Ended (seen ++ [o]) (drive Z buffered plan n k (seen ++ [o]) p).1 := by
      intro k o p hne h
      rcases hd : drive Z buffered plan n k (seen ++ [o]) p with ⟨r, q⟩
      rw [hd] at h
      cases r with
      | ok obs =>
        obtain ⟨w, hw⟩ := drive_extends _ _ _ _ _ _ _ _ hd
        obtain ⟨v, f, hv⟩ := h
        rcases List.eq_nil_or_concat w with rfl | ⟨w', y, rfl⟩
        · rw [hv] at hw
          simp only [List.append_nil] at hw
          have := (List.append_inj' hw rfl).2
          simp only [List.cons.injEq, and_true] at this
          exact absurd this.symm (hne f)
        · rw [hv, List.concat_eq_append, ← List.append_assoc] at hw
          have := (List.append_inj' hw rfl).2
          simp only [List.cons.injEq, and_true] at this
          refine ⟨w', f, ?_⟩
          rw [hv, hw, this]
      | err e => trivial
      | panic x => trivial
    obtain ⟨r, q⟩ := x
    cases r with
    | err e => rfl
    | panic x => rfl
    | ok ev =>
      cases ev with
      | startNode name c =>
        simp only [M.bind_apply] at h ⊢
        generalize withAttrs _ q = y at h ⊢
        obtain ⟨r, q'⟩ := y
        cases r with
        | err e => rfl
        | panic x => rfl
        | ok vs => exact ih _ _ _ (hstep _ _ _ (by intro f h; cases h) h)
      | endNode => exact ih _ _ _ (hstep _ _ _ (by intro f h; cases h) h)
      | endFbx f => rfl

theorem drive_unique {buffered : Bool} {plan : Nat → String → Nat → List (Loader α)} {m n k : Nat} {seen : List (Obs α)} {p : Parser}
    (hm : Ended seen (drive Z buffered plan m k seen p).1) (hn : Ended seen (drive Z buffered plan n k seen p).1) :
    drive Z buffered plan m k seen p = drive Z buffered plan n k seen p := by
  rw [← drive_more buffered plan n m k seen p hm, ← drive_more buffered plan m n k seen p hn, Nat.add_comm]

/-! ## The events determine the forest -/

theorem events_inj : ∀ (F G : Forest AttrValue) (x y : Obs AttrValue) (X Y : List (Obs AttrValue)), (∀ a b c, x ≠ .start a b c) → (∀ a b c, y ≠ .start a b c) →
    events (plain F) ++ x :: X = events (plain G) ++ y :: Y → F = G ∧ x :: X = y :: Y := by
  intro F
  induction F with
  | nil =>
    intro G x y X Y hx hy h
    cases G with
    | nil => exact ⟨rfl, h⟩
    | cons n as ch r =>
      simp only [plain, Forest.map, events, List.nil_append, List.cons_append, List.cons.injEq] at h
      exact absurd h.1 (hx _ _ _)
  | cons n as ch r ih1 ih2 =>
    intro G x y X Y hx hy h
    cases G with
    | nil =>
      simp only [plain, Forest.map, events, List.nil_append, List.cons_append, List.cons.injEq] at h
      exact absurd h.1.symm (hy _ _ _)
    | cons n' as' ch' r' =>
      simp only [plain, Forest.map, events, List.cons_append, List.cons.injEq, List.append_assoc, Obs.start.injEq, List.length_map, List.map_map] at h
      obtain ⟨⟨h1, h2, h3⟩, h4⟩ := h
      obtain ⟨h5, h6⟩ := ih1 ch' .end .end _ _ (by intro _ _ _ h; cases h) (by intro _ _ _ h; cases h) h4
      simp only [List.cons.injEq, true_and] at h6
      obtain ⟨h7, h8⟩ := ih2 r' x y X Y hx hy h6
      have h9 : as = as' := by
        have := congrArg (List.filterMap id) h3
        simpa [Function.comp_def] using this
      subst h1 h5 h7 h9
      exact ⟨rfl, h8⟩

/-! ## The loader on a parser that was not used -/

namespace Load

theorem load_spec {L : Nat} (hL : L + 2 ^ 32 ≤ 2 ^ 64) {p : Parser} (hi : CInv L ⟨p, none⟩) (hu : p.last = none) (hd : p.started = []) (n : Nat)
    (hn : 2 * p.reader.rest.length < n) :
    match drive Z false everything n 0 [] p with
    | (.ok obs, q) => ∃ F footer t, obs = events (plain F) ++ [.fbx footer] ∧ load Z p = (.ok (t, footer), q) ∧ WF t ∧
        Rep t t.root (.node "" [] F.roses)
    | (.err e, q) => load Z p = (.err (.parser e), q)
    | (.panic x, q) => load Z p = (.panic x, q) ∧ x = .attrEndOverflow ∧ p.checks = true ∧ ¬ p.version < 7500 := by
  have hmir : ∀ n, 2 * p.reader.rest.length < n → Mirrors Z n ⟨p, Tree.empty, [0]⟩ p (drive Z false everything n 0 [] p) := by
    intro n hn
    have := loop_drive (Z := Z) hL n 0 ⟨p, Tree.empty, [0]⟩ [⟨"", [], .nil⟩] p hi empty_wf
      ⟨Nat.zero_lt_one, rfl, rfl, ⟨[], rfl, .nil⟩, rfl⟩ (by simp [Parser.depth, hd]) rfl (by simp [Parser.depth, hd]; omega) ⟨rfl, rfl⟩
    exact this
  have hend : ∀ n, 2 * p.reader.rest.length < n → Ended [] (drive Z false everything n 0 [] p).1 := by
    intro n hn
    have := hmir n hn
    generalize drive Z false everything n 0 [] p = d at this ⊢
    obtain ⟨_ | _ | _, _⟩ := d
    · obtain ⟨F, f, t, h, -⟩ := this
      exact ⟨_, f, by simpa using h⟩
    · trivial
    · trivial
  rw [drive_unique (hend n hn) (hend (2 * p.reader.rest.length + 2) (by omega))]
  have hm := hmir (2 * p.reader.rest.length + 2) (by omega)
  have hus : p.isUsed = false := by simp [Parser.isUsed, hu]
  generalize drive Z false everything (2 * p.reader.rest.length + 2) 0 [] p = d at hm ⊢
  unfold load
  rw [hus]
  obtain ⟨_ | _ | _, q⟩ := d
  · obtain ⟨F, f, t, h1, h2, h3, h4, h5⟩ := hm
    refine ⟨F, f, t, h1, ?_, h3, h5⟩
    simp [h2]
  · obtain ⟨s', h1, h2⟩ := hm
    simp [h1, h2]
  · obtain ⟨s', h1, h2, h3⟩ := hm
    refine ⟨?_, h3⟩
    simp [h1, h2]

/-- The loader when the client is known to reach the end. -/
theorem load_of_drive {L : Nat} (hL : L + 2 ^ 32 ≤ 2 ^ 64) {p : Parser} (hi : CInv L ⟨p, none⟩) (hu : p.last = none) (hd : p.started = []) {n : Nat}
    {F : Forest AttrValue} {footer : Except PErr Footer} {q : Parser} (h : drive Z false everything n 0 [] p = (.ok (events (plain F) ++ [.fbx footer]), q)) :
    ∃ t, load Z p = (.ok (t, footer), q) ∧ WF t ∧ Rep t t.root (.node "" [] F.roses) := by
  have h1 := drive_more (Z := Z) false everything (2 * p.reader.rest.length + 1) n 0 [] p (by rw [h]; exact ⟨events (plain F), footer, rfl⟩)
  have h2 := load_spec (Z := Z) hL hi hu hd (n + (2 * p.reader.rest.length + 1)) (by omega)
  rw [h1, h] at h2
  obtain ⟨G, f, t, g1, g2, g3, g4⟩ := h2
  obtain ⟨h3, h4⟩ := events_inj F G _ _ _ _ (by intro _ _ _ h; cases h) (by intro _ _ _ h; cases h) g1
  cases h4
  subst h3
  exact ⟨t, g2, g3, g4⟩

end Load
end Fbx
