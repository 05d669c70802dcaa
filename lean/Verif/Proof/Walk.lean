import Verif.Spec.Walk
import Verif.Proof.TreeTour
import Verif.Props.Tree

/-! # Tours of edited trees -/

namespace Fbx.Tree

variable {t u : Tree}

/-- Items about nodes that are kept. -/
def kept (old : Nat → Bool) (l : List Trav) : List Trav := l.filter (fun x => old x.node)

theorem kept_append (old : Nat → Bool) (l m : List Trav) : kept old (l ++ m) = kept old l ++ kept old m := by simp [kept]

/-- The tour of a tree without some subtrees. -/
theorem tour_kept {old : Nat → Bool} {n : Nat} (hv : ∀ i, i < n → ∀ c ∈ t.children i, c < n)
    (h1 : ∀ i, i < n → old i = true → (t.children i).filter old = u.children i)
    (h2 : ∀ i, i < n → old i = false → ∀ c ∈ t.children i, old c = false) :
    ∀ {i : Nat} {l : List Trav}, i < n → Tour t i l → (old i = true → Tour u i (kept old l)) ∧ (old i = false → kept old l = []) := by
  intro i l hi h
  refine Tour.rec
    (motive_1 := fun i l _ => i < n → (old i = true → Tour u i (kept old l)) ∧ (old i = false → kept old l = []))
    (motive_2 := fun is l _ => (∀ c ∈ is, c < n) → TourList u (is.filter old) (kept old l)) ?_ ?_ ?_ h hi
  · intro i l _ ih hi
    have ih := ih (hv i hi)
    refine ⟨fun ho => ?_, fun ho => ?_⟩
    · rw [h1 i hi ho] at ih
      have e : kept old (.opn i :: (l ++ [.cls i])) = .opn i :: (kept old l ++ [.cls i]) := by
        simp [kept, Trav.node, ho]
      rw [e]
      exact .mk ih
    · have e : kept old (.opn i :: (l ++ [.cls i])) = kept old l := by
        simp [kept, Trav.node, ho]
      rw [e]
      have : (t.children i).filter old = [] := by
        rw [List.filter_eq_nil_iff]
        intro c hc
        rw [h2 i hi ho c hc]
        decide
      rw [this] at ih
      generalize kept old l = k at ih
      cases ih
      rfl
  · intro _
    exact .nil
  · intro i is l m _ _ ih1 ih2 hc
    have a := ih1 (hc i (by simp))
    have b := ih2 (fun c h => hc c (by simp [h]))
    rw [kept_append]
    cases ho : old i with
    | true =>
      rw [List.filter_cons_of_pos ho]
      exact .cons (a.1 ho) b
    | false =>
      rw [List.filter_cons_of_neg (by simp [ho]), a.2 ho]
      exact b

/-- Tours only depend on the children. -/
theorem tour_congr (hc : ∀ i, u.children i = t.children i) {i : Nat} {l : List Trav} (h : Tour t i l) : Tour u i l := by
  refine Tour.rec (motive_1 := fun i l _ => Tour u i l) (motive_2 := fun is l _ => TourList u is l) ?_ ?_ ?_ h
  · intro i l _ ih
    rw [← hc] at ih
    exact .mk ih
  · exact .nil
  · intro i is l m _ _ a b
    exact .cons a b

theorem Trav.node_eq (x : Trav) : x.node = x.id := by cases x <;> rfl

/-- The items of `l` around `m`. -/
theorem kept_split {old : Nat → Bool} {l : List Trav} {a m b : List Trav} (h : kept old l = a ++ m ++ b) :
    ∃ a' m' b', l = a' ++ m' ++ b' ∧ kept old a' = a ∧ kept old m' = m ∧ kept old b' = b ∧ m'.head? = m.head? ∧ m'.getLast? = m.getLast? := by
  unfold kept at h ⊢
  generalize (fun x : Trav => old x.node) = p at h ⊢
  rw [List.append_assoc, List.filter_eq_append_iff] at h
  obtain ⟨a', r, rfl, ha, hr⟩ := h
  rw [List.filter_eq_append_iff] at hr
  obtain ⟨m', b', rfl, hm, hb⟩ := hr
  cases m with
  | nil =>
    refine ⟨a' ++ m', [], b', by simp, ?_, rfl, hb, rfl, rfl⟩
    rw [List.filter_append, ha, hm, List.append_nil]
  | cons x xs =>
    -- nothing before the first kept item
    rw [List.filter_eq_cons_iff] at hm
    obtain ⟨c, d, rfl, hc, hx, hd⟩ := hm
    -- nothing behind the last kept item
    have key : ∃ e f, x :: d = e ++ f ∧ e.filter p = x :: xs ∧ f.filter p = [] ∧ e.head? = some x ∧ e.getLast? = (x :: xs).getLast? := by
      have h1 : ((x :: d).reverse).filter p = (x :: xs).reverse := by
        rw [List.filter_reverse, List.filter_cons_of_pos hx, hd]
      cases hl : (x :: xs).reverse with
      | nil => simp at hl
      | cons y ys =>
        rw [hl, List.filter_eq_cons_iff] at h1
        obtain ⟨g, k, hg, hg1, hy, hk⟩ := h1
        have e1 : x :: d = (y :: k).reverse ++ g.reverse := by
          rw [← List.reverse_append, ← hg, List.reverse_reverse]
        have e2 : (x :: xs) = (y :: ys).reverse := by rw [← hl, List.reverse_reverse]
        refine ⟨(y :: k).reverse, g.reverse, e1, ?_, ?_, ?_, ?_⟩
        · rw [List.filter_reverse, List.filter_cons_of_pos hy, hk, e2]
        · rw [List.filter_reverse, List.reverse_eq_nil_iff, List.filter_eq_nil_iff]
          exact hg1
        · have := congrArg List.head? e1
          rw [List.head?_append] at this
          cases hq : (y :: k).reverse.head? with
          | none => simp at hq
          | some z => rw [hq] at this; simpa using this.symm
        · rw [e2]; simp
    obtain ⟨e, f, h1, h2, h3, h4, h5⟩ := key
    refine ⟨a' ++ c, e, f ++ b', ?_, ?_, h2, ?_, h4, h5⟩
    · rw [h1]; simp
    · rw [List.filter_append, ha, List.append_right_eq_self, List.filter_eq_nil_iff]
      exact hc
    · rw [List.filter_append, h3, hb]; rfl

theorem cursors_of_ends {l m : List Trav} (h1 : m.head? = l.head?) (h2 : m.getLast? = l.getLast?) : cursors m = cursors l := by
  unfold cursors
  rw [h1, h2]

/-- The tour of a grown tree. -/
theorem Grown.tour {name : String} {dest : Option Nat} {kids : List Nat} (ht : WF t) (h : Grown t u name dest kids)
    (hk : ∀ p, dest = some p → p < t.size → kids.filter (fun c => decide (c < t.size)) = t.children p) {i : Nat} {l : List Trav} (hi : i < t.size) (hl : Tour u i l) :
    Tour t i (kept (fun c => decide (c < t.size)) l) := by
  refine (tour_kept (n := u.size) (fun i hi c hc => h.wf.child_valid hi hc) ?_ ?_ (by rw [h.size]; omega) hl).1 (by simpa using hi)
  · intro i hu ho
    have hi : i < t.size := by simpa using ho
    by_cases hd : dest = some i
    · rw [h.kids i hd, hk i hd hi]
    · rw [h.others i hi hd, List.filter_eq_self]
      intro c hc
      simpa using ht.child_valid hi hc
  · intro i hu ho c hc
    have : i = t.size := by
      have := h.size
      simp at ho
      omega
    subst this
    rw [h.leaf] at hc
    cases hc

/-- The effect of an edit that adds. -/
theorem adds_tour {op : TreeOp} (ha : op.adds = true) (ht : WF t) (hr : run op t = (.ok (), u)) :
    WF u ∧ t.size ≤ u.size ∧ ∀ i l, i < t.size → Tour u i l → Tour t i (kept (fun c => decide (c < t.size)) l) := by
  have hfin : ∀ {name dest kids}, Grown t u name dest kids →
      (∀ p, dest = some p → p < t.size → kids.filter (fun c => decide (c < t.size)) = t.children p) →
      WF u ∧ t.size ≤ u.size ∧ ∀ i l, i < t.size → Tour u i l → Tour t i (kept (fun c => decide (c < t.size)) l) :=
    fun hg hk => ⟨hg.wf, by rw [hg.size]; omega, fun i l hi hl => hg.tour ht hk hi hl⟩
  have hold : ∀ {p}, p < t.size → (t.children p).filter (fun c => decide (c < t.size)) = t.children p := by
    intro p hp
    rw [List.filter_eq_self]
    intro c hc
    simpa using ht.child_valid hp hc
  have hattr : ∀ (j : Nat) (f : List AttrValue → List AttrValue), u = t.upd j (fun n => { n with attrs := f n.attrs }) →
      WF u ∧ t.size ≤ u.size ∧ ∀ i l, i < t.size → Tour u i l → Tour t i (kept (fun c => decide (c < t.size)) l) := by
    rintro j f rfl
    obtain ⟨h1, h2, h3⟩ := upd_attrs_wf ht j f
    refine ⟨h1, Nat.le_refl _, fun i l hi hl => ?_⟩
    have hl := tour_congr (u := t) (fun i => (h2 i).symm) hl
    obtain ⟨m, gm⟩ := ht.goodTour i hi
    cases tour_det.1 i l hl m gm.tour
    have : kept (fun c => decide (c < t.size)) l = l := by
      unfold kept
      rw [List.filter_eq_self]
      intro x hx
      rw [Trav.node_eq]
      simpa using (gm.below x hx).1
    rw [this]
    exact hl
  cases op with
  | createNode name =>
    obtain ⟨a, ha⟩ := done_ok hr
    obtain ⟨w, h1, h2⟩ := C43_create_node ht name
    rw [h1] at ha
    cases ha
    exact hfin h2 (by intro p hp; cases hp)
  | appendNew p name =>
    obtain ⟨a, ha⟩ := done_ok hr
    by_cases hp : p < t.size
    · obtain ⟨v, h1, h2⟩ := appendNew_wf ht hp name
      rw [h1] at ha; cases ha
      refine hfin h2 ?_
      rintro q hq -
      cases hq
      rw [List.filter_append, hold hp]
      simp
    · obtain ⟨w, h1, h2, h3, _⟩ := createWith_wf ht name []
      obtain ⟨x, hx⟩ := appendRaw_panics h2 (c := t.size) (p := p) (by
        by_cases e : p = t.size
        · subst e; exact .inr (.inr .refl)
        · omega)
      simp only [appendNew, bind, M.bind, h1, hx] at ha
      cases ha
  | prependNew p name =>
    obtain ⟨a, ha⟩ := done_ok hr
    by_cases hp : p < t.size
    · obtain ⟨v, h1, h2⟩ := prependNew_wf ht hp name
      rw [h1] at ha; cases ha
      refine hfin h2 ?_
      rintro q hq -
      cases hq
      rw [List.filter_cons_of_neg (by simp), hold hp]
    · obtain ⟨w, h1, h2, h3, _⟩ := createWith_wf ht name []
      obtain ⟨x, hx⟩ := prependRaw_panics h2 (c := t.size) (p := p) (by
        by_cases e : p = t.size
        · subst e; exact .inr (.inr .refl)
        · omega)
      simp only [prependNew, bind, M.bind, h1, hx] at ha
      cases ha
  | insertNewAfter b name =>
    obtain ⟨a, ha⟩ := done_ok hr
    by_cases hroot : b = t.root
    · simp only [insertNewAfter, bind, M.bind, assertNotRoot, if_pos hroot] at ha
      cases ha
    by_cases hp : b < t.size
    · obtain ⟨v, l, r, h1, hs, h2, _⟩ := insertNewAfter_wf ht hp hroot name
      rw [h1] at ha; cases ha
      refine hfin h2 ?_
      intro q hq hq'
      rw [← hold hq', hs q hq]
      simp [List.filter_cons]
    · obtain ⟨w, h1, h2, h3, _⟩ := createWith_wf ht name []
      obtain ⟨x, hx⟩ := insertAfterRaw_panics (t := w) (c := t.size) (b := b) (by omega)
      simp only [insertNewAfter, bind, M.bind, assertNotRoot, if_neg hroot, h1, hx] at ha
      cases ha
  | insertNewBefore b name =>
    obtain ⟨a, ha⟩ := done_ok hr
    by_cases hroot : b = t.root
    · simp only [insertNewBefore, bind, M.bind, assertNotRoot, if_pos hroot] at ha
      cases ha
    by_cases hp : b < t.size
    · obtain ⟨v, l, r, h1, hs, h2, _⟩ := insertNewBefore_wf ht hp hroot name
      rw [h1] at ha; cases ha
      refine hfin h2 ?_
      intro q hq hq'
      rw [← hold hq', hs q hq]
      simp [List.filter_cons]
    · obtain ⟨w, h1, h2, h3, _⟩ := createWith_wf ht name []
      obtain ⟨x, hx⟩ := insertBeforeRaw_panics (t := w) (c := t.size) (b := b) (by omega)
      simp only [insertNewBefore, bind, M.bind, assertNotRoot, if_neg hroot, h1, hx] at ha
      cases ha
  | appendAttribute i v =>
    have hr' : appendAttribute i v t = (.ok (), u) := hr
    simp only [appendAttribute, bind, M.bind, assertNotRoot, assertValid] at hr'
    split at hr'
    · rename_i hh; split at hh <;> cases hh
      split at hr'
      · rename_i hh; split at hh <;> cases hh
        cases hr'
        exact hattr i (fun l => l ++ [v]) rfl
      · cases hr'
      · cases hr'
    · cases hr'
    · cases hr'
  | setAttribute i k v =>
    obtain ⟨a, ha⟩ := done_ok hr
    simp only [setAttribute, bind, M.bind, assertValid] at ha
    split at ha
    · rename_i hh; split at hh <;> cases hh
      cases ha
      exact hattr i (fun l => l.set k v) rfl
    · cases ha
    · cases ha
  | takeAttributes i =>
    obtain ⟨a, ha⟩ := done_ok hr
    simp only [takeAttributes, bind, M.bind, assertValid] at ha
    split at ha
    · rename_i hh; split at hh <;> cases hh
      cases ha
      exact hattr i (fun _ => []) rfl
    · cases ha
    · cases ha
  | setAttributes i vs =>
    have hr' : setAttributes i vs t = (.ok (), u) := hr
    simp only [setAttributes, bind, M.bind, assertValid] at hr'
    split at hr'
    · rename_i hh; split at hh <;> cases hh
      cases hr'
      exact hattr i (fun _ => vs) rfl
    · cases hr'
    · cases hr'
  | _ => cases ha

/-! ## Moving -/

theorem WF.child_anc (h : WF t) {c i x : Nat} (hi : i < t.size) (hx : x ∈ t.children i) (ha : ¬ Anc t c i) : Anc t c x ↔ x = c := by
  have hp := (h.mem_children (h.child_valid hi hx) hi).mpr hx
  constructor
  · intro h'
    cases h' with
    | refl => rfl
    | step hq h2 =>
      rw [hp] at hq
      cases hq
      exact absurd h2 ha
  · rintro rfl
    exact .refl

/-- A moved node: what the tours have in common. -/
theorem Moved.tour {c : Nat} {dest : Option Nat} {kids : List Nat} (ht : WF t) (h : Moved t u c dest kids) (hc : c < t.size)
    (hk : ∀ p, dest = some p → p < t.size ∧ ¬ Anc t c p ∧ kids.filter (· ≠ c) = (t.children p).filter (· ≠ c)) {old : Nat → Bool}
    (hold : ∀ j, j < t.size → (old j = true ↔ ¬ Anc t c j)) {i : Nat} {l l' : List Trav} (hi : i < t.size) (ha : ¬ Anc t c i) (hl : Tour t i l) (hl' : Tour u i l') :
    kept old l' = kept old l := by
  obtain ⟨w1, w2, w3, w4⟩ := detach_wf ht hc
  have hfalse : ∀ j, j < t.size → (old j = false ↔ Anc t c j) := by
    intro j hj
    rw [← Bool.not_eq_true, hold j hj, Classical.not_not]
  have key : ∀ i, i < t.size → old i = true → ∀ k : List Nat, k.filter (· ≠ c) = (t.children i).filter (· ≠ c) → k.filter old = (t.children i).filter (· ≠ c) := by
    intro i hi ho k hk
    have e : k.filter old = (k.filter (· ≠ c)).filter old := by
      rw [List.filter_filter]
      apply List.filter_congr
      intro x _
      by_cases hx : x = c
      · subst hx
        have : old x = false := (hfalse x hc).mpr .refl
        simp [this]
      · simp [hx]
    rw [e, hk, List.filter_eq_self]
    intro x hx
    rw [List.mem_filter] at hx
    rw [hold x (ht.child_valid hi hx.1)]
    intro hanc
    have := (ht.child_anc hi hx.1 ((hold i hi).mp ho)).mp hanc
    simp [this] at hx
  have r1 := (tour_kept (u := detachRaw c t) (old := old) (n := t.size) (fun i hi c hc => ht.child_valid hi hc)
    (fun i hi ho => by rw [w4 i hi]; exact key i hi ho _ rfl)
    (fun i hi ho x hx => (hfalse x (ht.child_valid hi hx)).mpr (.step ((ht.mem_children (ht.child_valid hi hx) hi).mpr hx) ((hfalse i hi).mp ho))) hi hl).1 ((hold i hi).mpr ha)
  have r2 := (tour_kept (t := u) (u := detachRaw c t) (old := old) (n := t.size)
    (fun i hi c hc => by
      have := h.wf.child_valid (by rw [h.same.size]; exact hi) hc
      rwa [h.same.size] at this)
    (fun i hi ho => by
      rw [w4 i hi]
      refine key i hi ho _ ?_
      by_cases hd : dest = some i
      · rw [h.kids i hd]; exact (hk i hd).2.2
      · rw [h.others i hi hd, List.filter_filter]; simp)
    (fun i hi ho x hx => by
      have hai := (hfalse i hi).mp ho
      have hd : dest ≠ some i := fun hd => (hk i hd).2.1 hai
      rw [h.others i hi hd, List.mem_filter] at hx
      exact (hfalse x (ht.child_valid hi hx.1)).mpr (.step ((ht.mem_children (ht.child_valid hi hx.1) hi).mpr hx.1) hai)) hi hl').1 ((hold i hi).mpr ha)
  exact tour_det.1 i _ r2 _ r1

/-- The subtree of a moved node does not change. -/
theorem Moved.inside {c : Nat} {dest : Option Nat} {kids : List Nat} (ht : WF t) (h : Moved t u c dest kids)
    (hk : ∀ p, dest = some p → ¬ Anc t c p) {i : Nat} {l : List Trav} (hi : i < t.size) (ha : Anc t c i) (hl : Tour t i l) : Tour u i l := by
  refine Tour.rec (motive_1 := fun i l _ => i < t.size → Anc t c i → Tour u i l)
    (motive_2 := fun is l _ => (∀ x ∈ is, x < t.size ∧ Anc t c x) → TourList u is l) ?_ ?_ ?_ hl hi ha
  · intro i l _ ih hi ha
    have hch : u.children i = t.children i := by
      rw [h.others i hi (fun hd => hk i hd ha), List.filter_eq_self]
      intro x hx
      have hp := (ht.mem_children (ht.child_valid hi hx) hi).mpr hx
      simp only [ne_eq, decide_eq_true_eq, decide_not, Bool.not_eq_eq_eq_not, Bool.not_true, decide_eq_false_iff_not]
      rintro rfl
      obtain ⟨n, hn⟩ := ht.acyclic _ (ht.child_valid hi hx)
      exact hn.not_self ⟨i, hp, ha⟩
    have := ih (fun x hx => ⟨ht.child_valid hi hx, .step ((ht.mem_children (ht.child_valid hi hx) hi).mpr hx) ha⟩)
    rw [← hch] at this
    exact .mk this
  · intro _; exact .nil
  · intro i is l m _ _ a b hx
    exact .cons (a (hx i (by simp)).1 (hx i (by simp)).2) (b (fun x h => hx x (by simp [h])))

/-- The effect of a move. -/
theorem run_moved {op : TreeOp} {c : Nat} (hop : op.moved = some c) (ht : WF t) (hl : Legal t op) (hr : run op t = (.ok (), u)) :
    c < t.size ∧ ∃ dest kids, Moved t u c dest kids ∧
      ∀ p, dest = some p → p < t.size ∧ ¬ Anc t c p ∧ kids.filter (· ≠ c) = (t.children p).filter (· ≠ c) := by
  have hsib : ∀ {b : Nat}, b < t.size → ¬ Anc t c b → ∀ {p}, (t.nodes b).parent = some p → p < t.size ∧ ¬ Anc t c p := by
    intro b hb ha p hp
    exact ⟨ht.parent_valid hb hp, fun h => ha (.step hp h)⟩
  have hins : ∀ b, c ≠ b → insertAfterRaw c b t = (.ok (), u) → ¬ Anc t c b → c < t.size ∧ ∃ dest kids, Moved t u c dest kids ∧
      ∀ p, dest = some p → p < t.size ∧ ¬ Anc t c p ∧ kids.filter (· ≠ c) = (t.children p).filter (· ≠ c) := by
    intro b hne hr' hl
    by_cases hb : t.size ≤ c ∨ t.size ≤ b ∨ c = b
    · obtain ⟨x, hx⟩ := insertAfterRaw_panics hb
      rw [hx] at hr'; cases hr'
    · obtain ⟨v, l, r, h1, h3, h2, _⟩ := insertAfterRaw_wf ht (c := c) (b := b) (by omega) (by omega) hl
      rw [h1] at hr'; cases hr'
      refine ⟨by omega, _, _, h2, fun p hp => ⟨(hsib (by omega) hl hp).1, (hsib (by omega) hl hp).2, ?_⟩⟩
      have e := congrArg (List.filter (· ≠ c)) (h3 p hp)
      rw [List.filter_filter] at e
      simp only [Bool.and_self] at e
      rw [e]
      simp [List.filter_cons]
  cases op with
  | append d p =>
    cases hop
    have hr' : appendRaw c p t = (.ok (), u) := hr
    by_cases hb : t.size ≤ c ∨ t.size ≤ p ∨ Anc t c p
    · obtain ⟨x, hx⟩ := appendRaw_panics ht hb
      rw [hx] at hr'; cases hr'
    · obtain ⟨v, h1, h2⟩ := appendRaw_wf ht (c := c) (p := p) (by omega) (by omega) (fun e => hb (.inr (.inr e)))
      rw [h1] at hr'; cases hr'
      refine ⟨by omega, _, _, h2, ?_⟩
      rintro q hq
      cases hq
      refine ⟨by omega, fun e => hb (.inr (.inr e)), ?_⟩
      rw [List.filter_append, List.filter_filter]
      simp
  | prepend d p =>
    cases hop
    have hr' : prependRaw c p t = (.ok (), u) := hr
    by_cases hb : t.size ≤ c ∨ t.size ≤ p ∨ Anc t c p
    · obtain ⟨x, hx⟩ := prependRaw_panics ht hb
      rw [hx] at hr'; cases hr'
    · obtain ⟨v, h1, h2⟩ := prependRaw_wf ht (c := c) (p := p) (by omega) (by omega) (fun e => hb (.inr (.inr e)))
      rw [h1] at hr'; cases hr'
      refine ⟨by omega, _, _, h2, ?_⟩
      rintro q hq
      cases hq
      refine ⟨by omega, fun e => hb (.inr (.inr e)), ?_⟩
      rw [List.filter_cons_of_neg (by simp), List.filter_filter]
      simp
  | insertAfter d b =>
    cases hop
    exact hins b (fun e => hl (by rw [e]; exact .refl)) hr hl
  | insertBefore d b =>
    cases hop
    exact hins b (fun e => hl (by rw [e]; exact .refl)) hr hl
  | detach d =>
    cases hop
    have hr' : detach c t = (.ok (), u) := hr
    by_cases hc : c < t.size
    · obtain ⟨v, h1, h2⟩ := C43_detach ht hc
      rw [h1] at hr'; cases hr'
      exact ⟨hc, _, _, h2, by intro p hp; cases hp⟩
    · rw [detach, if_pos (by omega)] at hr'
      cases hr'
  | _ => cases hop

end Fbx.Tree
