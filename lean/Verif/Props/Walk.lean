import Verif.Proof.Walk

/-!
# C63: editing a tree while traversing it
-/

namespace Fbx
open Tree

/-- **C63** (what is left). At any time, whatever has been done to the tree before, the calls of a traversal yield what lies between
its two cursors in the Euler tour of the tree as it is now, provided that they are in the tour in this order. -/
theorem C63_between {t : Tree} (h : WF t) {i : Nat} (hi : i < t.size) {l a m b : List Trav} (hl : Tour t i l) (hm : l = a ++ m ++ b)
    {x y : Trav} (hx : m.head? = some x) (hy : m.getLast? = some y) (ss : List Step) :
    ∃ c, Step.calls t ss (some (x, y)) = (.ok (Step.ofLists ss m).1, c) := by
  obtain ⟨k, gk⟩ := h.goodTour i hi
  cases tour_det.1 i l hl k gk.tour
  have hc : cursors m = some (x, y) := by simp only [cursors, hx, hy]
  exact ⟨_, by rw [← hc]; exact calls_cursors (gk.left.infix ⟨a, b, hm.symm⟩) ss⟩

/-- The state of a traversal of the subtree of `i` that has `m` left. -/
structure Ahead (i : Nat) (w : Walk) (a m b : List Trav) : Prop where
  wf : WF w.tree
  valid : i < w.tree.size
  tour : Tour w.tree i (a ++ m ++ b)
  cursors : w.cursors = Tree.cursors m
  front : w.front.Sublist a
  back : w.back.reverse.Sublist b

theorem Ahead.left {i : Nat} {w : Walk} {a m b : List Trav} (h : Ahead i w a m b) : Left w.tree m := by
  obtain ⟨k, gk⟩ := h.wf.goodTour i h.valid
  cases tour_det.1 i _ h.tour k gk.tour
  exact gk.left.infix ⟨a, b, rfl⟩

theorem Ahead.forward {i : Nat} {w w' : Walk} {a m b : List Trav} (h : Ahead i w a m b) (hw : w.Forward w') :
    Ahead i w' (a ++ m.head?.toList) m.tail b ∧ w'.front = w.front ++ m.head?.toList ∧ w'.back = w.back ∧ w'.tree = w.tree := by
  cases hw with
  | mk hn =>
    rw [h.cursors, forward_cursors h.left.hops h.left.nodup] at hn
    cases hn
    refine ⟨⟨h.wf, h.valid, ?_, rfl, h.front.append (.refl _), h.back⟩, rfl, rfl, rfl⟩
    have := h.tour
    cases m <;> simpa using this

theorem Ahead.backward {i : Nat} {w w' : Walk} {a m b : List Trav} (h : Ahead i w a m b) (hw : w.Backward w') :
    Ahead i w' a m.dropLast (m.getLast?.toList ++ b) ∧ w'.back = w.back ++ m.getLast?.toList ∧ w'.front = w.front ∧ w'.tree = w.tree := by
  cases hw with
  | mk hn =>
    rw [h.cursors, backward_cursors h.left.hops h.left.nodup] at hn
    cases hn
    refine ⟨⟨h.wf, h.valid, ?_, rfl, h.front, ?_⟩, rfl, rfl, rfl⟩
    · have := h.tour
      cases hm : m.getLast? with
      | none =>
        rw [List.getLast?_eq_none_iff] at hm
        subst hm
        simpa using this
      | some z =>
        rw [← split_last hm] at this
        simpa using this
    · rw [List.reverse_append]
      refine List.Sublist.append ?_ h.back
      cases m.getLast? <;> simp

theorem Ahead.edit {i : Nat} {w w' : Walk} {op : TreeOp} {a m b : List Trav} (h : Ahead i w a m b) (hop : op.adds = true) (hw : w.Edit op w') :
    ∃ a' m' b', Ahead i w' a' m' b' ∧ kept (fun c => decide (c < w.tree.size)) m' = m ∧ w'.front = w.front ∧ w'.back = w.back ∧ w.tree.size ≤ w'.tree.size := by
  cases hw with
  | @mk u hr =>
    obtain ⟨h1, h2, h3⟩ := adds_tour hop h.wf hr
    have hv : i < u.size := Nat.lt_of_lt_of_le h.valid h2
    obtain ⟨k, gk⟩ := h1.goodTour i hv
    have hk := h3 i k h.valid gk.tour
    obtain ⟨a', m', b', rfl, ha, hm, hb, e1, e2⟩ := kept_split (tour_det.1 i _ hk _ h.tour)
    refine ⟨a', m', b', ⟨h1, hv, gk.tour, ?_, ?_, ?_⟩, hm, rfl, rfl, h2⟩
    · rw [cursors_of_ends e1 e2]; exact h.cursors
    · rw [← ha] at h; exact h.front.trans List.filter_sublist
    · rw [← hb] at h; exact h.back.trans List.filter_sublist

/-- The invariant of a program that adds. -/
theorem Walked.ahead {t : Tree} (ht : WF t) {i : Nat} (hi : i < t.size) {l : List Trav} (hl : Tour t i l) {w : Walk} (hw : Walked t i w) :
    ∃ a m b, Ahead i w a m b ∧ t.size ≤ w.tree.size ∧ kept (fun c => decide (c < t.size)) (w.front ++ m ++ w.back.reverse) = l := by
  induction hw with
  | start =>
    obtain ⟨k, gk⟩ := ht.goodTour i hi
    cases tour_det.1 i _ hl k gk.tour
    refine ⟨[], l, [], ⟨ht, hi, by simpa using hl, ?_, .refl _, .refl _⟩, Nat.le_refl _, ?_⟩
    · unfold cursors
      rw [gk.head, gk.last]
      rfl
    · simp only [List.nil_append, List.reverse_nil, List.append_nil]
      unfold kept
      rw [List.filter_eq_self]
      intro x hx
      rw [Trav.node_eq]
      simpa using (gk.below x hx).1
  | forward _ hs ih =>
    obtain ⟨a, m, b, h1, h2, h3⟩ := ih
    obtain ⟨g1, g2, g3, g4⟩ := h1.forward hs
    refine ⟨_, _, _, g1, by rw [g4]; exact h2, ?_⟩
    rw [g2, g3, ← h3]
    cases m <;> simp
  | backward _ hs ih =>
    obtain ⟨a, m, b, h1, h2, h3⟩ := ih
    obtain ⟨g1, g2, g3, g4⟩ := h1.backward hs
    refine ⟨_, _, _, g1, by rw [g4]; exact h2, ?_⟩
    rw [g2, g3, ← h3]
    congr 1
    cases hm : m.getLast? with
    | none =>
      rw [List.getLast?_eq_none_iff] at hm
      subst hm
      simp
    | some z =>
      conv => rhs; rw [← split_last hm]
      simp
  | edit _ hop hs ih =>
    obtain ⟨a, m, b, h1, h2, h3⟩ := ih
    obtain ⟨a', m', b', g1, g2, g3, g4, g5⟩ := h1.edit hop hs
    refine ⟨a', m', b', g1, Nat.le_trans h2 g5, ?_⟩
    rw [g3, g4, ← h3, ← g2]
    simp only [kept_append]
    congr 2
    unfold kept
    rw [List.filter_filter]
    apply List.filter_congr
    intro x _
    by_cases hx : x.node < t.size
    · simp [hx, Nat.lt_of_lt_of_le hx h2]
    · simp [hx]

/-- **C63** (adding). While the subtree of `i` is traversed from both ends, nodes may be created and attributes changed anywhere, also in the
subtree. The traversal never panics. What it yields, from the front, then what is left, then from the back, is in the order of the tour
of the tree as it is now and contains nothing twice; of the nodes the tree had at the beginning it contains exactly those of the subtree. -/
theorem C63_adding {t : Tree} (ht : WF t) {i : Nat} (hi : i < t.size) {l : List Trav} (hl : Tour t i l) {w : Walk} (hw : Walked t i w) :
    ∃ m l', (∀ ss, ∃ c, Step.calls w.tree ss w.cursors = (.ok (Step.ofLists ss m).1, c)) ∧
      Tour w.tree i l' ∧ (w.front ++ m ++ w.back.reverse).Sublist l' ∧ (w.front ++ m ++ w.back.reverse).Nodup ∧
      (w.front ++ m ++ w.back.reverse).filter (fun x => decide (x.node < t.size)) = l := by
  obtain ⟨a, m, b, h1, -, h3⟩ := Walked.ahead ht hi hl hw
  have hs : (w.front ++ m ++ w.back.reverse).Sublist (a ++ m ++ b) := (h1.front.append (.refl m)).append h1.back
  obtain ⟨k, gk⟩ := h1.wf.goodTour i h1.valid
  cases tour_det.1 i _ h1.tour k gk.tour
  exact ⟨m, _, fun ss => ⟨_, by rw [h1.cursors]; exact calls_cursors h1.left ss⟩, h1.tour, hs, gk.nodup.sublist hs, h3⟩

/-- **C63** (adding, at the end). When a call yields nothing, every item of the original tour has been yielded, in order. -/
theorem C63_adding_end {t : Tree} (ht : WF t) {i : Nat} (hi : i < t.size) {l : List Trav} (hl : Tour t i l) {w : Walk} (hw : Walked t i w)
    {c : Cursors} (he : nextForward w.tree w.cursors = (.ok none, c) ∨ nextBackward w.tree w.cursors = (.ok none, c)) :
    (w.front ++ w.back.reverse).filter (fun x => decide (x.node < t.size)) = l := by
  obtain ⟨a, m, b, h1, -, h3⟩ := Walked.ahead ht hi hl hw
  have : m = [] := by
    rw [h1.cursors, forward_cursors h1.left.hops h1.left.nodup, backward_cursors h1.left.hops h1.left.nodup] at he
    rcases he with he | he
    · have he := congrArg Prod.fst he
      cases m
      · rfl
      · cases he
    · have he := congrArg Prod.fst he
      simp only [Res.ok.injEq] at he
      exact List.getLast?_eq_none_iff.mp he
  subst this
  simpa [kept] using h3

/-- **C63** (moving). When a node is detached or put elsewhere, and neither cursor is at a node of its subtree, then the traversal goes on
with the tree as it is now: it yields what lies between the cursors in the new tour, which is the same as before but for the items of the
subtree. -/
theorem C63_moving {t u : Tree} (ht : WF t) {i : Nat} (hi : i < t.size) {a m b : List Trav} (hl : Tour t i (a ++ m ++ b))
    {x y : Trav} (hx : m.head? = some x) (hy : m.getLast? = some y) {op : TreeOp} {c : Nat} (hop : op.moved = some c) (hlegal : Legal t op)
    (hr : run op t = (.ok (), u)) (hcx : ¬ Anc t c x.node) (hcy : ¬ Anc t c y.node) {out : Nat → Bool} (hout : ∀ j, j < t.size → (out j = true ↔ ¬ Anc t c j)) :
    ∃ a' m' b', (∀ ss, ∃ c', Step.calls u ss (some (x, y)) = (.ok (Step.ofLists ss m').1, c')) ∧ Tour u i (a' ++ m' ++ b') ∧
      m'.head? = some x ∧ m'.getLast? = some y ∧ m'.filter (fun z => out z.node) = m.filter (fun z => out z.node) := by
  obtain ⟨hc, dest, kids, hm, hk⟩ := run_moved hop ht hlegal hr
  obtain ⟨k, gk⟩ := ht.goodTour i hi
  cases tour_det.1 i _ hl k gk.tour
  have hxm : x ∈ a ++ m ++ b := by
    have := List.mem_of_mem_head? hx
    simp [this]
  have hym : y ∈ a ++ m ++ b := by
    have := List.mem_of_getLast? hy
    simp [this]
  have hxv : x.node < t.size := by rw [Trav.node_eq]; exact (gk.below x hxm).1
  have hyv : y.node < t.size := by rw [Trav.node_eq]; exact (gk.below y hym).1
  have hci : ¬ Anc t c i := by
    intro h
    apply hcx
    rw [Trav.node_eq]
    exact h.trans (gk.below x hxm).2
  have hiu : i < u.size := by rw [hm.same.size]; exact hi
  obtain ⟨k', gk'⟩ := hm.wf.goodTour i hiu
  have e := hm.tour ht hc hk hout hi hci hl gk'.tour
  rw [kept_append, kept_append] at e
  obtain ⟨a', m', b', rfl, -, h2, -, h4, h5⟩ := kept_split e
  have hx' : m'.head? = some x := by
    rw [h4]
    cases m with
    | nil => cases hx
    | cons z zs =>
      cases hx
      simp [kept, (hout _ hxv).mpr hcx]
  have hy' : m'.getLast? = some y := by
    rw [h5, ← split_last hy, kept_append]
    have : kept out [y] = [y] := by simp [kept, (hout _ hyv).mpr hcy]
    rw [this, List.getLast?_concat]
  exact ⟨a', m', b', C63_between hm.wf hiu gk'.tour rfl hx' hy', gk'.tour, hx', hy', h2⟩

/-- **C63** (moving the whole). When the node that is moved is the one traversed or above it, the traversal goes on as if nothing had happened. -/
theorem C63_moving_all {t u : Tree} (ht : WF t) {i : Nat} (hi : i < t.size) {a m b : List Trav} (hl : Tour t i (a ++ m ++ b))
    {x y : Trav} (hx : m.head? = some x) (hy : m.getLast? = some y) {op : TreeOp} {c : Nat} (hop : op.moved = some c) (hlegal : Legal t op)
    (hr : run op t = (.ok (), u)) (hci : Anc t c i) :
    Tour u i (a ++ m ++ b) ∧ ∀ ss, ∃ c', Step.calls u ss (some (x, y)) = (.ok (Step.ofLists ss m).1, c') := by
  obtain ⟨hc, dest, kids, hm, hk⟩ := run_moved hop ht hlegal hr
  have h := hm.inside ht (fun p hp => (hk p hp).2.1) hi hci hl
  exact ⟨h, C63_between hm.wf (by rw [hm.same.size]; exact hi) h rfl hx hy⟩

/-- **C63** (a defect). When the node at the cursor is detached or moved out of the subtree, the traversal leaves the subtree, and may panic:
after `Open(1)` the node 2 is detached, and the fourth call from then on panics. If it is put below 5 instead, nodes outside of the subtree are yielded. -/
theorem C63_cursor_moved :
    (nextForward exTree (traverse 1)) = (.ok (some (.opn 1)), some (.opn 2, .cls 1)) ∧
    Step.calls (run (.detach 2) exTree).2 [.forward, .forward, .forward, .forward] (some (.opn 2, .cls 1)) = (.panic .traverse, some (.cls 2, .cls 1)) ∧
    (Step.calls (run (.append 2 5) exTree).2 [.forward, .forward, .forward, .forward, .forward] (some (.opn 2, .cls 1))).1 =
      .ok [some (.opn 2), some (.opn 3), some (.cls 3), some (.cls 2), some (.cls 5)] := by
  refine ⟨by decide, by decide, by decide⟩

/-! ## Examples -/

theorem exTour : Tour exTree 1 [.opn 1, .opn 2, .opn 3, .cls 3, .cls 2, .opn 4, .cls 4, .cls 1] :=
  .mk (l := [.opn 2, .opn 3, .cls 3, .cls 2, .opn 4, .cls 4])
    (.cons (i := 2) (is := [4]) (l := [.opn 2, .opn 3, .cls 3, .cls 2]) (m := [.opn 4, .cls 4])
      (.mk (l := [.opn 3, .cls 3]) (.cons (i := 3) (is := []) (l := [.opn 3, .cls 3]) (m := []) (.mk (l := []) .nil) .nil))
      (.cons (i := 4) (is := []) (l := [.opn 4, .cls 4]) (m := []) (.mk (l := []) .nil) .nil))

/-- After `Open(1)` from the front and `Close(1)` from the back, two nodes are added: one behind the forward cursor, one ahead of it. -/
def exGrown : Walk := ⟨(run (.appendNew 2 "G") (run (.prependNew 1 "F") exTree).2).2, some (.opn 2, .cls 4), [.opn 1], [.cls 1]⟩

theorem exGrown_walked : Walked exTree 1 exGrown :=
  .edit (op := .appendNew 2 "G") (.edit (op := .prependNew 1 "F")
    (.backward (.forward .start (.mk (x := some (.opn 1)) (c := some (.opn 2, .cls 1)) (by decide)))
      (.mk (x := some (.cls 1)) (c := some (.opn 2, .cls 4)) (by decide))) rfl (.mk rfl)) rfl (.mk rfl)

/-- The node behind (6) is not visited, the node ahead (7) is. -/
example : (Step.calls exGrown.tree (List.replicate 9 .forward) exGrown.cursors).1 =
    .ok [some (.opn 2), some (.opn 3), some (.cls 3), some (.opn 7), some (.cls 7), some (.cls 2), some (.opn 4), some (.cls 4), none] := by decide
example : ∃ m l', (∀ ss, ∃ c, Step.calls exGrown.tree ss exGrown.cursors = (.ok (Step.ofLists ss m).1, c)) ∧
      Tour exGrown.tree 1 l' ∧ (exGrown.front ++ m ++ exGrown.back.reverse).Sublist l' ∧ (exGrown.front ++ m ++ exGrown.back.reverse).Nodup ∧
      (exGrown.front ++ m ++ exGrown.back.reverse).filter (fun x => decide (x.node < exTree.size)) =
        [.opn 1, .opn 2, .opn 3, .cls 3, .cls 2, .opn 4, .cls 4, .cls 1] :=
  C63_adding exTree_wf (by decide) exTour exGrown_walked

/-- The node 2 is detached when it has been closed, or the node 4 when it is still ahead. -/
example : ∃ a' m' b', (∀ ss, ∃ c', Step.calls (run (.detach 2) exTree).2 ss (some (.opn 4, .cls 1)) = (.ok (Step.ofLists ss m').1, c')) ∧
    Tour (run (.detach 2) exTree).2 1 (a' ++ m' ++ b') ∧ m'.head? = some (.opn 4) ∧ m'.getLast? = some (.cls 1) ∧
    m'.filter (fun z => !hasAncestor exTree 2 exTree.size z.node) = [.opn 4, .cls 4, .cls 1] := by
  have key : ∀ j, j < exTree.size → ((!hasAncestor exTree 2 exTree.size j) = true ↔ ¬ Anc exTree 2 j) := by
    intro j hj
    rw [Bool.not_eq_true', ← Bool.not_eq_true, exTree_wf.hasAncestor hj]
  exact C63_moving exTree_wf (by decide) (a := [.opn 1, .opn 2, .opn 3, .cls 3, .cls 2]) (m := [.opn 4, .cls 4, .cls 1]) (b := []) exTour rfl rfl
    (op := .detach 2) rfl trivial rfl (exTree_not_anc (by decide) (by decide)) (exTree_not_anc (by decide) (by decide)) key
example : (Step.calls (run (.detach 4) exTree).2 (List.replicate 7 .forward) (some (.opn 2, .cls 1))).1 =
    .ok [some (.opn 2), some (.opn 3), some (.cls 3), some (.cls 2), some (.cls 1), none, none] := by decide
example : Anc exTree 1 2 := .step (by decide) .refl

end Fbx
