import Verif.Proof.TreeDoc

/-!
# Trees: strict equality, traversal, children by name, insertion, attributes (C40–C45)

`Spec/Tree.lean` says what a well-formed tree is (`WF`), which document a node represents (`Rep`), the Euler
tour of a subtree (`Tour`), and what "moved" and "grown" mean.
-/

namespace Fbx

open Tree

/-! ## Reachable trees are well-formed -/

theorem done_ok {α : Type} {m : TM α} {t u : Tree} (h : done m t = (.ok (), u)) : ∃ a, m t = (.ok a, u) := by
  unfold done M.bind at h
  generalize m t = x at h
  obtain ⟨r, s⟩ := x
  cases r with
  | ok a => exact ⟨a, by cases h; rfl⟩
  | err e => cases h
  | panic p => cases h

theorem Tree.Same.keeps {t u : Tree} (h : Same t u) : Keeps t u :=
  ⟨h.root, by rw [h.size]; exact Nat.le_refl _, fun i _ => h.name? i⟩

theorem Tree.Moved.keeps {t u : Tree} {c : Nat} {d : Option Nat} {k : List Nat} (h : Moved t u c d k) : Keeps t u :=
  ⟨h.same.root, by rw [h.same.size]; exact Nat.le_refl _, fun i _ => h.same.name? i⟩

theorem Tree.Grown.keeps {t u : Tree} {n : String} {d : Option Nat} {k : List Nat} (h : Grown t u n d k) : Keeps t u :=
  ⟨h.root, by rw [h.size]; omega, fun i hi => (h.old i hi).1⟩

theorem Tree.upd_keeps (t : Tree) (id : Nat) (f : List AttrValue → List AttrValue) : Keeps t (t.upd id (fun n => { n with attrs := f n.attrs })) := by
  refine ⟨rfl, Nat.le_refl _, fun i _ => ?_⟩
  simp only [Tree.name?, upd]
  split <;> rfl

/-- A call that returns leaves a well-formed tree. -/
theorem Tree.run_wf {t u : Tree} {op : TreeOp} (ih : WF t) (hl : Legal t op) (hr : run op t = (.ok (), u)) : WF u ∧ Keeps t u := by
  cases op with
  | createNode name =>
    obtain ⟨a, ha⟩ := done_ok hr
    obtain ⟨w, h1, h2, h3, h4, -, -, -, -, -, -, h5⟩ := createWith_wf ih name []
    have : createNode name t = (.ok t.size, w) := h1
    rw [this] at ha
    cases ha
    exact ⟨h2, h4, by omega, fun i hi => (h5 i hi).2.1⟩
  | append c p =>
    by_cases hb : t.size ≤ c ∨ t.size ≤ p ∨ Anc t c p
    · obtain ⟨x, hx⟩ := appendRaw_panics ih hb
      have hr' : appendRaw c p t = (.ok (), u) := hr
      rw [hx] at hr'; cases hr'
    · obtain ⟨v, h1, h2⟩ := appendRaw_wf ih (c := c) (p := p) (by omega) (by omega) (fun e => hb (.inr (.inr e)))
      have hr' : appendRaw c p t = (.ok (), u) := hr
      rw [h1] at hr'; cases hr'
      exact ⟨h2.wf, h2.keeps⟩
  | prepend c p =>
    by_cases hb : t.size ≤ c ∨ t.size ≤ p ∨ Anc t c p
    · obtain ⟨x, hx⟩ := prependRaw_panics ih hb
      have hr' : prependRaw c p t = (.ok (), u) := hr
      rw [hx] at hr'; cases hr'
    · obtain ⟨v, h1, h2⟩ := prependRaw_wf ih (c := c) (p := p) (by omega) (by omega) (fun e => hb (.inr (.inr e)))
      have hr' : prependRaw c p t = (.ok (), u) := hr
      rw [h1] at hr'; cases hr'
      exact ⟨h2.wf, h2.keeps⟩
  | insertAfter c b =>
    have hr' : insertAfterRaw c b t = (.ok (), u) := hr
    by_cases hb : t.size ≤ c ∨ t.size ≤ b ∨ c = b
    · obtain ⟨x, hx⟩ := insertAfterRaw_panics hb
      rw [hx] at hr'; cases hr'
    · obtain ⟨v, l, r, h1, _, h2, _⟩ := insertAfterRaw_wf ih (c := c) (b := b) (by omega) (by omega) hl
      rw [h1] at hr'; cases hr'
      exact ⟨h2.wf, h2.keeps⟩
  | insertBefore c b =>
    have hr' : insertAfterRaw c b t = (.ok (), u) := hr
    by_cases hb : t.size ≤ c ∨ t.size ≤ b ∨ c = b
    · obtain ⟨x, hx⟩ := insertAfterRaw_panics hb
      rw [hx] at hr'; cases hr'
    · obtain ⟨v, l, r, h1, _, h2, _⟩ := insertAfterRaw_wf ih (c := c) (b := b) (by omega) (by omega) hl
      rw [h1] at hr'; cases hr'
      exact ⟨h2.wf, h2.keeps⟩
  | appendNew p name =>
    obtain ⟨a, ha⟩ := done_ok hr
    by_cases hp : p < t.size
    · obtain ⟨v, h1, h2⟩ := appendNew_wf ih hp name
      rw [h1] at ha; cases ha
      exact ⟨h2.wf, h2.keeps⟩
    · obtain ⟨w, h1, h2, h3, _⟩ := createWith_wf ih name []
      obtain ⟨x, hx⟩ := appendRaw_panics h2 (c := t.size) (p := p) (by
        by_cases e : p = t.size
        · subst e; exact .inr (.inr .refl)
        · omega)
      simp only [appendNew, bind, M.bind, h1, hx] at ha
      cases ha
  | prependNew p name =>
    obtain ⟨a, ha⟩ := done_ok hr
    by_cases hp : p < t.size
    · obtain ⟨v, h1, h2⟩ := prependNew_wf ih hp name
      rw [h1] at ha; cases ha
      exact ⟨h2.wf, h2.keeps⟩
    · obtain ⟨w, h1, h2, h3, _⟩ := createWith_wf ih name []
      obtain ⟨x, hx⟩ := prependRaw_panics h2 (c := t.size) (p := p) (by
        by_cases e : p = t.size
        · subst e; exact .inr (.inr .refl)
        · omega)
      simp only [prependNew, bind, M.bind, h1, hx] at ha
      cases ha
  | insertNewAfter b name =>
    obtain ⟨a, ha⟩ := done_ok hr
    by_cases hroot : b = t.root
    · simp only [insertNewAfter, bind, M.bind, assertNotRoot, if_pos hroot] at ha
      cases ha
    by_cases hp : b < t.size
    · obtain ⟨v, l, r, h1, _, h2, _⟩ := insertNewAfter_wf ih hp hroot name
      rw [h1] at ha; cases ha
      exact ⟨h2.wf, h2.keeps⟩
    · obtain ⟨w, h1, h2, h3, _⟩ := createWith_wf ih name []
      obtain ⟨x, hx⟩ := insertAfterRaw_panics (t := w) (c := t.size) (b := b) (by omega)
      simp only [insertNewAfter, bind, M.bind, assertNotRoot, if_neg hroot, h1, hx] at ha
      cases ha
  | insertNewBefore b name =>
    obtain ⟨a, ha⟩ := done_ok hr
    by_cases hroot : b = t.root
    · simp only [insertNewBefore, bind, M.bind, assertNotRoot, if_pos hroot] at ha
      cases ha
    by_cases hp : b < t.size
    · obtain ⟨v, l, r, h1, _, h2, _⟩ := insertNewBefore_wf ih hp hroot name
      rw [h1] at ha; cases ha
      exact ⟨h2.wf, h2.keeps⟩
    · obtain ⟨w, h1, h2, h3, _⟩ := createWith_wf ih name []
      obtain ⟨x, hx⟩ := insertBeforeRaw_panics (t := w) (c := t.size) (b := b) (by omega)
      simp only [insertNewBefore, bind, M.bind, assertNotRoot, if_neg hroot, h1, hx] at ha
      cases ha
  | detach c =>
    have hr' : detach c t = (.ok (), u) := hr
    unfold detach at hr'
    split at hr'
    · cases hr'
    · cases hr'
      exact ⟨(detach_wf ih (by omega)).1, ((detach_wf ih (c := c) (by omega)).2.1).keeps⟩
  | appendAttribute i v =>
    have hr' : appendAttribute i v t = (.ok (), u) := hr
    simp only [appendAttribute, bind, M.bind, assertNotRoot, assertValid] at hr'
    split at hr'
    · rename_i hh; split at hh <;> cases hh
      split at hr'
      · rename_i hh; split at hh <;> cases hh
        cases hr'
        exact ⟨(upd_attrs_wf ih i (fun l => l ++ [v])).1, upd_keeps t i (fun l => l ++ [v])⟩
      · cases hr'
      · cases hr'
    · cases hr'
    · cases hr'
  | setAttribute i k v =>
    obtain ⟨a, ha⟩ := done_ok hr
    simp only [setAttribute, bind, M.bind, assertValid] at ha
    split at ha
    · rename_i hh; split at hh <;> cases hh
      cases ha
      exact ⟨(upd_attrs_wf ih i (fun l => l.set k v)).1, upd_keeps t i (fun l => l.set k v)⟩
    · cases ha
    · cases ha
  | takeAttributes i =>
    obtain ⟨a, ha⟩ := done_ok hr
    simp only [takeAttributes, bind, M.bind, assertValid] at ha
    split at ha
    · rename_i hh; split at hh <;> cases hh
      cases ha
      exact ⟨(upd_attrs_wf ih i (fun _ => [])).1, upd_keeps t i (fun _ => [])⟩
    · cases ha
    · cases ha
  | setAttributes i vs =>
    have hr' : setAttributes i vs t = (.ok (), u) := hr
    simp only [setAttributes, bind, M.bind, assertValid] at hr'
    split at hr'
    · rename_i hh; split at hh <;> cases hh
      cases hr'
      exact ⟨(upd_attrs_wf ih i (fun _ => vs)).1, upd_keeps t i (fun _ => vs)⟩
    · cases hr'
    · cases hr'

/-- **C43** (the tree stays well linked). Every tree a program can build with the API has consistent parent, sibling
and child links, no cycles, and interns every name once. -/
theorem C43_reachable_well_formed {t : Tree} (h : Reachable t) : WF t := by
  induction h with
  | empty => exact empty_wf
  | step _ hl hr ih => exact (run_wf ih hl hr).1

/-- The root of every tree has the empty name. -/
theorem Tree.Reachable.root {t : Tree} (h : Reachable t) : t.name? t.root = some "" := by
  induction h with
  | empty => rfl
  | step ht hl hr ih =>
    have hw := C43_reachable_well_formed ht
    have := (run_wf hw hl hr).2
    rw [this.root, this.names _ hw.root, ih]

/-- **C50** (ids and names persist). No call makes a node id invalid, changes the name of a node or makes another node
the root; the root of every tree has the empty name. -/
theorem C50_ids_and_names_persist {t : Tree} (h : Reachable t) :
    t.root < t.size ∧ t.name? t.root = some "" ∧
    ∀ (op : TreeOp) (u : Tree), Legal t op → run op t = (.ok (), u) → Keeps t u :=
  ⟨(C43_reachable_well_formed h).root, h.root, fun _ _ hl hr => (run_wf (C43_reachable_well_formed h) hl hr).2⟩

/-! ### An example tree -/

/-- The state after some calls. -/
def Tree.after (ops : List TreeOp) : Tree := ops.foldl (fun t op => (run op t).2) Tree.empty

/-- Root with children 1 (`A`) and 5 (`E`); 2 (`B`) and 4 (`D`) below 1; 3 (`C`) below 2. -/
def exTree : Tree := Tree.after [.appendNew 0 "A", .appendNew 1 "B", .appendNew 2 "C", .appendNew 1 "D", .appendNew 0 "E",
  .appendAttribute 2 (.i32 5#32), .appendAttribute 2 (.string "x")]

theorem exTree_reachable : Reachable exTree :=
  .step (op := .appendAttribute 2 (.string "x")) (.step (op := .appendAttribute 2 (.i32 5#32)) (.step (op := .appendNew 0 "E")
    (.step (op := .appendNew 1 "D") (.step (op := .appendNew 2 "C") (.step (op := .appendNew 1 "B") (.step (op := .appendNew 0 "A") .empty
      trivial rfl) trivial rfl) trivial rfl) trivial rfl) trivial rfl) trivial rfl) trivial rfl

theorem exTree_wf : WF exTree := C43_reachable_well_formed exTree_reachable

example : exTree.size = 6 ∧ exTree.children 0 = [1, 5] ∧ exTree.children 1 = [2, 4] ∧ exTree.children 2 = [3] ∧
    exTree.name? 4 = some "D" := by decide

/-- The calls of **C50** may be any calls, such as these. -/
example : Keeps exTree (run (.detach 1) exTree).2 ∧ Keeps exTree (run (.setAttributes 0 [.bool true]) exTree).2 :=
  ⟨(C50_ids_and_names_persist exTree_reachable).2.2 (.detach 1) _ trivial rfl, (C50_ids_and_names_persist exTree_reachable).2.2 (.setAttributes 0 [.bool true]) _ trivial rfl⟩

/-! ## C43: insertion -/

/-- **C43** (`append`). The node becomes the last child; it and its subtree leave their old place, and nothing else changes. -/
theorem C43_append {t : Tree} (h : WF t) {c p : Nat} (hc : c < t.size) (hp : p < t.size) (hanc : ¬ Anc t c p) :
    ∃ u, append c p t = (.ok (), u) ∧ Moved t u c (some p) ((t.children p).filter (· ≠ c) ++ [c]) :=
  appendRaw_wf h hc hp hanc

/-- **C43** (`prepend`). The node becomes the first child. -/
theorem C43_prepend {t : Tree} (h : WF t) {c p : Nat} (hc : c < t.size) (hp : p < t.size) (hanc : ¬ Anc t c p) :
    ∃ u, prepend c p t = (.ok (), u) ∧ Moved t u c (some p) (c :: (t.children p).filter (· ≠ c)) :=
  prependRaw_wf h hc hp hanc

/-- **C43** (refused moves). `append` and `prepend` panic, changing nothing, exactly when an id is invalid or the node would
become its own descendant. -/
theorem C43_append_refuses {t : Tree} (h : WF t) (c p : Nat) :
    ((∃ x, append c p t = (.panic x, t)) ↔ (t.size ≤ c ∨ t.size ≤ p ∨ Anc t c p)) ∧
    ((∃ x, prepend c p t = (.panic x, t)) ↔ (t.size ≤ c ∨ t.size ≤ p ∨ Anc t c p)) := by
  refine ⟨⟨?_, appendRaw_panics h⟩, ⟨?_, prependRaw_panics h⟩⟩
  · rintro ⟨x, hx⟩
    refine Classical.byContradiction fun hn => ?_
    obtain ⟨u, h1, _⟩ := C43_append h (c := c) (p := p) (by omega) (by omega) (fun e => hn (.inr (.inr e)))
    rw [h1] at hx
    cases hx
  · rintro ⟨x, hx⟩
    refine Classical.byContradiction fun hn => ?_
    obtain ⟨u, h1, _⟩ := C43_prepend h (c := c) (p := p) (by omega) (by omega) (fun e => hn (.inr (.inr e)))
    rw [h1] at hx
    cases hx

/-- **C43** (`insert_after`). The node becomes the next sibling of `b`. -/
theorem C43_insert_after {t : Tree} (h : WF t) {c b : Nat} (hc : c < t.size) (hb : b < t.size) (hanc : ¬ Anc t c b) :
    ∃ u l r, insertAfter c b t = (.ok (), u) ∧ (∀ p, (t.nodes b).parent = some p → (t.children p).filter (· ≠ c) = l ++ b :: r) ∧
      Moved t u c (t.nodes b).parent (l ++ b :: c :: r) ∧ (u.nodes b).next = some c ∧ (u.nodes c).prev = some b :=
  insertAfterRaw_wf h hc hb hanc

/-- **C43** (`detach`). The node and its subtree are taken out; nothing else changes. -/
theorem C43_detach {t : Tree} (h : WF t) {c : Nat} (hc : c < t.size) :
    ∃ u, detach c t = (.ok (), u) ∧ Moved t u c none [] := by
  obtain ⟨h1, h2, h3, h4⟩ := detach_wf h hc
  exact ⟨detachRaw c t, by rw [detach, if_neg (by omega)], h1, h2, h3, by simp, fun i hi _ => h4 i hi⟩

/-- **C43** (`create_node`). The new node is in no place. -/
theorem C43_create_node {t : Tree} (h : WF t) (name : String) :
    ∃ u, createNode name t = (.ok t.size, u) ∧ Grown t u name none [] := by
  obtain ⟨u, h1, h2, h3, h4, h5, h6, h7, h8, h9, h10, h11⟩ := createWith_wf h name []
  exact ⟨u, h1, h2, h3, h4, h5, h6, h10, h7, fun i hi => ⟨(h11 i hi).2.1, by rw [(h11 i hi).1], by rw [(h11 i hi).1]⟩, by simp,
    fun i hi _ => (h11 i hi).2.2⟩

/-- **C43** (`append_new`). The new node is the last child. -/
theorem C43_append_new {t : Tree} (h : WF t) {p : Nat} (hp : p < t.size) (name : String) :
    ∃ u, appendNew p name t = (.ok t.size, u) ∧ Grown t u name (some p) (t.children p ++ [t.size]) :=
  appendNew_wf h hp name

/-- **C43** (`prepend_new`). The new node is the first child. -/
theorem C43_prepend_new {t : Tree} (h : WF t) {p : Nat} (hp : p < t.size) (name : String) :
    ∃ u, prependNew p name t = (.ok t.size, u) ∧ Grown t u name (some p) (t.size :: t.children p) :=
  prependNew_wf h hp name

/-- **C43** (`insert_new_after`). The new node is the next sibling. -/
theorem C43_insert_new_after {t : Tree} (h : WF t) {b : Nat} (hb : b < t.size) (hr : b ≠ t.root) (name : String) :
    ∃ u l r, insertNewAfter b name t = (.ok t.size, u) ∧ (∀ p, (t.nodes b).parent = some p → t.children p = l ++ b :: r) ∧
      Grown t u name (t.nodes b).parent (l ++ b :: t.size :: r) ∧ (u.nodes b).next = some t.size ∧ (u.nodes t.size).prev = some b :=
  insertNewAfter_wf h hb hr name

/-- **C43** (`insert_new_before`). The new node is the previous sibling. -/
theorem C43_insert_new_before {t : Tree} (h : WF t) {b : Nat} (hb : b < t.size) (hr : b ≠ t.root) (name : String) :
    ∃ u l r, insertNewBefore b name t = (.ok t.size, u) ∧ (∀ p, (t.nodes b).parent = some p → t.children p = l ++ b :: r) ∧
      Grown t u name (t.nodes b).parent (l ++ t.size :: b :: r) ∧ (u.nodes b).prev = some t.size ∧ (u.nodes t.size).next = some b :=
  insertNewBefore_wf h hb hr name

/-- **C43** (the root has no siblings). `insert_new_after` and `insert_new_before` panic on the root. -/
theorem C43_new_sibling_of_root (t : Tree) (name : String) :
    insertNewAfter t.root name t = (.panic .rootAssert, t) ∧ insertNewBefore t.root name t = (.panic .rootAssert, t) := by
  constructor
  · simp [insertNewAfter, bind, M.bind, assertNotRoot]
  · simp [insertNewBefore, bind, M.bind, assertNotRoot]

/-- Decides ancestry in the example. -/
theorem exTree_not_anc {c p : Nat} (hp : p < exTree.size) (h : hasAncestor exTree c exTree.size p = false) : ¬ Anc exTree c p := by
  intro ha
  rw [(exTree_wf.hasAncestor hp).mpr ha] at h
  cases h

/- The hypotheses are met, and the effects are visible. -/
example : ¬ Anc exTree 5 3 := exTree_not_anc (by decide) (by decide)
example : (run (.append 5 2) exTree).2.children 2 = [3, 5] ∧ (run (.append 5 2) exTree).2.children 0 = [1] ∧
    (run (.prepend 5 1) exTree).2.children 1 = [5, 2, 4] ∧ (run (.append 2 1) exTree).2.children 1 = [4, 2] ∧
    (run (.insertAfter 5 2) exTree).2.children 1 = [2, 5, 4] ∧ (run (.insertNewBefore 4 "F") exTree).2.children 1 = [2, 6, 4] ∧
    (run (.detach 2) exTree).2.children 1 = [4] ∧ (run (.append 1 3) exTree).1 = .panic .indextree := by decide
example : Moved exTree (run (.append 5 2) exTree).2 5 (some 2) ([3] ++ [5]) := by
  obtain ⟨u, h1, h2⟩ := C43_append exTree_wf (c := 5) (p := 2) (by decide) (by decide) (exTree_not_anc (by decide) (by decide))
  have : run (.append 5 2) exTree = (.ok (), u) := h1
  rw [this]
  exact h2

/-- **C43** (finding). `insert_after` does not check that the new sibling is no ancestor: inserting a node next to its grandchild
succeeds and leaves a cycle, so that the tree is no longer well-formed. -/
theorem C43_insert_after_can_make_a_cycle :
    ∃ t u : Tree, Reachable t ∧ insertAfter 1 3 t = (.ok (), u) ∧ (u.nodes 1).parent = some 2 ∧ (u.nodes 2).parent = some 1 ∧ ¬ WF u := by
  refine ⟨exTree, (insertAfter 1 3 exTree).2, exTree_reachable, rfl, by decide, by decide, ?_⟩
  intro hw
  have h1 : ((insertAfter 1 3 exTree).2.nodes 1).parent = some 2 := by decide
  have h2 : ((insertAfter 1 3 exTree).2.nodes 2).parent = some 1 := by decide
  obtain ⟨n, hn⟩ := hw.acyclic 1 (by decide)
  exact hn.not_self ⟨2, h1, .step h2 .refl⟩

/-! ## C44: `insert_before` -/

/-- **C44** (finding). `insert_before(c, b)` puts `c` right after `b`, -/
theorem C44_insert_before_inserts_after {t : Tree} (h : WF t) {c b : Nat} (hc : c < t.size) (hb : b < t.size) (hanc : ¬ Anc t c b) :
    ∃ u l r, insertBefore c b t = (.ok (), u) ∧ (∀ p, (t.nodes b).parent = some p → (t.children p).filter (· ≠ c) = l ++ b :: r) ∧
      Moved t u c (t.nodes b).parent (l ++ b :: c :: r) ∧ (u.nodes b).next = some c ∧ (u.nodes c).prev = some b :=
  insertAfterRaw_wf h hc hb hanc

/-- and never right before it, as documented. -/
theorem C44_insert_before_never_inserts_before {t u : Tree} (h : WF t) {c b p : Nat} (hc : c < t.size) (hb : b < t.size) (hanc : ¬ Anc t c b)
    (hp : (t.nodes b).parent = some p) (hr : insertBefore c b t = (.ok (), u)) : ¬ ∃ l r, u.children p = l ++ c :: b :: r := by
  obtain ⟨v, l, r, h1, _, h3, h4, h5⟩ := C44_insert_before_inserts_after h hc hb hanc
  rw [h1] at hr
  cases hr
  rintro ⟨l', r', e⟩
  have hpv : p < u.size := by rw [h3.same.size]; exact h.parent_valid hb hp
  have hn := h3.wf.children_nodup hpv
  obtain ⟨ch, hl⟩ := h3.wf.linked
  have hseg := hl.seg (.inl p)
  rw [← hl.children hpv, e] at hseg
  rw [e] at hn
  have h6 := hseg.mid.2.1
  rw [h5] at h6
  have hb' : b ∈ l' := List.mem_of_getLast? (by simpa using h6.symm)
  exact (List.nodup_append.mp hn).2.2 b hb' b (by simp) rfl

example : (run (.insertBefore 5 2) exTree).2.children 1 = [2, 5, 4] := by decide

/-! ## C42: children by name -/

theorem name_eq_iff {t : Tree} (h : WF t) {c : Nat} (hc : c < t.size) (name : String) :
    t.name? c = some name ↔ lookup t.names name = some (t.nodes c).sym := by
  have hs := h.syms c hc
  unfold Tree.name?
  constructor
  · intro he
    cases hl : lookup t.names name with
    | none =>
      exact absurd (List.mem_of_getElem? he) (lookup_none hl)
    | some i =>
      have h1 := lookup_some hl
      have h2 := (List.getElem?_eq_some_iff.mp h1).1
      rw [List.getElem?_eq_getElem hs] at he
      rw [List.getElem?_eq_getElem h2] at h1
      cases he
      rw [Option.some_inj] at h1
      congr 1
      exact (List.getElem_inj h.names).mp h1
  · intro hl
    exact lookup_some hl

/-- **C42**. `children_by_name` yields the children with that name, in order, also for names no node ever had;
`first_child_by_name` is the first of them. -/
theorem C42_children_by_name {t : Tree} (h : WF t) {i : Nat} (hi : i < t.size) (name : String) :
    childrenByName t i name = (t.children i).filter (fun c => t.name? c = some name) ∧
    firstChildByName t i name = ((t.children i).filter (fun c => t.name? c = some name)).head? := by
  have key : childrenByName t i name = (t.children i).filter (fun c => t.name? c = some name) := by
    unfold childrenByName
    cases hl : lookup t.names name with
    | none =>
      dsimp only
      symm
      rw [List.filter_eq_nil_iff]
      intro c hc
      simp only [decide_eq_true_eq]
      rw [name_eq_iff h (h.child_valid hi hc), hl]
      simp
    | some sym =>
      dsimp only
      apply List.filter_congr
      intro c hc
      simp only [decide_eq_decide]
      rw [name_eq_iff h (h.child_valid hi hc), hl, Option.some_inj, eq_comm]
  exact ⟨key, by rw [firstChildByName, key]⟩

example : childrenByName exTree 0 "E" = [5] ∧ childrenByName exTree 0 "nope" = [] ∧ firstChildByName exTree 1 "D" = some 4 ∧
    childrenByName (run (.appendNew 0 "A") exTree).2 0 "A" = [1, 6] := by decide

/-! ## C45: attributes -/

/-- `u` is `t` with the attributes of node `i` replaced by `vs`; everything else is the same. -/
structure Edited (t u : Tree) (i : Nat) (vs : List AttrValue) : Prop where
  wf : WF u
  size : u.size = t.size
  names : u.names = t.names
  root : u.root = t.root
  children : ∀ j, u.children j = t.children j
  nodes : ∀ j, u.nodes j = { t.nodes j with attrs := if j = i then vs else (t.nodes j).attrs }

theorem edited {t : Tree} (h : WF t) (i : Nat) (f : List AttrValue → List AttrValue) :
    Edited t (t.upd i (fun n => { n with attrs := f n.attrs })) i (f (t.nodes i).attrs) := by
  obtain ⟨h1, h2, h3⟩ := upd_attrs_wf h i f
  refine ⟨h1, rfl, rfl, rfl, h2, fun j => ?_⟩
  rw [h3 j]
  by_cases hj : j = i
  · subst hj; simp
  · simp [hj]

/-- **C45**. The attribute calls act on the attributes of the given node like push, indexed update (returning the old value),
take and replace, and change nothing else. -/
theorem C45_attribute_editing {t : Tree} (h : WF t) {i : Nat} (hi : i < t.size) :
    (∀ v, i ≠ t.root → ∃ u, appendAttribute i v t = (.ok (), u) ∧ Edited t u i ((t.nodes i).attrs ++ [v])) ∧
    (∀ k v, ∃ u, setAttribute i k v t = (.ok (t.nodes i).attrs[k]?, u) ∧ Edited t u i ((t.nodes i).attrs.set k v)) ∧
    (∃ u, takeAttributes i t = (.ok (t.nodes i).attrs, u) ∧ Edited t u i []) ∧
    (∀ vs, ∃ u, setAttributes i vs t = (.ok (), u) ∧ Edited t u i vs) := by
  have hv : ¬ t.size ≤ i := by omega
  refine ⟨fun v hr => ⟨_, ?_, edited h i (fun l => l ++ [v])⟩, fun k v => ⟨_, ?_, edited h i (fun l => l.set k v)⟩,
    ⟨_, ?_, edited h i (fun _ => [])⟩, fun vs => ⟨_, ?_, edited h i (fun _ => vs)⟩⟩
  · simp only [appendAttribute, bind, M.bind, assertNotRoot, assertValid, if_neg hr, if_neg hv]; rfl
  · simp only [setAttribute, bind, M.bind, assertValid, if_neg hv]; rfl
  · simp only [takeAttributes, bind, M.bind, assertValid, if_neg hv]; rfl
  · simp only [setAttributes, bind, M.bind, assertValid, if_neg hv]; rfl

/-- **C45** (the root). `append_attribute` panics on the root; the other calls work on it like on other nodes (the documentation
says that they panic). -/
theorem C45_root {t : Tree} (h : WF t) :
    (∀ v, appendAttribute t.root v t = (.panic .rootAssert, t)) ∧
    (∀ vs, ∃ u, setAttributes t.root vs t = (.ok (), u) ∧ (u.nodes t.root).attrs = vs) ∧
    (∃ u, takeAttributes t.root t = (.ok (t.nodes t.root).attrs, u)) := by
  obtain ⟨_, _, ⟨u, hu, _⟩, h4⟩ := C45_attribute_editing h h.root
  refine ⟨fun v => by simp [appendAttribute, bind, M.bind, assertNotRoot], fun vs => ?_, ⟨u, hu⟩⟩
  obtain ⟨w, hw, he⟩ := h4 vs
  refine ⟨w, hw, ?_⟩
  rw [he.nodes]
  simp

/-- **C45** (invalid ids). All of them panic, changing nothing. -/
theorem C45_invalid {t : Tree} (h : WF t) {i : Nat} (hi : t.size ≤ i) (k : Nat) (v : AttrValue) (vs : List AttrValue) :
    appendAttribute i v t = (.panic .badNodeId, t) ∧ setAttribute i k v t = (.panic .badNodeId, t) ∧
    takeAttributes i t = (.panic .badNodeId, t) ∧ setAttributes i vs t = (.panic .badNodeId, t) := by
  have hr : i ≠ t.root := by have := h.root; omega
  refine ⟨?_, ?_, ?_, ?_⟩
  · simp only [appendAttribute, bind, M.bind, assertNotRoot, assertValid, if_neg hr, if_pos hi]
  · simp only [setAttribute, bind, M.bind, assertValid, if_pos hi]
  · simp only [takeAttributes, bind, M.bind, assertValid, if_pos hi]
  · simp only [setAttributes, bind, M.bind, assertValid, if_pos hi]

example : (exTree.nodes 2).attrs = [.i32 5#32, .string "x"] ∧ ((setAttribute 2 0 (.bool true) exTree).2.nodes 2).attrs = [.bool true, .string "x"] ∧
    ((setAttribute 2 0 (.bool true) exTree).2.nodes 1).attrs = [] := by decide

/-! ## C40: strict equality -/

/-- **C40** (documents). Every node of a well-formed tree represents exactly one document. -/
theorem C40_document {t : Tree} (h : WF t) {i : Nat} (hi : i < t.size) : ∃ r, Rep t i r ∧ ∀ s, Rep t i s → s = r := by
  obtain ⟨r, hr⟩ := h.rep i hi
  exact ⟨r, hr, fun s hs => rep_det.1 i s hs r hr⟩

/-- **C40**. `strict_eq` of two nodes returns, and says whether the two documents are the same. -/
theorem C40_nodes_strict_eq {t u : Tree} (ht : WF t) (hu : WF u) {i j : Nat} {r s : Rose} (hi : i < t.size) (hj : j < u.size)
    (hr : Rep t i r) (hs : Rep u j s) :
    (nodesStrictEq t u i j = .ok true ↔ r = s) ∧ (nodesStrictEq t u i j = .ok false ↔ r ≠ s) := by
  obtain ⟨x, hx, hxi⟩ := nodesStrictEq_ok ht hu hi hj hr hs
  rw [hx]
  cases x <;> simp_all

/-- **C40** (trees). `Tree::strict_eq` compares the documents of the roots. -/
theorem C40_strict_eq {t u : Tree} (ht : WF t) (hu : WF u) {r s : Rose} (hr : Rep t t.root r) (hs : Rep u u.root s) :
    (strictEq t u = .ok true ↔ r = s) ∧ (strictEq t u = .ok false ↔ r ≠ s) :=
  C40_nodes_strict_eq ht hu ht.root hu.root hr hs

/-- **C40** (equivalence). On the trees programs can build, `strict_eq` is an equivalence relation. -/
theorem C40_equivalence :
    (∀ t, Reachable t → strictEq t t = .ok true) ∧
    (∀ t u, Reachable t → Reachable u → strictEq t u = .ok true → strictEq u t = .ok true) ∧
    (∀ t u v, Reachable t → Reachable u → Reachable v → strictEq t u = .ok true → strictEq u v = .ok true → strictEq t v = .ok true) := by
  have hdoc : ∀ t, Reachable t → WF t ∧ ∃ r, Rep t t.root r := fun t ht =>
    ⟨C43_reachable_well_formed ht, (C43_reachable_well_formed ht).rep _ (C43_reachable_well_formed ht).root⟩
  refine ⟨?_, ?_, ?_⟩
  · intro t ht
    obtain ⟨h1, r, hr⟩ := hdoc t ht
    exact (C40_strict_eq h1 h1 hr hr).1.mpr rfl
  · intro t u ht hu h
    obtain ⟨h1, r, hr⟩ := hdoc t ht
    obtain ⟨h2, s, hs⟩ := hdoc u hu
    exact (C40_strict_eq h2 h1 hs hr).1.mpr ((C40_strict_eq h1 h2 hr hs).1.mp h).symm
  · intro t u v ht hu hv h h'
    obtain ⟨h1, r, hr⟩ := hdoc t ht
    obtain ⟨h2, s, hs⟩ := hdoc u hu
    obtain ⟨h3, q, hq⟩ := hdoc v hv
    exact (C40_strict_eq h1 h3 hr hq).1.mpr (((C40_strict_eq h1 h2 hr hs).1.mp h).trans ((C40_strict_eq h2 h3 hs hq).1.mp h'))

/-- The document of the example tree, built in another order with a detached node left over. -/
def exTree' : Tree := Tree.after [.createNode "junk", .appendNew 0 "E", .prependNew 0 "A", .appendNew 3 "D", .insertNewBefore 4 "B", .appendNew 5 "C",
  .setAttributes 5 [.i32 5#32, .string "x"]]

example : strictEq exTree exTree' = .ok true ∧ strictEq exTree (run (.detach 4) exTree').2 = .ok false ∧
    strictEq exTree (run (.takeAttributes 5) exTree').2 = .ok false ∧ strictEq exTree (run (.append 1 0) exTree').2 = .ok false := by decide
example : Rep exTree 2 (.node "B" [.i32 5#32, .string "x"] [.node "C" [] []]) :=
  .mk (by decide) (.cons (.mk (by decide) .nil) .nil)

/-! ## C41: depth-first traversal -/

/-- **C41** (the tour). The Euler tour of a subtree contains `Open` and `Close` of exactly the node and its descendants, each once. -/
theorem C41_tour {t : Tree} (h : WF t) {i : Nat} (hi : i < t.size) :
    ∃ l, Tour t i l ∧ (∀ m, Tour t i m → m = l) ∧ l.Nodup ∧
      (∀ j, Trav.opn j ∈ l ↔ j < t.size ∧ Anc t i j) ∧ (∀ j, Trav.cls j ∈ l ↔ j < t.size ∧ Anc t i j) := by
  obtain ⟨l, gl⟩ := h.goodTour i hi
  exact ⟨l, gl.tour, fun m hm => tour_det.1 i m hm l gl.tour, gl.nodup,
    fun j => ⟨fun hj => gl.below _ hj, fun hj => (gl.all j hj.1 hj.2).1⟩, fun j => ⟨fun hj => gl.below _ hj, fun hj => (gl.all j hj.1 hj.2).2⟩⟩

/-- **C41**. Whatever calls are made on a traversal, in whatever order, they take items off the two ends of the Euler tour: forward
calls from the front, backward calls from the back, the `open`/`close` calls skipping the other kind, `peek` calls taking nothing;
when nothing is left they yield nothing. None of them panics. -/
theorem C41_traversal {t : Tree} (h : WF t) {i : Nat} (hi : i < t.size) {l : List Trav} (hl : Tour t i l) (ss : List Step) :
    ∃ c, Step.calls t ss (traverse i) = (.ok (Step.ofLists ss l).1, c) := by
  obtain ⟨m, gm⟩ := h.goodTour i hi
  have e := tour_det.1 i l hl m gm.tour
  subst e
  have hc : cursors l = traverse i := by
    unfold cursors
    rw [gm.head, gm.last]
    rfl
  exact ⟨_, by rw [← hc]; exact calls_cursors gm.left ss⟩

/-- **C41** (forward only). `next_forward` yields the tour and then nothing; `next_backward` yields it backwards. -/
theorem C41_one_way {t : Tree} (h : WF t) {i : Nat} (hi : i < t.size) {l : List Trav} (hl : Tour t i l) (n : Nat) :
    (∃ c, Step.calls t (List.replicate (l.length + n) .forward) (traverse i) = (.ok (l.map some ++ List.replicate n none), c)) ∧
    (∃ c, Step.calls t (List.replicate (l.length + n) .backward) (traverse i) = (.ok (l.reverse.map some ++ List.replicate n none), c)) := by
  have key : ∀ (n : Nat) (l : List Trav), (Step.ofLists (List.replicate (l.length + n) .forward) l).1 = l.map some ++ List.replicate n none := by
    intro n l
    induction l with
    | nil =>
      induction n with
      | zero => rfl
      | succ n ih =>
        simp only [List.length_nil, Nat.zero_add] at ih ⊢
        rw [List.replicate_succ, List.replicate_succ]
        simp only [Step.ofLists, Step.ofList, List.tail_nil, ih]
        rfl
    | cons x xs ih =>
      rw [List.length_cons, Nat.add_right_comm, List.replicate_succ]
      simp only [Step.ofLists, Step.ofList, List.tail_cons, ih]
      rfl
  have key2 : ∀ (n : Nat) (l : List Trav), (Step.ofLists (List.replicate (l.length + n) .backward) l.reverse).1 = l.map some ++ List.replicate n none := by
    intro n l
    induction l with
    | nil =>
      induction n with
      | zero => rfl
      | succ n ih =>
        simp only [List.length_nil, Nat.zero_add] at ih ⊢
        rw [List.replicate_succ, List.replicate_succ]
        simp only [List.reverse_nil] at ih
        simp only [Step.ofLists, Step.ofList, List.reverse_nil, List.dropLast_nil, ih]
        rfl
    | cons x xs ih =>
      rw [List.length_cons, Nat.add_right_comm, List.replicate_succ]
      simp only [Step.ofLists, Step.ofList, List.reverse_cons, List.dropLast_concat, List.getLast?_concat, ih]
      rfl
  refine ⟨?_, ?_⟩
  · rw [← key n l]; exact C41_traversal h hi hl _
  · have := key2 n l.reverse
    rw [List.reverse_reverse, List.length_reverse] at this
    rw [← this]
    exact C41_traversal h hi hl _

example : Tour exTree 1 [.opn 1, .opn 2, .opn 3, .cls 3, .cls 2, .opn 4, .cls 4, .cls 1] :=
  .mk (l := [.opn 2, .opn 3, .cls 3, .cls 2, .opn 4, .cls 4])
    (.cons (i := 2) (is := [4]) (l := [.opn 2, .opn 3, .cls 3, .cls 2]) (m := [.opn 4, .cls 4])
      (.mk (l := [.opn 3, .cls 3]) (.cons (i := 3) (is := []) (l := [.opn 3, .cls 3]) (m := []) (.mk (l := []) .nil) .nil))
      (.cons (i := 4) (is := []) (l := [.opn 4, .cls 4]) (m := []) (.mk (l := []) .nil) .nil))
example : (Step.calls exTree [.forward, .openForward, .backward, .closeForward, .peekBackward, .openBackward, .forward, .forward, .backward] (traverse 1)).1 =
    .ok [some (.opn 1), some (.opn 2), some (.cls 1), some (.cls 3), some (.cls 4), some (.opn 4), some (.cls 2), none, none] := by decide

end Fbx
