import Verif.Spec.Outline
import Verif.Proof.TreeOps

/-! # The links of a tree and the lists of an outline -/

namespace Fbx.Tree
open Spec

variable {t u : Tree} {o : Rows}

/-- The lists of siblings of an outline. -/
def rowsOf (o : Rows) : Owner → List Nat
  | .inl i => o.below i
  | .inr j => (o.loose[j]?).getD []

/-- The outline is that of the tree. -/
structure Depicts (t : Tree) (o : Rows) : Prop where
  wf : WF t
  linked : Linked t (rowsOf o)
  size : t.size = o.nodes.length
  root : t.root = o.root
  node : ∀ i, i < t.size → ∃ n, o.nodes[i]? = some (n, (t.nodes i).attrs) ∧ t.name? i = some n

theorem rowsOf_end (o : Rows) : ∀ j, o.loose.length ≤ j → rowsOf o (.inr j) = [] := by
  intro j hj
  simp only [rowsOf, List.getElem?_eq_none hj, Option.getD_none]

theorem rowsOf_everywhere (f : List Nat → List Nat) (hf : f [] = []) (o : Rows) (x : Owner) :
    rowsOf (o.everywhere f) x = f (rowsOf o x) := by
  cases x with
  | inl i => rfl
  | inr j =>
    simp only [rowsOf, Rows.everywhere, List.getElem?_map]
    cases o.loose[j]? <;> simp [hf]

theorem rowsOf_takenOut (c : Nat) (o : Rows) (x : Owner) : rowsOf (o.takenOut c) x = (rowsOf o x).filter (· ≠ c) :=
  rowsOf_everywhere _ rfl o x

theorem rowsOf_alone (c : Nat) (o : Rows) (x : Owner) :
    rowsOf (o.alone c) x = if x = .inr o.loose.length then [c] else rowsOf o x := by
  cases x with
  | inl i => simp [rowsOf, Rows.alone]
  | inr j =>
    simp only [rowsOf, Rows.alone, Sum.inr.injEq]
    by_cases hj : j = o.loose.length
    · subst hj; simp
    · rw [if_neg hj]
      by_cases hlt : j < o.loose.length
      · rw [List.getElem?_append_left hlt]
      · rw [List.getElem?_eq_none (by simp; omega), List.getElem?_eq_none (by omega)]

theorem without_eq (o : Rows) (c : Nat) : without (rowsOf o) c o.loose.length = rowsOf ((o.takenOut c).alone c) := by
  funext x
  rw [rowsOf_alone, rowsOf_takenOut]
  have : (o.takenOut c).loose.length = o.loose.length := by simp [Rows.takenOut, Rows.everywhere]
  rw [this]
  rfl

/-- Appending or prepending. -/
theorem inserted_child (o : Rows) (c p : Nat) (f : List Nat → List Nat) (a b : List Nat) (h : f ((o.below p).filter (· ≠ c)) = a ++ c :: b) :
    inserted (without (rowsOf o) c o.loose.length) c o.loose.length (.inl p) a b = rowsOf ((o.takenOut c).atNode p f) := by
  funext x
  cases x with
  | inl i =>
    simp only [inserted, Sum.inl.injEq, rowsOf, Rows.atNode]
    by_cases hi : i = p
    · subst hi; rw [if_pos rfl, if_pos rfl, ← h]; rfl
    · rw [if_neg hi, if_neg hi, if_neg (by simp)]
      simp [without, rowsOf, Rows.takenOut, Rows.everywhere]
  | inr j =>
    have hr : rowsOf ((o.takenOut c).atNode p f) (.inr j) = rowsOf (o.takenOut c) (.inr j) := rfl
    rw [hr, rowsOf_takenOut]
    simp only [inserted, reduceCtorEq, if_false, Sum.inr.injEq]
    by_cases hj : j = o.loose.length
    · subst hj; rw [if_pos rfl, rowsOf_end o _ (Nat.le_refl _)]; rfl
    · rw [if_neg hj]; simp [without, hj]

theorem flatMap_absent {f : Nat → List Nat} {b : Nat} {l : List Nat} (hf : ∀ x, x ≠ b → f x = [x]) (h : b ∉ l) : l.flatMap f = l := by
  induction l with
  | nil => rfl
  | cons x xs ih =>
    simp only [List.mem_cons, not_or] at h
    rw [List.flatMap_cons, hf x (fun e => h.1 e.symm), ih h.2]
    rfl

theorem flatMap_mid {f : Nat → List Nat} {b : Nat} {l r : List Nat} (hf : ∀ x, x ≠ b → f x = [x]) (h : (l ++ b :: r).Nodup) :
    (l ++ b :: r).flatMap f = l ++ (f b ++ r) := by
  have h1 := List.nodup_append.mp h
  have h2 := List.nodup_cons.mp h1.2.1
  rw [List.flatMap_append, List.flatMap_cons, flatMap_absent hf (fun hb => h1.2.2 b hb b (by simp) rfl), flatMap_absent hf h2.1]

/-- Inserting next to a sibling. -/
theorem inserted_sibling (hl : Linked t (rowsOf o)) {c b : Nat} (hcb : c ≠ b) (f : Nat → List Nat) (hf : ∀ x, x ≠ b → f x = [x])
    (x : Owner) (hx : x ≠ .inr o.loose.length) (l r : List Nat) (hlr : without (rowsOf o) c o.loose.length x = l ++ b :: r)
    (a' b' : List Nat) (hab : f b = a' ++ c :: b') :
    inserted (without (rowsOf o) c o.loose.length) c o.loose.length x (l ++ a') (b' ++ r) =
      rowsOf ((o.takenOut c).everywhere (fun l => l.flatMap f)) := by
  funext y
  rw [rowsOf_everywhere _ rfl, rowsOf_takenOut]
  have hwx : without (rowsOf o) c o.loose.length x = (rowsOf o x).filter (· ≠ c) := by simp [without, hx]
  rw [hwx] at hlr
  have hbx : b ∈ rowsOf o x := by
    have : b ∈ (rowsOf o x).filter (· ≠ c) := by rw [hlr]; simp
    exact (List.mem_filter.mp this).1
  by_cases hy : y = x
  · subst hy
    simp only [inserted, if_true]
    have hn : (l ++ b :: r).Nodup := by rw [← hlr]; exact (hl.nodup y).filter _
    rw [hlr, flatMap_mid hf hn, hab]
    simp
  · have hby : b ∉ (rowsOf o y).filter (· ≠ c) := fun h => hy (hl.once y x b (List.mem_filter.mp h).1 hbx)
    rw [flatMap_absent hf hby]
    simp only [inserted, if_neg hy]
    by_cases hk : y = .inr o.loose.length
    · subst hk; rw [if_pos rfl, rowsOf_end o _ (Nat.le_refl _)]; rfl
    · rw [if_neg hk]; simp [without, hk]

/-! ## Ancestors -/

theorem inside_anc (hl : Linked t (rowsOf o)) : ∀ (n : Nat) {c p : Nat}, p < t.size → o.inside n c p = true → Anc t c p := by
  intro n
  induction n with
  | zero =>
    intro c p _ h
    simp only [Rows.inside, beq_iff_eq] at h
    subst h; exact .refl
  | succ n ih =>
    intro c p hp h
    simp only [Rows.inside, Bool.or_eq_true, beq_iff_eq, List.any_eq_true] at h
    rcases h with rfl | ⟨d, hd, h⟩
    · exact .refl
    · have ha := ih hp h
      have hdv := hl.valid (.inl c) d hd
      have hpar := (hl.mem_iff_parent hdv).mpr hd
      clear h
      induction ha with
      | refl => exact .step hpar .refl
      | step hq _ ih2 => exact .step hq (ih2 (hl.parent_valid hp hq))

theorem inside_self (o : Rows) (n c : Nat) : o.inside n c c = true := by
  cases n <;> simp [Rows.inside]

theorem inside_child (o : Rows) {p i : Nat} (hi : i ∈ o.below p) : ∀ (n c : Nat), o.inside n c p = true → o.inside (n + 1) c i = true := by
  intro n
  induction n with
  | zero =>
    intro c h
    simp only [Rows.inside, beq_iff_eq] at h
    subst h
    simp only [Rows.inside, Bool.or_eq_true, List.any_eq_true]
    exact .inr ⟨i, hi, by simp⟩
  | succ n ih =>
    intro c h
    simp only [Rows.inside, Bool.or_eq_true, beq_iff_eq, List.any_eq_true] at h
    rw [Rows.inside, Bool.or_eq_true, List.any_eq_true]
    right
    rcases h with rfl | ⟨d, hd, h⟩
    · exact ⟨i, hi, inside_self _ _ _⟩
    · exact ⟨d, hd, ih d h⟩

theorem inside_more (o : Rows) {p : Nat} : ∀ (n c : Nat), o.inside n c p = true → o.inside (n + 1) c p = true := by
  intro n
  induction n with
  | zero =>
    intro c h
    simp only [Rows.inside, beq_iff_eq] at h
    subst h; exact inside_self _ _ _
  | succ n ih =>
    intro c h
    rw [Rows.inside, Bool.or_eq_true, List.any_eq_true] at h
    rw [Rows.inside, Bool.or_eq_true, List.any_eq_true]
    rcases h with h | ⟨d, hd, h⟩
    · exact .inl h
    · exact .inr ⟨d, hd, ih d h⟩

theorem inside_le (o : Rows) {c p n m : Nat} (h : n ≤ m) (hi : o.inside n c p = true) : o.inside m c p = true := by
  induction h with
  | refl => exact hi
  | step _ ih => exact inside_more o _ _ ih

theorem anc_inside (hl : Linked t (rowsOf o)) {c p : Nat} (h : Anc t c p) : ∀ {n : Nat}, p < t.size → Depth t n p → o.inside n c p = true := by
  induction h with
  | refl => intro n _ _; exact inside_self _ _ _
  | @step i q hq _ ih =>
    intro n hi hd
    cases hd with
    | top h0 => rw [hq] at h0; cases h0
    | @step m _ _ h1 h2 =>
      rw [hq] at h1
      cases h1
      exact inside_child o ((hl.mem_iff_parent hi).mp hq) m c (ih (hl.parent_valid hi hq) h2)

theorem Depicts.holds (h : Depicts t o) {c p : Nat} (hp : p < t.size) : o.holds c p = true ↔ Anc t c p := by
  constructor
  · intro hh; exact inside_anc h.linked _ hp hh
  · intro ha
    obtain ⟨n, hn⟩ := h.wf.acyclic p hp
    have := hn.lt h.linked hp
    rw [h.size] at this
    exact inside_le o (Nat.le_of_lt this) (anc_inside h.linked ha hp hn)

/-! ## The calls -/

theorem Depicts.same (h : Depicts t o) {o' : Rows} (hs : Same t u) (hwf : WF u) (hl : Linked u (rowsOf o')) (hn : o'.nodes = o.nodes)
    (hr : o'.root = o.root) : Depicts u o' where
  wf := hwf
  linked := hl
  size := by rw [hs.size, h.size, hn]
  root := by rw [hs.root, h.root, hr]
  node i hi := by
    obtain ⟨n, h1, h2⟩ := h.node i (hs.size ▸ hi)
    exact ⟨n, by rw [hn, h1, hs.attrs], by rw [hs.name?, h2]⟩

theorem Depicts.appendRaw (h : Depicts t o) {c p : Nat} (hc : c < t.size) (hp : p < t.size) (hanc : ¬ Anc t c p) :
    ∃ u, appendRaw c p t = (.ok (), u) ∧ Depicts u ((o.takenOut c).atNode p (fun l => l ++ [c])) := by
  obtain ⟨u, h1, h2⟩ := appendRaw_wf h.wf hc hp hanc
  refine ⟨u, h1, h.same h2.same h2.wf ?_ rfl rfl⟩
  have hcp : (Sum.inl p : Owner) ≠ .inl c := by rintro ⟨⟩; exact hanc .refl
  have hself := h.wf.not_self hc
  obtain ⟨v, g1, g2, -, -⟩ := h.linked.move (o := .inl p) (a := without (rowsOf o) c o.loose.length (.inl p)) (b := []) hc hself (rowsOf_end o)
    (by simp) (by simp) hcp (fun q hq => by cases hq; exact hp)
  have hd := h.linked.detachRaw hc hself (rowsOf_end o)
  have hf1 := (detachRaw_frame c t).1
  have : v = u := by
    simp only [Tree.appendRaw, bind, M.bind, checkChild] at h1
    rw [if_neg (by omega), if_neg (by rw [h.wf.hasAncestor hp]; exact hanc)] at h1
    simp only [M.modify, M.get] at h1
    rw [hd.last p (hf1 ▸ hp)] at h1
    have g1' : Tree.insertWith c (some p) (without (rowsOf o) c o.loose.length (.inl p)).getLast? none (Tree.detachRaw c t) = (.ok (), v) := g1
    rw [g1'] at h1
    cases h1; rfl
  subst this
  rwa [inserted_child o c p (fun l => l ++ [c]) _ _ (by simp [without, rowsOf])] at g2

theorem Depicts.prependRaw (h : Depicts t o) {c p : Nat} (hc : c < t.size) (hp : p < t.size) (hanc : ¬ Anc t c p) :
    ∃ u, prependRaw c p t = (.ok (), u) ∧ Depicts u ((o.takenOut c).atNode p (fun l => c :: l)) := by
  obtain ⟨u, h1, h2⟩ := prependRaw_wf h.wf hc hp hanc
  refine ⟨u, h1, h.same h2.same h2.wf ?_ rfl rfl⟩
  have hcp : (Sum.inl p : Owner) ≠ .inl c := by rintro ⟨⟩; exact hanc .refl
  have hself := h.wf.not_self hc
  obtain ⟨v, g1, g2, -, -⟩ := h.linked.move (o := .inl p) (a := []) (b := without (rowsOf o) c o.loose.length (.inl p)) hc hself (rowsOf_end o)
    (by simp) (by simp) hcp (fun q hq => by cases hq; exact hp)
  have hd := h.linked.detachRaw hc hself (rowsOf_end o)
  have hf1 := (detachRaw_frame c t).1
  have : v = u := by
    simp only [Tree.prependRaw, bind, M.bind, checkChild] at h1
    rw [if_neg (by omega), if_neg (by rw [h.wf.hasAncestor hp]; exact hanc)] at h1
    simp only [M.modify, M.get] at h1
    rw [hd.first p (hf1 ▸ hp)] at h1
    have g1' : Tree.insertWith c (some p) none (without (rowsOf o) c o.loose.length (.inl p)).head? (Tree.detachRaw c t) = (.ok (), v) := g1
    rw [g1'] at h1
    cases h1; rfl
  subst this
  rwa [inserted_child o c p (fun l => c :: l) _ _ (by simp [without, rowsOf])] at g2

/-- Where the sibling is after the node was taken out. -/
theorem Depicts.place (h : Depicts t o) {c b : Nat} (hc : c < t.size) (hb : b < t.size) (hanc : ¬ Anc t c b) :
    ∃ x l r, without (rowsOf o) c o.loose.length x = l ++ b :: r ∧ x ≠ .inr o.loose.length ∧ x ≠ .inl c ∧ (∀ p, x = .inl p → p < t.size) ∧
      ((Tree.detachRaw c t).nodes b).parent = x.getLeft? ∧ ((Tree.detachRaw c t).nodes b).prev = l.getLast? ∧
      ((Tree.detachRaw c t).nodes b).next = r.head? := by
  have hself := h.wf.not_self hc
  have hd := h.linked.detachRaw hc hself (rowsOf_end o)
  have hf1 := (detachRaw_frame c t).1
  have hcb : b ≠ c := by rintro rfl; exact hanc .refl
  obtain ⟨_, hS, hdp, hdc⟩ := detach_wf h.wf hc
  have hbp : ((Tree.detachRaw c t).nodes b).parent = (t.nodes b).parent := by rw [hdp, if_neg hcb]
  obtain ⟨x, l, r, hab, hn, hseg, hpar, hprev, hnext⟩ := hd.place (id := b) (hf1 ▸ hb)
  refine ⟨x, l, r, hab, ?_, ?_, ?_, hpar, hprev, hnext⟩
  · rintro rfl
    have : without (rowsOf o) c o.loose.length (.inr o.loose.length) = [c] := by simp [without]
    rw [this] at hab
    cases l with
    | nil => simp at hab; exact hcb hab.1.symm
    | cons x xs => simp at hab
  · rintro rfl
    rw [hbp] at hpar
    exact hanc (.step hpar .refl)
  · rintro p rfl
    rw [hbp] at hpar
    exact h.wf.parent_valid hb hpar

theorem Depicts.insertAfterRaw (h : Depicts t o) {c b : Nat} (hc : c < t.size) (hb : b < t.size) (hanc : ¬ Anc t c b) :
    ∃ u, insertAfterRaw c b t = (.ok (), u) ∧ Depicts u ((o.takenOut c).everywhere (Rows.rightOf b c)) := by
  obtain ⟨u, _, _, h1, _, h2, _, _⟩ := insertAfterRaw_wf h.wf hc hb hanc
  refine ⟨u, h1, h.same h2.same h2.wf ?_ rfl rfl⟩
  have hcb : c ≠ b := by rintro rfl; exact hanc .refl
  obtain ⟨x, l, r, hlr, hx1, hx2, hx3, hpar, hprev, hnext⟩ := h.place hc hb hanc
  obtain ⟨v, g1, g2, -, -⟩ := h.linked.move (o := x) (a := l ++ [b]) (b := r) hc (h.wf.not_self hc) (rowsOf_end o) hx1 (by simp [hlr]) hx2 hx3
  have : v = u := by
    simp only [Tree.insertAfterRaw, bind, M.bind, checkSibling] at h1
    rw [if_neg (by omega), if_neg hcb] at h1
    simp only [M.modify, M.get] at h1
    rw [hpar, hnext] at h1
    rw [show (l ++ [b]).getLast? = some b by simp] at g1
    rw [g1] at h1
    cases h1; rfl
  subst this
  have := inserted_sibling h.linked hcb (fun x => if x = b then [b, c] else [x]) (fun x hx => if_neg hx) x hx1 l r hlr [b] [] (by simp)
  rw [List.nil_append] at this
  rwa [this] at g2

theorem Depicts.insertBeforeRaw (h : Depicts t o) {c b : Nat} (hc : c < t.size) (hb : b < t.size) (hanc : ¬ Anc t c b) :
    ∃ u, insertBeforeRaw c b t = (.ok (), u) ∧ Depicts u ((o.takenOut c).everywhere (Rows.leftOf b c)) := by
  obtain ⟨u, _, _, h1, _, h2, _, _⟩ := insertBeforeRaw_wf h.wf hc hb hanc
  refine ⟨u, h1, h.same h2.same h2.wf ?_ rfl rfl⟩
  have hcb : c ≠ b := by rintro rfl; exact hanc .refl
  obtain ⟨x, l, r, hlr, hx1, hx2, hx3, hpar, hprev, hnext⟩ := h.place hc hb hanc
  obtain ⟨v, g1, g2, -, -⟩ := h.linked.move (o := x) (a := l) (b := b :: r) hc (h.wf.not_self hc) (rowsOf_end o) hx1 hlr hx2 hx3
  have : v = u := by
    simp only [Tree.insertBeforeRaw, bind, M.bind, checkSibling] at h1
    rw [if_neg (by omega), if_neg hcb] at h1
    simp only [M.modify, M.get] at h1
    rw [hpar, hprev] at h1
    rw [show (b :: r).head? = some b from rfl] at g1
    rw [g1] at h1
    cases h1; rfl
  subst this
  have := inserted_sibling h.linked hcb (fun x => if x = b then [c, b] else [x]) (fun x hx => if_neg hx) x hx1 l r hlr [] [b] (by simp)
  rw [List.append_nil] at this
  rw [show [b] ++ r = b :: r from rfl] at this
  rwa [this] at g2

theorem Depicts.detach (h : Depicts t o) {c : Nat} (hc : c < t.size) :
    ∃ u, Tree.detach c t = (.ok (), u) ∧ Depicts u ((o.takenOut c).alone c) := by
  obtain ⟨h1, h2, -, -⟩ := detach_wf h.wf hc
  refine ⟨detachRaw c t, by simp only [Tree.detach]; rw [if_neg (by omega)], h.same h2 h1 ?_ rfl rfl⟩
  rw [← without_eq]
  exact h.linked.detachRaw hc (h.wf.not_self hc) (rowsOf_end o)

theorem Linked.created {ch : Owner → List Nat} (hl : Linked t ch) {k : Nat} (hk : ∀ j, k ≤ j → ch (.inr j) = []) (hsize : u.size = t.size + 1)
    (hold : ∀ i, i < t.size → u.nodes i = t.nodes i) {sym : Nat} {attrs : List AttrValue}
    (hnew : u.nodes t.size = ⟨none, none, none, none, none, sym, attrs⟩) : Linked u (fun o => if o = .inr k then [t.size] else ch o) := by
  have hfresh : ∀ o, t.size ∉ ch o := fun o hc => absurd (hl.valid o _ hc) (by omega)
  have hm : ∀ o c, c ∈ (if o = Sum.inr k then [t.size] else ch o) ↔ (o = .inr k ∧ c = t.size) ∨ (o ≠ .inr k ∧ c ∈ ch o) := by
    intro o c
    by_cases ho : o = .inr k <;> simp [ho]
  constructor
  · intro o c hc
    rcases (hm o c).mp hc with ⟨_, rfl⟩ | ⟨_, hc⟩
    · omega
    · have := hl.valid _ _ hc; omega
  · intro i c hc
    rcases (hm _ c).mp hc with ⟨hx, _⟩ | ⟨_, hc⟩
    · cases hx
    · have := hl.owner _ _ hc; omega
  · intro c hc
    by_cases hcs : c = t.size
    · exact ⟨.inr k, (hm _ _).mpr (.inl ⟨rfl, hcs⟩)⟩
    · obtain ⟨o, ho⟩ := hl.all c (by omega)
      refine ⟨o, (hm _ _).mpr (.inr ⟨?_, ho⟩)⟩
      rintro rfl
      rw [hk k (Nat.le_refl k)] at ho
      simp at ho
  · intro o o' c h1 h2
    rcases (hm _ _).mp h1 with ⟨g1, rfl⟩ | ⟨g1, g2⟩ <;> rcases (hm _ _).mp h2 with ⟨f1, f2⟩ | ⟨f1, f2⟩
    · rw [g1, f1]
    · exact absurd f2 (hfresh _)
    · rw [f2] at g2; exact absurd g2 (hfresh _)
    · exact hl.once _ _ _ g2 f2
  · intro o
    show (if o = Sum.inr k then [t.size] else ch o).Nodup
    split
    · simp
    · exact hl.nodup o
  · intro o
    show Seg u _ none (if o = Sum.inr k then [t.size] else ch o) none
    split
    · rename_i ho
      subst ho
      simp [Seg, hnew]
    · refine (hl.seg o).congr ?_
      intro c hc
      rw [hold c (hl.valid _ _ hc)]
      exact ⟨rfl, rfl, rfl⟩
  · intro i hi
    show (u.nodes i).first = (if (Sum.inl i : Owner) = Sum.inr k then [t.size] else ch (.inl i)).head?
    rw [if_neg (by simp)]
    by_cases his : i = t.size
    · subst his
      rw [hnew]
      cases hcl : ch (.inl t.size) with
      | nil => rfl
      | cons c cs => exact absurd (hl.owner t.size c (by rw [hcl]; simp)) (by omega)
    · rw [hold i (by omega)]
      exact hl.first i (by omega)
  · intro i hi
    show (u.nodes i).last = (if (Sum.inl i : Owner) = Sum.inr k then [t.size] else ch (.inl i)).getLast?
    rw [if_neg (by simp)]
    by_cases his : i = t.size
    · subst his
      rw [hnew]
      cases hcl : ch (.inl t.size) with
      | nil => rfl
      | cons c cs => exact absurd (hl.owner t.size c (by rw [hcl]; simp)) (by omega)
    · rw [hold i (by omega)]
      exact hl.last i (by omega)
  · refine ⟨k + 1, fun j hj => ?_⟩
    show (if (Sum.inr j : Owner) = Sum.inr k then [t.size] else ch (.inr j)) = []
    rw [if_neg (by intro e; cases e; omega), hk j (by omega)]

theorem Depicts.created (h : Depicts t o) (name : String) :
    ∃ u, createWith name [] t = (.ok t.size, u) ∧ Depicts u ((o.born name).alone o.nodes.length) ∧ u.size = t.size + 1 ∧ u.children t.size = [] ∧
      u.root = t.root := by
  obtain ⟨u, h1, h2, h3, h4, h5, h6, -, -, -, h10, h11⟩ := createWith_wf h.wf name []
  refine ⟨u, h1, ⟨h2, ?_, ?_, ?_, ?_⟩, h3, h10, h4⟩
  · have hn : u.nodes t.size = ⟨none, none, none, none, none, (intern t.names name).1, []⟩ := by
      simp only [createWith, Tree.newNode, Prod.mk.injEq, true_and] at h1
      rw [← h1]; simp
    have := h.linked.created (rowsOf_end o) h3 (fun i hi => (h11 i hi).1) hn
    have e : rowsOf ((o.born name).alone o.nodes.length) = fun x => if x = .inr o.loose.length then [t.size] else rowsOf o x := by
      funext x
      rw [rowsOf_alone, h.size]
      rfl
    rwa [e]
  · rw [h3, h.size]; simp [Rows.alone, Rows.born]
  · rw [h4, h.root]; rfl
  · intro i hi
    simp only [Rows.alone, Rows.born]
    by_cases his : i = t.size
    · subst his
      exact ⟨name, by rw [h.size, List.getElem?_concat_length, ← h.size, h6], h5⟩
    · have hi' : i < t.size := by omega
      obtain ⟨n, e1, e2⟩ := h.node i hi'
      refine ⟨n, ?_, by rw [(h11 i hi').2.1, e2]⟩
      rw [List.getElem?_append_left (by rw [← h.size]; exact hi'), e1, (h11 i hi').1]

theorem Depicts.attrs (h : Depicts t o) (i : Nat) (f : List AttrValue → List AttrValue) :
    Depicts (t.upd i (fun n => { n with attrs := f n.attrs })) (o.edit i f) := by
  obtain ⟨h1, h2, h3⟩ := upd_attrs_wf h.wf i f
  have hl := h.linked
  refine ⟨h1, ?_, ?_, h.root, ?_⟩
  · have e : rowsOf (o.edit i f) = rowsOf o := by funext x; cases x <;> rfl
    rw [e]
    exact ⟨hl.valid, hl.owner, hl.all, hl.once, hl.nodup,
      fun o => (hl.seg o).congr (fun c _ => by rw [h3]; exact ⟨rfl, rfl, rfl⟩), fun i hi => by rw [h3]; exact hl.first i hi,
      fun i hi => by rw [h3]; exact hl.last i hi, hl.finite⟩
  · rw [show (o.edit i f).nodes.length = o.nodes.length by simp [Rows.edit]]; exact h.size
  · intro j hj
    obtain ⟨n, e1, e2⟩ := h.node j hj
    refine ⟨n, ?_, ?_⟩
    · simp only [Rows.edit, List.getElem?_modify, e1, h3]
      by_cases hji : i = j
      · subst hji; simp
      · have : ¬ j = i := fun e => hji e.symm
        simp [hji, this]
    · rw [← e2]; simp only [Tree.name?, h3]; rfl

/-! ## New nodes in a place -/

theorem Depicts.congr (h : Depicts t o) {o' : Rows} (hr : rowsOf o' = rowsOf o) (hn : o'.nodes = o.nodes) (ho : o'.root = o.root) : Depicts t o' :=
  ⟨h.wf, hr ▸ h.linked, by rw [hn]; exact h.size, by rw [ho]; exact h.root, by rw [hn]; exact h.node⟩

theorem rowsOf_fresh (h : Depicts t o) (name : String) : rowsOf (((o.born name).alone o.nodes.length).takenOut o.nodes.length) = rowsOf (o.born name) := by
  funext x
  rw [rowsOf_takenOut, rowsOf_alone]
  have hr : ∀ x, rowsOf (o.born name) x = rowsOf o x := fun x => by cases x <;> rfl
  rw [hr]
  have hf : ∀ x, o.nodes.length ∉ rowsOf o x := fun x hx => by
    have := h.linked.valid x _ hx
    rw [h.size] at this
    omega
  by_cases hx : x = .inr (o.born name).loose.length
  · rw [if_pos hx, hx]
    rw [show (o.born name).loose.length = o.loose.length from rfl, rowsOf_end o _ (Nat.le_refl _)]
    simp
  · rw [if_neg hx, filter_ne_self (hf x)]

theorem rowsOf_atNode {o1 o2 : Rows} (h : rowsOf o1 = rowsOf o2) (p : Nat) (f : List Nat → List Nat) :
    rowsOf (o1.atNode p f) = rowsOf (o2.atNode p f) := by
  funext x
  cases x with
  | inl i =>
    have := congrFun h (.inl i)
    simp only [rowsOf] at this
    simp only [rowsOf, Rows.atNode, this]
  | inr j => exact congrFun h (.inr j)

theorem rowsOf_everywhere_congr {o1 o2 : Rows} (h : rowsOf o1 = rowsOf o2) (f : List Nat → List Nat) (hf : f [] = []) :
    rowsOf (o1.everywhere f) = rowsOf (o2.everywhere f) := by
  funext x
  rw [rowsOf_everywhere f hf, rowsOf_everywhere f hf, h]

theorem answered_ok {α : Type} (f : α → Answer) (a : α) (t : Tree) : answered f (.ok a, t) = (f a, t) := rfl
theorem answered_panic {α : Type} (f : α → Answer) (p : Panic) (t : Tree) : answered f (.panic p, t) = (.refused, t) := rfl

theorem attrsOf_eq (h : Depicts t o) {i : Nat} (hi : i < t.size) : o.attrsOf i = (t.nodes i).attrs := by
  obtain ⟨n, e, _⟩ := h.node i hi
  simp only [Rows.attrsOf, e]

/-- Every call. -/
theorem Depicts.call (h : Depicts t o) (op : TreeOp) {a : Answer} {o' : Rows} (ha : o.act op = some (a, o')) :
    (call op t).1 = a ∧ Depicts (call op t).2 o' := by
  have hz := h.size
  cases op with
  | createNode name =>
    simp only [Rows.act, Option.some.injEq, Prod.mk.injEq] at ha
    obtain ⟨rfl, rfl⟩ := ha
    obtain ⟨u, h1, h2, -⟩ := h.created name
    simp only [Spec.call, Tree.createNode, h1, answered_ok, hz]
    exact ⟨trivial, h2⟩
  | append c p =>
    simp only [Rows.act] at ha
    split at ha
    · rename_i hc
      simp only [Option.some.injEq, Prod.mk.injEq] at ha
      obtain ⟨rfl, rfl⟩ := ha
      obtain ⟨u, h1, h2⟩ := h.appendRaw (c := c) (p := p) (by omega) (by omega) (fun e => by
        rw [← h.holds (by omega), hc.2.2] at e; cases e)
      simp only [Spec.call, Tree.append, h1, answered_ok]
      exact ⟨trivial, h2⟩
    · rename_i hc
      simp only [Option.some.injEq, Prod.mk.injEq] at ha
      obtain ⟨rfl, rfl⟩ := ha
      obtain ⟨x, h1⟩ := appendRaw_panics h.wf (c := c) (p := p) (by
        by_cases h1 : t.size ≤ c
        · exact .inl h1
        by_cases h2 : t.size ≤ p
        · exact .inr (.inl h2)
        refine .inr (.inr ((h.holds (by omega)).mp ?_))
        cases hh : o.holds c p
        · exact absurd ⟨by omega, by omega, hh⟩ hc
        · rfl)
      simp only [Spec.call, Tree.append, h1, answered_panic]
      exact ⟨trivial, h⟩
  | prepend c p =>
    simp only [Rows.act] at ha
    split at ha
    · rename_i hc
      simp only [Option.some.injEq, Prod.mk.injEq] at ha
      obtain ⟨rfl, rfl⟩ := ha
      obtain ⟨u, h1, h2⟩ := h.prependRaw (c := c) (p := p) (by omega) (by omega) (fun e => by
        rw [← h.holds (by omega), hc.2.2] at e; cases e)
      simp only [Spec.call, Tree.prepend, h1, answered_ok]
      exact ⟨trivial, h2⟩
    · rename_i hc
      simp only [Option.some.injEq, Prod.mk.injEq] at ha
      obtain ⟨rfl, rfl⟩ := ha
      obtain ⟨x, h1⟩ := prependRaw_panics h.wf (c := c) (p := p) (by
        by_cases h1 : t.size ≤ c
        · exact .inl h1
        by_cases h2 : t.size ≤ p
        · exact .inr (.inl h2)
        refine .inr (.inr ((h.holds (by omega)).mp ?_))
        cases hh : o.holds c p
        · exact absurd ⟨by omega, by omega, hh⟩ hc
        · rfl)
      simp only [Spec.call, Tree.prepend, h1, answered_panic]
      exact ⟨trivial, h⟩
  | insertAfter c b =>
    simp only [Rows.act] at ha
    split at ha
    · rename_i hc
      split at ha
      · cases ha
      · rename_i hh
        simp only [Option.some.injEq, Prod.mk.injEq] at ha
        obtain ⟨rfl, rfl⟩ := ha
        obtain ⟨u, h1, h2⟩ := h.insertAfterRaw (c := c) (b := b) (by omega) (by omega) (fun e => hh ((h.holds (by omega)).mpr e))
        simp only [Spec.call, Tree.insertAfter, h1, answered_ok]
        exact ⟨trivial, h2⟩
    · rename_i hc
      simp only [Option.some.injEq, Prod.mk.injEq] at ha
      obtain ⟨rfl, rfl⟩ := ha
      have hp : ∃ x, Tree.insertAfterRaw c b t = (.panic x, t) := by
        simp only [Tree.insertAfterRaw, bind, M.bind, checkSibling]
        by_cases hs : t.size ≤ c ∨ t.size ≤ b
        · rw [if_pos hs]; exact ⟨_, rfl⟩
        · rw [if_neg hs, if_pos (by omega)]; exact ⟨_, rfl⟩
      obtain ⟨x, hp⟩ := hp
      simp only [Spec.call, Tree.insertAfter, hp, answered_panic]
      exact ⟨trivial, h⟩
  | insertBefore c b =>
    simp only [Rows.act] at ha
    split at ha
    · rename_i hc
      split at ha
      · cases ha
      · rename_i hh
        simp only [Option.some.injEq, Prod.mk.injEq] at ha
        obtain ⟨rfl, rfl⟩ := ha
        obtain ⟨u, h1, h2⟩ := h.insertAfterRaw (c := c) (b := b) (by omega) (by omega) (fun e => hh ((h.holds (by omega)).mpr e))
        simp only [Spec.call, Tree.insertBefore, h1, answered_ok]
        exact ⟨trivial, h2⟩
    · rename_i hc
      simp only [Option.some.injEq, Prod.mk.injEq] at ha
      obtain ⟨rfl, rfl⟩ := ha
      have hp : ∃ x, Tree.insertAfterRaw c b t = (.panic x, t) := by
        simp only [Tree.insertAfterRaw, bind, M.bind, checkSibling]
        by_cases hs : t.size ≤ c ∨ t.size ≤ b
        · rw [if_pos hs]; exact ⟨_, rfl⟩
        · rw [if_neg hs, if_pos (by omega)]; exact ⟨_, rfl⟩
      obtain ⟨x, hp⟩ := hp
      simp only [Spec.call, Tree.insertBefore, hp, answered_panic]
      exact ⟨trivial, h⟩
  | appendNew p name =>
    obtain ⟨w, h1, h2, h3, h4, h5⟩ := h.created name
    simp only [Rows.act] at ha
    split at ha
    · rename_i hc
      simp only [Option.some.injEq, Prod.mk.injEq] at ha
      obtain ⟨rfl, rfl⟩ := ha
      obtain ⟨u, g1, g2⟩ := h2.appendRaw (c := t.size) (p := p) (by omega) (by omega) (Anc.fresh h2.wf (by omega) h4 (by omega) (by omega))
      simp only [Spec.call, Tree.appendNew, bind, M.bind, h1, g1]
      refine ⟨by rw [← hz]; rfl, g2.congr ?_ rfl rfl⟩
      rw [hz]
      exact (rowsOf_atNode (rowsOf_fresh h name) p _).symm
    · rename_i hc
      simp only [Option.some.injEq, Prod.mk.injEq] at ha
      obtain ⟨rfl, rfl⟩ := ha
      obtain ⟨x, g1⟩ := appendRaw_panics h2.wf (c := t.size) (p := p) (by
        by_cases hp : p = t.size
        · subst hp; exact .inr (.inr .refl)
        · exact .inr (.inl (by omega)))
      simp only [Spec.call, Tree.appendNew, bind, M.bind, h1, g1]
      exact ⟨rfl, h2⟩
  | prependNew p name =>
    obtain ⟨w, h1, h2, h3, h4, h5⟩ := h.created name
    simp only [Rows.act] at ha
    split at ha
    · rename_i hc
      simp only [Option.some.injEq, Prod.mk.injEq] at ha
      obtain ⟨rfl, rfl⟩ := ha
      obtain ⟨u, g1, g2⟩ := h2.prependRaw (c := t.size) (p := p) (by omega) (by omega) (Anc.fresh h2.wf (by omega) h4 (by omega) (by omega))
      simp only [Spec.call, Tree.prependNew, bind, M.bind, h1, g1]
      refine ⟨by rw [← hz]; rfl, g2.congr ?_ rfl rfl⟩
      rw [hz]
      exact (rowsOf_atNode (rowsOf_fresh h name) p _).symm
    · rename_i hc
      simp only [Option.some.injEq, Prod.mk.injEq] at ha
      obtain ⟨rfl, rfl⟩ := ha
      obtain ⟨x, g1⟩ := prependRaw_panics h2.wf (c := t.size) (p := p) (by
        by_cases hp : p = t.size
        · subst hp; exact .inr (.inr .refl)
        · exact .inr (.inl (by omega)))
      simp only [Spec.call, Tree.prependNew, bind, M.bind, h1, g1]
      exact ⟨rfl, h2⟩
  | insertNewAfter b name =>
    obtain ⟨w, h1, h2, h3, h4, h5⟩ := h.created name
    simp only [Rows.act, ← h.root] at ha
    split at ha
    · rename_i hb
      simp only [Option.some.injEq, Prod.mk.injEq] at ha
      obtain ⟨rfl, rfl⟩ := ha
      simp only [Spec.call, Tree.insertNewAfter, assertNotRoot, bind, M.bind, if_pos hb]
      exact ⟨rfl, h⟩
    · rename_i hb
      split at ha
      · rename_i hc
        simp only [Option.some.injEq, Prod.mk.injEq] at ha
        obtain ⟨rfl, rfl⟩ := ha
        obtain ⟨u, g1, g2⟩ := h2.insertAfterRaw (c := t.size) (b := b) (by omega) (by omega) (Anc.fresh h2.wf (by omega) h4 (by omega) (by omega))
        simp only [Spec.call, Tree.insertNewAfter, assertNotRoot, bind, M.bind, if_neg hb, h1, g1]
        refine ⟨by rw [← hz]; rfl, g2.congr ?_ rfl rfl⟩
        rw [hz]
        exact (rowsOf_everywhere_congr (rowsOf_fresh h name) _ rfl).symm
      · rename_i hc
        simp only [Option.some.injEq, Prod.mk.injEq] at ha
        obtain ⟨rfl, rfl⟩ := ha
        have hp : ∃ x, Tree.insertAfterRaw t.size b w = (.panic x, w) := by
          simp only [Tree.insertAfterRaw, bind, M.bind, checkSibling]
          by_cases hs : w.size ≤ t.size ∨ w.size ≤ b
          · rw [if_pos hs]; exact ⟨_, rfl⟩
          · rw [if_neg hs, if_pos (by omega)]; exact ⟨_, rfl⟩
        obtain ⟨x, hp⟩ := hp
        simp only [Spec.call, Tree.insertNewAfter, assertNotRoot, bind, M.bind, if_neg hb, h1, hp]
        exact ⟨rfl, h2⟩
  | insertNewBefore b name =>
    obtain ⟨w, h1, h2, h3, h4, h5⟩ := h.created name
    simp only [Rows.act, ← h.root] at ha
    split at ha
    · rename_i hb
      simp only [Option.some.injEq, Prod.mk.injEq] at ha
      obtain ⟨rfl, rfl⟩ := ha
      simp only [Spec.call, Tree.insertNewBefore, assertNotRoot, bind, M.bind, if_pos hb]
      exact ⟨rfl, h⟩
    · rename_i hb
      split at ha
      · rename_i hc
        simp only [Option.some.injEq, Prod.mk.injEq] at ha
        obtain ⟨rfl, rfl⟩ := ha
        obtain ⟨u, g1, g2⟩ := h2.insertBeforeRaw (c := t.size) (b := b) (by omega) (by omega) (Anc.fresh h2.wf (by omega) h4 (by omega) (by omega))
        simp only [Spec.call, Tree.insertNewBefore, assertNotRoot, bind, M.bind, if_neg hb, h1, g1]
        refine ⟨by rw [← hz]; rfl, g2.congr ?_ rfl rfl⟩
        rw [hz]
        exact (rowsOf_everywhere_congr (rowsOf_fresh h name) _ rfl).symm
      · rename_i hc
        simp only [Option.some.injEq, Prod.mk.injEq] at ha
        obtain ⟨rfl, rfl⟩ := ha
        have hp : ∃ x, Tree.insertBeforeRaw t.size b w = (.panic x, w) := by
          simp only [Tree.insertBeforeRaw, bind, M.bind, checkSibling]
          by_cases hs : w.size ≤ t.size ∨ w.size ≤ b
          · rw [if_pos hs]; exact ⟨_, rfl⟩
          · rw [if_neg hs, if_pos (by omega)]; exact ⟨_, rfl⟩
        obtain ⟨x, hp⟩ := hp
        simp only [Spec.call, Tree.insertNewBefore, assertNotRoot, bind, M.bind, if_neg hb, h1, hp]
        exact ⟨rfl, h2⟩
  | detach c =>
    simp only [Rows.act] at ha
    split at ha
    · rename_i hc
      simp only [Option.some.injEq, Prod.mk.injEq] at ha
      obtain ⟨rfl, rfl⟩ := ha
      obtain ⟨u, h1, h2⟩ := h.detach (c := c) (by omega)
      simp only [Spec.call, h1, answered_ok]
      exact ⟨trivial, h2⟩
    · rename_i hc
      simp only [Option.some.injEq, Prod.mk.injEq] at ha
      obtain ⟨rfl, rfl⟩ := ha
      simp only [Spec.call, Tree.detach, if_pos (show t.size ≤ c by omega), answered_panic]
      exact ⟨trivial, h⟩
  | appendAttribute i v =>
    simp only [Rows.act, ← h.root] at ha
    split at ha
    · rename_i hc
      simp only [Option.some.injEq, Prod.mk.injEq] at ha
      obtain ⟨rfl, rfl⟩ := ha
      simp only [Spec.call, Tree.appendAttribute, assertNotRoot, assertValid, bind, M.bind, if_neg hc.1, if_neg (show ¬ t.size ≤ i by omega)]
      exact ⟨rfl, h.attrs i (fun vs => vs ++ [v])⟩
    · rename_i hc
      simp only [Option.some.injEq, Prod.mk.injEq] at ha
      obtain ⟨rfl, rfl⟩ := ha
      by_cases hr : i = t.root
      · simp only [Spec.call, Tree.appendAttribute, assertNotRoot, bind, M.bind, if_pos hr]
        exact ⟨rfl, h⟩
      · simp only [Spec.call, Tree.appendAttribute, assertNotRoot, assertValid, bind, M.bind, if_neg hr, if_pos (show t.size ≤ i by
          have : ¬ i < o.nodes.length := fun e => hc ⟨hr, e⟩
          omega)]
        exact ⟨rfl, h⟩
  | setAttribute i k v =>
    simp only [Rows.act] at ha
    split at ha
    · rename_i hc
      simp only [Option.some.injEq, Prod.mk.injEq] at ha
      obtain ⟨rfl, rfl⟩ := ha
      simp only [Spec.call, Tree.setAttribute, assertValid, bind, M.bind, if_neg (show ¬ t.size ≤ i by omega)]
      exact ⟨by rw [attrsOf_eq h (by omega)]; rfl, h.attrs i (fun vs => vs.set k v)⟩
    · rename_i hc
      simp only [Option.some.injEq, Prod.mk.injEq] at ha
      obtain ⟨rfl, rfl⟩ := ha
      simp only [Spec.call, Tree.setAttribute, assertValid, bind, M.bind, if_pos (show t.size ≤ i by omega)]
      exact ⟨rfl, h⟩
  | takeAttributes i =>
    simp only [Rows.act] at ha
    split at ha
    · rename_i hc
      simp only [Option.some.injEq, Prod.mk.injEq] at ha
      obtain ⟨rfl, rfl⟩ := ha
      simp only [Spec.call, Tree.takeAttributes, assertValid, bind, M.bind, if_neg (show ¬ t.size ≤ i by omega)]
      exact ⟨by rw [attrsOf_eq h (by omega)]; rfl, h.attrs i (fun _ => [])⟩
    · rename_i hc
      simp only [Option.some.injEq, Prod.mk.injEq] at ha
      obtain ⟨rfl, rfl⟩ := ha
      simp only [Spec.call, Tree.takeAttributes, assertValid, bind, M.bind, if_pos (show t.size ≤ i by omega)]
      exact ⟨rfl, h⟩
  | setAttributes i vs =>
    simp only [Rows.act] at ha
    split at ha
    · rename_i hc
      simp only [Option.some.injEq, Prod.mk.injEq] at ha
      obtain ⟨rfl, rfl⟩ := ha
      simp only [Spec.call, Tree.setAttributes, assertValid, bind, M.bind, if_neg (show ¬ t.size ≤ i by omega)]
      exact ⟨rfl, h.attrs i (fun _ => vs)⟩
    · rename_i hc
      simp only [Option.some.injEq, Prod.mk.injEq] at ha
      obtain ⟨rfl, rfl⟩ := ha
      simp only [Spec.call, Tree.setAttributes, assertValid, bind, M.bind, if_pos (show t.size ≤ i by omega)]
      exact ⟨rfl, h⟩

theorem Depicts.calls (h : Depicts t o) (ops : List TreeOp) {as : List Answer} {o' : Rows} (ha : o.acts ops = some (as, o')) :
    (callAll ops t).1 = as ∧ Depicts (callAll ops t).2 o' := by
  induction ops generalizing t o as with
  | nil =>
    simp only [Rows.acts, Option.some.injEq, Prod.mk.injEq] at ha
    obtain ⟨rfl, rfl⟩ := ha
    exact ⟨rfl, h⟩
  | cons op ops ih =>
    simp only [Rows.acts] at ha
    split at ha
    · cases ha
    · rename_i a o1 h1
      simp only [Option.map_eq_some_iff, Prod.mk.injEq] at ha
      obtain ⟨⟨bs, o2⟩, h2, rfl, rfl⟩ := ha
      obtain ⟨g1, g2⟩ := h.call op h1
      obtain ⟨g3, g4⟩ := ih g2 h2
      exact ⟨by simp only [callAll, g1, g3], g4⟩

/-! ## What is seen -/

theorem Depicts.parentOf (h : Depicts t o) {i : Nat} (hi : i < t.size) : o.parentOf i = (t.nodes i).parent := by
  simp only [Rows.parentOf]
  cases hp : (t.nodes i).parent with
  | none =>
    rw [List.find?_eq_none]
    intro p _ hc
    have hm : i ∈ o.below p := by simpa using hc
    rw [(h.linked.mem_iff_parent hi).mpr hm] at hp
    cases hp
  | some p =>
    have hm : i ∈ o.below p := (h.linked.mem_iff_parent hi).mp hp
    have hpv := h.linked.parent_valid hi hp
    cases hf : (List.range o.nodes.length).find? (fun p => (o.below p).contains i) with
    | none =>
      rw [List.find?_eq_none] at hf
      exact absurd (by simpa using hm) (hf p (by rw [List.mem_range, ← h.size]; exact hpv))
    | some q =>
      have := List.find?_some hf
      have hq : i ∈ o.below q := by simpa using this
      have := h.linked.once (.inl p) (.inl q) i hm hq
      cases this; rfl

theorem Depicts.row (h : Depicts t o) {i : Nat} (hi : i < t.size) {x : Owner} (hx : i ∈ rowsOf o x) : o.row i = rowsOf o x := by
  simp only [Rows.row, h.parentOf hi]
  cases x with
  | inl p =>
    rw [(h.linked.mem_iff_parent hi).mpr hx]
    rfl
  | inr j =>
    cases hp : (t.nodes i).parent with
    | some p =>
      have := h.linked.once _ _ i ((h.linked.mem_iff_parent hi).mp hp) hx
      cases this
    | none =>
      simp only [rowsOf] at hx ⊢
      cases hj : o.loose[j]? with
      | none => rw [hj] at hx; cases hx
      | some l =>
        rw [hj] at hx
        simp only [Option.getD_some] at hx
        cases hf : o.loose.find? (fun l => l.contains i) with
        | none =>
          rw [List.find?_eq_none] at hf
          exact absurd (by simpa using hx) (hf l (List.mem_of_getElem? hj))
        | some m =>
          have hm : i ∈ m := by simpa using List.find?_some hf
          obtain ⟨k, hk⟩ := List.getElem?_of_mem (List.mem_of_find?_eq_some hf)
          have := h.linked.once (.inr j) (.inr k) i (by simp [rowsOf, hj, hx]) (by simp [rowsOf, hk, hm])
          cases this
          rw [hj] at hk
          cases hk; rfl

theorem takeWhile_mid {a b : List Nat} {x : Nat} (h : x ∉ a) : (a ++ x :: b).takeWhile (· ≠ x) = a := by
  induction a with
  | nil => simp
  | cons y ys ih =>
    simp only [List.mem_cons, not_or] at h
    have : y ≠ x := fun e => h.1 e.symm
    simp only [List.cons_append]
    rw [List.takeWhile_cons_of_pos (by simpa using this), ih h.2]

theorem dropWhile_mid {a b : List Nat} {x : Nat} (h : x ∉ a) : (a ++ x :: b).dropWhile (· ≠ x) = x :: b := by
  induction a with
  | nil => simp
  | cons y ys ih =>
    simp only [List.mem_cons, not_or] at h
    have : y ≠ x := fun e => h.1 e.symm
    simp only [List.cons_append]
    rw [List.dropWhile_cons_of_pos (by simpa using this), ih h.2]

theorem Depicts.view (h : Depicts t o) {i : Nat} (hi : i < t.size) : seen t i = o.view i := by
  obtain ⟨x, a, b, hab, hn, -, -, hprev, hnext⟩ := h.linked.place hi
  have hrow : o.row i = a ++ i :: b := by rw [h.row hi (x := x) (by rw [hab]; simp), hab]
  have hia : i ∉ a := fun e => (List.nodup_append.mp hn).2.2 i e i (by simp) rfl
  obtain ⟨n, e1, e2⟩ := h.node i hi
  simp only [seen, Rows.view, View.mk.injEq]
  refine ⟨by rw [e1, e2]; rfl, (attrsOf_eq h hi).symm, (h.parentOf hi).symm, ?_, ?_, h.linked.first i hi, h.linked.last i hi, h.linked.children hi⟩
  · rw [hrow, takeWhile_mid hia, hprev]
  · rw [hrow, dropWhile_mid hia, hnext]; rfl

theorem depicts_empty : Depicts Tree.empty Rows.begun := by
  refine ⟨empty_wf, ?_, rfl, rfl, ?_⟩
  · have : rowsOf Rows.begun = fun o => if o = .inr 0 then [0] else [] := by
      funext x
      cases x with
      | inl i => simp [rowsOf, Rows.begun]
      | inr j => cases j <;> simp [rowsOf, Rows.begun]
    rw [this]
    constructor
    · intro o c hc
      split at hc <;> simp at hc
      subst hc; simp [Tree.empty]
    · intro i c hc
      simp at hc
    · intro c hc
      simp [Tree.empty] at hc
      subst hc
      exact ⟨.inr 0, by simp⟩
    · intro o o' c h1 h2
      split at h1 <;> split at h2 <;> simp_all
    · intro o
      show (if o = Sum.inr 0 then [0] else []).Nodup
      split <;> simp
    · intro o
      show Seg _ _ none (if o = Sum.inr 0 then [0] else []) none
      split
      · rename_i h; subst h; simp [Seg, Tree.empty]
      · exact trivial
    · intro i hi; simp [Tree.empty]
    · intro i hi; simp [Tree.empty]
    · exact ⟨1, fun j hj => by rw [if_neg (by intro e; cases e; omega)]⟩
  · intro i hi
    have : i = 0 := by simp [Tree.empty] at hi; exact hi
    subst this
    exact ⟨"", rfl, rfl⟩

/-- Every well-formed tree has an outline. -/
theorem depicts_some (h : WF t) : ∃ o, Depicts t o := by
  obtain ⟨ch, hl⟩ := h.linked
  obtain ⟨k, hk⟩ := hl.finite
  refine ⟨⟨(List.range t.size).map (fun i => ((t.name? i).getD "", (t.nodes i).attrs)), fun i => ch (.inl i), (List.range k).map (fun j => ch (.inr j)),
    t.root⟩, h, ?_, by simp, rfl, ?_⟩
  · have : rowsOf ⟨(List.range t.size).map (fun i => ((t.name? i).getD "", (t.nodes i).attrs)), fun i => ch (.inl i),
        (List.range k).map (fun j => ch (.inr j)), t.root⟩ = ch := by
      funext x
      cases x with
      | inl i => rfl
      | inr j =>
        simp only [rowsOf, List.getElem?_map]
        by_cases hj : j < k
        · rw [List.getElem?_range hj]; rfl
        · rw [List.getElem?_eq_none (by simp; omega), hk j (by omega)]; rfl
    rw [this]
    exact hl
  · intro i hi
    have hs := h.syms i hi
    refine ⟨t.names[(t.nodes i).sym], ?_, ?_⟩
    · simp only [List.getElem?_map, List.getElem?_range hi, Option.map_some, Tree.name?, List.getElem?_eq_getElem hs, Option.getD_some]
    · simp only [Tree.name?, List.getElem?_eq_getElem hs]

theorem act_root {a : Answer} {o o' : Rows} {op : TreeOp} (h : o.act op = some (a, o')) : o'.root = o.root := by
  cases op <;> simp only [Rows.act] at h <;> repeat' split at h
  all_goals first
    | (cases h; done)
    | (cases h; rfl)

theorem acts_root {as : List Answer} {o o' : Rows} (ops : List TreeOp) (h : o.acts ops = some (as, o')) : o'.root = o.root := by
  induction ops generalizing o as with
  | nil =>
    simp only [Rows.acts, Option.some.injEq, Prod.mk.injEq] at h
    rw [h.2]
  | cons op ops ih =>
    simp only [Rows.acts] at h
    split at h
    · cases h
    · rename_i a o1 h1
      simp only [Option.map_eq_some_iff, Prod.mk.injEq] at h
      obtain ⟨⟨bs, o2⟩, h2, -, rfl⟩ := h
      rw [ih h2, act_root h1]

end Fbx.Tree
