import Verif.Proof.TreeLink

/-! # Operations on well-formed trees -/

namespace Fbx.Tree

variable {t u : Tree} {ch : Owner → List Nat}

/-- Distinct numbers below `n` are at most `n` many. -/
theorem nodup_length_le {l : List Nat} {n : Nat} (hd : l.Nodup) (hl : ∀ x ∈ l, x < n) : l.length ≤ n := by
  induction n generalizing l with
  | zero =>
    cases l with
    | nil => simp
    | cons x xs => exact absurd (hl x (by simp)) (by omega)
  | succ n ih =>
    have h1 := ih (l := l.filter (· ≠ n)) (hd.filter _) (by
      intro x hx
      have hx' := List.mem_filter.mp hx
      have h2 := hl x hx'.1
      have h3 : x ≠ n := by simpa using hx'.2
      omega)
    by_cases hn : n ∈ l
    · obtain ⟨a, b, hab⟩ := List.append_of_mem hn
      rw [hab] at hd h1 ⊢
      rw [filter_ne_mid hd] at h1
      simp at h1 ⊢
      omega
    · rw [filter_ne_self hn] at h1
      omega

/-! ## Children -/

theorem chain_seg {par p : Option Nat} {l : List Nat} (h : Seg t par p l none) {fuel : Nat} (hf : l.length ≤ fuel) :
    chain t fuel l.head? = l := by
  induction l generalizing p fuel with
  | nil => cases fuel <;> rfl
  | cons c cs ih =>
    cases fuel with
    | zero => simp at hf
    | succ n =>
      obtain ⟨_, _, h3, h4⟩ := h
      simp only [List.head?_cons, chain, h3]
      have : cs.head?.or none = cs.head? := by simp
      rw [this, ih h4 (by simpa using hf)]

theorem Linked.length_le (h : Linked t ch) (o : Owner) : (ch o).length ≤ t.size :=
  nodup_length_le (h.nodup o) (fun c hc => h.valid o c hc)

theorem Linked.children (h : Linked t ch) {i : Nat} (hi : i < t.size) : t.children i = ch (.inl i) := by
  unfold Tree.children
  rw [h.first i hi]
  exact chain_seg (h.seg _) (h.length_le _)

theorem WF.mem_children (h : WF t) {c i : Nat} (hc : c < t.size) (hi : i < t.size) :
    (t.nodes c).parent = some i ↔ c ∈ t.children i := by
  obtain ⟨ch, hl⟩ := h.linked
  rw [hl.mem_iff_parent hc, hl.children hi]

theorem Linked.parent_valid (h : Linked t ch) {c p : Nat} (hc : c < t.size) (hp : (t.nodes c).parent = some p) : p < t.size :=
  h.owner p c ((h.mem_iff_parent hc).mp hp)

theorem WF.parent_valid (h : WF t) {c p : Nat} (hc : c < t.size) (hp : (t.nodes c).parent = some p) : p < t.size := by
  obtain ⟨ch, hl⟩ := h.linked
  exact hl.parent_valid hc hp

theorem WF.child_valid (h : WF t) {c i : Nat} (hi : i < t.size) (hc : c ∈ t.children i) : c < t.size := by
  obtain ⟨ch, hl⟩ := h.linked
  rw [hl.children hi] at hc
  exact hl.valid _ _ hc

theorem WF.children_nodup (h : WF t) {i : Nat} (hi : i < t.size) : (t.children i).Nodup := by
  obtain ⟨ch, hl⟩ := h.linked
  rw [hl.children hi]
  exact hl.nodup _

/-! ## Depth -/

theorem Depth.det {n m i : Nat} (h : Depth t n i) (h' : Depth t m i) : n = m := by
  induction h generalizing m with
  | top hp =>
    cases h' with
    | top _ => rfl
    | step hq _ => rw [hp] at hq; cases hq
  | step hp _ ih =>
    cases h' with
    | top hq => rw [hp] at hq; cases hq
    | step hq h2 =>
      rw [hp] at hq
      cases hq
      rw [ih h2]

theorem Depth.lt (hl : Linked t ch) {n i : Nat} (h : Depth t n i) (hi : i < t.size) : n < t.size := by
  have key : ∃ l : List Nat, l.length = n + 1 ∧ l.Nodup ∧ ∀ x ∈ l, x < t.size ∧ ∃ m, m ≤ n ∧ Depth t m x := by
    induction h with
    | @top j hp => exact ⟨[j], rfl, by simp, fun x hx => by simp at hx; subst hx; exact ⟨hi, 0, by omega, .top hp⟩⟩
    | @step n j p hp hd ih =>
      obtain ⟨l, h1, h2, h3⟩ := ih (hl.parent_valid hi hp)
      refine ⟨j :: l, by simp [h1], List.nodup_cons.mpr ⟨?_, h2⟩, ?_⟩
      · intro hc
        obtain ⟨_, m, hm, hd'⟩ := h3 j hc
        have := hd'.det (.step hp hd)
        omega
      · intro x hx
        rcases List.mem_cons.mp hx with rfl | hx
        · exact ⟨hi, n + 1, by omega, .step hp hd⟩
        · obtain ⟨g1, m, g2, g3⟩ := h3 x hx
          exact ⟨g1, m, by omega, g3⟩
  obtain ⟨l, h1, h2, h3⟩ := key
  have := nodup_length_le h2 (fun x hx => (h3 x hx).1)
  omega

theorem Anc.depth {a i n : Nat} (h : Anc t a i) (hd : Depth t n i) : ∃ m, m ≤ n ∧ Depth t m a := by
  induction h generalizing n with
  | refl => exact ⟨n, Nat.le_refl n, hd⟩
  | step hp _ ih =>
    cases hd with
    | top hq => rw [hp] at hq; cases hq
    | step hq h2 =>
      rw [hp] at hq
      cases hq
      obtain ⟨m, h3, h4⟩ := ih h2
      exact ⟨m, by omega, h4⟩

/-- In an acyclic tree no node is its own parent. -/
theorem Depth.not_self {n i : Nat} (h : Depth t n i) : ¬ ∃ p, (t.nodes i).parent = some p ∧ Anc t i p := by
  rintro ⟨p, hp, ha⟩
  cases h with
  | top hq => rw [hp] at hq; cases hq
  | @step n _ _ hq h2 =>
    rw [hp] at hq
    cases hq
    obtain ⟨m, hm, hd⟩ := ha.depth h2
    have := hd.det (.step hp h2)
    omega

theorem WF.not_self (h : WF t) {i : Nat} (hi : i < t.size) : (t.nodes i).parent ≠ some i := by
  intro hc
  obtain ⟨n, hn⟩ := h.acyclic i hi
  exact hn.not_self ⟨i, hc, .refl⟩

theorem hasAncestor_iff {x n i fuel : Nat} (hd : Depth t n i) (hf : n < fuel) : hasAncestor t x fuel i = true ↔ Anc t x i := by
  induction hd generalizing fuel with
  | @top j hp =>
    cases fuel with
    | zero => omega
    | succ f =>
      simp only [hasAncestor, hp]
      split
      · rename_i h; subst h; simp [Anc.refl]
      · rename_i h
        simp only [Bool.false_eq_true, false_iff]
        intro ha
        cases ha with
        | refl => exact h rfl
        | step hq _ => rw [hp] at hq; cases hq
  | @step n j p hp hd ih =>
    cases fuel with
    | zero => omega
    | succ f =>
      simp only [hasAncestor, hp]
      split
      · rename_i h; subst h; simp [Anc.refl]
      · rename_i h
        rw [ih (by omega)]
        constructor
        · exact .step hp
        · intro ha
          cases ha with
          | refl => exact absurd rfl h
          | step hq h2 =>
            rw [hp] at hq
            cases hq
            exact h2

theorem WF.hasAncestor (h : WF t) {x i : Nat} (hi : i < t.size) : hasAncestor t x t.size i = true ↔ Anc t x i := by
  obtain ⟨n, hn⟩ := h.acyclic i hi
  obtain ⟨ch, hl⟩ := h.linked
  exact hasAncestor_iff hn (hn.lt hl hi)

/-- Cutting the link of a node to its parent keeps all chains of ancestors finite. -/
theorem Depth.cut {c n i : Nat} (h : Depth t n i) (hp : ∀ j, (u.nodes j).parent = if j = c then none else (t.nodes j).parent) :
    ∃ m, Depth u m i := by
  induction h with
  | @top j h => exact ⟨0, .top (by rw [hp]; split <;> simp [h])⟩
  | @step n j p h _ ih =>
    by_cases hj : j = c
    · exact ⟨0, .top (by rw [hp, if_pos hj])⟩
    · obtain ⟨m, hm⟩ := ih
      exact ⟨m + 1, .step (by rw [hp, if_neg hj, h]) hm⟩

/-- Moving a node elsewhere does not matter to the nodes that are not below it. -/
theorem Depth.away {c n i : Nat} {q : Option Nat} (h : Depth t n i) (ha : ¬ Anc t c i)
    (hp : ∀ j, (u.nodes j).parent = if j = c then q else (t.nodes j).parent) : Depth u n i := by
  induction h with
  | @top j h =>
    refine .top ?_
    rw [hp, if_neg (by rintro rfl; exact ha .refl), h]
  | @step n j p h _ ih =>
    refine .step (p := p) ?_ (ih (fun e => ha (.step h e)))
    rw [hp, if_neg (by rintro rfl; exact ha .refl), h]

/-- A node moved below one that was not below it. -/
theorem Depth.move {c n i : Nat} {q : Option Nat} (h : Depth t n i) (hq : ∀ p, q = some p → ∃ m, Depth u m p)
    (hp : ∀ j, (u.nodes j).parent = if j = c then q else (t.nodes j).parent) : ∃ m, Depth u m i := by
  have hc : ∃ m, Depth u m c := by
    cases q with
    | none => exact ⟨0, .top (by rw [hp, if_pos rfl])⟩
    | some p =>
      obtain ⟨m, hm⟩ := hq p rfl
      exact ⟨m + 1, .step (by rw [hp, if_pos rfl]) hm⟩
  induction h with
  | @top j h =>
    by_cases hj : j = c
    · subst hj; exact hc
    · exact ⟨0, .top (by rw [hp, if_neg hj, h])⟩
  | @step n j p h _ ih =>
    by_cases hj : j = c
    · subst hj; exact hc
    · obtain ⟨m, hm⟩ := ih
      exact ⟨m + 1, .step (by rw [hp, if_neg hj, h]) hm⟩

/-! ## Moving nodes -/

theorem Same.name? (h : Same t u) (j : Nat) : u.name? j = t.name? j := by
  simp only [Tree.name?, h.names, h.sym]

theorem Linked.move (h : Linked t ch) {c k : Nat} {o : Owner} {a b : List Nat} (hc : c < t.size) (hself : (t.nodes c).parent ≠ some c)
    (hk : ∀ j, k ≤ j → ch (.inr j) = []) (hok : o ≠ .inr k) (hab : without ch c k o = a ++ b) (hoc : o ≠ .inl c)
    (hv : ∀ p, o = .inl p → p < t.size) :
    ∃ u, Tree.insertWith c o.getLeft? a.getLast? b.head? (Tree.detachRaw c t) = (.ok (), u) ∧ Linked u (inserted (without ch c k) c k o a b) ∧
      Same t u ∧ ∀ j, (u.nodes j).parent = (if j = c then o.getLeft? else (t.nodes j).parent) := by
  have hd := h.detachRaw hc hself hk
  obtain ⟨f1, f2, f3⟩ := detachRaw_frame c t
  obtain ⟨o', a', b', _, _, _, hpar, hprev, hnext⟩ := h.place hc
  have ha : (t.nodes c).prev ≠ some c := by
    rw [hprev]
    intro e
    rename_i h1 h2 h3
    exact (List.nodup_append.mp h2).2.2 c (List.mem_of_getLast? e) c (by simp) rfl
  have hb : (t.nodes c).next ≠ some c := by
    rw [hnext]
    intro e
    rename_i h1 h2 h3
    exact (List.nodup_cons.mp (List.nodup_append.mp h2).2.1).1 (List.mem_of_head? e)
  have hN := fun j => detachRaw_nodes c t j hself ha hb
  obtain ⟨u, h1, h2, h3, h4, h5, h6⟩ := hd.insertWith (new := c) (k := k) (o := o) (a := a) (b := b) (by simp [without]) hok hab hoc
    (fun p hp => by rw [f1]; exact hv p hp)
  refine ⟨u, h1, h2, ⟨h3.trans f1, h4.trans f2, h5.trans f3, fun j => (h6 j).2.1.trans (hN j).2.2.2.2.2.1,
    fun j => (h6 j).2.2.trans (hN j).2.2.2.2.2.2⟩, fun j => ?_⟩
  rw [(h6 j).1, (hN j).1]
  split <;> rfl

theorem Same.wf (hs : Same t u) (h : WF t) (hl : ∃ ch, Linked u ch) (ha : ∀ i, i < t.size → ∃ n, Depth u n i) : WF u where
  linked := hl
  acyclic i hi := ha i (hs.size ▸ hi)
  names := hs.names ▸ h.names
  syms i hi := by rw [hs.sym, hs.names]; exact h.syms i (hs.size ▸ hi)
  root := by rw [hs.root, hs.size]; exact h.root

/-- The sibling lists of the result, as children. -/
theorem children_inserted {c k p : Nat} {a b : List Nat} (hl : Linked t ch) (hu : Linked u (inserted (without ch c k) c k (.inl p) a b))
    (hs : Same t u) {i : Nat} (hi : i < t.size) :
    u.children i = if i = p then a ++ c :: b else (t.children i).filter (· ≠ c) := by
  rw [hu.children (hs.size ▸ hi), hl.children hi]
  unfold inserted without
  simp

theorem detach_wf (h : WF t) {c : Nat} (hc : c < t.size) :
    WF (detachRaw c t) ∧ Same t (detachRaw c t) ∧ (∀ j, ((detachRaw c t).nodes j).parent = if j = c then none else (t.nodes j).parent) ∧
      ∀ i, i < t.size → (detachRaw c t).children i = (t.children i).filter (· ≠ c) := by
  obtain ⟨ch, hl⟩ := h.linked
  obtain ⟨k, hk⟩ := hl.finite
  have hself := h.not_self hc
  have hd := hl.detachRaw hc hself hk
  obtain ⟨f1, f2, f3⟩ := detachRaw_frame c t
  obtain ⟨o', a', b', _, hn, _, hpar, hprev, hnext⟩ := hl.place hc
  have ha : (t.nodes c).prev ≠ some c := by
    rw [hprev]
    intro e
    exact (List.nodup_append.mp hn).2.2 c (List.mem_of_getLast? e) c (by simp) rfl
  have hb : (t.nodes c).next ≠ some c := by
    rw [hnext]
    intro e
    exact (List.nodup_cons.mp (List.nodup_append.mp hn).2.1).1 (List.mem_of_head? e)
  have hN := fun j => detachRaw_nodes c t j hself ha hb
  have hS : Same t (detachRaw c t) := ⟨f1, f2, f3, fun j => (hN j).2.2.2.2.2.1, fun j => (hN j).2.2.2.2.2.2⟩
  refine ⟨hS.wf h ⟨_, hd⟩ ?_, hS, fun j => (hN j).1, ?_⟩
  · intro i hi
    obtain ⟨n, hn⟩ := h.acyclic i hi
    exact hn.cut (fun j => (hN j).1)
  · intro i hi
    rw [hd.children (f1 ▸ hi), hl.children hi]
    simp [without]

/-- `append` and `prepend`, whose arguments only differ in the place. -/
theorem insertChild_wf (h : WF t) {c p : Nat} (hc : c < t.size) (hp : p < t.size) (hanc : ¬ Anc t c p) (back : Bool) :
    ∃ u, Tree.insertWith c (some p) (if back then ((detachRaw c t).nodes p).last else none) (if back then none else ((detachRaw c t).nodes p).first)
        (detachRaw c t) = (.ok (), u) ∧ WF u ∧ Same t u ∧
      (∀ j, (u.nodes j).parent = if j = c then some p else (t.nodes j).parent) ∧
      ∀ i, i < t.size → u.children i = if i = p then (if back then (t.children i).filter (· ≠ c) ++ [c] else c :: (t.children i).filter (· ≠ c))
        else (t.children i).filter (· ≠ c) := by
  obtain ⟨ch, hl⟩ := h.linked
  obtain ⟨k, hk⟩ := hl.finite
  have hself := h.not_self hc
  have hd := hl.detachRaw hc hself hk
  have hf1 := (detachRaw_frame c t).1
  have hcp : (Sum.inl p : Owner) ≠ .inl c := by
    rintro ⟨⟩
    exact hanc .refl
  have hwp : without ch c k (.inl p) = (t.children p).filter (· ≠ c) := by
    rw [hl.children hp]; simp [without]
  have hac : ∀ {u : Tree}, (∀ j, (u.nodes j).parent = if j = c then some p else (t.nodes j).parent) → ∀ i, i < t.size → ∃ n, Depth u n i := by
    intro u hpar i hi
    obtain ⟨n, hn⟩ := h.acyclic i hi
    obtain ⟨m, hm⟩ := h.acyclic p hp
    exact hn.move (q := some p) (fun q hq => by cases hq; exact ⟨m, hm.away hanc hpar⟩) hpar
  cases back with
  | true =>
    obtain ⟨u, h1, h2, h3, h4⟩ := hl.move (o := .inl p) (a := without ch c k (.inl p)) (b := []) hc hself hk (by simp) (by simp) hcp
      (fun q hq => by cases hq; exact hp)
    refine ⟨u, ?_, h3.wf h ⟨_, h2⟩ (hac h4), h3, h4, ?_⟩
    · simp only [if_true]
      rw [hd.last p (hf1 ▸ hp)]
      exact h1
    · intro i hi
      rw [children_inserted hl h2 h3 hi]
      by_cases hip : i = p
      · subst hip; simp [hwp]
      · simp [hip]
  | false =>
    obtain ⟨u, h1, h2, h3, h4⟩ := hl.move (o := .inl p) (a := []) (b := without ch c k (.inl p)) hc hself hk (by simp) (by simp) hcp
      (fun q hq => by cases hq; exact hp)
    refine ⟨u, ?_, h3.wf h ⟨_, h2⟩ (hac h4), h3, h4, ?_⟩
    · simp only [Bool.false_eq_true, if_false]
      rw [hd.first p (hf1 ▸ hp)]
      exact h1
    · intro i hi
      rw [children_inserted hl h2 h3 hi]
      by_cases hip : i = p
      · subst hip; simp [hwp]
      · simp [hip]

/-- `insert_after` and `insert_before` of indextree. -/
theorem insertSibling_wf (h : WF t) {c base : Nat} (hc : c < t.size) (hb : base < t.size) (hanc : ¬ Anc t c base) (after : Bool) :
    ∃ u, Tree.insertWith c ((detachRaw c t).nodes base).parent (if after then some base else ((detachRaw c t).nodes base).prev)
        (if after then ((detachRaw c t).nodes base).next else some base) (detachRaw c t) = (.ok (), u) ∧ WF u ∧ Same t u ∧
      (∀ j, (u.nodes j).parent = if j = c then (t.nodes base).parent else (t.nodes j).parent) ∧
      (∀ p, (t.nodes base).parent = some p → ∃ a b, (t.children p).filter (· ≠ c) = a ++ base :: b ∧
        u.children p = if after then a ++ base :: c :: b else a ++ c :: base :: b) ∧
      (∀ i, i < t.size → (t.nodes base).parent ≠ some i → u.children i = (t.children i).filter (· ≠ c)) ∧
      (if after then (u.nodes base).next = some c ∧ (u.nodes c).prev = some base
        else (u.nodes base).prev = some c ∧ (u.nodes c).next = some base) := by
  obtain ⟨ch, hl⟩ := h.linked
  obtain ⟨k, hk⟩ := hl.finite
  have hself := h.not_self hc
  have hd := hl.detachRaw hc hself hk
  have hf1 := (detachRaw_frame c t).1
  have hcb : base ≠ c := by
    rintro rfl
    exact hanc .refl
  obtain ⟨_, hS, hdp, hdc⟩ := detach_wf h hc
  have hbp : ((detachRaw c t).nodes base).parent = (t.nodes base).parent := by rw [hdp, if_neg hcb]
  obtain ⟨o, a, b, hab, hn, hseg, hpar, hprev, hnext⟩ := hd.place (id := base) (hf1 ▸ hb)
  have hok : o ≠ .inr k := by
    rintro rfl
    have : without ch c k (.inr k) = [c] := by simp [without]
    rw [this] at hab
    cases a with
    | nil => simp at hab; exact hcb hab.1.symm
    | cons x xs => simp at hab
  have hoc : o ≠ .inl c := by
    rintro rfl
    rw [hbp] at hpar
    exact hanc (.step hpar .refl)
  have hv : ∀ p, o = .inl p → p < t.size := by
    rintro p rfl
    rw [hbp] at hpar
    exact h.parent_valid hb hpar
  have hac : ∀ {u : Tree}, (∀ j, (u.nodes j).parent = if j = c then o.getLeft? else (t.nodes j).parent) → ∀ i, i < t.size → ∃ n, Depth u n i := by
    intro u hpar' i hi
    obtain ⟨n, hn⟩ := h.acyclic i hi
    refine hn.move (q := o.getLeft?) (fun q hq => ?_) hpar'
    have hq' : (t.nodes base).parent = some q := by rw [← hbp, hpar, hq]
    obtain ⟨m, hm⟩ := h.acyclic q (h.parent_valid hb hq')
    exact ⟨m, hm.away (fun e => hanc (.step hq' e)) hpar'⟩
  have hwp : ∀ p, o = .inl p → without ch c k o = (t.children p).filter (· ≠ c) := by
    rintro p rfl
    rw [hl.children (hv p rfl)]; simp [without]
  have hop : ∀ p, (t.nodes base).parent = some p → o = .inl p := by
    intro p hp
    rw [← hbp, hpar] at hp
    cases o with
    | inl x => cases hp; rfl
    | inr x => cases hp
  have hnp : ∀ i, (t.nodes base).parent ≠ some i → .inl i ≠ o := by
    rintro i hi rfl
    rw [← hbp, hpar] at hi
    exact hi rfl
  rw [hpar, hprev, hnext]
  cases after with
  | true =>
    obtain ⟨u, h1, h2, h3, h4⟩ := hl.move (o := o) (a := a ++ [base]) (b := b) hc hself hk hok (by simp [hab]) hoc hv
    have hseg' : Seg u o.getLeft? none (a ++ base :: c :: b) none := by
      have := h2.seg o
      simpa [inserted] using this
    refine ⟨u, by simpa using h1, h3.wf h ⟨_, h2⟩ (hac h4), h3, ?_, ?_, ?_, ?_⟩
    · intro j; rw [h4, ← hpar, hbp]
    · intro p hp
      have ho := hop p hp
      refine ⟨a, b, by rw [← hwp p ho, hab], ?_⟩
      subst ho
      rw [children_inserted hl h2 h3 (hv p rfl)]
      simp
    · intro i hi hne
      rw [h2.children (h3.size ▸ hi), hl.children hi]
      simp [inserted, without, hnp i hne]
    · simp only [if_true]
      refine ⟨by simpa using hseg'.mid.2.2, ?_⟩
      have : Seg u o.getLeft? none ((a ++ [base]) ++ c :: b) none := by simpa using hseg'
      simpa using this.mid.2.1
  | false =>
    obtain ⟨u, h1, h2, h3, h4⟩ := hl.move (o := o) (a := a) (b := base :: b) hc hself hk hok (by simp [hab]) hoc hv
    have hseg' : Seg u o.getLeft? none (a ++ c :: base :: b) none := by
      have := h2.seg o
      simpa [inserted] using this
    refine ⟨u, by simpa using h1, h3.wf h ⟨_, h2⟩ (hac h4), h3, ?_, ?_, ?_, ?_⟩
    · intro j; rw [h4, ← hpar, hbp]
    · intro p hp
      have ho := hop p hp
      refine ⟨a, b, by rw [← hwp p ho, hab], ?_⟩
      subst ho
      rw [children_inserted hl h2 h3 (hv p rfl)]
      simp
    · intro i hi hne
      rw [h2.children (h3.size ▸ hi), hl.children hi]
      simp [inserted, without, hnp i hne]
    · simp only [Bool.false_eq_true, if_false]
      refine ⟨?_, by simpa using hseg'.mid.2.2⟩
      have : Seg u o.getLeft? none ((a ++ [c]) ++ base :: b) none := by simpa using hseg'
      simpa using this.mid.2.1

/-! ## New nodes -/

theorem lookup_none {names : List String} {name : String} (h : lookup names name = none) : name ∉ names := by
  intro hc
  have := List.findIdx?_eq_none_iff.mp h name hc
  simp at this

theorem lookup_some {names : List String} {name : String} {i : Nat} (h : lookup names name = some i) : names[i]? = some name := by
  obtain ⟨h1, h2, _⟩ := List.findIdx?_eq_some_iff_getElem.mp h
  simp at h2
  rw [List.getElem?_eq_getElem h1, h2]

theorem intern_spec (names : List String) (name : String) (hn : names.Nodup) :
    (intern names name).2.Nodup ∧ (intern names name).2[(intern names name).1]? = some name ∧
      ∃ more, (intern names name).2 = names ++ more := by
  unfold intern
  split
  · rename_i i hi
    exact ⟨hn, lookup_some hi, [], by simp⟩
  · rename_i hi
    refine ⟨?_, by simp, _, rfl⟩
    refine List.nodup_append.mpr ⟨hn, by simp, ?_⟩
    intro a ha b hb
    simp at hb
    subst hb
    rintro rfl
    exact lookup_none hi ha

/-- A new node: everything else is as before, and it is alone. -/
theorem createWith_wf (h : WF t) (name : String) (attrs : List AttrValue) :
    ∃ u, createWith name attrs t = (.ok t.size, u) ∧ WF u ∧ u.size = t.size + 1 ∧ u.root = t.root ∧ u.name? t.size = some name ∧
      (u.nodes t.size).attrs = attrs ∧ (u.nodes t.size).parent = none ∧ (u.nodes t.size).prev = none ∧ (u.nodes t.size).next = none ∧
      u.children t.size = [] ∧
      ∀ i, i < t.size → u.nodes i = t.nodes i ∧ u.name? i = t.name? i ∧ u.children i = t.children i := by
  obtain ⟨ch, hl⟩ := h.linked
  obtain ⟨k, hk⟩ := hl.finite
  obtain ⟨hn1, hn2, more, hn3⟩ := intern_spec t.names name h.names
  obtain ⟨u, hu⟩ : ∃ u, Tree.mk (fun j => if j = t.size then ⟨none, none, none, none, none, (intern t.names name).1, attrs⟩
      else t.nodes j) (t.size + 1) (intern t.names name).2 t.root = u := ⟨_, rfl⟩
  have hcr : createWith name attrs t = (.ok t.size, u) := by rw [← hu]; rfl
  refine ⟨u, hcr, ?_⟩
  clear hcr
  generalize intern t.names name = x at hn1 hn2 hn3 hu
  obtain ⟨sym, names⟩ := x
  dsimp only at hn1 hn2 hn3 hu
  have hnodes : ∀ j, u.nodes j = if j = t.size then ⟨none, none, none, none, none, sym, attrs⟩ else t.nodes j := by
    rw [← hu]; intro j; rfl
  have hsize : u.size = t.size + 1 := by rw [← hu]
  have hnames : u.names = names := by rw [← hu]
  have hroot : u.root = t.root := by rw [← hu]
  have hold : ∀ i, i < t.size → u.nodes i = t.nodes i := by
    intro i hi
    rw [hnodes, if_neg (by omega)]
  have hnew : u.nodes t.size = ⟨none, none, none, none, none, sym, attrs⟩ := by rw [hnodes, if_pos rfl]
  clear hu hnodes
  have hfresh : ∀ o, t.size ∉ ch o := fun o hc => absurd (hl.valid o _ hc) (by omega)
  have hlu : Linked u (fun o => if o = .inr k then [t.size] else ch o) := by
    have hm : ∀ o c, c ∈ (if o = Sum.inr k then [t.size] else ch o) ↔ (o = .inr k ∧ c = t.size) ∨ (o ≠ .inr k ∧ c ∈ ch o) := by
      intro o c
      by_cases ho : o = .inr k <;> simp [ho]
    constructor
    · intro o c hc
      rcases (hm o c).mp hc with ⟨_, rfl⟩ | ⟨_, hc⟩
      · omega
      · have := hl.valid _ _ hc; omega
    · intro i c hc
      rcases (hm _ c).mp hc with ⟨hx, _⟩ | ⟨_, hc⟩
      · cases hx
      · have := hl.owner _ _ hc; omega
    · intro c hc
      by_cases hcs : c = t.size
      · exact ⟨.inr k, (hm _ _).mpr (.inl ⟨rfl, hcs⟩)⟩
      · obtain ⟨o, ho⟩ := hl.all c (by omega)
        refine ⟨o, (hm _ _).mpr (.inr ⟨?_, ho⟩)⟩
        rintro rfl
        rw [hk k (Nat.le_refl k)] at ho
        simp at ho
    · intro o o' c h1 h2
      rcases (hm _ _).mp h1 with ⟨g1, rfl⟩ | ⟨g1, g2⟩ <;> rcases (hm _ _).mp h2 with ⟨f1, f2⟩ | ⟨f1, f2⟩
      · rw [g1, f1]
      · exact absurd f2 (hfresh _)
      · rw [f2] at g2; exact absurd g2 (hfresh _)
      · exact hl.once _ _ _ g2 f2
    · intro o
      show (if o = Sum.inr k then [t.size] else ch o).Nodup
      split
      · simp
      · exact hl.nodup o
    · intro o
      show Seg u _ none (if o = Sum.inr k then [t.size] else ch o) none
      split
      · rename_i ho
        subst ho
        simp [Seg, hnew]
      · refine (hl.seg o).congr ?_
        intro c hc
        rw [hold c (hl.valid _ _ hc)]
        exact ⟨rfl, rfl, rfl⟩
    · intro i hi
      show (u.nodes i).first = (if (Sum.inl i : Owner) = Sum.inr k then [t.size] else ch (.inl i)).head?
      rw [if_neg (by simp)]
      by_cases his : i = t.size
      · subst his
        rw [hnew]
        cases hcl : ch (.inl t.size) with
        | nil => rfl
        | cons c cs => exact absurd (hl.owner t.size c (by rw [hcl]; simp)) (by omega)
      · rw [hold i (by omega)]
        exact hl.first i (by omega)
    · intro i hi
      show (u.nodes i).last = (if (Sum.inl i : Owner) = Sum.inr k then [t.size] else ch (.inl i)).getLast?
      rw [if_neg (by simp)]
      by_cases his : i = t.size
      · subst his
        rw [hnew]
        cases hcl : ch (.inl t.size) with
        | nil => rfl
        | cons c cs => exact absurd (hl.owner t.size c (by rw [hcl]; simp)) (by omega)
      · rw [hold i (by omega)]
        exact hl.last i (by omega)
    · refine ⟨k + 1, fun j hj => ?_⟩
      show (if (Sum.inr j : Owner) = Sum.inr k then [t.size] else ch (.inr j)) = []
      rw [if_neg (by intro e; cases e; omega), hk j (by omega)]
  have hdep : ∀ i n, Depth t n i → i < t.size → Depth u n i := by
    intro i n hd
    induction hd with
    | @top j hp => intro hi; exact .top (by rw [hold j hi, hp])
    | @step n j p hp _ ih => intro hi; exact .step (p := p) (by rw [hold j hi, hp]) (ih (hl.parent_valid hi hp))
  have hnm : ∀ i, i < t.size → u.name? i = t.name? i := by
    intro i hi
    unfold Tree.name?
    rw [hold i hi, hnames, hn3, List.getElem?_append_left (h.syms i hi)]
  refine ⟨⟨⟨_, hlu⟩, ?_, hnames ▸ hn1, ?_, by have := h.root; omega⟩, hsize, hroot, ?_, by rw [hnew], by rw [hnew], by rw [hnew], by rw [hnew], ?_, ?_⟩
  · intro i hi
    by_cases his : i = t.size
    · subst his; exact ⟨0, .top (by rw [hnew])⟩
    · obtain ⟨n, hn⟩ := h.acyclic i (by omega)
      exact ⟨n, hdep i n hn (by omega)⟩
  · intro i hi
    rw [hnames]
    by_cases his : i = t.size
    · subst his
      rw [hnew]
      exact (List.getElem?_eq_some_iff.mp hn2).1
    · rw [hold i (by omega), hn3, List.length_append]
      have := h.syms i (by omega)
      omega
  · unfold Tree.name?
    rw [hnew, hnames]
    exact hn2
  · rw [hlu.children (by omega)]
    show (if (Sum.inl t.size : Owner) = Sum.inr k then [t.size] else ch (.inl t.size)) = []
    rw [if_neg (by simp)]
    cases hcl : ch (.inl t.size) with
    | nil => rfl
    | cons c cs => exact absurd (hl.owner t.size c (by rw [hcl]; simp)) (by omega)
  · intro i hi
    refine ⟨hold i hi, hnm i hi, ?_⟩
    rw [hlu.children (by omega), hl.children hi]
    simp

/-! ## Attributes -/

theorem upd_attrs_wf (h : WF t) (id : Nat) (f : List AttrValue → List AttrValue) :
    WF (t.upd id (fun n => { n with attrs := f n.attrs })) ∧
      (∀ i, (t.upd id (fun n => { n with attrs := f n.attrs })).children i = t.children i) ∧
      ∀ j, (t.upd id (fun n => { n with attrs := f n.attrs })).nodes j = { t.nodes j with attrs := if j = id then f (t.nodes j).attrs else (t.nodes j).attrs } := by
  generalize hu : t.upd id (fun n => { n with attrs := f n.attrs }) = u
  have hsize : u.size = t.size := by rw [← hu]; rfl
  have hnames : u.names = t.names := by rw [← hu]; rfl
  have hroot : u.root = t.root := by rw [← hu]; rfl
  have hN : ∀ j, u.nodes j = { t.nodes j with attrs := if j = id then f (t.nodes j).attrs else (t.nodes j).attrs } := by
    intro j
    rw [← hu]
    simp only [upd]
    split <;> rfl
  clear hu
  obtain ⟨ch, hl⟩ := h.linked
  refine ⟨⟨⟨ch, ?_⟩, ?_, hnames ▸ h.names, ?_, ?_⟩, ?_, hN⟩
  · exact ⟨fun o c hc => hsize ▸ hl.valid o c hc, fun i c hc => hsize ▸ hl.owner i c hc, fun c hc => hl.all c (hsize ▸ hc), hl.once, hl.nodup,
      fun o => (hl.seg o).congr (fun c _ => by rw [hN]; exact ⟨rfl, rfl, rfl⟩), fun i hi => by rw [hN]; exact hl.first i (hsize ▸ hi),
      fun i hi => by rw [hN]; exact hl.last i (hsize ▸ hi), hl.finite⟩
  · intro i hi
    obtain ⟨n, hn⟩ := h.acyclic i (hsize ▸ hi)
    refine ⟨n, ?_⟩
    clear hi
    induction hn with
    | @top j hp => exact .top (by rw [hN]; exact hp)
    | @step n j p hp _ ih => exact .step (p := p) (by rw [hN]; exact hp) ih
  · intro i hi
    rw [hN, hnames]
    exact h.syms i (hsize ▸ hi)
  · rw [hroot, hsize]; exact h.root
  · have hc : ∀ fuel x, chain u fuel x = chain t fuel x := by
      intro fuel
      induction fuel with
      | zero => intro x; rfl
      | succ n ih =>
        intro x
        cases x with
        | none => rfl
        | some y => simp only [chain, ih, hN]
    intro i
    unfold Tree.children
    rw [hc, hsize, hN]

theorem empty_wf : WF Tree.empty := by
  refine ⟨⟨fun o => if o = .inr 0 then [0] else [], ?_⟩, ?_, by simp [Tree.empty], ?_, by simp [Tree.empty]⟩
  · constructor
    · intro o c hc
      split at hc <;> simp at hc
      subst hc; simp [Tree.empty]
    · intro i c hc
      simp at hc
    · intro c hc
      simp [Tree.empty] at hc
      subst hc
      exact ⟨.inr 0, by simp⟩
    · intro o o' c h1 h2
      split at h1 <;> split at h2 <;> simp_all
    · intro o
      show (if o = Sum.inr 0 then [0] else []).Nodup
      split <;> simp
    · intro o
      show Seg _ _ none (if o = Sum.inr 0 then [0] else []) none
      split
      · rename_i h; subst h; simp [Seg, Tree.empty]
      · exact trivial
    · intro i hi; simp [Tree.empty]
    · intro i hi; simp [Tree.empty]
    · exact ⟨1, fun j hj => by rw [if_neg (by intro e; cases e; omega)]⟩
  · intro i hi; exact ⟨0, .top (by simp [Tree.empty])⟩
  · intro i hi; simp [Tree.empty]

/-! ## The calls -/

theorem appendRaw_wf (h : WF t) {c p : Nat} (hc : c < t.size) (hp : p < t.size) (hanc : ¬ Anc t c p) :
    ∃ u, appendRaw c p t = (.ok (), u) ∧ Moved t u c (some p) ((t.children p).filter (· ≠ c) ++ [c]) := by
  obtain ⟨u, h1, h2, h3, h4, h5⟩ := insertChild_wf h hc hp hanc true
  refine ⟨u, ?_, h2, h3, h4, ?_, ?_⟩
  · simp only [appendRaw, bind, M.bind, checkChild]
    rw [if_neg (by omega), if_neg (by rw [h.hasAncestor hp]; exact hanc)]
    exact h1
  · intro q hq
    cases hq
    rw [h5 p hp]
    simp
  · intro i hi hne
    rw [h5 i hi, if_neg (by rintro rfl; exact hne rfl)]

theorem prependRaw_wf (h : WF t) {c p : Nat} (hc : c < t.size) (hp : p < t.size) (hanc : ¬ Anc t c p) :
    ∃ u, prependRaw c p t = (.ok (), u) ∧ Moved t u c (some p) (c :: (t.children p).filter (· ≠ c)) := by
  obtain ⟨u, h1, h2, h3, h4, h5⟩ := insertChild_wf h hc hp hanc false
  refine ⟨u, ?_, h2, h3, h4, ?_, ?_⟩
  · simp only [prependRaw, bind, M.bind, checkChild]
    rw [if_neg (by omega), if_neg (by rw [h.hasAncestor hp]; exact hanc)]
    exact h1
  · intro q hq
    cases hq
    rw [h5 p hp]
    simp
  · intro i hi hne
    rw [h5 i hi, if_neg (by rintro rfl; exact hne rfl)]

theorem insertAfterRaw_wf (h : WF t) {c b : Nat} (hc : c < t.size) (hb : b < t.size) (hanc : ¬ Anc t c b) :
    ∃ u l r, insertAfterRaw c b t = (.ok (), u) ∧ (∀ p, (t.nodes b).parent = some p → (t.children p).filter (· ≠ c) = l ++ b :: r) ∧
      Moved t u c (t.nodes b).parent (l ++ b :: c :: r) ∧ (u.nodes b).next = some c ∧ (u.nodes c).prev = some b := by
  obtain ⟨u, h1, h2, h3, h4, h5, h6, h7⟩ := insertSibling_wf h hc hb hanc true
  have hcb : c ≠ b := by rintro rfl; exact hanc .refl
  have hcall : insertAfterRaw c b t = (.ok (), u) := by
    simp only [insertAfterRaw, bind, M.bind, checkSibling]
    rw [if_neg (by omega), if_neg hcb]
    exact h1
  simp only [if_true] at h5 h7
  cases hpar : (t.nodes b).parent with
  | none => exact ⟨u, [], [], hcall, by simp, ⟨h2, h3, hpar ▸ h4, by simp, fun i hi _ => h6 i hi (by simp [hpar])⟩, h7⟩
  | some p =>
    obtain ⟨l, r, e1, e2⟩ := h5 p hpar
    refine ⟨u, l, r, hcall, ?_, ⟨h2, h3, hpar ▸ h4, ?_, fun i hi hne => h6 i hi (hpar ▸ hne)⟩, h7⟩
    · intro q hq; cases hq; exact e1
    · intro q hq; cases hq; exact e2

theorem insertBeforeRaw_wf (h : WF t) {c b : Nat} (hc : c < t.size) (hb : b < t.size) (hanc : ¬ Anc t c b) :
    ∃ u l r, insertBeforeRaw c b t = (.ok (), u) ∧ (∀ p, (t.nodes b).parent = some p → (t.children p).filter (· ≠ c) = l ++ b :: r) ∧
      Moved t u c (t.nodes b).parent (l ++ c :: b :: r) ∧ (u.nodes b).prev = some c ∧ (u.nodes c).next = some b := by
  obtain ⟨u, h1, h2, h3, h4, h5, h6, h7⟩ := insertSibling_wf h hc hb hanc false
  have hcb : c ≠ b := by rintro rfl; exact hanc .refl
  have hcall : insertBeforeRaw c b t = (.ok (), u) := by
    simp only [insertBeforeRaw, bind, M.bind, checkSibling]
    rw [if_neg (by omega), if_neg hcb]
    exact h1
  simp only [Bool.false_eq_true, if_false] at h5 h7
  cases hpar : (t.nodes b).parent with
  | none => exact ⟨u, [], [], hcall, by simp, ⟨h2, h3, hpar ▸ h4, by simp, fun i hi _ => h6 i hi (by simp [hpar])⟩, h7⟩
  | some p =>
    obtain ⟨l, r, e1, e2⟩ := h5 p hpar
    refine ⟨u, l, r, hcall, ?_, ⟨h2, h3, hpar ▸ h4, ?_, fun i hi hne => h6 i hi (hpar ▸ hne)⟩, h7⟩
    · intro q hq; cases hq; exact e1
    · intro q hq; cases hq; exact e2

/-- A new node has nothing below it. -/
theorem Anc.fresh (h : WF u) {n p : Nat} (hn : n < u.size) (hleaf : u.children n = []) (hp : p < u.size) (hne : p ≠ n) : ¬ Anc u n p := by
  intro ha
  obtain ⟨ch, hl⟩ := h.linked
  have key : ∀ p, p < u.size → Anc u n p → p = n := by
    intro p hp ha
    induction ha with
    | refl => rfl
    | @step k q hq _ ih =>
      have hqv := hl.parent_valid hp hq
      have := ih hqv
      subst this
      have hm := (h.mem_children hp hn).mp hq
      rw [hleaf] at hm
      cases hm
  exact hne (key p hp ha)

/-- Creating a node and then moving it is growing the tree. -/
theorem grown_of_moved (h : WF t) {w v : Tree} {name : String} {dest : Option Nat} {kids : List Nat}
    (hc : createWith name [] t = (.ok t.size, w)) (hm : Moved w v t.size dest kids) (hd : ∀ p, dest = some p → p < t.size) :
    Grown t v name dest kids := by
  obtain ⟨u, h1, h2, h3, h4, h5, h6, h7, h8, h9, h10, h11⟩ := createWith_wf h name []
  rw [h1] at hc
  cases hc
  have hfil : ∀ i, i < t.size → (t.children i).filter (· ≠ t.size) = t.children i := by
    intro i hi
    refine filter_ne_self (fun hx => ?_)
    have := h.child_valid hi hx
    omega
  refine ⟨hm.wf, by rw [hm.same.size, h3], by rw [hm.same.root, h4], by rw [hm.same.name?, h5], by rw [hm.same.attrs, h6], ?_, ?_, ?_, hm.kids, ?_⟩
  · rw [hm.others t.size (by omega) ?_, h10]; rfl
    intro e
    have := hd _ e
    omega
  · rw [hm.parent, if_pos rfl]
  · intro i hi
    obtain ⟨e1, e2, e3⟩ := h11 i hi
    rw [hm.same.name?, hm.same.attrs, hm.parent, if_neg (by omega), e1, e2]
    exact ⟨rfl, rfl, rfl⟩
  · intro i hi hne
    rw [hm.others i (by omega) hne, (h11 i hi).2.2, hfil i hi]

theorem fresh_filter (h : WF t) {i : Nat} (hi : i < t.size) : (t.children i).filter (· ≠ t.size) = t.children i := by
  refine filter_ne_self (fun hx => ?_)
  have := h.child_valid hi hx
  omega

theorem appendNew_wf (h : WF t) {p : Nat} (hp : p < t.size) (name : String) :
    ∃ u, appendNew p name t = (.ok t.size, u) ∧ Grown t u name (some p) (t.children p ++ [t.size]) := by
  obtain ⟨w, h1, h2, h3, h4, h5, h6, h7, h8, h9, h10, h11⟩ := createWith_wf h name []
  obtain ⟨v, g1, g2⟩ := appendRaw_wf h2 (c := t.size) (p := p) (by omega) (by omega) (Anc.fresh h2 (by omega) h10 (by omega) (by omega))
  rw [(h11 p hp).2.2, fresh_filter h hp] at g2
  refine ⟨v, ?_, grown_of_moved h h1 g2 (fun q hq => by cases hq; exact hp)⟩
  simp only [appendNew, bind, M.bind, h1, g1]
  rfl

theorem prependNew_wf (h : WF t) {p : Nat} (hp : p < t.size) (name : String) :
    ∃ u, prependNew p name t = (.ok t.size, u) ∧ Grown t u name (some p) (t.size :: t.children p) := by
  obtain ⟨w, h1, h2, h3, h4, h5, h6, h7, h8, h9, h10, h11⟩ := createWith_wf h name []
  obtain ⟨v, g1, g2⟩ := prependRaw_wf h2 (c := t.size) (p := p) (by omega) (by omega) (Anc.fresh h2 (by omega) h10 (by omega) (by omega))
  rw [(h11 p hp).2.2, fresh_filter h hp] at g2
  refine ⟨v, ?_, grown_of_moved h h1 g2 (fun q hq => by cases hq; exact hp)⟩
  simp only [prependNew, bind, M.bind, h1, g1]
  rfl

theorem insertNewAfter_wf (h : WF t) {b : Nat} (hb : b < t.size) (hr : b ≠ t.root) (name : String) :
    ∃ u l r, insertNewAfter b name t = (.ok t.size, u) ∧ (∀ p, (t.nodes b).parent = some p → t.children p = l ++ b :: r) ∧
      Grown t u name (t.nodes b).parent (l ++ b :: t.size :: r) ∧ (u.nodes b).next = some t.size ∧ (u.nodes t.size).prev = some b := by
  obtain ⟨w, h1, h2, h3, h4, h5, h6, h7, h8, h9, h10, h11⟩ := createWith_wf h name []
  obtain ⟨v, l, r, g1, g2, g3, g4, g5⟩ := insertAfterRaw_wf h2 (c := t.size) (b := b) (by omega) (by omega) (Anc.fresh h2 (by omega) h10 (by omega) (by omega))
  have hpe : (w.nodes b).parent = (t.nodes b).parent := by rw [(h11 b hb).1]
  rw [hpe] at g2 g3
  refine ⟨v, l, r, ?_, ?_, grown_of_moved h h1 g3 (fun q hq => h.parent_valid hb hq), g4, g5⟩
  · simp only [insertNewAfter, assertNotRoot, bind, M.bind, if_neg hr, h1, g1]
    rfl
  · intro p hp
    have hpv := h.parent_valid hb hp
    rw [← g2 p hp, (h11 p hpv).2.2, fresh_filter h hpv]

theorem insertNewBefore_wf (h : WF t) {b : Nat} (hb : b < t.size) (hr : b ≠ t.root) (name : String) :
    ∃ u l r, insertNewBefore b name t = (.ok t.size, u) ∧ (∀ p, (t.nodes b).parent = some p → t.children p = l ++ b :: r) ∧
      Grown t u name (t.nodes b).parent (l ++ t.size :: b :: r) ∧ (u.nodes b).prev = some t.size ∧ (u.nodes t.size).next = some b := by
  obtain ⟨w, h1, h2, h3, h4, h5, h6, h7, h8, h9, h10, h11⟩ := createWith_wf h name []
  obtain ⟨v, l, r, g1, g2, g3, g4, g5⟩ := insertBeforeRaw_wf h2 (c := t.size) (b := b) (by omega) (by omega) (Anc.fresh h2 (by omega) h10 (by omega) (by omega))
  have hpe : (w.nodes b).parent = (t.nodes b).parent := by rw [(h11 b hb).1]
  rw [hpe] at g2 g3
  refine ⟨v, l, r, ?_, ?_, grown_of_moved h h1 g3 (fun q hq => h.parent_valid hb hq), g4, g5⟩
  · simp only [insertNewBefore, assertNotRoot, bind, M.bind, if_neg hr, h1, g1]
    rfl
  · intro p hp
    have hpv := h.parent_valid hb hp
    rw [← g2 p hp, (h11 p hpv).2.2, fresh_filter h hpv]

theorem appendRaw_panics (h : WF t) {c p : Nat} (hb : t.size ≤ c ∨ t.size ≤ p ∨ Anc t c p) :
    ∃ x, appendRaw c p t = (.panic x, t) := by
  simp only [appendRaw, bind, M.bind, checkChild]
  by_cases h1 : t.size ≤ c ∨ t.size ≤ p
  · rw [if_pos h1]; exact ⟨_, rfl⟩
  · rw [if_neg h1]
    have h2 : Anc t c p := by
      rcases hb with hb | hb | hb
      · exact absurd (.inl hb) h1
      · exact absurd (.inr hb) h1
      · exact hb
    rw [if_pos ((h.hasAncestor (by omega)).mpr h2)]
    exact ⟨_, rfl⟩

theorem prependRaw_panics (h : WF t) {c p : Nat} (hb : t.size ≤ c ∨ t.size ≤ p ∨ Anc t c p) :
    ∃ x, prependRaw c p t = (.panic x, t) := by
  simp only [prependRaw, bind, M.bind, checkChild]
  by_cases h1 : t.size ≤ c ∨ t.size ≤ p
  · rw [if_pos h1]; exact ⟨_, rfl⟩
  · rw [if_neg h1]
    have h2 : Anc t c p := by
      rcases hb with hb | hb | hb
      · exact absurd (.inl hb) h1
      · exact absurd (.inr hb) h1
      · exact hb
    rw [if_pos ((h.hasAncestor (by omega)).mpr h2)]
    exact ⟨_, rfl⟩

theorem insertAfterRaw_panics {c b : Nat} (hb : t.size ≤ c ∨ t.size ≤ b ∨ c = b) :
    ∃ x, insertAfterRaw c b t = (.panic x, t) := by
  simp only [insertAfterRaw, bind, M.bind, checkSibling]
  by_cases h1 : t.size ≤ c ∨ t.size ≤ b
  · rw [if_pos h1]; exact ⟨_, rfl⟩
  · rw [if_neg h1, if_pos (by omega)]
    exact ⟨_, rfl⟩

theorem insertBeforeRaw_panics {c b : Nat} (hb : t.size ≤ c ∨ t.size ≤ b ∨ c = b) :
    ∃ x, insertBeforeRaw c b t = (.panic x, t) := by
  simp only [insertBeforeRaw, bind, M.bind, checkSibling]
  by_cases h1 : t.size ≤ c ∨ t.size ≤ b
  · rw [if_pos h1]; exact ⟨_, rfl⟩
  · rw [if_neg h1, if_pos (by omega)]
    exact ⟨_, rfl⟩

end Fbx.Tree
