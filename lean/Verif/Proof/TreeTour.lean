import Verif.Proof.TreeOps

/-! # Euler tours -/

namespace Fbx.Tree

variable {t u : Tree} {ch : Owner → List Nat}

/-- Induction from the leaves. -/
theorem WF.induct (h : WF t) {P : Nat → Prop} (step : ∀ i, i < t.size → (∀ c ∈ t.children i, P c) → P i) : ∀ i, i < t.size → P i := by
  obtain ⟨ch, hl⟩ := h.linked
  have key : ∀ m n i, Depth t n i → i < t.size → t.size - n ≤ m → P i := by
    intro m
    induction m with
    | zero =>
      intro n i hd hi hm
      have := hd.lt hl hi
      omega
    | succ m ih =>
      intro n i hd hi hm
      refine step i hi (fun c hc => ?_)
      have hcv := h.child_valid hi hc
      exact ih (n + 1) c (.step ((h.mem_children hcv hi).mpr hc) hd) hcv (by omega)
  intro i hi
  obtain ⟨n, hn⟩ := h.acyclic i hi
  exact key _ n i hn hi (Nat.le_refl _)

theorem split_last {α : Type} {l : List α} {x : α} (h : l.getLast? = some x) : l.dropLast ++ [x] = l := by
  have hne : l ≠ [] := by rintro rfl; cases h
  rw [List.getLast?_eq_some_getLast hne] at h
  cases h
  exact List.dropLast_concat_getLast hne

/-- Neighbours in the list are linked by the steps of the traversal. -/
def Hops (t : Tree) : List Trav → Prop
  | [] => True
  | [_] => True
  | x :: y :: l => (travNext t x = some y ∧ travPrev t y = some x) ∧ Hops t (y :: l)

theorem hops_append {a b : List Trav} : Hops t (a ++ b) ↔ Hops t a ∧ Hops t b ∧
    ∀ x y, a.getLast? = some x → b.head? = some y → travNext t x = some y ∧ travPrev t y = some x := by
  induction a with
  | nil => simp [Hops]
  | cons x xs ih =>
    cases xs with
    | nil =>
      cases b with
      | nil => simp [Hops]
      | cons y ys =>
        simp only [List.singleton_append, Hops, List.getLast?_singleton, List.head?_cons, Option.some.injEq, true_and]
        constructor
        · rintro ⟨h1, h2⟩
          refine ⟨h2, ?_⟩
          rintro _ _ rfl rfl
          exact h1
        · rintro ⟨h1, h2⟩
          exact ⟨h2 _ _ rfl rfl, h1⟩
    | cons z zs =>
      simp only [List.cons_append, Hops, List.getLast?_cons_cons] at ih ⊢
      rw [ih, and_assoc, and_assoc, and_assoc]

theorem Hops.tail {l : List Trav} (h : Hops t l) : Hops t l.tail := by
  cases l with
  | nil => exact trivial
  | cons x xs =>
    cases xs with
    | nil => exact trivial
    | cons y ys => exact h.2

theorem Hops.dropLast {l : List Trav} (h : Hops t l) : Hops t l.dropLast := by
  cases hl : l.getLast? with
  | none =>
    rw [List.getLast?_eq_none_iff] at hl
    subst hl
    exact trivial
  | some x =>
    have := split_last hl
    rw [← this, hops_append] at h
    exact h.1

/-- Which node an item belongs to. -/
def Trav.id : Trav → Nat
  | .opn i => i
  | .cls i => i

theorem Anc.trans {a b c : Nat} (h : Anc t a b) (h' : Anc t b c) : Anc t a c := by
  induction h' with
  | refl => exact h
  | step hp _ ih => exact .step hp ih

theorem Anc.unique {a b j n : Nat} (h : Anc t a j) (h' : Anc t b j) (ha : Depth t n a) (hb : Depth t n b) : a = b := by
  induction h with
  | refl =>
    cases h' with
    | refl => rfl
    | @step _ p hp h2 =>
      cases ha with
      | top hq => rw [hp] at hq; cases hq
      | step hq hd =>
        rw [hp] at hq
        cases hq
        obtain ⟨m, hm, hd'⟩ := h2.depth hd
        have := hd'.det hb
        omega
  | @step j p hp h1 ih =>
    cases h' with
    | refl =>
      cases hb with
      | top hq => rw [hp] at hq; cases hq
      | step hq hd =>
        rw [hp] at hq
        cases hq
        obtain ⟨m, hm, hd'⟩ := h1.depth hd
        have := hd'.det ha
        omega
    | step hq h2 =>
      rw [hp] at hq
      cases hq
      exact ih h2

/-- What is needed about tours. -/
structure GoodTour (t : Tree) (i : Nat) (l : List Trav) : Prop where
  tour : Tour t i l
  hops : Hops t l
  nodup : l.Nodup
  below : ∀ x ∈ l, x.id < t.size ∧ Anc t i x.id
  head : l.head? = some (.opn i)
  last : l.getLast? = some (.cls i)
  all : ∀ j, j < t.size → Anc t i j → Trav.opn j ∈ l ∧ Trav.cls j ∈ l

/-- The same for lists of siblings. -/
structure GoodTours (t : Tree) (is : List Nat) (l : List Trav) : Prop where
  tour : TourList t is l
  hops : Hops t l
  nodup : l.Nodup
  below : ∀ x ∈ l, x.id < t.size ∧ ∃ i ∈ is, Anc t i x.id
  head : l.head? = is.head?.map .opn
  last : l.getLast? = is.getLast?.map .cls
  all : ∀ i ∈ is, ∀ j, j < t.size → Anc t i j → Trav.opn j ∈ l ∧ Trav.cls j ∈ l

theorem goodTours {par p : Option Nat} {is : List Nat} {n : Nat} (hs : Seg t par p is none) (hn : is.Nodup) (hd : ∀ c ∈ is, Depth t n c)
    (hg : ∀ c ∈ is, ∃ l, GoodTour t c l) : ∃ l, GoodTours t is l := by
  induction is generalizing p with
  | nil => exact ⟨[], .nil, trivial, List.nodup_nil, by simp, rfl, rfl, by simp⟩
  | cons c cs ih =>
    obtain ⟨h1, h2, h3, h4⟩ := hs
    have hn' := List.nodup_cons.mp hn
    obtain ⟨l, gl⟩ := hg c (by simp)
    obtain ⟨m, gm⟩ := ih h4 hn'.2 (fun d hd' => hd d (by simp [hd'])) (fun d hd' => hg d (by simp [hd']))
    refine ⟨l ++ m, .cons gl.tour gm.tour, ?_, ?_, ?_, ?_, ?_, ?_⟩
    · refine hops_append.mpr ⟨gl.hops, gm.hops, ?_⟩
      intro x y hx hy
      rw [gl.last] at hx
      cases hx
      rw [gm.head] at hy
      cases cs with
      | nil => cases hy
      | cons d ds =>
        cases hy
        obtain ⟨_, g2, _, _⟩ := h4
        simp only [List.head?_cons, Option.or] at h3
        simp [travNext, travPrev, h3, g2]
    · refine List.nodup_append.mpr ⟨gl.nodup, gm.nodup, ?_⟩
      rintro x hx y hy rfl
      obtain ⟨_, a1⟩ := gl.below x hx
      obtain ⟨_, d, hdm, a2⟩ := gm.below x hy
      have := a1.unique a2 (hd c (by simp)) (hd d (by simp [hdm]))
      subst this
      exact hn'.1 hdm
    · intro x hx
      rcases List.mem_append.mp hx with hx | hx
      · obtain ⟨b1, b2⟩ := gl.below x hx
        exact ⟨b1, c, by simp, b2⟩
      · obtain ⟨b1, d, b2, b3⟩ := gm.below x hx
        exact ⟨b1, d, by simp [b2], b3⟩
    · rw [List.head?_append, gl.head]; rfl
    · rw [List.getLast?_append, gl.last, gm.last]
      cases cs with
      | nil => rfl
      | cons d ds =>
        rw [List.getLast?_cons_cons]
        cases hh : (d :: ds).getLast? with
        | none => simp at hh
        | some z => rfl
    · intro i hi j hj ha
      rcases List.mem_cons.mp hi with rfl | hi
      · obtain ⟨b1, b2⟩ := gl.all j hj ha
        exact ⟨by simp [b1], by simp [b2]⟩
      · obtain ⟨b1, b2⟩ := gm.all i hi j hj ha
        exact ⟨by simp [b1], by simp [b2]⟩

/-- Below a node are the node and what is below its children. -/
theorem Anc.down {i j : Nat} (h : Anc t i j) : j = i ∨ ∃ c, (t.nodes c).parent = some i ∧ Anc t c j := by
  induction h with
  | refl => exact .inl rfl
  | @step k p hp ha ih =>
    rcases ih with rfl | ⟨c, h1, h2⟩
    · exact .inr ⟨k, hp, .refl⟩
    · exact .inr ⟨c, h1, .step hp h2⟩

theorem Anc.valid (hl : Linked t ch) {i j : Nat} (h : Anc t i j) (hj : j < t.size) : i < t.size := by
  induction h with
  | refl => exact hj
  | step hp _ ih => exact ih (hl.parent_valid hj hp)

theorem WF.goodTour (h : WF t) : ∀ i, i < t.size → ∃ l, GoodTour t i l := by
  obtain ⟨ch, hl⟩ := h.linked
  refine h.induct ?_
  intro i hi ih
  obtain ⟨n, hn⟩ := h.acyclic i hi
  have hcc := hl.children hi
  have hpar : ∀ c ∈ t.children i, (t.nodes c).parent = some i := fun c hc => (h.mem_children (h.child_valid hi hc) hi).mpr hc
  obtain ⟨l, gl⟩ := goodTours (t := t) (is := t.children i) (par := some i) (p := none) (n := n + 1) (by rw [hcc]; exact hl.seg (.inl i))
    (h.children_nodup hi) (fun c hc => .step (hpar c hc) hn) ih
  have hf := hl.first i hi
  have hla := hl.last i hi
  have hseg := hl.seg (.inl i)
  rw [← hcc] at hf hla hseg
  refine ⟨_, .mk gl.tour, ?_, ?_, ?_, rfl, ?_, ?_⟩
  · have e : Trav.opn i :: (l ++ [Trav.cls i]) = [Trav.opn i] ++ (l ++ [Trav.cls i]) := rfl
    rw [e, hops_append, hops_append]
    refine ⟨trivial, ⟨gl.hops, trivial, ?_⟩, ?_⟩
    · intro x y hx hy
      cases hy
      rw [gl.last] at hx
      cases hg : (t.children i).getLast? with
      | none => rw [hg] at hx; cases hx
      | some z =>
        rw [hg] at hx
        cases hx
        have hz := split_last hg
        rw [← hz] at hseg
        obtain ⟨m1, m2, m3⟩ := hseg.mid
        rw [hg] at hla
        simp only [List.head?_nil, Option.or] at m3
        have m1' : (t.nodes z).parent = some i := m1
        simp [travNext, travPrev, hla, m3, m1']
    · intro x y hx hy
      cases hx
      rw [List.head?_append, gl.head] at hy
      cases hg : t.children i with
      | nil =>
        rw [hg] at hy hf hla
        cases hy
        simp only [List.head?_nil, List.getLast?_nil] at hf hla
        simp [travNext, travPrev, hf, hla]
      | cons c cs =>
        rw [hg] at hy hf hseg
        cases hy
        obtain ⟨m1, m2, -⟩ := hseg
        have m1' : (t.nodes c).parent = some i := m1
        simp only [List.head?_cons] at hf
        simp [travNext, travPrev, hf, m2, m1']
  · have hno : ∀ x ∈ l, x.id ≠ i := by
      intro x hx hc
      obtain ⟨_, c, hc1, hc2⟩ := gl.below x hx
      rw [hc] at hc2
      obtain ⟨m, hm, hd⟩ := hc2.depth hn
      have := hd.det (.step (hpar c hc1) hn)
      omega
    refine List.nodup_cons.mpr ⟨?_, List.nodup_append.mpr ⟨gl.nodup, by simp, ?_⟩⟩
    · intro hc
      rcases List.mem_append.mp hc with hc | hc
      · exact hno _ hc rfl
      · simp at hc
    · intro x hx y hy
      simp at hy
      subst hy
      rintro rfl
      exact hno _ hx rfl
  · intro x hx
    rcases List.mem_cons.mp hx with rfl | hx
    · exact ⟨hi, .refl⟩
    rcases List.mem_append.mp hx with hx | hx
    · obtain ⟨b1, c, b2, b3⟩ := gl.below x hx
      exact ⟨b1, Anc.trans (.step (hpar c b2) .refl) b3⟩
    · simp at hx
      subst hx
      exact ⟨hi, .refl⟩
  · rw [← List.cons_append, List.getLast?_concat]
  · intro j hj ha
    rcases ha.down with rfl | ⟨c, h1, h2⟩
    · simp
    · have hcm : c ∈ t.children i := (h.mem_children (h2.valid hl hj) hi).mp h1
      obtain ⟨b1, b2⟩ := gl.all c hcm j hj h2
      exact ⟨by simp [b1], by simp [b2]⟩

theorem tour_det : (∀ i l, Tour t i l → ∀ m, Tour t i m → l = m) ∧ ∀ is l, TourList t is l → ∀ m, TourList t is m → l = m := by
  constructor
  · intro i l h
    refine Tour.rec (motive_1 := fun i l _ => ∀ m, Tour t i m → l = m) (motive_2 := fun is l _ => ∀ m, TourList t is m → l = m) ?_ ?_ ?_ h
    · intro i l _ ih m hm; cases hm with | mk h2 => rw [ih _ h2]
    · intro m hm; cases hm; rfl
    · intro i is l k _ _ ih1 ih2 m hm; cases hm with | cons g1 g2 => rw [ih1 _ g1, ih2 _ g2]
  · intro is l h
    refine TourList.rec (motive_1 := fun i l _ => ∀ m, Tour t i m → l = m) (motive_2 := fun is l _ => ∀ m, TourList t is m → l = m) ?_ ?_ ?_ h
    · intro i l _ ih m hm; cases hm with | mk h2 => rw [ih _ h2]
    · intro m hm; cases hm; rfl
    · intro i is l k _ _ ih1 ih2 m hm; cases hm with | cons g1 g2 => rw [ih1 _ g1, ih2 _ g2]

/-! ## Cursors -/

/-- The cursors of a traversal that still has to yield `l`. -/
def cursors (l : List Trav) : Cursors :=
  match l.head?, l.getLast? with
  | some f, some b => some (f, b)
  | _, _ => none

theorem cursors_cons (x : Trav) (l : List Trav) : cursors (x :: l) = some (x, l.getLast?.getD x) := by
  unfold cursors
  rw [List.getLast?_cons]
  rfl

theorem cursors_concat (x : Trav) (l : List Trav) : cursors (l ++ [x]) = some (l.head?.getD x, x) := by
  unfold cursors
  rw [List.getLast?_concat, List.head?_append]
  cases l <;> rfl

theorem forward_cursors {l : List Trav} (hh : Hops t l) (hn : l.Nodup) : nextForward t (cursors l) = (.ok l.head?, cursors l.tail) := by
  cases l with
  | nil => rfl
  | cons x xs =>
    rw [cursors_cons]
    cases xs with
    | nil => simp [nextForward, cursors]
    | cons y ys =>
      have hx := (List.nodup_cons.mp hn).1
      have : ∀ z, (y :: ys).getLast? = some z → x ≠ z := by
        rintro z hz rfl
        exact hx (List.mem_of_getLast? hz)
      rw [List.tail_cons, cursors_cons]
      cases hz : (y :: ys).getLast? with
      | none => simp at hz
      | some z =>
        rw [List.getLast?_cons] at hz
        cases hz
        simp only [nextForward, Option.getD_some, hh.1.1]
        rw [if_neg (this _ (by rw [List.getLast?_cons]))]
        rfl

theorem backward_cursors {l : List Trav} (hh : Hops t l) (hn : l.Nodup) : nextBackward t (cursors l) = (.ok l.getLast?, cursors l.dropLast) := by
  cases hl : l.getLast? with
  | none =>
    rw [List.getLast?_eq_none_iff] at hl
    subst hl
    rfl
  | some x =>
    have e := split_last hl
    generalize l.dropLast = m at e
    subst e
    rw [cursors_concat]
    cases hm : m.getLast? with
    | none =>
      rw [List.getLast?_eq_none_iff] at hm
      subst hm
      simp [nextBackward, cursors]
    | some y =>
      have e := split_last hm
      generalize m.dropLast = k at e
      subst e
      rw [cursors_concat]
      have hne : x ∉ k ++ [y] := by
        intro hc
        exact (List.nodup_append.mp hn).2.2 x hc x (by simp) rfl
      have hj := (hops_append.mp hh).2.2 y x (by simp) rfl
      have h1 : (k ++ [y]).head?.getD x = k.head?.getD y := by cases k <;> rfl
      rw [h1]
      have h2 : k.head?.getD y ≠ x := by
        intro hc
        apply hne
        cases k with
        | nil => simp at hc; simp [hc]
        | cons z zs => simp at hc; simp [hc]
      simp only [nextBackward, hj.2]
      rw [if_neg h2]

/-! ## Calls of the traversal -/

/-- The items left of a traversal. -/
structure Left (t : Tree) (l : List Trav) : Prop where
  hops : Hops t l
  nodup : l.Nodup
  short : l.length ≤ 2 * t.size

theorem Left.tail {l : List Trav} (h : Left t l) : Left t l.tail :=
  ⟨h.hops.tail, h.nodup.sublist (List.tail_sublist l), by have := h.short; simp; omega⟩

theorem Left.dropLast {l : List Trav} (h : Left t l) : Left t l.dropLast :=
  ⟨h.hops.dropLast, h.nodup.sublist (List.dropLast_sublist l), by have := h.short; simp; omega⟩

theorem GoodTour.left {i : Nat} {l : List Trav} (h : GoodTour t i l) : Left t l := by
  refine ⟨h.hops, h.nodup, ?_⟩
  have h1 : (l.map (fun x => match x with | .opn i => 2 * i | .cls i => 2 * i + 1)).Nodup := by
    refine List.pairwise_map.mpr (List.Pairwise.imp ?_ h.nodup)
    intro x y hne e
    apply hne
    cases x <;> cases y <;> simp at e ⊢ <;> omega
  have h2 := nodup_length_le (n := 2 * t.size) h1 (by
    intro n hn
    obtain ⟨x, hx, rfl⟩ := List.mem_map.mp hn
    have := (h.below x hx).1
    cases x <;> simp [Trav.id] at this ⊢ <;> omega)
  simpa using h2

theorem where_forward {sel : Trav → Option Nat} {back : Nat → Trav} (hb : ∀ x i, sel x = some i → back i = x) {fuel : Nat} {l : List Trav}
    (h : Left t l) (hf : l.length < fuel) :
    M.bind (nextWhere (nextForward t) sel fuel) (fun x => M.pure (x.map back)) (cursors l) =
      (.ok (l.dropWhile (fun x => (sel x).isNone)).head?, cursors (l.dropWhile (fun x => (sel x).isNone)).tail) := by
  induction fuel generalizing l with
  | zero => omega
  | succ f ih =>
    have hstep := forward_cursors h.hops h.nodup
    cases l with
    | nil =>
      simp only [M.bind, nextWhere, bind, hstep]
      rfl
    | cons x xs =>
      have hih := ih h.tail (by simpa using hf)
      simp only [M.bind, nextWhere, bind, hstep, List.head?_cons, List.tail_cons] at hih ⊢
      cases hs : sel x with
      | some i =>
        have := hb x i hs
        simp [pure, M.pure, hs, this]
      | none =>
        rw [List.dropWhile_cons_of_pos (by simp [hs])]
        exact hih

theorem where_backward {sel : Trav → Option Nat} {back : Nat → Trav} (hb : ∀ x i, sel x = some i → back i = x) {fuel : Nat} {l : List Trav}
    (h : Left t l) (hf : l.length < fuel) :
    M.bind (nextWhere (nextBackward t) sel fuel) (fun x => M.pure (x.map back)) (cursors l) =
      (.ok (l.reverse.dropWhile (fun x => (sel x).isNone)).head?, cursors (l.reverse.dropWhile (fun x => (sel x).isNone)).tail.reverse) := by
  induction fuel generalizing l with
  | zero => omega
  | succ f ih =>
    have hstep := backward_cursors h.hops h.nodup
    cases hl : l.getLast? with
    | none =>
      rw [List.getLast?_eq_none_iff] at hl
      subst hl
      simp only [M.bind, nextWhere, bind, hstep]
      rfl
    | some x =>
      have e := split_last hl
      have hih := ih h.dropLast (by
        have : l.length = l.dropLast.length + 1 := by
          have := congrArg List.length e
          rw [List.length_append] at this
          exact this.symm
        omega)
      generalize l.dropLast = m at e hih hstep
      subst e
      rw [List.reverse_append, List.reverse_singleton, List.singleton_append]
      rw [List.getLast?_concat] at hstep
      simp only [M.bind, nextWhere, bind, hstep] at hih ⊢
      cases hs : sel x with
      | some i =>
        have := hb x i hs
        simp [pure, M.pure, hs, this]
      | none =>
        rw [List.dropWhile_cons_of_pos (by simp [hs])]
        exact hih

theorem Left.infix {l m : List Trav} (h : Left t l) (hi : m <:+: l) : Left t m := by
  obtain ⟨a, b, rfl⟩ := hi
  refine ⟨(hops_append.mp (hops_append.mp h.hops).1).2.1, h.nodup.sublist ?_, ?_⟩
  · rw [List.append_assoc]
    exact (List.sublist_append_left m b).trans (List.sublist_append_right a _)
  · have := h.short
    simp at this
    omega

theorem call_cursors {l : List Trav} (h : Left t l) (s : Step) : s.call t (cursors l) = (.ok (s.ofList l).1, cursors (s.ofList l).2) ∧ Left t (s.ofList l).2 := by
  have hf : l.length < 2 * t.size + 2 := by have := h.short; omega
  have e1 : (fun x : Trav => (selOpen x).isNone) = fun x => !x.isOpen := by funext x; cases x <;> rfl
  have e2 : (fun x : Trav => (selClose x).isNone) = fun x => x.isOpen := by funext x; cases x <;> rfl
  have b1 : ∀ x i, selOpen x = some i → Trav.opn i = x := by intro x i hx; cases x <;> cases hx <;> rfl
  have b2 : ∀ x i, selClose x = some i → Trav.cls i = x := by intro x i hx; cases x <;> cases hx <;> rfl
  have i1 : ∀ p : Trav → Bool, (l.dropWhile p).tail <:+: l := fun p => (List.tail_suffix _).isInfix.trans (List.dropWhile_suffix p).isInfix
  have i2 : ∀ p : Trav → Bool, (l.reverse.dropWhile p).tail.reverse <:+: l := by
    intro p
    have := (List.tail_suffix _).isInfix.trans (List.dropWhile_suffix (l := l.reverse) p).isInfix
    rw [← List.reverse_infix] at this
    simpa using this
  cases s with
  | forward => exact ⟨forward_cursors h.hops h.nodup, h.tail⟩
  | backward => exact ⟨backward_cursors h.hops h.nodup, h.dropLast⟩
  | openForward =>
    have := where_forward b1 h hf
    rw [e1] at this
    exact ⟨this, h.infix (i1 _)⟩
  | closeForward =>
    have := where_forward b2 h hf
    rw [e2] at this
    exact ⟨this, h.infix (i1 _)⟩
  | openBackward =>
    have := where_backward b1 h hf
    rw [e1] at this
    exact ⟨this, h.infix (i2 _)⟩
  | closeBackward =>
    have := where_backward b2 h hf
    rw [e2] at this
    exact ⟨this, h.infix (i2 _)⟩
  | peekForward =>
    refine ⟨?_, h⟩
    cases l with
    | nil => rfl
    | cons x xs => simp only [Step.call, Step.ofList, cursors_cons]; rfl
  | peekBackward =>
    refine ⟨?_, h⟩
    cases l with
    | nil => rfl
    | cons x xs => simp only [Step.call, cursors_cons, Step.ofList, List.getLast?_cons]; rfl

theorem calls_cursors {l : List Trav} (h : Left t l) (ss : List Step) :
    Step.calls t ss (cursors l) = (.ok (Step.ofLists ss l).1, cursors (Step.ofLists ss l).2) := by
  induction ss generalizing l with
  | nil => rfl
  | cons s ss ih =>
    obtain ⟨h1, h2⟩ := call_cursors h s
    simp only [Step.calls, M.bind, h1, ih h2]
    rfl

end Fbx.Tree
