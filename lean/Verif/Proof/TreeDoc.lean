import Verif.Proof.TreeTour
import Verif.Props.Low

/-! # The documents of trees, and strict equality -/

namespace Fbx
namespace Tree

variable {t u : Tree} {ch : Owner → List Nat}

/-! ## Existence and uniqueness -/

theorem repList_exists {is : List Nat} (h : ∀ c ∈ is, ∃ r, Rep t c r) : ∃ rs, RepList t is rs := by
  induction is with
  | nil => exact ⟨[], .nil⟩
  | cons c cs ih =>
    obtain ⟨r, hr⟩ := h c (by simp)
    obtain ⟨rs, hrs⟩ := ih (fun d hd => h d (by simp [hd]))
    exact ⟨r :: rs, .cons hr hrs⟩

theorem WF.name_some (h : WF t) {i : Nat} (hi : i < t.size) : ∃ s, t.name? i = some s :=
  ⟨_, List.getElem?_eq_getElem (h.syms i hi)⟩

theorem WF.rep (h : WF t) : ∀ i, i < t.size → ∃ r, Rep t i r := by
  refine h.induct ?_
  intro i hi ih
  obtain ⟨s, hs⟩ := h.name_some hi
  obtain ⟨rs, hrs⟩ := repList_exists ih
  exact ⟨_, .mk hs hrs⟩

theorem rep_det : (∀ i r, Rep t i r → ∀ s, Rep t i s → r = s) ∧ ∀ is rs, RepList t is rs → ∀ ss, RepList t is ss → rs = ss := by
  have h1 : ∀ {i name kids}, t.name? i = some name → RepList t (t.children i) kids → (∀ ss, RepList t (t.children i) ss → kids = ss) →
      ∀ s, Rep t i s → Rose.node name (t.nodes i).attrs kids = s := by
    intro i name kids hn _ ih s hs
    cases hs with
    | mk hm hk =>
      rw [hn] at hm
      cases hm
      rw [ih _ hk]
  constructor
  · intro i r h
    refine Rep.rec (motive_1 := fun i r _ => ∀ s, Rep t i s → r = s) (motive_2 := fun is rs _ => ∀ ss, RepList t is ss → rs = ss) ?_ ?_ ?_ h
    · intro i name kids hn hk ih s hs; exact h1 hn hk ih s hs
    · intro ss hs; cases hs; rfl
    · intro i is r rs _ _ ih1 ih2 ss hs; cases hs with | cons g1 g2 => rw [ih1 _ g1, ih2 _ g2]
  · intro is rs h
    refine RepList.rec (motive_1 := fun i r _ => ∀ s, Rep t i s → r = s) (motive_2 := fun is rs _ => ∀ ss, RepList t is ss → rs = ss) ?_ ?_ ?_ h
    · intro i name kids hn hk ih s hs; exact h1 hn hk ih s hs
    · intro ss hs; cases hs; rfl
    · intro i is r rs _ _ ih1 ih2 ss hs; cases hs with | cons g1 g2 => rw [ih1 _ g1, ih2 _ g2]

/-! ## Sizes -/

theorem mem_opens {l : List Trav} {j : Nat} : j ∈ l.filterMap selOpen ↔ Trav.opn j ∈ l := by
  rw [List.mem_filterMap]
  constructor
  · rintro ⟨x, hx, he⟩
    cases x with
    | opn i => cases he; exact hx
    | cls i => cases he
  · intro h; exact ⟨_, h, rfl⟩

theorem opens_nodup {l : List Trav} (h : l.Nodup) : (l.filterMap selOpen).Nodup := by
  induction l with
  | nil => simp
  | cons x xs ih =>
    have h' := List.nodup_cons.mp h
    cases x with
    | opn i =>
      simp only [List.filterMap_cons, selOpen]
      exact List.nodup_cons.mpr ⟨fun hc => h'.1 (mem_opens.mp hc), ih h'.2⟩
    | cls i => simpa [List.filterMap_cons, selOpen] using ih h'.2

end Tree

/-- The number of nodes of documents. -/
def Rose.count : Rose → Nat
  | .node _ _ kids => 1 + (kids.map Rose.count).sum

namespace Tree
variable {t u : Tree} {ch : Owner → List Nat}

theorem count_node (name : String) (attrs : List AttrValue) (kids : List Rose) :
    Rose.count (.node name attrs kids) = 1 + (kids.map Rose.count).sum := by
  rw [Rose.count]

theorem rep_count : (∀ i r, Rep t i r → ∀ l, Tour t i l → (l.filterMap selOpen).length = Rose.count r) ∧
    ∀ is rs, RepList t is rs → ∀ l, TourList t is l → (l.filterMap selOpen).length = (rs.map Rose.count).sum := by
  have h1 : ∀ {i name kids}, (∀ l, TourList t (t.children i) l → (l.filterMap selOpen).length = (kids.map Rose.count).sum) →
      ∀ l, Tour t i l → (l.filterMap selOpen).length = Rose.count (.node name (t.nodes i).attrs kids) := by
    intro i name kids ih l hl
    cases hl with
    | mk hk =>
      have := ih _ hk
      rw [count_node]
      simp only [List.filterMap_cons, List.filterMap_append, selOpen, List.length_cons, List.length_append, List.filterMap_nil, List.length_nil]
      omega
  have h2 : ∀ {i is r rs}, (∀ l, Tour t i l → (l.filterMap selOpen).length = Rose.count r) →
      (∀ l, TourList t is l → (l.filterMap selOpen).length = (rs.map Rose.count).sum) →
      ∀ l, TourList t (i :: is) l → (l.filterMap selOpen).length = ((r :: rs).map Rose.count).sum := by
    intro i is r rs ih1 ih2 l hl
    cases hl with
    | cons g1 g2 =>
      simp only [List.filterMap_append, List.length_append, List.map_cons, List.sum_cons]
      rw [ih1 _ g1, ih2 _ g2]
  constructor
  · intro i r h
    refine Rep.rec (motive_1 := fun i r _ => ∀ l, Tour t i l → (l.filterMap selOpen).length = Rose.count r)
      (motive_2 := fun is rs _ => ∀ l, TourList t is l → (l.filterMap selOpen).length = (rs.map Rose.count).sum) ?_ ?_ ?_ h
    · intro i name kids _ _ ih; exact h1 ih
    · intro l hl; cases hl; rfl
    · intro i is r rs _ _ ih1 ih2; exact h2 ih1 ih2
  · intro is rs h
    refine RepList.rec (motive_1 := fun i r _ => ∀ l, Tour t i l → (l.filterMap selOpen).length = Rose.count r)
      (motive_2 := fun is rs _ => ∀ l, TourList t is l → (l.filterMap selOpen).length = (rs.map Rose.count).sum) ?_ ?_ ?_ h
    · intro i name kids _ _ ih; exact h1 ih
    · intro l hl; cases hl; rfl
    · intro i is r rs _ _ ih1 ih2; exact h2 ih1 ih2

/-- A tree has at least as many nodes as the document of one of its nodes. -/
theorem WF.count_le (h : WF t) {i : Nat} {r : Rose} (hi : i < t.size) (hr : Rep t i r) : Rose.count r ≤ t.size := by
  obtain ⟨l, gl⟩ := h.goodTour i hi
  rw [← rep_count.1 i r hr l gl.tour]
  exact nodup_length_le (opens_nodup gl.nodup) (fun j hj => (gl.below _ (mem_opens.mp hj)).1)

/-! ## Strict equality -/

theorem attrsEq_iff {l r : List AttrValue} (h : l.length = r.length) : ((List.zip l r).all (fun (x, y) => x.strictEq y)) = true ↔ l = r := by
  induction l generalizing r with
  | nil => cases r with
    | nil => simp
    | cons y ys => simp at h
  | cons x xs ih => cases r with
    | nil => simp at h
    | cons y ys =>
      simp only [List.zip_cons_cons, List.all_cons, Bool.and_eq_true, C04_strict_eq_iff, List.cons.injEq, ih (by simpa using h)]

theorem localEq_ok {i j : Nat} {a b : String} (ha : t.name? i = some a) (hb : u.name? j = some b) :
    ∃ x, localEq t u i j = .ok x ∧ (x = true ↔ a = b ∧ (t.nodes i).attrs = (u.nodes j).attrs) := by
  unfold localEq
  rw [ha, hb]
  dsimp only
  split
  · rename_i h
    exact ⟨false, rfl, by simp; intro e; exact absurd e h⟩
  · rename_i h
    split
    · rename_i hl
      refine ⟨false, rfl, ?_⟩
      simp only [Bool.false_eq_true, false_iff, not_and]
      intro _ e
      exact hl (by rw [e])
    · rename_i hl
      refine ⟨_, rfl, ?_⟩
      rw [attrsEq_iff (by simpa using hl)]
      simp only [ne_eq, Decidable.not_not] at h
      simp [h]

theorem siblingsEq_ok {is js : List Nat} {rs ss : List Rose} (ht : WF t) (hu : WF u) {par par' p p' : Option Nat} {fuel : Nat}
    (hr : RepList t is rs) (hs : RepList u js ss) (hsi : Seg t par p is none) (hsj : Seg u par' p' js none)
    (hvi : ∀ c ∈ is, c < t.size) (hvj : ∀ c ∈ js, c < u.size) (hf : (rs.map Rose.count).sum < fuel) :
    ∃ x, siblingsEq t u fuel is.head? js.head? = .ok x ∧ (x = true ↔ rs = ss) := by
  obtain ⟨cht, hlt⟩ := ht.linked
  obtain ⟨chu, hlu⟩ := hu.linked
  induction fuel generalizing is js rs ss par par' p p' with
  | zero => omega
  | succ fuel ih =>
    cases hr with
    | nil =>
      cases hs with
      | nil => exact ⟨true, rfl, by simp⟩
      | cons h1 h2 => exact ⟨false, rfl, by simp⟩
    | @cons i is r rs h1 h2 =>
      cases hs with
      | nil => exact ⟨false, rfl, by simp⟩
      | @cons j js s ss g1 g2 =>
        cases h1 with
        | @mk _ a ka ha hka =>
          cases g1 with
          | @mk _ b kb hb hkb =>
            simp only [List.map_cons, List.sum_cons, count_node] at hf
            obtain ⟨x, hx, hxi⟩ := localEq_ok ha hb
            have hi := hvi i (by simp)
            have hj := hvj j (by simp)
            simp only [List.head?_cons, siblingsEq, hx]
            cases x with
            | false =>
              refine ⟨false, rfl, ?_⟩
              simp only [Bool.false_eq_true, false_iff, not_and, List.cons.injEq, Rose.node.injEq] at hxi ⊢
              intro h; exact absurd h.2.1 (hxi h.1)
            | true =>
              have hxi' := hxi.mp rfl
              have hci := hlt.children hi
              have hcj := hlu.children hj
              obtain ⟨y, hy, hyi⟩ := ih hka hkb (par := some i) (p := none) (by rw [hci]; exact hlt.seg (.inl i)) (par' := some j) (p' := none) (by rw [hcj]; exact hlu.seg (.inl j))
                (fun c hc => ht.child_valid hi hc) (fun c hc => hu.child_valid hj hc) (by omega)
              have e1 : (t.nodes i).first = (t.children i).head? := by rw [hci]; exact hlt.first i hi
              have e2 : (u.nodes j).first = (u.children j).head? := by rw [hcj]; exact hlu.first j hj
              rw [e1, e2, hy]
              cases y with
              | false =>
                refine ⟨false, rfl, ?_⟩
                simp only [Bool.false_eq_true, false_iff, List.cons.injEq, Rose.node.injEq, not_and] at hyi ⊢
                intro h; exact absurd h.2.2 hyi
              | true =>
                obtain ⟨_, _, n1, q1⟩ := hsi
                obtain ⟨_, _, n2, q2⟩ := hsj
                obtain ⟨z, hz, hzi⟩ := ih h2 g2 q1 q2 (fun c hc => hvi c (by simp [hc])) (fun c hc => hvj c (by simp [hc])) (by omega)
                have e3 : (t.nodes i).next = is.head? := by simpa using n1
                have e4 : (u.nodes j).next = js.head? := by simpa using n2
                dsimp only
                rw [e3, e4, hz]
                refine ⟨z, rfl, ?_⟩
                simp only [List.cons.injEq, hxi', hyi.mp rfl, true_and]
                exact hzi

theorem nodesStrictEq_ok (ht : WF t) (hu : WF u) {i j : Nat} {r s : Rose} (hi : i < t.size) (hj : j < u.size) (hr : Rep t i r) (hs : Rep u j s) :
    ∃ x, nodesStrictEq t u i j = .ok x ∧ (x = true ↔ r = s) := by
  obtain ⟨cht, hlt⟩ := ht.linked
  obtain ⟨chu, hlu⟩ := hu.linked
  have hc := ht.count_le hi hr
  cases hr with
  | @mk _ a ka ha hka =>
    cases hs with
    | @mk _ b kb hb hkb =>
      obtain ⟨x, hx, hxi⟩ := localEq_ok ha hb
      unfold nodesStrictEq
      rw [hx]
      cases x with
      | false =>
        refine ⟨false, rfl, ?_⟩
        simp only [Bool.false_eq_true, false_iff, not_and, Rose.node.injEq] at hxi ⊢
        intro h1 h2; exact absurd h2 (hxi h1)
      | true =>
        have hxi' := hxi.mp rfl
        rw [count_node] at hc
        have hci := hlt.children hi
        have hcj := hlu.children hj
        have e1 : (t.nodes i).first = (t.children i).head? := by rw [hci]; exact hlt.first i hi
        have e2 : (u.nodes j).first = (u.children j).head? := by rw [hcj]; exact hlu.first j hj
        dsimp only
        rw [e1, e2]
        obtain ⟨y, hy, hyi⟩ := siblingsEq_ok ht hu (fuel := t.size + 1) hka hkb (par := some i) (p := none) (by rw [hci]; exact hlt.seg (.inl i)) (par' := some j) (p' := none)
          (by rw [hcj]; exact hlu.seg (.inl j)) (fun c hc => ht.child_valid hi hc) (fun c hc => hu.child_valid hj hc) (by omega)
        refine ⟨y, hy, ?_⟩
        simp only [Rose.node.injEq, hxi', true_and]
        exact hyi

end Tree
end Fbx
