import Verif.Proof.TreeEq
import Verif.Props.TreeIO

/-!
# C64: `==` of trees
-/

namespace Fbx
open Tree Loader Writer

theorem sliceEq_symm {α : Type} {eq : α → α → Bool} (h : ∀ a b, eq a b = true → eq b a = true) : ∀ l r : List α,
    AttrValue.sliceEq eq l r = true → AttrValue.sliceEq eq r l = true := by
  intro l
  induction l with
  | nil => intro r hr; cases r <;> simp_all [AttrValue.sliceEq]
  | cons a l ih =>
    intro r hr
    cases r with
    | nil => simp [AttrValue.sliceEq] at hr
    | cons b r =>
      simp only [AttrValue.sliceEq, Bool.and_eq_true] at hr ⊢
      exact ⟨h _ _ hr.1, ih _ hr.2⟩

theorem sliceEq_trans {α : Type} {eq : α → α → Bool} (h : ∀ a b c, eq a b = true → eq b c = true → eq a c = true) : ∀ l r s : List α,
    AttrValue.sliceEq eq l r = true → AttrValue.sliceEq eq r s = true → AttrValue.sliceEq eq l s = true := by
  intro l
  induction l with
  | nil => intro r s hr hs; cases r <;> cases s <;> simp_all [AttrValue.sliceEq]
  | cons a l ih =>
    intro r s hr hs
    cases r with
    | nil => simp [AttrValue.sliceEq] at hr
    | cons b r =>
      cases s with
      | nil => simp [AttrValue.sliceEq] at hs
      | cons c s =>
        simp only [AttrValue.sliceEq, Bool.and_eq_true] at hr hs ⊢
        exact ⟨h _ _ _ hr.1 hs.1, ih _ _ hr.2 hs.2⟩

theorem f32Eq_symm (a b : BitVec 32) (h : AttrValue.f32Eq a b = true) : AttrValue.f32Eq b a = true := by
  rw [f32Eq_iff] at h ⊢
  obtain ⟨h1, h2, h3⟩ := h
  exact ⟨h2, h1, h3.elim (fun h => .inl h.symm) (fun h => .inr ⟨h.2, h.1⟩)⟩
theorem f64Eq_symm (a b : BitVec 64) (h : AttrValue.f64Eq a b = true) : AttrValue.f64Eq b a = true := by
  rw [f64Eq_iff] at h ⊢
  obtain ⟨h1, h2, h3⟩ := h
  exact ⟨h2, h1, h3.elim (fun h => .inl h.symm) (fun h => .inr ⟨h.2, h.1⟩)⟩
theorem f32Eq_trans (a b c : BitVec 32) (h : AttrValue.f32Eq a b = true) (h' : AttrValue.f32Eq b c = true) : AttrValue.f32Eq a c = true := by
  rw [f32Eq_iff] at h h' ⊢
  obtain ⟨h1, h2, h3⟩ := h
  obtain ⟨h4, h5, h6⟩ := h'
  refine ⟨h1, h5, ?_⟩
  rcases h3 with rfl | h3
  · exact h6
  · rcases h6 with rfl | h6
    · exact .inr h3
    · exact .inr ⟨h3.1, h6.2⟩
theorem f64Eq_trans (a b c : BitVec 64) (h : AttrValue.f64Eq a b = true) (h' : AttrValue.f64Eq b c = true) : AttrValue.f64Eq a c = true := by
  rw [f64Eq_iff] at h h' ⊢
  obtain ⟨h1, h2, h3⟩ := h
  obtain ⟨h4, h5, h6⟩ := h'
  refine ⟨h1, h5, ?_⟩
  rcases h3 with rfl | h3
  · exact h6
  · rcases h6 with rfl | h6
    · exact .inr h3
    · exact .inr ⟨h3.1, h6.2⟩

theorem attrEq_symm (a b : AttrValue) (h : a.eq b = true) : b.eq a = true := by
  cases a <;> cases b <;> simp only [AttrValue.eq, Bool.false_eq_true] at h ⊢ <;>
    first
      | exact f32Eq_symm _ _ h
      | exact f64Eq_symm _ _ h
      | exact sliceEq_symm f32Eq_symm _ _ h
      | exact sliceEq_symm f64Eq_symm _ _ h
      | (rw [beq_iff_eq] at h ⊢; exact h.symm)
      | contradiction

theorem attrEq_trans (a b c : AttrValue) (h : a.eq b = true) (h' : b.eq c = true) : a.eq c = true := by
  cases a <;> cases b <;> simp only [AttrValue.eq, Bool.false_eq_true] at h <;> cases c <;> simp only [AttrValue.eq, Bool.false_eq_true] at h' ⊢ <;>
    first
      | exact f32Eq_trans _ _ _ h h'
      | exact f64Eq_trans _ _ _ h h'
      | exact sliceEq_trans f32Eq_trans _ _ _ h h'
      | exact sliceEq_trans f64Eq_trans _ _ _ h h'
      | (rw [beq_iff_eq] at h h' ⊢; exact h.trans h')
      | contradiction

theorem Tree.Like.symm {t u : Tree} (h : Like t u) : Like u t := by
  refine ⟨h.size.symm, h.names.symm, h.root.symm, fun i hi => ?_⟩
  have hn := h.nodes i (by rw [← h.size]; exact hi)
  refine ⟨hn.parent.symm, hn.prev.symm, hn.next.symm, hn.first.symm, hn.last.symm, hn.sym.symm, ?_⟩
  rw [← sliceEq_sameValues]
  exact sliceEq_symm attrEq_symm _ _ ((sliceEq_sameValues _ _).mpr hn.attrs)

theorem Tree.Like.trans {t u v : Tree} (h : Like t u) (h' : Like u v) : Like t v := by
  refine ⟨h'.size.trans h.size, h'.names.trans h.names, h'.root.trans h.root, fun i hi => ?_⟩
  have hn := h.nodes i hi
  have hm := h'.nodes i (by rw [h.size]; exact hi)
  refine ⟨hm.parent.trans hn.parent, hm.prev.trans hn.prev, hm.next.trans hn.next, hm.first.trans hn.first, hm.last.trans hn.last, hm.sym.trans hn.sym, ?_⟩
  rw [← sliceEq_sameValues]
  exact sliceEq_trans attrEq_trans _ _ _ ((sliceEq_sameValues _ _).mpr hn.attrs) ((sliceEq_sameValues _ _).mpr hm.attrs)

theorem Tree.Like.chain {t u : Tree} (h : Like t u) : ∀ (fuel : Nat) (o : Option Nat), (∀ x ∈ Tree.chain t fuel o, x < t.size) → Tree.chain u fuel o = Tree.chain t fuel o := by
  intro fuel
  induction fuel with
  | zero => intros; rfl
  | succ n ih =>
    intro o ho
    cases o with
    | none => rfl
    | some i =>
      have hi := ho i (by simp [Tree.chain])
      simp only [Tree.chain, (h.nodes i hi).next]
      rw [ih _ (fun x hx => ho x (by simp only [Tree.chain, List.mem_cons]; exact .inr hx))]

theorem Tree.Like.children {t u : Tree} (h : Like t u) (ht : WF t) {i : Nat} (hi : i < t.size) : u.children i = t.children i := by
  unfold Tree.children
  rw [h.size, (h.nodes i hi).first]
  exact h.chain _ _ (fun x hx => ht.child_valid hi hx)

theorem Tree.Like.name {t u : Tree} (h : Like t u) {i : Nat} (hi : i < t.size) : u.name? i = t.name? i := by
  simp only [Tree.name?, h.names, (h.nodes i hi).sym]

theorem docs_of {t u : Tree} {cs : List Nat} {ks ms : List Rose} (hk : RepList t cs ks) (hm : RepList u cs ms)
    (ih : ∀ c ∈ cs, ∀ r s, Rep t c r → Rep u c s → SameDoc r s) : SameDocs ks ms := by
  induction cs generalizing ks ms with
  | nil => cases hk; cases hm; exact .nil
  | cons c cs ih' =>
    cases hk with
    | cons a b =>
      cases hm with
      | cons a' b' => exact .cons (ih c (by simp) _ _ a a') (ih' b b' (fun d hd => ih d (by simp [hd])))

theorem Tree.Like.doc {t u : Tree} (h : Like t u) (ht : WF t) : ∀ i, i < t.size → ∀ r s, Rep t i r → Rep u i s → SameDoc r s := by
  refine ht.induct (P := fun i => ∀ r s, Rep t i r → Rep u i s → SameDoc r s) ?_
  intro i hi ih r s hr hs
  cases hr with
  | mk hn hk =>
    cases hs with
    | mk hn' hk' =>
      rw [h.name hi, hn] at hn'
      cases hn'
      rw [h.children ht hi] at hk'
      refine .mk (h.nodes i hi).attrs ?_
      exact docs_of hk hk' ih

/-- **C64** (meaning). Trees that are `==` have the same root and the same node ids, and at each node the same name, neighbours
and children; the attributes of the nodes are equal one by one (floats as IEEE 754 prescribes). -/
theorem C64_eq_nodes {t u : Tree} (ht : WF t) (h : t.eq u = true) :
    u.root = t.root ∧ u.size = t.size ∧ ∀ i, i < t.size →
      u.name? i = t.name? i ∧ u.children i = t.children i ∧ (∀ name, u.childrenByName i name = t.childrenByName i name) ∧
      (u.nodes i).parent = (t.nodes i).parent ∧ (u.nodes i).prev = (t.nodes i).prev ∧ (u.nodes i).next = (t.nodes i).next ∧
      (u.nodes i).first = (t.nodes i).first ∧ (u.nodes i).last = (t.nodes i).last ∧ SameValues (t.nodes i).attrs (u.nodes i).attrs := by
  rw [like_iff] at h
  refine ⟨h.root, h.size, fun i hi => ?_⟩
  have hn := h.nodes i hi
  refine ⟨h.name hi, h.children ht hi, ?_, hn.parent, hn.prev, hn.next, hn.first, hn.last, hn.attrs⟩
  intro name
  unfold childrenByName
  rw [h.names, h.children ht hi]
  cases lookup t.names name with
  | none => rfl
  | some s =>
    apply List.filter_congr
    intro c hc
    rw [(h.nodes c (ht.child_valid hi hc)).sym]

/-- **C64** (documents). Trees that are `==` represent the same document up to the comparison of floats, at every node. -/
theorem C64_eq_doc {t u : Tree} (ht : WF t) (h : t.eq u = true) {i : Nat} (hi : i < t.size) {r s : Rose} (hr : Rep t i r) (hs : Rep u i s) :
    SameDoc r s := ((like_iff t u).mp h).doc ht i hi r s hr hs

/-- **C64** (edits). Trees that are `==` cannot be told apart by editing: the same calls, with equal attributes, return or panic
alike, and the trees are `==` afterwards. -/
theorem C64_eq_edits {t u : Tree} (ht : WF t) (h : t.eq u = true) {ops ops' : List TreeOp} (ho : SameOps ops ops') :
    (runs ops t).1 = (runs ops' u).1 ∧ (runs ops t).2.eq (runs ops' u).2 = true := by
  have key : ∀ {t u : Tree}, Like t u → Closed t → Tree.Agree (runs ops t) (runs ops' u) := by
    induction ho with
    | nil => intro t u h hc; exact ⟨rfl, h, hc⟩
    | cons h1 _ ih => intro t u h hc; exact agree_bind (run_agree h1 h hc) fun _ _ _ _ _ h hc => ih h hc
  obtain ⟨h1, h2, -⟩ := key ((like_iff t u).mp h) ht.closed
  exact ⟨h1, (like_iff _ _).mpr h2⟩

/-- **C64** (programs). Programs that make the same calls with equal attributes, none of them NaN, build trees that are `==`. -/
theorem C64_same_program {ops ops' : List TreeOp} (ho : SameOps ops ops') :
    (runs ops Tree.empty).1 = (runs ops' Tree.empty).1 ∧ (runs ops Tree.empty).2.eq (runs ops' Tree.empty).2 = true :=
  C64_eq_edits (C43_reachable_well_formed .empty) (by decide) ho

/-- **C64** (itself). A tree (or its clone) is `==` to itself exactly if no attribute of any of its nodes, also of the detached ones, contains NaN. -/
theorem C64_eq_self (t : Tree) : t.eq t = true ↔ ∀ i, i < t.size → ∀ v ∈ (t.nodes i).attrs, noNaN v := by
  rw [like_iff]
  constructor
  · intro h i hi
    exact (SameValues.self_iff _).mp (h.nodes i hi).attrs
  · intro h
    exact ⟨rfl, rfl, rfl, fun i hi => ⟨rfl, rfl, rfl, rfl, rfl, rfl, (SameValues.self_iff _).mpr (h i hi)⟩⟩

/-- **C64** (order). `==` of trees is symmetric and transitive. -/
theorem C64_eq_symm_trans :
    (∀ t u : Tree, t.eq u = true → u.eq t = true) ∧ (∀ t u v : Tree, t.eq u = true → u.eq v = true → t.eq v = true) := by
  simp only [like_iff]
  exact ⟨fun _ _ h => h.symm, fun _ _ _ h h' => h.trans h'⟩

/-- The example tree with a zero, with a negative zero, and with NaN. -/
def exZero : Tree := (run (.setAttributes 2 [.f32 0#32]) exTree).2
def exMinusZero : Tree := (run (.setAttributes 2 [.f32 0x80000000#32]) exTree).2
def exNaN : Tree := (run (.setAttributes 2 [.f32 0x7fc00000#32]) exTree).2

/-- **C64** (`strict_eq`). Neither `==` nor `strict_eq` implies the other one: zeros of different sign are `==` only; a tree with NaN, and a
tree with the same document built in another way, are strictly equal only. -/
theorem C64_eq_and_strict_eq :
    (exZero.eq exMinusZero = true ∧ strictEq exZero exMinusZero = .ok false) ∧
    (exNaN.eq exNaN = false ∧ strictEq exNaN exNaN = .ok true) ∧
    (exTree.eq exTree' = false ∧ strictEq exTree exTree' = .ok true) := by decide

/-- **C64** (normal form). Trees that are strictly equal, however they have been built, are the same after they have been saved and loaded: the
loaded trees are `==`, unless there are NaNs. -/
theorem C64_loaded (Z : Zlib) {t u : Tree} (ht : WF t) (hu : WF u) (h : strictEq t u = .ok true) (s : Sink) (v : FbxVersion) (f : FooterSpec)
    {a b : Sink} (ha : treeSession Z s v t f = (.ok (), a)) (hb : treeSession Z s v u f = (.ok (), b)) {ending : Option IoErr} {cursor limit : Nat}
    {x y : FbxVersion × Tree × Except PErr Footer} {checks : Bool}
    (hx : anyTree Z checks true a.buf ending cursor limit = .ok x) (hy : anyTree Z checks true b.buf ending cursor limit = .ok y) :
    x.2.1.eq y.2.1 = true ↔ ∀ i, i < x.2.1.size → ∀ v ∈ (x.2.1.nodes i).attrs, noNaN v := by
  rw [C47_equal_trees_same_bytes ht hu h, hb] at ha
  cases ha
  rw [hx] at hy
  cases hy
  exact C64_eq_self _

/-! ## Examples -/

theorem exZero_eq : exZero.eq exMinusZero = true := C64_eq_and_strict_eq.1.1
theorem exZero_wf : WF exZero := C43_reachable_well_formed (.step (op := .setAttributes 2 [.f32 0#32]) exTree_reachable trivial rfl)
example : SameDoc (.node "B" [.f32 0#32] [.node "C" [] []]) (.node "B" [.f32 0x80000000#32] [.node "C" [] []]) :=
  C64_eq_doc exZero_wf exZero_eq (i := 2) (by decide) (.mk (by decide) (.cons (.mk (by decide) .nil) .nil)) (.mk (by decide) (.cons (.mk (by decide) .nil) .nil))
example : (run (.append 2 5) exZero).2.eq (run (.append 2 5) exMinusZero).2 = true :=
  (C64_eq_edits (ops := [.append 2 5]) (ops' := [.append 2 5]) exZero_wf exZero_eq (.cons .append .nil)).2
example : SameOps [.appendNew 0 "A", .appendAttribute 1 (.f64 0#64)] [.appendNew 0 "A", .appendAttribute 1 (.f64 0x8000000000000000#64)] :=
  .cons .appendNew (.cons (.appendAttribute ((C04_eq_iff _ _).mp (by decide))) .nil)
example : ¬ SameDoc (.node "B" [.f32 0#32] []) (.node "B" [.f32 1#32] []) := by
  intro h
  cases h with
  | mk h _ => cases h with | cons h _ => exact absurd ((C04_eq_iff _ _).mpr h) (by decide)

end Fbx
