import Verif.Proof.TreeDoc
import Verif.Proof.Monad
import Verif.Spec.TreeIO

/-! # `write_tree` makes the calls of the document of the tree -/

namespace Fbx
open Spec Writer

namespace Spec.Forest

theorem roses_append (F G : Forest AttrValue) : (F.append G).roses = F.roses ++ G.roses := by
  induction F with
  | nil => rfl
  | cons n as ch r _ ih => simp [append, roses, ih]

theorem roses_count (F : Forest AttrValue) : (F.roses.map Rose.count).sum = F.count := by
  induction F with
  | nil => rfl
  | cons n as ch r ih1 ih2 =>
    simp only [roses, List.map_cons, List.sum_cons, Tree.count_node, ih1, ih2, count]
    omega

theorem roses_inj {F G : Forest AttrValue} (h : F.roses = G.roses) : F = G := by
  induction F generalizing G with
  | nil => cases G with
    | nil => rfl
    | cons => simp [roses] at h
  | cons n as ch r ih1 ih2 => cases G with
    | nil => simp [roses] at h
    | cons n' as' ch' r' =>
      simp only [roses, List.cons.injEq, Rose.node.injEq] at h
      rw [h.1.1, h.1.2.1, ih1 h.1.2.2, ih2 h.2]

end Spec.Forest

/-- Every list of documents is that of a forest. -/
theorem roses_exists : ∀ (n : Nat) (rs : List Rose), (rs.map Rose.count).sum ≤ n → ∃ F : Forest AttrValue, F.roses = rs := by
  intro n
  induction n with
  | zero =>
    intro rs h
    cases rs with
    | nil => exact ⟨.nil, rfl⟩
    | cons r rs =>
      cases r
      simp only [List.map_cons, List.sum_cons, Tree.count_node] at h
      omega
  | succ n ih =>
    intro rs h
    cases rs with
    | nil => exact ⟨.nil, rfl⟩
    | cons r rs =>
      cases r with
      | node name attrs kids =>
        simp only [List.map_cons, List.sum_cons, Tree.count_node] at h
        obtain ⟨F, hF⟩ := ih kids (by omega)
        obtain ⟨G, hG⟩ := ih rs (by omega)
        exact ⟨.cons name attrs F G, by simp [Forest.roses, hF, hG]⟩

namespace Writer
variable {Z : Zlib} {t : Tree}

theorem run_append (a b : List Op) : run Z (a ++ b) = (run Z a >>= fun _ => run Z b) := by
  induction a with
  | nil => rfl
  | cons o os ih =>
    simp only [List.cons_append, run, ih, M.bind_assoc']

theorem run_attrs (vs : List AttrValue) : run Z ((vs.map appendOf).map Op.append) = appendAll Z vs := by
  induction vs with
  | nil => rfl
  | cons v vs ih =>
    simp only [List.map_cons, run, exec, appendAll]
    rw [ih]

theorem bind_unit {σ ε : Type} (m : M ε σ Unit) : (m >>= fun _ => pure ()) = m := by
  funext s
  simp only [M.bind_apply]
  rcases m s with ⟨r, s1⟩
  cases r <;> rfl

/-- The loops of `write_tree` on the siblings from `i` on, with parent `p`. -/
theorem writeTreeLoop_eq (ht : Tree.WF t) : ∀ (F : Forest AttrValue) (i : Nat) (is : List Nat) (p : Nat) (prev : Option Nat) (k : Nat),
    Tree.RepList t (i :: is) F.roses → Tree.Seg t (some p) prev (i :: is) none → (∀ c ∈ i :: is, c < t.size) →
    Tree.Anc t t.root p →
    writeTreeLoop Z t (2 * F.count + k) true i =
      (run Z (calls (F.map appendOf)) >>= fun _ => if p = t.root then pure () else writeTreeLoop Z t k false p) := by
  obtain ⟨ch, hl⟩ := ht.linked
  intro F
  induction F with
  | nil => intro i is p prev k h; cases h
  | cons n as ch' r ih1 ih2 =>
    intro i is p prev k hrep hseg hval hanc
    simp only [Forest.roses] at hrep
    obtain ⟨hpar, -, hnext, hseg'⟩ := hseg
    have hi : i < t.size := hval i (by simp)
    have hir : i ≠ t.root := by
      rintro rfl
      obtain ⟨d, hd⟩ := ht.acyclic _ hi
      exact hd.not_self ⟨p, hpar, hanc⟩
    cases hrep with
    | cons hr hrs =>
      generalize hra : (t.nodes i).attrs = ra at *
      generalize hrose : Rose.node n as ch'.roses = rose at hr
      cases hr with
      | @mk _ name kids hname hkids =>
        rw [hra] at hrose
        cases hrose
        simp only [Forest.count, calls, Forest.map, run, run_append, run_attrs, M.bind_assoc']
        have e : 2 * (ch'.count + 1 + r.count) + k = (2 * ch'.count + (2 * r.count + k + 1)) + 1 := by omega
        rw [e]
        -- closing the node and going on
        have hclose : writeTreeLoop Z t (2 * r.count + k + 1) false i =
            (closeNode >>= fun _ => run Z (calls (r.map appendOf)) >>= fun _ =>
              if p = t.root then pure () else writeTreeLoop Z t k false p) := by
          simp only [writeTreeLoop]
          congr 1
          funext _
          cases r with
          | nil =>
            cases hrs
            simp only [List.head?_nil, Option.or_none] at hnext
            rw [hnext, hpar]
            simp [calls, Forest.map, run, M.pure_bind', Forest.count]
          | cons n2 as2 ch2 r2 =>
            cases is with
            | nil => cases hrs
            | cons j js =>
              simp only [List.head?_cons, Option.some_or] at hnext
              rw [hnext]
              exact ih2 j js p (some i) k hrs hseg' (fun c hc => hval c (List.mem_cons_of_mem _ hc)) hanc
        have hfirst : (t.nodes i).first = (t.children i).head? := by rw [hl.children hi]; exact hl.first i hi
        generalize 2 * r.count + k + 1 = K at hclose ⊢
        simp only [writeTreeLoop, hname, exec, hra]
        congr 1; funext _
        congr 1; funext _
        cases ch' with
        | nil =>
          have : t.children i = [] := by
            generalize t.children i = l at hkids
            cases hkids; rfl
          rw [hfirst, this]
          simp only [List.head?_nil, Forest.count, Forest.map, calls, run, M.pure_bind', Nat.mul_zero, Nat.zero_add]
          exact hclose
        | cons n2 as2 ch2 r2 =>
          obtain ⟨j, js, hj⟩ : ∃ j js, t.children i = j :: js := by
            generalize t.children i = l at hkids
            cases hkids with
            | cons => exact ⟨_, _, rfl⟩
          rw [hfirst, hj]
          simp only [List.head?_cons]
          have hs := hl.seg (.inl i)
          rw [← hl.children hi, hj] at hs
          rw [hj] at hkids
          rw [ih1 j js i none _ hkids hs (fun c hc => ht.child_valid hi (by rw [hj]; exact hc)) (.step hpar hanc), if_neg hir, hclose]

/-- `write_tree` makes the calls that write the document below the root. -/
theorem writeTree_eq (ht : Tree.WF t) {F : Forest AttrValue} (h : Tree.RepList t (t.children t.root) F.roses) :
    writeTree Z t = run Z (calls (F.map appendOf)) := by
  obtain ⟨ch, hl⟩ := ht.linked
  have hr := ht.root
  have hfirst : (t.nodes t.root).first = (t.children t.root).head? := by rw [hl.children hr]; exact hl.first _ hr
  unfold writeTree
  rw [hfirst]
  cases F with
  | nil =>
    have : t.children t.root = [] := by
      generalize t.children t.root = l at h
      cases h; rfl
    rw [this]; rfl
  | cons n as ch' r =>
    obtain ⟨j, js, hj⟩ : ∃ j js, t.children t.root = j :: js := by
      generalize t.children t.root = l at h
      cases h with
      | cons => exact ⟨_, _, rfl⟩
    have hs := hl.seg (.inl t.root)
    rw [← hl.children hr, hj] at hs
    obtain ⟨s, hsn⟩ := ht.name_some hr
    have hc := ht.count_le hr (.mk hsn h)
    rw [Tree.count_node, Forest.roses_count] at hc
    rw [hj] at h ⊢
    simp only [List.head?_cons]
    obtain ⟨k, hk⟩ : ∃ k, 2 * t.size + 1 = 2 * (Forest.cons n as ch' r).count + k := ⟨_, (Nat.add_sub_of_le (by omega)).symm⟩
    rw [hk, writeTreeLoop_eq ht _ j js t.root none k h hs (fun c hc => ht.child_valid hr (by rw [hj]; exact hc)) .refl, if_pos rfl, bind_unit]

theorem treeSession_eq (ht : Tree.WF t) {F : Forest AttrValue} (h : Tree.RepList t (t.children t.root) F.roses) (s : Sink) (v : FbxVersion) (f : FooterSpec) :
    treeSession Z s v t f = session Z s v (calls (F.map appendOf)) f := by
  unfold treeSession session
  rw [writeTree_eq ht h]
  rcases new s v with ⟨_ | _ | _, _⟩ <;> rfl

theorem oks_ok {α : Type} (l : List α) : oks (l.map (Except.ok (ε := WErr))) = l := by
  induction l with
  | nil => rfl
  | cons x xs ih => simp [oks, ih]

/-- The call for a value denotes the value. -/
theorem denote_appendOf (v : AttrValue) : denote (appendOf v) = { value := v } := by
  cases v <;> simp [appendOf, denote, oks_ok]

theorem intact_appendOf (v : AttrValue) : intact (appendOf v) := by
  cases v <;> simp [appendOf, intact]

theorem intact_forest (F : Forest AttrValue) : (F.map appendOf).All (fun _ as => ∀ a ∈ as, intact a) := by
  induction F with
  | nil => trivial
  | cons n as ch r ih1 ih2 =>
    refine ⟨?_, ih1, ih2⟩
    intro a ha
    obtain ⟨v, -, rfl⟩ := List.mem_map.mp ha
    exact intact_appendOf v

end Writer
end Fbx
