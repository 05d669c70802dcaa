import Verif.Spec.Edited
import Verif.Proof.Outline
import Verif.Proof.TreeFile

/-! # Loaded, edited and written trees -/

namespace Fbx
open Spec Tree

/-! ## Documents as outlines -/

namespace Spec
variable {α : Type}

theorem Forest.flat_length (F : Forest α) : F.flat.length = F.count := by
  induction F with
  | nil => rfl
  | cons n as ch r ih1 ih2 => simp only [Forest.flat, Forest.count, List.length_cons, List.length_append, ih1, ih2]; omega

theorem Forest.under_out (F : Forest α) : ∀ (n i : Nat), i < n ∨ n + F.count ≤ i → F.under n i = [] := by
  induction F with
  | nil => intro n i _; rfl
  | cons nm as ch r ih1 ih2 =>
    intro n i h
    simp only [Forest.count] at h
    simp only [Forest.under]
    rw [if_neg (by omega)]
    split
    · exact ih1 _ _ (by omega)
    · exact ih2 _ _ (by omega)

/-- The calls which build a forest below `p`, if the next new node is `n`. -/
def build : Forest AttrValue → (p n : Nat) → List TreeOp
  | .nil, _, _ => []
  | .cons name attrs ch r, p, n => .appendNew p name :: .setAttributes n attrs :: (build ch n (n + 1) ++ build r p (n + 1 + ch.count))

theorem count_append (F G : Forest α) : (F.append G).count = F.count + G.count := by
  induction F with
  | nil => simp [Forest.append, Forest.count]
  | cons n as ch r _ ih => simp only [Forest.append, Forest.count, ih]; omega

theorem build_append (F G : Forest AttrValue) (p : Nat) : ∀ n, build (F.append G) p n = build F p n ++ build G p (n + F.count) := by
  induction F with
  | nil => intro n; simp [Forest.append, build, Forest.count]
  | cons nm as ch r _ ih =>
    intro n
    simp only [Forest.append, build, ih, Forest.count, List.cons_append, List.append_assoc]
    rw [show n + (ch.count + 1 + r.count) = n + 1 + ch.count + r.count by omega]

/-- The outline with a forest added below `p`. -/
def Rows.grown (o : Rows) (p n : Nat) (F : Forest AttrValue) : Rows where
  nodes := o.nodes ++ F.flat
  below i := if i = p then o.below p ++ F.tops n else if n ≤ i ∧ i < n + F.count then F.under n i else o.below i
  loose := o.loose
  root := o.root

theorem acts_append (o : Rows) (xs ys : List TreeOp) {as bs : List Answer} {o' o'' : Rows} (h1 : o.acts xs = some (as, o')) (h2 : o'.acts ys = some (bs, o'')) :
    o.acts (xs ++ ys) = some (as ++ bs, o'') := by
  induction xs generalizing o as with
  | nil =>
    simp only [Rows.acts, Option.some.injEq, Prod.mk.injEq] at h1
    obtain ⟨rfl, rfl⟩ := h1
    exact h2
  | cons x xs ih =>
    simp only [Rows.acts, List.cons_append] at h1 ⊢
    cases hx : o.act x with
    | none => rw [hx] at h1; cases h1
    | some y =>
      obtain ⟨a, o1⟩ := y
      rw [hx] at h1
      simp only [Option.map_eq_some_iff] at h1 ⊢
      obtain ⟨⟨cs, o2⟩, h3, h4⟩ := h1
      cases h4
      exact ⟨_, ih o1 h3, rfl⟩

/-- One new node with its attributes. -/
def Rows.withNode (o : Rows) (p : Nat) (name : String) (attrs : List AttrValue) : Rows :=
  ((o.born name).atNode p (fun l => l ++ [o.nodes.length])).edit o.nodes.length (fun _ => attrs)

theorem withNode_nodes (o : Rows) (p : Nat) (name : String) (attrs : List AttrValue) : (o.withNode p name attrs).nodes = o.nodes ++ [(name, attrs)] := by
  simp only [Rows.withNode, Rows.edit, Rows.atNode, Rows.born]
  refine List.ext_getElem? (fun i => ?_)
  rw [List.getElem?_modify]
  by_cases hi : i < o.nodes.length
  · rw [List.getElem?_append_left hi, List.getElem?_append_left hi]
    have hne : ¬ o.nodes.length = i := by omega
    simp [hne]
  · rw [List.getElem?_append_right (by omega), List.getElem?_append_right (by omega)]
    by_cases hj : i = o.nodes.length
    · subst hj; simp
    · obtain ⟨k, hk⟩ : ∃ k, i - o.nodes.length = k + 1 := ⟨i - o.nodes.length - 1, by omega⟩
      rw [hk]; simp

theorem acts_node (o : Rows) {p : Nat} (hp : p < o.nodes.length) (name : String) (attrs : List AttrValue) (ops : List TreeOp) :
    o.acts (.appendNew p name :: .setAttributes o.nodes.length attrs :: ops) =
      ((o.withNode p name attrs).acts ops).map (fun x => (.node o.nodes.length :: .done :: x.1, x.2)) := by
  simp only [Rows.acts, Rows.act, if_pos hp]
  have : o.nodes.length < ((o.born name).atNode p (fun l => l ++ [o.nodes.length])).nodes.length := by simp [Rows.atNode, Rows.born]
  rw [if_pos this]
  simp only [Option.map_map]
  rfl

theorem acts_build (F : Forest AttrValue) : ∀ (o : Rows) (p n : Nat), o.nodes.length = n → p < n → (∀ i, n ≤ i → o.below i = []) →
    ∃ as, o.acts (build F p n) = some (as, o.grown p n F) := by
  induction F with
  | nil =>
    intro o p n hn hp hb
    refine ⟨[], ?_⟩
    simp only [build, Rows.acts, Rows.grown, Forest.flat, Forest.tops, List.append_nil, Option.some.injEq, Prod.mk.injEq, true_and]
    obtain ⟨nodes, below, loose, root⟩ := o
    simp only [Rows.mk.injEq, true_and, and_true]
    funext i
    by_cases hi : i = p
    · rw [if_pos hi, hi]
    · rw [if_neg hi, if_neg (by simp only [Forest.count]; omega)]
  | cons name attrs ch r ih1 ih2 =>
    intro o p n hn hp hb
    have hnl := withNode_nodes o p name attrs
    have hw : ∀ i, (o.withNode p name attrs).below i = if i = p then o.below i ++ [n] else o.below i := fun i => by
      simp only [Rows.withNode, Rows.edit, Rows.atNode, Rows.born, hn]
    obtain ⟨as1, h1⟩ := ih1 (o.withNode p name attrs) n (n + 1) (by rw [hnl]; simp [hn]) (by omega) (by
      intro i hi
      rw [hw, if_neg (by omega), hb i (by omega)])
    obtain ⟨as2, h2⟩ := ih2 ((o.withNode p name attrs).grown n (n + 1) ch) p (n + 1 + ch.count) (by
        simp only [Rows.grown, hnl, List.length_append, Forest.flat_length, List.length_cons, List.length_nil, hn]) (by omega) (by
      intro i hi
      simp only [Rows.grown]
      rw [if_neg (by omega), if_neg (by omega), hw, if_neg (by omega), hb i (by omega)])
    refine ⟨.node n :: .done :: (as1 ++ as2), ?_⟩
    simp only [build]
    have hacts := acts_node o (by rw [hn]; exact hp) name attrs (build ch n (n + 1) ++ build r p (n + 1 + ch.count))
    rw [hn] at hacts
    rw [hacts, acts_append _ _ _ h1 h2]
    simp only [Option.map_some, Option.some.injEq, Prod.mk.injEq, true_and]
    simp only [Rows.grown, Rows.mk.injEq, hnl, Forest.flat, List.append_assoc, List.cons_append, List.nil_append, true_and]
    refine ⟨?_, rfl, rfl⟩
    have hcnt : (Forest.cons name attrs ch r).count = ch.count + 1 + r.count := rfl
    funext i
    simp only [hw, Forest.tops, Forest.under]
    by_cases hi : i = p
    · subst hi
      rw [if_pos rfl, if_pos rfl, if_neg (by omega), if_neg (by omega)]
      simp
    · rw [if_neg hi, if_neg hi, if_neg hi]
      by_cases hin : i = n
      · subst hin
        rw [if_neg (by omega), if_pos rfl, if_neg (by omega), hb i (Nat.le_refl _), if_pos (by omega), if_pos rfl]
        rfl
      · rw [if_neg hin]
        by_cases hc : n + 1 ≤ i ∧ i < n + 1 + ch.count
        · rw [if_neg (by omega), if_pos hc, if_pos (by omega), if_neg hin, if_pos hc.2]
        · rw [if_neg hc]
          by_cases hr : n + 1 + ch.count ≤ i ∧ i < n + 1 + ch.count + r.count
          · rw [if_pos hr, if_pos (by omega), if_neg hin, if_neg (by omega)]
          · rw [if_neg hr, if_neg (by omega)]

theorem begun_grown (F : Forest AttrValue) : Rows.begun.grown 0 1 F = Rows.ofForest F := by
  simp only [Rows.grown, Rows.begun, Rows.ofForest, Rows.mk.injEq, List.cons_append, List.nil_append, true_and, and_true]
  funext i
  by_cases hi : i = 0
  · rw [if_pos hi, if_pos hi]
  · rw [if_neg hi, if_neg hi]
    by_cases hc : 1 ≤ i ∧ i < 1 + F.count
    · rw [if_pos hc]
    · rw [if_neg hc, F.under_out 1 i (by omega)]

/-! ## The document of an outline -/

theorem forestAt_cons (o : Rows) (m i : Nat) (is : List Nat) :
    o.forestAt (m + 1) (i :: is) = .cons ((o.nodes[i]?.map Prod.fst).getD "") (o.attrsOf i) (o.forestAt m (o.below i)) (o.forestAt (m + 1) is) := rfl

theorem forestAt_nil (o : Rows) (m : Nat) : o.forestAt m [] = .nil := by cases m <;> rfl

theorem forestAt_tops (o : Rows) (F : Forest AttrValue) : ∀ (m n : Nat), F.count ≤ m → (∀ k, k < F.count → o.nodes[n + k]? = F.flat[k]?) →
    (∀ i, n ≤ i → i < n + F.count → o.below i = F.under n i) → o.forestAt m (F.tops n) = F := by
  induction F with
  | nil => intro m n _ _ _; exact forestAt_nil o m
  | cons name attrs ch r ih1 ih2 =>
    intro m n hm hn hb
    simp only [Forest.count] at hm hn hb
    cases m with
    | zero => omega
    | succ m =>
      have h0 := hn 0 (by omega)
      simp only [Nat.add_zero, Forest.flat, List.getElem?_cons_zero] at h0
      have hbn := hb n (Nat.le_refl _) (by omega)
      simp only [Forest.under, if_true] at hbn
      rw [Forest.tops, forestAt_cons, hbn, h0, Rows.attrsOf, h0]
      simp only [Option.map_some, Option.getD_some]
      have hfl := Forest.flat_length ch
      rw [ih1 m (n + 1) (by omega) (by
          intro k hk
          have := hn (k + 1) (by omega)
          rw [show n + 1 + k = n + (k + 1) by omega, this]
          simp only [Forest.flat, List.getElem?_cons_succ]
          rw [List.getElem?_append_left (by omega)]) (by
          intro i h1 h2
          rw [hb i (by omega) (by omega)]
          simp only [Forest.under]
          rw [if_neg (by omega), if_pos h2]),
        ih2 (m + 1) (n + 1 + ch.count) (by omega) (by
          intro k hk
          have := hn (1 + ch.count + k) (by omega)
          rw [show n + 1 + ch.count + k = n + (1 + ch.count + k) by omega, this, show 1 + ch.count + k = (ch.count + k) + 1 by omega]
          simp only [Forest.flat, List.getElem?_cons_succ]
          rw [List.getElem?_append_right (by omega), hfl, Nat.add_sub_cancel_left]) (by
          intro i h1 h2
          rw [hb i (by omega) (by omega)]
          simp only [Forest.under]
          rw [if_neg (by omega), if_neg (by omega)])]

theorem document_ofForest (F : Forest AttrValue) : (Rows.ofForest F).document = F := by
  refine forestAt_tops (Rows.ofForest F) F _ 1 ?_ ?_ ?_
  · simp [Rows.ofForest, Forest.flat_length]
  · intro k _
    rw [Nat.add_comm]
    rfl
  · intro i h1 _
    simp only [Rows.ofForest]
    rw [if_neg (by omega)]

end Spec

namespace Tree
variable {t u : Tree} {o : Rows}

/-- The document of an outline is that of the tree. -/
theorem Depicts.repAt (h : Depicts t o) : ∀ (m : Nat) (is : List Nat), (∀ i ∈ is, i < t.size ∧ ∃ d, Depth t d i ∧ t.size ≤ d + m) →
    RepList t is (o.forestAt m is).roses := by
  intro m
  induction m with
  | zero =>
    intro is hi
    cases is with
    | nil => exact .nil
    | cons i is =>
      obtain ⟨h1, d, h2, h3⟩ := hi i (by simp)
      have := h2.lt h.linked h1
      omega
  | succ m ih =>
    intro is
    induction is with
    | nil => intro _; exact .nil
    | cons i is ih2 =>
      intro hi
      obtain ⟨h1, d, h2, h3⟩ := hi i (by simp)
      obtain ⟨n, e1, e2⟩ := h.node i h1
      rw [forestAt_cons]
      refine .cons ?_ (ih2 (fun j hj => hi j (by simp [hj])))
      rw [attrsOf_eq h h1, e1]
      refine .mk e2 ?_
      have hch : t.children i = o.below i := by
        have := congrArg View.children (h.view h1)
        exact this
      rw [hch]
      refine ih _ (fun c hc => ?_)
      have hcv := h.linked.valid (.inl i) c hc
      exact ⟨hcv, d + 1, .step ((h.linked.mem_iff_parent hcv).mpr hc) h2, by omega⟩

theorem Depicts.rep (h : Depicts t o) : RepList t (t.children t.root) o.document.roses := by
  have hch : t.children t.root = o.below o.root := by
    have := congrArg View.children (h.view h.wf.root)
    rw [h.root] at this ⊢
    exact this
  rw [hch, Rows.document, ← h.size]
  refine h.repAt _ _ (fun c hc => ?_)
  have hcv := h.linked.valid (.inl o.root) c hc
  obtain ⟨d, hd⟩ := h.wf.acyclic c hcv
  exact ⟨hcv, d, hd, by omega⟩

theorem Depicts.name_root (h : Depicts t o) : Rep t t.root (.node ((o.nodes[o.root]?.map Prod.fst).getD "") (o.attrsOf o.root) o.document.roses) := by
  obtain ⟨n, e1, e2⟩ := h.node t.root h.wf.root
  rw [← h.root, attrsOf_eq h h.wf.root, e1]
  exact .mk e2 h.rep

theorem Depicts.createdWith (h : Depicts t o) (name : String) (attrs : List AttrValue) :
    ∃ u, createWith name attrs t = (.ok t.size, u) ∧ Depicts u (((o.born name).alone o.nodes.length).edit o.nodes.length (fun _ => attrs)) ∧
      u.size = t.size + 1 ∧ u.children t.size = [] ∧ u.root = t.root := by
  obtain ⟨w, h1, h2, h3, h4, h5⟩ := h.created name
  have h6 := h2.attrs o.nodes.length (fun _ => attrs)
  have hw : w.upd o.nodes.length (fun n => { n with attrs := attrs }) = (createWith name attrs t).2 := by
    have : w = (createWith name [] t).2 := by rw [h1]
    rw [this, ← h.size]
    simp only [createWith, Tree.newNode, Tree.upd]
    congr 1
    funext j
    by_cases hj : j = t.size <;> simp [hj]
  refine ⟨(createWith name attrs t).2, rfl, hw ▸ h6, rfl, ?_, rfl⟩
  have hl : (createWith name attrs t).2.nodes t.size = ⟨none, none, none, none, none, (intern t.names name).1, attrs⟩ := by
    simp [createWith, Tree.newNode]
  simp only [Tree.children, hl]
  show chain _ (t.size + 1) none = []
  rfl

/-- A node of a loader. -/
theorem Depicts.withNode (h : Depicts t o) {p : Nat} (hp : p < t.size) (name : String) (attrs : List AttrValue) :
    ∃ w u, createWith name attrs t = (.ok t.size, w) ∧ Tree.appendRaw t.size p w = (.ok (), u) ∧ Depicts u (o.withNode p name attrs) := by
  obtain ⟨w, h1, h2, h3, h4, h5⟩ := h.createdWith name attrs
  obtain ⟨u, g1, g2⟩ := h2.appendRaw (c := t.size) (p := p) (by omega) (by omega) (Anc.fresh h2.wf (by omega) h4 (by omega) (by omega))
  refine ⟨w, u, h1, g1, g2.congr ?_ rfl rfl⟩
  rw [h.size]
  have e : ∀ (o : Rows) i f, rowsOf (o.edit i f) = rowsOf o := fun o i f => by funext x; cases x <;> rfl
  rw [Rows.withNode, e]
  refine (rowsOf_atNode (?_ : rowsOf ((((o.born name).alone o.nodes.length).edit o.nodes.length (fun _ => attrs)).takenOut o.nodes.length) = rowsOf (o.born name)) p _).symm
  rw [← rowsOf_fresh h name]
  funext x
  rw [rowsOf_takenOut, rowsOf_takenOut, e]

end Tree

/-! ## The loader -/

namespace Load
variable {Z : Zlib}

/-- The calls which lead to the given open nodes with their ids, innermost first. -/
def opened : List (Nat × Level) → List TreeOp
  | [] => []
  | [(i, l)] => build l.kids i (i + 1)
  | (i, l) :: (j, m) :: ls => opened ((j, m) :: ls) ++ (.appendNew j l.name :: .setAttributes i l.attrs :: build l.kids i (i + 1))

/-- The ids of the open nodes are those of the calls; `n` is the next. -/
def Numbered : List (Nat × Level) → (n : Nat) → Prop
  | [], n => n = 0
  | (i, l) :: ls, n => i + 1 + l.kids.count = n ∧ Numbered ls i

theorem opened_pop (i : Nat) (l : Level) (j : Nat) (m : Level) (ls : List (Nat × Level)) (hi : j + 1 + m.kids.count = i) :
    opened ((j, ⟨m.name, m.attrs, m.kids.append (.cons l.name l.attrs l.kids .nil)⟩) :: ls) = opened ((i, l) :: (j, m) :: ls) := by
  cases ls with
  | nil =>
    simp only [opened, build_append]
    simp only [build, hi, List.append_nil]
  | cons x ls =>
    obtain ⟨k, x⟩ := x
    simp only [opened, build_append, List.append_assoc, List.cons_append]
    simp only [build, hi, List.append_nil]

theorem addNode_depicts {s s' : St} {p id : Nat} {name : String} {o : Rows} (h : Depicts s.tree o) (hp : p < s.tree.size)
    (ha : addNode Z p name s = (.ok id, s')) : ∃ attrs, id = s.tree.size ∧ Depicts s'.tree (o.withNode p name attrs) ∧ s'.stack = s.stack := by
  unfold addNode at ha
  simp only at ha
  split at ha
  · cases ha
  · cases ha
  · split at ha
    · cases ha
    · cases ha
    · rename_i attrs ap' _
      obtain ⟨w, u, h1, h2, h3⟩ := h.withNode hp name attrs
      have hw : w = (newNode { s.tree with names := (intern s.tree.names name).2 } (intern s.tree.names name).1 attrs).2 := by
        simp only [createWith, Prod.mk.injEq] at h1
        exact h1.2.symm
      subst hw
      have hid : (newNode { s.tree with names := (intern s.tree.names name).2 } (intern s.tree.names name).1 attrs).1 = s.tree.size := rfl
      rw [hid, h2] at ha
      simp only [Prod.mk.injEq, Res.ok.injEq] at ha
      obtain ⟨rfl, rfl⟩ := ha
      exact ⟨attrs, rfl, h3, rfl⟩

theorem loop_depicts : ∀ (fuel : Nat) (s s' : St) (footer : Except PErr Footer) (ls : List (Nat × Level)) (as : List Answer) (o : Rows),
    loop Z fuel s = (.ok footer, s') → ls.map Prod.fst = s.stack → Numbered ls s.tree.size → Rows.begun.acts (opened ls) = some (as, o) →
    Depicts s.tree o → ∃ F, Depicts s'.tree (Rows.ofForest F) := by
  intro fuel
  induction fuel with
  | zero => intro s s' footer ls as o h; cases h
  | succ fuel ih =>
    intro s s' footer ls as o h hst hnum hacts hd
    cases ls with
    | nil =>
      simp only [List.map_nil] at hst
      simp only [loop, ← hst] at h
      cases h
    | cons x ls =>
      obtain ⟨i, l⟩ := x
      simp only [List.map_cons] at hst
      simp only [loop, ← hst] at h
      have hi : i < s.tree.size := by
        have := hnum.1
        omega
      split at h
      · cases h
      · cases h
      · rename_i name n p' _
        split at h
        · rename_i id s1 ha
          obtain ⟨attrs, rfl, h1, h2⟩ := addNode_depicts (s := { parser := p', tree := s.tree, stack := _ }) hd hi ha
          have hz : o.nodes.length = s.tree.size := hd.size.symm
          refine ih _ s' footer ((s.tree.size, ⟨name, attrs, .nil⟩) :: (i, l) :: ls) (as ++ [.node s.tree.size, .done]) _ h ?_ ?_ ?_ h1
          · simp only [List.map_cons, h2]
          · refine ⟨?_, hnum⟩
            rw [h1.size, withNode_nodes]
            simp only [Forest.count, List.length_append, List.length_cons, List.length_nil]
            omega
          · refine acts_append _ _ _ hacts ?_
            have := acts_node o (hz ▸ hi) name attrs []
            rw [hz] at this
            simp only [build]
            rw [this]
            rfl
        · cases h
        · cases h
      · rename_i p' _
        cases ls with
        | nil =>
          simp only [List.map_nil] at h
          cases fuel with
          | zero => cases h
          | succ fuel => simp only [loop] at h; cases h
        | cons y ls =>
          obtain ⟨j, m⟩ := y
          obtain ⟨n1, n2, n3⟩ := hnum
          refine ih _ s' footer ((j, ⟨m.name, m.attrs, m.kids.append (.cons l.name l.attrs l.kids .nil)⟩) :: ls) as o h rfl ⟨?_, n3⟩ ?_ hd
          · simp only [count_append, Forest.count]
            omega
          · rw [opened_pop i l j m ls n2]
            exact hacts
      · rename_i f p' _
        split at h
        · rename_i hb
          cases ls with
          | cons => cases hb
          | nil =>
            obtain ⟨n1, n2⟩ := hnum
            simp only [Numbered] at n2
            subst n2
            simp only [Prod.mk.injEq] at h
            obtain ⟨-, rfl⟩ := h
            obtain ⟨as', hb'⟩ := acts_build l.kids Rows.begun 0 1 rfl (by omega) (fun _ _ => rfl)
            simp only [opened] at hacts
            rw [hb', begun_grown] at hacts
            cases hacts
            exact ⟨l.kids, hd⟩
        · cases h

theorem load_depicts {p q : Parser} {t : Tree} {footer : Except PErr Footer} (h : load Z p = (.ok (t, footer), q)) :
    ∃ F, Depicts t (Rows.ofForest F) := by
  unfold load at h
  split at h
  · cases h
  · split at h
    · rename_i f s hl
      cases h
      exact loop_depicts _ _ _ _ [(0, ⟨"", [], .nil⟩)] [] Rows.begun hl rfl ⟨rfl, rfl⟩ rfl depicts_empty
    · cases h
    · cases h

end Load
end Fbx
