import Verif.Model.TreeEq
import Verif.Spec.TreeEq
import Verif.Proof.TreeTour

/-! # Trees that are `==` behave in the same way -/

namespace Fbx

theorem sliceEq_sameValues (l r : List AttrValue) : AttrValue.sliceEq AttrValue.eq l r = true ↔ SameValues l r := by
  induction l generalizing r with
  | nil => cases r with
    | nil => simp [AttrValue.sliceEq, SameValues.nil]
    | cons => simp only [AttrValue.sliceEq, Bool.false_eq_true, false_iff]; intro h; cases h
  | cons a l ih => cases r with
    | nil => simp only [AttrValue.sliceEq, Bool.false_eq_true, false_iff]; intro h; cases h
    | cons b r =>
      simp only [AttrValue.sliceEq, Bool.and_eq_true, ih, C04_eq_iff]
      exact ⟨fun h => .cons h.1 h.2, fun h => by cases h; exact ⟨‹_›, ‹_›⟩⟩

theorem SameValues.append {a b c d : List AttrValue} (h : SameValues a b) (h' : SameValues c d) : SameValues (a ++ c) (b ++ d) := by
  induction h with
  | nil => exact h'
  | cons h _ ih => exact .cons h ih

theorem SameValues.set {a b : List AttrValue} (h : SameValues a b) {v w : AttrValue} (hv : sameValue v w) (k : Nat) :
    SameValues (a.set k v) (b.set k w) := by
  induction h generalizing k with
  | nil => exact .nil
  | cons h hs ih => cases k with
    | zero => exact .cons hv hs
    | succ k => exact .cons h (ih k)

theorem SameValues.self_iff (l : List AttrValue) : SameValues l l ↔ ∀ v ∈ l, noNaN v := by
  have key : ∀ v : AttrValue, sameValue v v ↔ noNaN v := fun v => by
    rw [← C04_eq_iff]; exact C04_strict_eq_implies_eq v v ((C04_strict_eq_iff v v).mpr rfl)
  induction l with
  | nil => simp [SameValues.nil]
  | cons a l ih =>
    rw [List.forall_mem_cons]
    exact ⟨fun h => by cases h with | cons h1 h2 => exact ⟨(key a).mp h1, ih.mp h2⟩, fun h => .cons ((key a).mpr h.1) (ih.mpr h.2)⟩

namespace Tree

/-- Nodes with the same links and name, whose attributes are equal. -/
structure LikeNode (a b : NodeRec) : Prop where
  parent : b.parent = a.parent
  prev : b.prev = a.prev
  next : b.next = a.next
  first : b.first = a.first
  last : b.last = a.last
  sym : b.sym = a.sym
  attrs : SameValues a.attrs b.attrs

/-- Trees that are `==`. -/
structure Like (t u : Tree) : Prop where
  size : u.size = t.size
  names : u.names = t.names
  root : u.root = t.root
  nodes : ∀ i, i < t.size → LikeNode (t.nodes i) (u.nodes i)

/-- Parents exist. -/
def Closed (t : Tree) : Prop := ∀ i, i < t.size → ∀ p, (t.nodes i).parent = some p → p < t.size

theorem likeNode_iff (a b : NodeRec) : a.eq b = true ↔ LikeNode a b := by
  simp only [NodeRec.eq, Bool.and_eq_true, beq_iff_eq, sliceEq_sameValues]
  constructor
  · rintro ⟨⟨⟨⟨⟨h1, h2⟩, h3⟩, h4⟩, h5⟩, h6, h7⟩
    exact ⟨h1.symm, h2.symm, h3.symm, h4.symm, h5.symm, h6.symm, h7⟩
  · intro h
    exact ⟨⟨⟨⟨⟨h.parent.symm, h.prev.symm⟩, h.next.symm⟩, h.first.symm⟩, h.last.symm⟩, h.sym.symm, h.attrs⟩

theorem like_iff (t u : Tree) : t.eq u = true ↔ Like t u := by
  simp only [Tree.eq, Bool.and_eq_true, beq_iff_eq, List.all_eq_true, List.mem_range, likeNode_iff]
  constructor
  · rintro ⟨⟨⟨h1, h2⟩, h3⟩, h4⟩
    exact ⟨h1.symm, h3.symm, h4.symm, h2⟩
  · intro h
    exact ⟨⟨⟨h.size.symm, h.nodes⟩, h.names.symm⟩, h.root.symm⟩

theorem WF.closed {t : Tree} (h : WF t) : Closed t := fun _ hi _ hp => h.parent_valid hi hp

theorem Like.upd {t u : Tree} (h : Like t u) (i : Nat) {f g : NodeRec → NodeRec} (hf : ∀ a b, LikeNode a b → LikeNode (f a) (g b)) :
    Like (t.upd i f) (u.upd i g) := by
  refine ⟨h.size, h.names, h.root, fun j hj => ?_⟩
  simp only [Tree.upd]
  split
  · exact hf _ _ (h.nodes j hj)
  · exact h.nodes j hj

theorem Closed.upd {t : Tree} (h : Closed t) (i : Nat) {f : NodeRec → NodeRec} (hf : ∀ a p, (f a).parent = some p → a.parent = some p ∨ p < t.size) :
    Closed (t.upd i f) := by
  intro j hj p hp
  simp only [Tree.upd] at hp
  split at hp
  · rcases hf _ _ hp with h1 | h1
    · exact h j hj p h1
    · exact h1
  · exact h j hj p hp

theorem connect_size (parent prev next : Option Nat) (t : Tree) : (connect parent prev next t).size = t.size := by
  cases parent <;> cases prev <;> cases next <;> rfl

theorem Closed.connect {t : Tree} (h : Closed t) (parent prev next : Option Nat) : Closed (connect parent prev next t) := by
  have key : ∀ {t : Tree}, Closed t → ∀ (i : Nat) (f : NodeRec → NodeRec), (∀ a, (f a).parent = a.parent) → Closed (t.upd i f) :=
    fun h i f hf => h.upd i (fun a p hp => .inl (by rw [← hf]; exact hp))
  cases parent <;> cases prev <;> cases next <;> simp only [Tree.connect] <;>
    repeat' (first | exact h | (apply key; rotate_left; · intro a; rfl))

theorem LikeNode.links {a b : NodeRec} (h : LikeNode a b) (p q r x y : Option Nat) :
    LikeNode { a with parent := p, prev := q, next := r, first := x, last := y } { b with parent := p, prev := q, next := r, first := x, last := y } :=
  ⟨rfl, rfl, rfl, rfl, rfl, h.sym, h.attrs⟩

theorem Like.setNext {t u : Tree} (h : Like t u) (i : Nat) (x : Option Nat) :
    Like (t.upd i (fun n => { n with next := x })) (u.upd i (fun n => { n with next := x })) :=
  h.upd i fun _ _ h => ⟨h.parent, h.prev, rfl, h.first, h.last, h.sym, h.attrs⟩
theorem Like.setPrev {t u : Tree} (h : Like t u) (i : Nat) (x : Option Nat) :
    Like (t.upd i (fun n => { n with prev := x })) (u.upd i (fun n => { n with prev := x })) :=
  h.upd i fun _ _ h => ⟨h.parent, rfl, h.next, h.first, h.last, h.sym, h.attrs⟩
theorem Like.setEnds {t u : Tree} (h : Like t u) (i : Nat) (x y : Option Nat) :
    Like (t.upd i (fun n => { n with first := x, last := y })) (u.upd i (fun n => { n with first := x, last := y })) :=
  h.upd i fun _ _ h => ⟨h.parent, h.prev, h.next, rfl, rfl, h.sym, h.attrs⟩
theorem Like.setParent {t u : Tree} (h : Like t u) (i : Nat) (x : Option Nat) :
    Like (t.upd i (fun n => { n with parent := x })) (u.upd i (fun n => { n with parent := x })) :=
  h.upd i fun _ _ h => ⟨rfl, h.prev, h.next, h.first, h.last, h.sym, h.attrs⟩
theorem Like.setSides {t u : Tree} (h : Like t u) (i : Nat) (x y : Option Nat) :
    Like (t.upd i (fun n => { n with prev := x, next := y })) (u.upd i (fun n => { n with prev := x, next := y })) :=
  h.upd i fun _ _ h => ⟨h.parent, rfl, rfl, h.first, h.last, h.sym, h.attrs⟩

theorem Like.connect {t u : Tree} (h : Like t u) {parent : Option Nat} (hp : ∀ p, parent = some p → p < t.size) (prev next : Option Nat) :
    Like (connect parent prev next t) (connect parent prev next u) := by
  cases parent with
  | none =>
    cases prev <;> cases next <;> simp only [Tree.connect]
    · exact h
    · exact h.setPrev _ _
    · exact h.setNext _ _
    · exact (h.setNext _ _).setPrev _ _
  | some p =>
    have hn := h.nodes p (hp p rfl)
    cases prev <;> cases next <;> simp only [Tree.connect, hn.first, hn.last]
    · exact h.setEnds _ _ _
    · exact (h.setPrev _ _).setEnds _ _ _
    · exact (h.setNext _ _).setEnds _ _ _
    · exact ((h.setNext _ _).setPrev _ _).setEnds _ _ _

theorem detachRaw_size' (id : Nat) (t : Tree) : (detachRaw id t).size = t.size := by
  simp only [detachRaw, Tree.upd, connect_size]

theorem Closed.detachRaw {t : Tree} (h : Closed t) (id : Nat) : Closed (detachRaw id t) := by
  show Closed ((Tree.connect (t.nodes id).parent (t.nodes id).prev (t.nodes id).next
    (t.upd id (fun n => { n with prev := none, next := none }))).upd id (fun n => { n with parent := none }))
  have h1 : Closed (t.upd id (fun n => { n with prev := none, next := none })) := h.upd id (fun a p hp => .inl hp)
  exact Closed.upd (h1.connect _ _ _) id (fun a p hp => by cases hp)

theorem Like.detachRaw {t u : Tree} (h : Like t u) (hc : Closed t) {id : Nat} (hid : id < t.size) : Like (detachRaw id t) (detachRaw id u) := by
  have hn := h.nodes id hid
  have e : ∀ w : Tree, Tree.detachRaw id w = (Tree.connect (w.nodes id).parent (w.nodes id).prev (w.nodes id).next
    (w.upd id (fun n => { n with prev := none, next := none }))).upd id (fun n => { n with parent := none }) := fun _ => rfl
  rw [e t, e u, hn.parent, hn.prev, hn.next]
  exact Like.setParent (Like.connect (h.setSides id none none) (fun p hp => hc id hid p hp) _ _) id none

/-- Two computations have the same outcome on trees that are `==`, and leave such trees. -/
def Agree {α : Type} (x y : Res Empty α × Tree) : Prop := x.1 = y.1 ∧ Like x.2 y.2 ∧ Closed x.2

theorem insertWith_agree {t u : Tree} (h : Like t u) (hc : Closed t) (new : Nat) {parent : Option Nat} (hp : ∀ p, parent = some p → p < t.size)
    (prev next : Option Nat) : Agree (insertWith new parent prev next t) (insertWith new parent prev next u) := by
  unfold insertWith
  by_cases hx : prev = some new ∨ next = some new ∨ parent = some new
  · rw [if_pos hx, if_pos hx]; exact ⟨rfl, h, hc⟩
  · rw [if_neg hx, if_neg hx]
    refine ⟨rfl, ?_, ?_⟩
    · show Like (Tree.connect parent (some new) next (Tree.connect parent prev (some new) (t.upd new (fun n => { n with parent := parent }))))
        (Tree.connect parent (some new) next (Tree.connect parent prev (some new) (u.upd new (fun n => { n with parent := parent }))))
      refine Like.connect (Like.connect (h.setParent new parent) hp prev (some new)) ?_ (some new) next
      intro p hq
      rw [connect_size]
      exact hp p hq
    · show Closed (Tree.connect parent (some new) next (Tree.connect parent prev (some new) (t.upd new (fun n => { n with parent := parent }))))
      exact Closed.connect (Closed.connect (hc.upd new (fun a p hq => .inr (hp p hq))) _ _ _) _ _ _

theorem Like.hasAncestor {t u : Tree} (h : Like t u) (hc : Closed t) (x : Nat) : ∀ (fuel i : Nat), i < t.size → hasAncestor u x fuel i = hasAncestor t x fuel i := by
  intro fuel
  induction fuel with
  | zero => intros; rfl
  | succ n ih =>
    intro i hi
    simp only [Tree.hasAncestor, (h.nodes i hi).parent]
    cases hp : (t.nodes i).parent with
    | none => rfl
    | some p => simp only [ih p (hc i hi p hp)]

theorem checkChild_agree {t u : Tree} (h : Like t u) (hc : Closed t) (c p : Nat) :
    (∃ e, checkChild c p t = (.panic e, t) ∧ checkChild c p u = (.panic e, u)) ∨ (checkChild c p t = (.ok (), t) ∧ checkChild c p u = (.ok (), u) ∧ c < t.size ∧ p < t.size) := by
  unfold checkChild
  rw [h.size]
  by_cases h1 : t.size ≤ c ∨ t.size ≤ p
  · left; rw [if_pos h1, if_pos h1]; exact ⟨_, rfl, rfl⟩
  · have hp : p < t.size := by omega
    rw [if_neg h1, if_neg h1, h.hasAncestor hc c t.size p hp]
    cases Tree.hasAncestor t c t.size p
    · right; exact ⟨rfl, rfl, by omega, hp⟩
    · left; exact ⟨_, rfl, rfl⟩

theorem checkSibling_agree {t u : Tree} (h : Like t u) (c p : Nat) :
    (∃ e, checkSibling c p t = (.panic e, t) ∧ checkSibling c p u = (.panic e, u)) ∨ (checkSibling c p t = (.ok (), t) ∧ checkSibling c p u = (.ok (), u) ∧ c < t.size ∧ p < t.size) := by
  unfold checkSibling
  rw [h.size]
  by_cases h1 : t.size ≤ c ∨ t.size ≤ p
  · left; rw [if_pos h1, if_pos h1]; exact ⟨_, rfl, rfl⟩
  · rw [if_neg h1, if_neg h1]
    by_cases h2 : c = p
    · rw [if_pos h2, if_pos h2]; left; exact ⟨_, rfl, rfl⟩
    · rw [if_neg h2, if_neg h2]; right; exact ⟨rfl, rfl, by omega, by omega⟩

theorem bind_ok {α β : Type} {m : TM α} {f : α → TM β} {t u : Tree} {a : α} (h : m t = (.ok a, u)) : (m >>= f) t = f a u := by
  show (M.bind m f) t = _
  simp only [M.bind, h]

theorem bind_panic {α β : Type} {m : TM α} {f : α → TM β} {t u : Tree} {e : Panic} (h : m t = (.panic e, u)) : (m >>= f) t = (.panic e, u) := by
  show (M.bind m f) t = _
  simp only [M.bind, h]

theorem placed_agree {t u : Tree} (h : Like t u) (hc : Closed t) {c : Nat} (hv : c < t.size) (a : Nat) (ha : a < t.size) (P Q R : NodeRec → Option Nat)
    (hP : (∀ n, P n = some a) ∨ ∀ n, P n = n.parent) (hQ : ∀ m n, LikeNode m n → Q n = Q m) (hR : ∀ m n, LikeNode m n → R n = R m) :
    Agree ((do M.modify (detachRaw c); let t ← M.get; insertWith c (P (t.nodes a)) (Q (t.nodes a)) (R (t.nodes a)) : TM Unit) t)
      ((do M.modify (detachRaw c); let t ← M.get; insertWith c (P (t.nodes a)) (Q (t.nodes a)) (R (t.nodes a)) : TM Unit) u) := by
  have h1 := h.detachRaw hc hv
  have h2 := hc.detachRaw c
  have hn := h1.nodes a (by rw [detachRaw_size']; exact ha)
  show Agree (insertWith c (P ((detachRaw c t).nodes a)) (Q ((detachRaw c t).nodes a)) (R ((detachRaw c t).nodes a)) (detachRaw c t))
    (insertWith c (P ((detachRaw c u).nodes a)) (Q ((detachRaw c u).nodes a)) (R ((detachRaw c u).nodes a)) (detachRaw c u))
  have hp : P ((detachRaw c u).nodes a) = P ((detachRaw c t).nodes a) := by
    rcases hP with hP | hP
    · rw [hP, hP]
    · rw [hP, hP, hn.parent]
  rw [hp, hQ _ _ hn, hR _ _ hn]
  refine insertWith_agree h1 h2 c ?_ _ _
  intro p hp
  rcases hP with hP | hP
  · rw [hP] at hp; cases hp; rw [detachRaw_size']; exact ha
  · rw [hP] at hp; exact h2 a (by rw [detachRaw_size']; exact ha) p hp

theorem appendRaw_agree {t u : Tree} (h : Like t u) (hc : Closed t) (c p : Nat) : Agree (appendRaw c p t) (appendRaw c p u) := by
  unfold appendRaw
  rcases checkChild_agree h hc c p with ⟨e, h1, h2⟩ | ⟨h1, h2, h3, h4⟩
  · rw [bind_panic h1, bind_panic h2]; exact ⟨rfl, h, hc⟩
  · rw [bind_ok h1, bind_ok h2]
    exact placed_agree h hc h3 p h4 (fun _ => some p) (fun n => n.last) (fun _ => none) (.inl fun _ => rfl) (fun _ _ h => h.last) (fun _ _ _ => rfl)

theorem prependRaw_agree {t u : Tree} (h : Like t u) (hc : Closed t) (c p : Nat) : Agree (prependRaw c p t) (prependRaw c p u) := by
  unfold prependRaw
  rcases checkChild_agree h hc c p with ⟨e, h1, h2⟩ | ⟨h1, h2, h3, h4⟩
  · rw [bind_panic h1, bind_panic h2]; exact ⟨rfl, h, hc⟩
  · rw [bind_ok h1, bind_ok h2]
    exact placed_agree h hc h3 p h4 (fun _ => some p) (fun _ => none) (fun n => n.first) (.inl fun _ => rfl) (fun _ _ _ => rfl) (fun _ _ h => h.first)

theorem insertAfterRaw_agree {t u : Tree} (h : Like t u) (hc : Closed t) (c p : Nat) : Agree (insertAfterRaw c p t) (insertAfterRaw c p u) := by
  unfold insertAfterRaw
  rcases checkSibling_agree h c p with ⟨e, h1, h2⟩ | ⟨h1, h2, h3, h4⟩
  · rw [bind_panic h1, bind_panic h2]; exact ⟨rfl, h, hc⟩
  · rw [bind_ok h1, bind_ok h2]
    exact placed_agree h hc h3 p h4 (fun n => n.parent) (fun _ => some p) (fun n => n.next) (.inr fun _ => rfl) (fun _ _ _ => rfl) (fun _ _ h => h.next)

theorem insertBeforeRaw_agree {t u : Tree} (h : Like t u) (hc : Closed t) (c p : Nat) : Agree (insertBeforeRaw c p t) (insertBeforeRaw c p u) := by
  unfold insertBeforeRaw
  rcases checkSibling_agree h c p with ⟨e, h1, h2⟩ | ⟨h1, h2, h3, h4⟩
  · rw [bind_panic h1, bind_panic h2]; exact ⟨rfl, h, hc⟩
  · rw [bind_ok h1, bind_ok h2]
    exact placed_agree h hc h3 p h4 (fun n => n.parent) (fun n => n.prev) (fun _ => some p) (.inr fun _ => rfl) (fun _ _ h => h.prev) (fun _ _ _ => rfl)

theorem createWith_agree {t u : Tree} (h : Like t u) (hc : Closed t) (name : String) : Agree (createWith name [] t) (createWith name [] u) := by
  simp only [createWith, newNode, h.names, h.size]
  refine ⟨rfl, ⟨rfl, rfl, h.root, ?_⟩, ?_⟩
  · intro i hi
    by_cases hx : i = t.size
    · simp only [hx, if_true]; exact ⟨rfl, rfl, rfl, rfl, rfl, rfl, .nil⟩
    · simp only [hx, if_false]
      simp only at hi
      exact h.nodes i (by omega)
  · intro i hi p hp
    by_cases hx : i = t.size
    · simp only [hx, if_true] at hp; cases hp
    · simp only [hx, if_false] at hp
      simp only at hi ⊢
      have := hc i (by omega) p hp
      omega

theorem agree_bind {α β : Type} {m n : TM α} {f g : α → TM β} {t u : Tree} (h : Agree (m t) (n u))
    (hf : ∀ a t' u', m t = (.ok a, t') → n u = (.ok a, u') → Like t' u' → Closed t' → Agree (f a t') (g a u')) : Agree ((m >>= f) t) ((n >>= g) u) := by
  show Agree (M.bind m f t) (M.bind n g u)
  revert h hf
  rcases hm : m t with ⟨x, t'⟩
  rcases hn : n u with ⟨y, u'⟩
  rintro ⟨h1, h2, h3⟩ hf
  simp only at h1 h2 h3
  subst h1
  simp only [M.bind, hm, hn]
  cases x with
  | ok a => exact hf a t' u' rfl rfl h2 h3
  | err e => exact e.elim
  | panic e => exact ⟨rfl, h2, h3⟩

theorem agree_done {α : Type} {m n : TM α} {t u : Tree} (h : Agree (m t) (n u)) : Agree (done m t) (done n u) :=
  agree_bind h (fun _ _ _ _ _ h1 h2 => ⟨rfl, h1, h2⟩)

theorem assertNotRoot_agree {t u : Tree} (h : Like t u) (hc : Closed t) (i : Nat) : Agree (assertNotRoot i t) (assertNotRoot i u) := by
  unfold assertNotRoot
  rw [h.root]
  by_cases hi : i = t.root
  · rw [if_pos hi, if_pos hi]; exact ⟨rfl, h, hc⟩
  · rw [if_neg hi, if_neg hi]; exact ⟨rfl, h, hc⟩

theorem assertValid_agree {t u : Tree} (h : Like t u) (hc : Closed t) (i : Nat) : Agree (assertValid i t) (assertValid i u) := by
  unfold assertValid
  rw [h.size]
  by_cases hi : t.size ≤ i
  · rw [if_pos hi, if_pos hi]; exact ⟨rfl, h, hc⟩
  · rw [if_neg hi, if_neg hi]; exact ⟨rfl, h, hc⟩

theorem attrs_agree {t u : Tree} (h : Like t u) (hc : Closed t) (i : Nat) {f g : List AttrValue → List AttrValue}
    (hf : ∀ a b, SameValues a b → SameValues (f a) (g b)) :
    Agree (M.modify (ε := Empty) (fun t => t.upd i (fun n => { n with attrs := f n.attrs })) t) (M.modify (ε := Empty) (fun t => t.upd i (fun n => { n with attrs := g n.attrs })) u) := by
  refine ⟨rfl, ?_, ?_⟩
  · exact h.upd i (f := fun n => { n with attrs := f n.attrs }) (g := fun n => { n with attrs := g n.attrs }) fun a b hn => ⟨hn.parent, hn.prev, hn.next, hn.first, hn.last, hn.sym, hf _ _ hn.attrs⟩
  · exact hc.upd i fun a p hp => .inl hp

theorem new_agree {t u : Tree} (h : Like t u) (hc : Closed t) (name : String) {f : Nat → TM Unit}
    (hf : ∀ a t u, Like t u → Closed t → Agree (f a t) (f a u)) :
    Agree ((do let id ← createWith name []; f id; pure id : TM Nat) t) ((do let id ← createWith name []; f id; pure id : TM Nat) u) :=
  agree_bind (createWith_agree h hc name) fun a _ _ _ _ h1 h2 =>
    agree_bind (hf a _ _ h1 h2) fun _ _ _ _ _ h3 h4 => ⟨rfl, h3, h4⟩

theorem run_agree {op op' : TreeOp} (ho : SameOp op op') {t u : Tree} (h : Like t u) (hc : Closed t) : Agree (run op t) (run op' u) := by
  cases ho with
  | createNode => exact agree_done (createWith_agree h hc _)
  | append => exact appendRaw_agree h hc _ _
  | prepend => exact prependRaw_agree h hc _ _
  | insertAfter => exact insertAfterRaw_agree h hc _ _
  | insertBefore => exact insertAfterRaw_agree h hc _ _
  | appendNew => exact agree_done (new_agree h hc _ fun a _ _ h hc => appendRaw_agree h hc a _)
  | prependNew => exact agree_done (new_agree h hc _ fun a _ _ h hc => prependRaw_agree h hc a _)
  | insertNewAfter =>
    exact agree_done (agree_bind (assertNotRoot_agree h hc _) fun _ _ _ _ _ h hc => new_agree h hc _ fun a _ _ h hc => insertAfterRaw_agree h hc a _)
  | insertNewBefore =>
    exact agree_done (agree_bind (assertNotRoot_agree h hc _) fun _ _ _ _ _ h hc => new_agree h hc _ fun a _ _ h hc => insertBeforeRaw_agree h hc a _)
  | @detach c =>
    simp only [run, detach, h.size]
    by_cases hx : t.size ≤ c
    · rw [if_pos hx, if_pos hx]; exact ⟨rfl, h, hc⟩
    · rw [if_neg hx, if_neg hx]; exact ⟨rfl, h.detachRaw hc (by omega), hc.detachRaw c⟩
  | appendAttribute hv =>
    exact agree_bind (assertNotRoot_agree h hc _) fun _ _ _ _ _ h hc => agree_bind (assertValid_agree h hc _) fun _ _ _ _ _ h hc =>
      attrs_agree h hc _ (f := fun l => l ++ [_]) (g := fun l => l ++ [_]) fun a b hab => hab.append (.cons hv .nil)
  | @setAttribute i k v w hv =>
    have e : ∀ (v : AttrValue) (t : Tree), run (.setAttribute i k v) t =
        ((do assertValid i; M.modify (fun t => t.upd i (fun n => { n with attrs := n.attrs.set k v })) : TM Unit)) t := by
      intro v t
      show M.bind (M.bind (assertValid i) _) _ t = M.bind (assertValid i) _ t
      simp only [M.bind]
      rcases assertValid i t with ⟨x, t'⟩
      cases x <;> rfl
    rw [e, e]
    exact agree_bind (assertValid_agree h hc _) fun _ _ _ _ _ h hc =>
      attrs_agree h hc _ (f := fun l => l.set k v) (g := fun l => l.set k w) fun _ _ hab => hab.set hv k
  | @takeAttributes i =>
    have e : ∀ (t : Tree), run (.takeAttributes i) t =
        ((do assertValid i; M.modify (fun t => t.upd i (fun n => { n with attrs := [] })) : TM Unit)) t := by
      intro t
      show M.bind (M.bind (assertValid i) _) _ t = M.bind (assertValid i) _ t
      simp only [M.bind]
      rcases assertValid i t with ⟨x, t'⟩
      cases x <;> rfl
    rw [e, e]
    exact agree_bind (assertValid_agree h hc _) fun _ _ _ _ _ h hc =>
      attrs_agree h hc _ (f := fun _ => []) (g := fun _ => []) fun _ _ _ => .nil
  | setAttributes hv =>
    exact agree_bind (assertValid_agree h hc _) fun _ _ _ _ _ h hc => attrs_agree h hc _ (f := fun _ => _) (g := fun _ => _) fun _ _ _ => hv

end Tree
end Fbx
