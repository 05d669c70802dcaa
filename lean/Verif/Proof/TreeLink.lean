import Verif.Spec.Tree
import Verif.Proof.Basic

/-! # Links of the arena -/

namespace Fbx.Tree

variable {t u : Tree} {par : Option Nat}

theorem Seg.congr {p n : Option Nat} {l : List Nat} (h : Seg t par p l n)
    (he : ∀ c ∈ l, (u.nodes c).parent = (t.nodes c).parent ∧ (u.nodes c).prev = (t.nodes c).prev ∧ (u.nodes c).next = (t.nodes c).next) :
    Seg u par p l n := by
  induction l generalizing p with
  | nil => exact trivial
  | cons c cs ih =>
    obtain ⟨h1, h2, h3, h4⟩ := h
    obtain ⟨e1, e2, e3⟩ := he c (by simp)
    exact ⟨e1.trans h1, e2.trans h2, e3.trans h3, ih h4 (fun d hd => he d (by simp [hd]))⟩

theorem seg_append {p n : Option Nat} {a b : List Nat} :
    Seg t par p (a ++ b) n ↔ Seg t par p a (b.head?.or n) ∧ Seg t par (a.getLast?.or p) b n := by
  induction a generalizing p with
  | nil => simp [Seg]
  | cons c cs ih =>
    simp only [List.cons_append, Seg, ih, and_assoc]
    have e1 : (cs ++ b).head?.or n = cs.head?.or (b.head?.or n) := by cases cs <;> simp
    have e2 : (c :: cs).getLast?.or p = cs.getLast?.or (some c) := by
      cases cs with
      | nil => rfl
      | cons d ds =>
        rw [List.getLast?_cons_cons]
        cases h : (d :: ds).getLast? with
        | none => simp at h
        | some x => rfl
    rw [e1, e2]

/-- The node after a segment changes. -/
theorem Seg.reNext {p n m : Option Nat} {l : List Nat} (h : Seg t par p l n) (hd : l.Nodup)
    (he : ∀ c ∈ l, (u.nodes c).parent = (t.nodes c).parent ∧ (u.nodes c).prev = (t.nodes c).prev)
    (hn : ∀ c ∈ l, some c ≠ l.getLast? → (u.nodes c).next = (t.nodes c).next) (hl : ∀ c, l.getLast? = some c → (u.nodes c).next = m) :
    Seg u par p l m := by
  induction l generalizing p with
  | nil => exact trivial
  | cons c cs ih =>
    obtain ⟨h1, h2, h3, h4⟩ := h
    obtain ⟨e1, e2⟩ := he c (by simp)
    have hd' := List.nodup_cons.mp hd
    cases cs with
    | nil => exact ⟨e1.trans h1, e2.trans h2, hl c rfl, trivial⟩
    | cons d ds =>
      rw [List.getLast?_cons_cons] at hn hl
      have hcl : some c ≠ (d :: ds).getLast? := by
        intro hc
        exact hd'.1 (List.mem_of_getLast? hc.symm)
      refine ⟨e1.trans h1, e2.trans h2, ?_, ih h4 hd'.2 (fun x hx => he x (by simp at hx ⊢; exact .inr hx))
        (fun x hx => hn x (by simp at hx ⊢; exact .inr hx)) hl⟩
      rw [hn c (by simp) hcl, h3]
      rfl

/-- The node before a segment changes. -/
theorem Seg.rePrev {p q n : Option Nat} {l : List Nat} (h : Seg t par p l n) (hd : l.Nodup)
    (he : ∀ c ∈ l, (u.nodes c).parent = (t.nodes c).parent ∧ (u.nodes c).next = (t.nodes c).next)
    (hn : ∀ c ∈ l, some c ≠ l.head? → (u.nodes c).prev = (t.nodes c).prev) (hl : ∀ c, l.head? = some c → (u.nodes c).prev = q) :
    Seg u par q l n := by
  cases l with
  | nil => exact trivial
  | cons c cs =>
    obtain ⟨h1, h2, h3, h4⟩ := h
    obtain ⟨e1, e2⟩ := he c (by simp)
    have hd' := List.nodup_cons.mp hd
    refine ⟨e1.trans h1, hl c rfl, e2.trans h3, h4.congr ?_⟩
    intro x hx
    obtain ⟨f1, f2⟩ := he x (by simp [hx])
    refine ⟨f1, hn x (by simp [hx]) ?_, f2⟩
    intro hc
    cases hc
    exact hd'.1 hx

/-- Links of a node inside a segment. -/
theorem Seg.mid {p n : Option Nat} {a b : List Nat} {c : Nat} (h : Seg t par p (a ++ c :: b) n) :
    (t.nodes c).parent = par ∧ (t.nodes c).prev = a.getLast?.or p ∧ (t.nodes c).next = b.head?.or n := by
  obtain ⟨h1, h2, h3, _⟩ := (seg_append.mp h).2
  exact ⟨h1, h2, h3⟩

/-! ## What the primitive operations do, field by field -/

/-- The fields of a node after `connect`. -/
theorem connect_nodes (parent prev next : Option Nat) (t : Tree) (j : Nat) :
    ((connect parent prev next t).nodes j).parent = (t.nodes j).parent ∧
    ((connect parent prev next t).nodes j).prev = (if next = some j then prev else (t.nodes j).prev) ∧
    ((connect parent prev next t).nodes j).next = (if prev = some j then next else (t.nodes j).next) ∧
    ((connect parent prev next t).nodes j).first = (if parent = some j then (if prev = none then next else (t.nodes j).first.or prev) else (t.nodes j).first) ∧
    ((connect parent prev next t).nodes j).last = (if parent = some j then (if next = none then prev else (t.nodes j).last.or next) else (t.nodes j).last) ∧
    ((connect parent prev next t).nodes j).sym = (t.nodes j).sym ∧
    ((connect parent prev next t).nodes j).attrs = (t.nodes j).attrs := by
  cases parent <;> cases prev <;> cases next <;>
    simp only [connect, upd, Option.some.injEq, reduceCtorEq, if_false, if_true] <;>
    (refine ⟨?_, ?_, ?_, ?_, ?_, ?_, ?_⟩) <;> grind

theorem connect_frame (parent prev next : Option Nat) (t : Tree) :
    (connect parent prev next t).size = t.size ∧ (connect parent prev next t).names = t.names ∧ (connect parent prev next t).root = t.root := by
  cases parent <;> cases prev <;> cases next <;> exact ⟨rfl, rfl, rfl⟩

/-- The fields of a node after `detachRaw`. -/
theorem detachRaw_nodes (id : Nat) (t : Tree) (j : Nat) (hp : (t.nodes id).parent ≠ some id) (ha : (t.nodes id).prev ≠ some id)
    (hb : (t.nodes id).next ≠ some id) :
    ((detachRaw id t).nodes j).parent = (if j = id then none else (t.nodes j).parent) ∧
    ((detachRaw id t).nodes j).prev = (if j = id then none else if (t.nodes id).next = some j then (t.nodes id).prev else (t.nodes j).prev) ∧
    ((detachRaw id t).nodes j).next = (if j = id then none else if (t.nodes id).prev = some j then (t.nodes id).next else (t.nodes j).next) ∧
    ((detachRaw id t).nodes j).first = (if (t.nodes id).parent = some j then
        (if (t.nodes id).prev = none then (t.nodes id).next else (t.nodes j).first.or (t.nodes id).prev) else (t.nodes j).first) ∧
    ((detachRaw id t).nodes j).last = (if (t.nodes id).parent = some j then
        (if (t.nodes id).next = none then (t.nodes id).prev else (t.nodes j).last.or (t.nodes id).next) else (t.nodes j).last) ∧
    ((detachRaw id t).nodes j).sym = (t.nodes j).sym ∧
    ((detachRaw id t).nodes j).attrs = (t.nodes j).attrs := by
  have h := connect_nodes (t.nodes id).parent (t.nodes id).prev (t.nodes id).next (t.upd id (fun n => { n with prev := none, next := none })) j
  simp only [detachRaw]
  generalize hu : connect (t.nodes id).parent (t.nodes id).prev (t.nodes id).next (t.upd id (fun n => { n with prev := none, next := none })) = u at h ⊢
  simp only [upd] at h ⊢
  obtain ⟨h1, h2, h3, h4, h5, h6, h7⟩ := h
  by_cases hj : j = id
  · subst hj
    simp only [if_true] at *
    refine ⟨trivial, ?_, ?_, ?_, ?_, h6, h7⟩
    · rw [h2, if_neg hb]
    · rw [h3, if_neg ha]
    · rw [h4]
    · rw [h5]
  · simp only [if_neg hj] at *
    exact ⟨h1, h2, h3, h4, h5, h6, h7⟩

theorem detachRaw_frame (id : Nat) (t : Tree) :
    (detachRaw id t).size = t.size ∧ (detachRaw id t).names = t.names ∧ (detachRaw id t).root = t.root :=
  connect_frame _ _ _ _

/-- The fields of a node after a successful `insertWith`. -/
theorem insertWith_nodes (new : Nat) (parent prev next : Option Nat) (t : Tree) (hp : parent ≠ some new) (ha : prev ≠ some new)
    (hb : next ≠ some new) (hab : ∀ x, prev = some x → next ≠ some x) :
    ∃ u, insertWith new parent prev next t = (.ok (), u) ∧ u.size = t.size ∧ u.names = t.names ∧ u.root = t.root ∧ ∀ j,
      (u.nodes j).parent = (if j = new then parent else (t.nodes j).parent) ∧
      (u.nodes j).prev = (if j = new then prev else if next = some j then some new else (t.nodes j).prev) ∧
      (u.nodes j).next = (if j = new then next else if prev = some j then some new else (t.nodes j).next) ∧
      (u.nodes j).first = (if parent = some j then (if prev = none then some new else ((t.nodes j).first.or prev).or (some new)) else (t.nodes j).first) ∧
      (u.nodes j).last = (if parent = some j then (if next = none then some new else ((t.nodes j).last.or (some new)).or next) else (t.nodes j).last) ∧
      (u.nodes j).sym = (t.nodes j).sym ∧ (u.nodes j).attrs = (t.nodes j).attrs := by
  refine ⟨_, by rw [insertWith, if_neg (by simp [hp, ha, hb])], ?_, ?_, ?_, ?_⟩
  · simp only [connect_frame]; rfl
  · simp only [connect_frame]; rfl
  · simp only [connect_frame]; rfl
  intro j
  have hv : (t.upd new (fun n => { n with parent := parent })).nodes j = if j = new then { t.nodes j with parent := parent } else t.nodes j := rfl
  generalize t.upd new (fun n => { n with parent := parent }) = v at hv ⊢
  obtain ⟨k1, k2, k3, k4, k5, k6, k7⟩ := connect_nodes parent prev (some new) v j
  generalize connect parent prev (some new) v = w at k1 k2 k3 k4 k5 k6 k7 ⊢
  obtain ⟨h1, h2, h3, h4, h5, h6, h7⟩ := connect_nodes parent (some new) next w j
  generalize connect parent (some new) next w = x at h1 h2 h3 h4 h5 h6 h7 ⊢
  rw [h1, h2, h3, h4, h5, h6, h7, k1, k2, k3, k4, k5, k6, k7, hv]
  clear h1 h2 h3 h4 h5 h6 h7 k1 k2 k3 k4 k5 k6 k7 hv
  by_cases hj : j = new
  · subst hj
    cases parent <;> cases prev <;> cases next <;> simp_all
  · have hj' : ¬ new = j := fun h => hj h.symm
    cases parent <;> cases prev <;> cases next <;> simp [hj, hj'] <;> grind

/-! ## Sibling lists after the operations -/

theorem Linked.mem_iff_parent {ch : Owner → List Nat} (h : Linked t ch) {c i : Nat} (hc : c < t.size) :
    (t.nodes c).parent = some i ↔ c ∈ ch (.inl i) := by
  constructor
  · intro hp
    obtain ⟨o, ho⟩ := h.all c hc
    obtain ⟨a, b, hab⟩ := List.append_of_mem ho
    have hs := h.seg o
    rw [hab] at hs
    have h1 := hs.mid.1
    rw [hp] at h1
    cases o with
    | inl x => cases h1; exact ho
    | inr x => cases h1
  · intro hm
    obtain ⟨a, b, hab⟩ := List.append_of_mem hm
    have hs := h.seg (.inl i)
    rw [hab] at hs
    exact hs.mid.1

theorem filter_ne_mid {a b : List Nat} {x : Nat} (h : (a ++ x :: b).Nodup) : (a ++ x :: b).filter (· ≠ x) = a ++ b := by
  have h1 := List.nodup_append.mp h
  have h2 := List.nodup_cons.mp h1.2.1
  rw [List.filter_append, List.filter_cons_of_neg (by simp), List.filter_eq_self.mpr, List.filter_eq_self.mpr]
  · intro y hy
    have : y ≠ x := fun e => h2.1 (e ▸ hy)
    simp [this]
  · intro y hy
    have : y ≠ x := fun e => h1.2.2 y hy x (by simp) e
    simp [this]

theorem filter_ne_self {l : List Nat} {x : Nat} (h : x ∉ l) : l.filter (· ≠ x) = l := by
  rw [List.filter_eq_self]
  intro y hy
  have : y ≠ x := fun e => h (e ▸ hy)
  simp [this]

/-- The sibling lists after `id` was detached; it forms the group `k`. -/
def without (ch : Owner → List Nat) (id k : Nat) : Owner → List Nat :=
  fun o => if o = .inr k then [id] else (ch o).filter (· ≠ id)

/-- Where a node is. -/
theorem Linked.place {ch : Owner → List Nat} (h : Linked t ch) {id : Nat} (hid : id < t.size) :
    ∃ o a b, ch o = a ++ id :: b ∧ (a ++ id :: b).Nodup ∧ Seg t o.getLeft? none (a ++ id :: b) none ∧
      (t.nodes id).parent = o.getLeft? ∧ (t.nodes id).prev = a.getLast? ∧ (t.nodes id).next = b.head? := by
  obtain ⟨o, ho⟩ := h.all id hid
  obtain ⟨a, b, hab⟩ := List.append_of_mem ho
  have hs := h.seg o
  have hn := h.nodup o
  rw [hab] at hs hn
  obtain ⟨h1, h2, h3⟩ := hs.mid
  exact ⟨o, a, b, hab, hn, hs, h1, by simpa using h2, by simpa using h3⟩

theorem Linked.detachRaw {ch : Owner → List Nat} (h : Linked t ch) {id k : Nat} (hid : id < t.size) (hself : (t.nodes id).parent ≠ some id)
    (hk : ∀ j, k ≤ j → ch (.inr j) = []) : Linked (detachRaw id t) (without ch id k) := by
  obtain ⟨o, a, b, hab, hn, hs, hpar, hprev, hnext⟩ := h.place hid
  have hn1 := List.nodup_append.mp hn
  have hn2 := List.nodup_cons.mp hn1.2.1
  have hida : id ∉ a := fun hc => hn1.2.2 id hc id (by simp) rfl
  have hidb : id ∉ b := hn2.1
  have hok : o ≠ .inr k := by
    rintro rfl
    rw [hk k (Nat.le_refl k)] at hab
    simp at hab
  have ha : (t.nodes id).prev ≠ some id := by
    rw [hprev]; intro hc; exact hida (List.mem_of_getLast? hc)
  have hb : (t.nodes id).next ≠ some id := by
    rw [hnext]; intro hc; exact hidb (List.mem_of_head? hc)
  have hN := fun j => detachRaw_nodes id t j hself ha hb
  obtain ⟨f1, f2, f3⟩ := detachRaw_frame id t
  generalize Tree.detachRaw id t = u at hN f1 f2 f3 ⊢
  rw [hpar, hprev, hnext] at hN
  have hm : ∀ x c, c ∈ without ch id k x ↔ (x = .inr k ∧ c = id) ∨ (x ≠ .inr k ∧ c ∈ ch x ∧ c ≠ id) := by
    intro x c
    unfold without
    by_cases hx : x = .inr k <;> simp [hx]
  have hwo : without ch id k o = a ++ b := by
    unfold without; rw [if_neg hok, hab, filter_ne_mid hn]
  have hwx : ∀ x, x ≠ o → x ≠ .inr k → without ch id k x = ch x := by
    intro x hx hx2
    unfold without
    rw [if_neg hx2, filter_ne_self]
    intro hc
    exact hx (h.once x o id hc (by rw [hab]; simp))
  constructor
  · intro x c hc
    rw [f1]
    rcases (hm x c).mp hc with ⟨_, rfl⟩ | ⟨_, hc, _⟩
    · exact hid
    · exact h.valid x c hc
  · intro i c hc
    rw [f1]
    rcases (hm _ c).mp hc with ⟨hx, _⟩ | ⟨_, hc, _⟩
    · cases hx
    · exact h.owner i c hc
  · intro c hc
    rw [f1] at hc
    by_cases hci : c = id
    · exact ⟨.inr k, (hm _ _).mpr (.inl ⟨rfl, hci⟩)⟩
    · obtain ⟨x, hx⟩ := h.all c hc
      refine ⟨x, (hm _ _).mpr (.inr ⟨?_, hx, hci⟩)⟩
      rintro rfl
      rw [hk k (Nat.le_refl k)] at hx
      simp at hx
  · intro x y c hx hy
    rcases (hm _ _).mp hx with ⟨h1, h2⟩ | ⟨h1, h2, h3⟩ <;> rcases (hm _ _).mp hy with ⟨g1, g2⟩ | ⟨g1, g2, g3⟩
    · rw [h1, g1]
    · exact absurd h2 g3
    · exact absurd g2 h3
    · exact h.once x y c h2 g2
  · intro x
    unfold without
    split
    · simp
    · exact (h.nodup x).filter _
  · intro x
    by_cases hx : x = .inr k
    · subst hx
      have : without ch id k (.inr k) = [id] := by simp [without]
      rw [this]
      obtain ⟨e1, e2, e3, -⟩ := hN id
      simp only [if_true] at e1 e2 e3
      exact ⟨e1, e2, e3, trivial⟩
    by_cases hxo : x = o
    · subst hxo
      rw [hwo]
      obtain ⟨hs1, hs2⟩ := seg_append.mp hs
      obtain ⟨-, -, -, hs3⟩ := hs2
      rw [seg_append]
      have hda := hn1.1
      have hdb := hn2.2
      have hdisj : ∀ c, c ∈ a → c ∉ b := fun c hc hd => hn1.2.2 c hc c (by simp [hd]) rfl
      have hne : ∀ c, c ∈ a ∨ c ∈ b → c ≠ id := by
        rintro c (hc | hc) rfl
        · exact hida hc
        · exact hidb hc
      constructor
      · refine hs1.reNext hda ?_ ?_ ?_
        · intro c hc
          obtain ⟨e1, e2, -⟩ := hN c
          rw [if_neg (hne c (.inl hc))] at e1 e2
          refine ⟨e1, ?_⟩
          rw [e2, if_neg]
          intro hb
          exact hdisj c hc (List.mem_of_head? hb)
        · intro c hc hl
          obtain ⟨-, -, e3, -⟩ := hN c
          rw [e3, if_neg (hne c (.inl hc)), if_neg (fun e => hl e.symm)]
        · intro c hl
          obtain ⟨-, -, e3, -⟩ := hN c
          rw [e3, if_neg (hne c (.inl (List.mem_of_getLast? hl))), if_pos hl]
          simp
      · refine hs3.rePrev hdb ?_ ?_ ?_
        · intro c hc
          obtain ⟨e1, -, e3, -⟩ := hN c
          rw [if_neg (hne c (.inr hc))] at e1 e3
          refine ⟨e1, ?_⟩
          rw [e3, if_neg]
          intro hb
          exact hdisj c (List.mem_of_getLast? hb) hc
        · intro c hc hl
          obtain ⟨-, e2, -⟩ := hN c
          rw [e2, if_neg (hne c (.inr hc)), if_neg (fun e => hl e.symm)]
        · intro c hl
          obtain ⟨-, e2, -⟩ := hN c
          rw [e2, if_neg (hne c (.inr (List.mem_of_head? hl))), if_pos hl]
          simp
    · rw [hwx x hxo hx]
      refine (h.seg x).congr ?_
      intro c hc
      have hno : c ∉ a ++ id :: b := by
        intro hd
        exact hxo (h.once x o c hc (by rw [hab]; exact hd))
      simp only [List.mem_append, List.mem_cons, not_or] at hno
      obtain ⟨e1, e2, e3, -⟩ := hN c
      refine ⟨?_, ?_, ?_⟩
      · rw [e1, if_neg hno.2.1]
      · rw [e2, if_neg hno.2.1, if_neg (fun e => hno.2.2 (List.mem_of_head? e))]
      · rw [e3, if_neg hno.2.1, if_neg (fun e => hno.1 (List.mem_of_getLast? e))]
  · intro i hi
    rw [f1] at hi
    obtain ⟨-, -, -, e4, -⟩ := hN i
    rw [e4]
    by_cases hio : o = .inl i
    · subst hio
      have hf := h.first i hi
      rw [hwo]
      rw [hab] at hf
      simp only [Sum.getLeft?_inl, if_true]
      rw [hf]
      cases a with
      | nil => simp
      | cons x xs => simp [List.getLast?_cons]
    · rw [if_neg, hwx _ (fun e => hio e.symm) (by simp)]
      · exact h.first i hi
      · intro e
        cases o with
        | inl x => cases e; exact hio rfl
        | inr x => cases e
  · intro i hi
    rw [f1] at hi
    obtain ⟨-, -, -, -, e5, -⟩ := hN i
    rw [e5]
    by_cases hio : o = .inl i
    · subst hio
      have hf := h.last i hi
      rw [hwo]
      rw [hab] at hf
      simp only [Sum.getLeft?_inl, if_true]
      rw [hf]
      cases b with
      | nil => simp
      | cons x xs => simp [List.getLast?_cons, List.getLast?_append]
    · rw [if_neg, hwx _ (fun e => hio e.symm) (by simp)]
      · exact h.last i hi
      · intro e
        cases o with
        | inl x => cases e; exact hio rfl
        | inr x => cases e
  · refine ⟨k + 1, fun j hj => ?_⟩
    unfold without
    rw [if_neg (by intro e; cases e; omega), hk j (by omega)]
    rfl

/-- The sibling lists after `new`, alone in the group `k`, was put between `a` and `b` of `o`. -/
def inserted (ch : Owner → List Nat) (new k : Nat) (o : Owner) (a b : List Nat) : Owner → List Nat :=
  fun x => if x = o then a ++ new :: b else if x = .inr k then [] else ch x

theorem Linked.insertWith {ch : Owner → List Nat} (h : Linked t ch) {new k : Nat} {o : Owner} {a b : List Nat} (hk : ch (.inr k) = [new])
    (hok : o ≠ .inr k) (hab : ch o = a ++ b) (hp : o ≠ .inl new) (hv : ∀ p, o = .inl p → p < t.size) :
    ∃ u, insertWith new o.getLeft? a.getLast? b.head? t = (.ok (), u) ∧ Linked u (inserted ch new k o a b) ∧
      u.size = t.size ∧ u.names = t.names ∧ u.root = t.root ∧
      ∀ j, (u.nodes j).parent = (if j = new then o.getLeft? else (t.nodes j).parent) ∧
        (u.nodes j).sym = (t.nodes j).sym ∧ (u.nodes j).attrs = (t.nodes j).attrs := by
  have hnewk : new ∈ ch (.inr k) := by rw [hk]; simp
  have hnew : new < t.size := h.valid _ _ hnewk
  have hn := h.nodup o
  have hs := h.seg o
  rw [hab] at hn hs
  have hn1 := List.nodup_append.mp hn
  have hno : new ∉ a ++ b := by
    intro hc
    exact hok (h.once o (.inr k) new (by rw [hab]; exact hc) hnewk)
  have hna : new ∉ a := fun hc => hno (by simp [hc])
  have hnb : new ∉ b := fun hc => hno (by simp [hc])
  have hdisj : ∀ c, c ∈ a → c ∉ b := fun c hc hd => hn1.2.2 c hc c hd rfl
  have hpar : o.getLeft? ≠ some new := by
    intro e
    cases o with
    | inl x => cases e; exact hp rfl
    | inr x => cases e
  obtain ⟨u, hu, f1, f2, f3, hN⟩ := insertWith_nodes new o.getLeft? a.getLast? b.head? t hpar
    (fun hc => hna (List.mem_of_getLast? hc)) (fun hc => hnb (List.mem_of_head? hc))
    (fun x hx hx2 => hdisj x (List.mem_of_getLast? hx) (List.mem_of_head? hx2))
  refine ⟨u, hu, ?_, f1, f2, f3, fun j => ⟨(hN j).1, (hN j).2.2.2.2.2⟩⟩
  have hm : ∀ x c, c ∈ inserted ch new k o a b x ↔ (x = o ∧ (c = new ∨ c ∈ ch o)) ∨ (x ≠ o ∧ x ≠ .inr k ∧ c ∈ ch x) := by
    intro x c
    unfold inserted
    by_cases hx : x = o
    · simp [hx, hab, or_left_comm]
    · rw [if_neg hx]
      by_cases hx2 : x = .inr k
      · rw [if_pos hx2]; simp [hx, hx2]; intro e; exact absurd e.symm hok
      · rw [if_neg hx2]; simp [hx, hx2]
  have hio : inserted ch new k o a b o = a ++ new :: b := by simp [inserted]
  have hix : ∀ x, x ≠ o → x ≠ .inr k → inserted ch new k o a b x = ch x := by
    intro x hx hx2
    simp [inserted, hx, hx2]
  constructor
  · intro x c hc
    rw [f1]
    rcases (hm x c).mp hc with ⟨_, rfl | hc⟩ | ⟨_, _, hc⟩
    · exact hnew
    · exact h.valid _ _ hc
    · exact h.valid _ _ hc
  · intro i c hc
    rw [f1]
    rcases (hm _ c).mp hc with ⟨hx, _⟩ | ⟨_, _, hc⟩
    · exact hv i hx.symm
    · exact h.owner i c hc
  · intro c hc
    rw [f1] at hc
    by_cases hci : c = new
    · exact ⟨o, (hm _ _).mpr (.inl ⟨rfl, .inl hci⟩)⟩
    · obtain ⟨x, hx⟩ := h.all c hc
      by_cases hxo : x = o
      · exact ⟨o, (hm _ _).mpr (.inl ⟨rfl, .inr (hxo ▸ hx)⟩)⟩
      · refine ⟨x, (hm _ _).mpr (.inr ⟨hxo, ?_, hx⟩)⟩
        rintro rfl
        rw [hk] at hx
        simp at hx
        exact hci hx
  · have key : ∀ y c, y ≠ o → y ≠ .inr k → c ∈ ch y → c ≠ new ∧ c ∉ ch o := by
      intro y c h1 h2 h3
      refine ⟨?_, fun h4 => h1 (h.once _ _ _ h3 h4)⟩
      rintro rfl
      exact h2 (h.once _ _ _ h3 hnewk)
    intro x y c hx hy
    rcases (hm _ _).mp hx with ⟨h1, h2⟩ | ⟨h1, h2, h3⟩ <;> rcases (hm _ _).mp hy with ⟨g1, g2⟩ | ⟨g1, g2, g3⟩
    · rw [h1, g1]
    · obtain ⟨k1, k2⟩ := key y c g1 g2 g3
      exact absurd h2 (by simp [k1, k2])
    · obtain ⟨k1, k2⟩ := key x c h1 h2 h3
      exact absurd g2 (by simp [k1, k2])
    · exact h.once x y c h3 g3
  · intro x
    by_cases hx : x = o
    · rw [hx, hio]
      refine List.nodup_append.mpr ⟨hn1.1, List.nodup_cons.mpr ⟨hnb, hn1.2.1⟩, ?_⟩
      intro c hc d hd
      rcases List.mem_cons.mp hd with rfl | hd
      · rintro rfl; exact hna hc
      · exact hn1.2.2 c hc d hd
    · unfold inserted
      rw [if_neg hx]
      split
      · exact List.nodup_nil
      · exact h.nodup x
  · intro x
    by_cases hx : x = o
    · subst hx
      rw [hio]
      obtain ⟨hs1, hs2⟩ := seg_append.mp hs
      have hne : ∀ c, c ∈ a ∨ c ∈ b → c ≠ new := by
        rintro c (hc | hc) rfl
        · exact hna hc
        · exact hnb hc
      rw [seg_append]
      refine ⟨?_, ?_⟩
      · refine hs1.reNext hn1.1 ?_ ?_ ?_
        · intro c hc
          obtain ⟨e1, e2, -⟩ := hN c
          rw [if_neg (hne c (.inl hc))] at e1 e2
          refine ⟨e1, ?_⟩
          rw [e2, if_neg]
          intro hb
          exact hdisj c hc (List.mem_of_head? hb)
        · intro c hc hl
          obtain ⟨-, -, e3, -⟩ := hN c
          rw [e3, if_neg (hne c (.inl hc)), if_neg (fun e => hl e.symm)]
        · intro c hl
          obtain ⟨-, -, e3, -⟩ := hN c
          rw [e3, if_neg (hne c (.inl (List.mem_of_getLast? hl))), if_pos hl]
          rfl
      · obtain ⟨e1, e2, e3, -⟩ := hN new
        simp only [if_true] at e1 e2 e3
        refine ⟨e1, by simpa using e2, by simpa using e3, ?_⟩
        refine hs2.rePrev hn1.2.1 ?_ ?_ ?_
        · intro c hc
          obtain ⟨e1, -, e3, -⟩ := hN c
          rw [if_neg (hne c (.inr hc))] at e1 e3
          refine ⟨e1, ?_⟩
          rw [e3, if_neg]
          intro hb
          exact hdisj c (List.mem_of_getLast? hb) hc
        · intro c hc hl
          obtain ⟨-, e2, -⟩ := hN c
          rw [e2, if_neg (hne c (.inr hc)), if_neg (fun e => hl e.symm)]
        · intro c hl
          obtain ⟨-, e2, -⟩ := hN c
          rw [e2, if_neg (hne c (.inr (List.mem_of_head? hl))), if_pos hl]
    · by_cases hx2 : x = .inr k
      · have : inserted ch new k o a b x = [] := by unfold inserted; rw [if_neg hx, if_pos hx2]
        rw [this]
        exact trivial
      · rw [hix x hx hx2]
        refine (h.seg x).congr ?_
        intro c hc
        have hcn : c ≠ new := by
          rintro rfl
          exact hx2 (h.once _ _ _ hc hnewk)
        have hco : c ∉ a ++ b := by
          intro hd
          exact hx (h.once _ _ _ hc (by rw [hab]; exact hd))
        simp only [List.mem_append, not_or] at hco
        obtain ⟨e1, e2, e3, -⟩ := hN c
        refine ⟨?_, ?_, ?_⟩
        · rw [e1, if_neg hcn]
        · rw [e2, if_neg hcn, if_neg (fun e => hco.2 (List.mem_of_head? e))]
        · rw [e3, if_neg hcn, if_neg (fun e => hco.1 (List.mem_of_getLast? e))]
  · intro i hi
    rw [f1] at hi
    obtain ⟨-, -, -, e4, -⟩ := hN i
    rw [e4]
    by_cases hoi : o = .inl i
    · subst hoi
      have hf := h.first i hi
      rw [hab] at hf
      rw [hio, hf]
      simp only [Sum.getLeft?_inl, if_true]
      cases a with
      | nil => simp
      | cons x xs => simp [List.getLast?_cons]
    · rw [if_neg, hix _ (fun e => hoi e.symm) (by simp)]
      · exact h.first i hi
      · intro e
        cases o with
        | inl x => cases e; exact hoi rfl
        | inr x => cases e
  · intro i hi
    rw [f1] at hi
    obtain ⟨-, -, -, -, e5, -⟩ := hN i
    rw [e5]
    by_cases hoi : o = .inl i
    · subst hoi
      have hf := h.last i hi
      rw [hab] at hf
      rw [hio, hf]
      simp only [Sum.getLeft?_inl, if_true]
      cases b with
      | nil => simp
      | cons x xs => simp [List.getLast?_cons, List.getLast?_append]
    · rw [if_neg, hix _ (fun e => hoi e.symm) (by simp)]
      · exact h.last i hi
      · intro e
        cases o with
        | inl x => cases e; exact hoi rfl
        | inr x => cases e
  · obtain ⟨m, hfin⟩ := h.finite
    cases o with
    | inl p =>
      refine ⟨m, fun j hj => ?_⟩
      unfold inserted
      rw [if_neg (by simp), hfin j hj]
      split <;> rfl
    | inr q =>
      refine ⟨max m (q + 1), fun j hj => ?_⟩
      unfold inserted
      rw [if_neg (by intro e; cases e; omega), hfin j (by omega)]
      split <;> rfl

end Fbx.Tree
