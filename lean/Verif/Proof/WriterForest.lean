import Verif.Proof.WriterAppend

/-! # Writing a forest on a fault-free sink -/

namespace Fbx.Writer
open Spec

theorem run_append (Z : Zlib) (xs ys : List Op) : run Z (xs ++ ys) = run Z xs >>= fun _ => run Z ys := by
  induction xs with
  | nil => rfl
  | cons x xs ih => simp only [List.cons_append, run, ih, M.bind_assoc']

theorem run_bind {β : Type} (Z : Zlib) (xs : List Op) (s s0 : Writer) (C : Prop)
    (h : ∀ u s', run Z xs s = (.ok u, s') ↔ C ∧ s' = s0) (f : Unit → M WErr Writer β) (b : β) (s' : Writer) :
    (run Z xs >>= f) s = (.ok b, s') ↔ C ∧ f () s0 = (.ok b, s') :=
  M.bind_of_unit h f b s'

/-- `k` more attributes. -/
def bumpN (k : Nat) (n : OpenNode) : OpenNode :=
  { n with header := { n.header with numAttrs := n.header.numAttrs + k } }

/-- An attribute takes at least one byte. -/
theorem produced_pos (Z : Zlib) (a : Append) : 0 < (produced Z a).length := by
  cases a <;> simp [produced, attrBytes, specBytes]

theorem attrs_ge (Z : Zlib) (as : List Append) : as.length ≤ (as.flatMap (produced Z)).length := by
  induction as with
  | nil => simp
  | cons a as ih => have := produced_pos Z a; simp only [List.flatMap_cons, List.length_append, List.length_cons]; omega

theorem attrs_zero (Z : Zlib) (as : List Append) : (as.flatMap (produced Z)).length = 0 ↔ as.length = 0 := by
  cases as with
  | nil => simp
  | cons a as => have := produced_pos Z a; simp; intro h; simp [h] at this

theorem attrs_ok_iff (Z : Zlib) (v : FbxVersion) (r : List OpenNode) (as : List Append) :
    ∀ (pre post : Bytes) (n : OpenNode) (_ : n.header.numAttrs ≤ pre.length) (u : Unit) (w' : Writer),
    run Z (as.map Op.append) (At v pre post (n :: r)) = (.ok u, w') ↔
      ((∀ a ∈ as, callFits Z a) ∧ Room pre (as.flatMap (produced Z))) ∧
      w' = At v (pre ++ as.flatMap (produced Z)) (post.drop (as.flatMap (produced Z)).length)
        (bumpN as.length n :: r) := by
  induction as with
  | nil => intro pre post n hn u w'; simp [run, Room, eq_comm, bumpN]
  | cons a as ih =>
    intro pre post n hn u w'
    have hp := produced_pos Z a
    have hne : produced Z a ≠ [] := by intro h; simp [h] at hp
    simp only [List.map_cons, run, exec]
    rw [M.bind_of_unit (s0 := At v (pre ++ produced Z a) (post.drop (produced Z a).length) (bump n :: r))
      (C := n.header.numAttrs + 1 < 2 ^ 64 ∧ (noUserError a ∧ attrFits Z (denote a)) ∧ Room pre (produced Z a))
      (fun u s' => by rw [append_ok_iff]; simp only [and_assoc]),
      ih _ _ _ (by simp [bump]; omega)]
    simp only [List.flatMap_cons, Room.append, List.forall_mem_cons, callFits, List.append_assoc, List.drop_drop,
      List.length_append, List.length_cons]
    have hb : bumpN as.length (bump n) = bumpN (as.length + 1) n := by simp [bumpN, bump]; omega
    rw [hb]
    constructor
    · rintro ⟨⟨h1, h2, h3⟩, ⟨h4, h5⟩, h6⟩; exact ⟨⟨⟨h2, h4⟩, h3, h5⟩, h6⟩
    · rintro ⟨⟨⟨h2, h4⟩, h3, h5⟩, h6⟩
      refine ⟨⟨?_, h2, h3⟩, ⟨h4, h5⟩, h6⟩
      rcases h3 with h3 | h3
      · exact absurd h3 hne
      · omega

/-- Open nodes after writing siblings `F` inside them. -/
def afterOpen (F : Forest Append) (p : Nat) (o : List OpenNode) : List OpenNode :=
  if F.isNil then o else childTop p o

theorem childTop_topOk (p q : Nat) (o : List OpenNode) : TopOk q (childTop p o) := by
  intro n r h
  cases o with
  | nil => simp [childTop] at h
  | cons m o =>
    simp only [childTop, List.cons.injEq] at h
    obtain ⟨rfl, rfl⟩ := h
    exact .inl (fin_finalized p m)

theorem childTop_childTop (p q : Nat) (o : List OpenNode) : childTop q (childTop p o) = childTop p o := by
  cases o with
  | nil => rfl
  | cons n o =>
    simp only [childTop]
    have hf := fin_finalized p n
    generalize fin p n = m at hf
    simp [fin, hf]

/-- The number of bytes of a forest does not depend on where it starts. -/
theorem forest_room {v : Nat} (Z : Zlib) (F : Forest Append) : ∀ off : Nat,
    forestFits v (produced Z) (callFits Z) F off → F.isNil = true ∨ off + (nodes v (produced Z) F off).length < 2 ^ 64 := by
  induction F with
  | nil => intro off _; exact .inl rfl
  | cons name attrs ch rest ih1 ih2 =>
    intro off h
    simp only [forestFits] at h
    obtain ⟨h1, h2, h3, h4, h5, h6⟩ := h
    right
    simp only [nodes, List.length_append, header_length]
    rw [apply_ite List.length, marker_length, List.length_nil]
    rcases ih2 _ h6 with h | h
    · cases rest with
      | nil => simp only [nodes, List.length_nil]; omega
      | cons => simp [Forest.isNil] at h
    · omega

theorem forest_ok_iff (Z : Zlib) (v : FbxVersion) (F : Forest Append) :
    ∀ (pre post : Bytes) (o : List OpenNode) (_ : TopOk pre.length o) (u : Unit) (w' : Writer),
    run Z (calls F) (At v pre post o) = (.ok u, w') ↔
      forestFits v.toNat (produced Z) (callFits Z) F pre.length ∧
      w' = At v (pre ++ nodes v.toNat (produced Z) F pre.length)
        (post.drop (nodes v.toNat (produced Z) F pre.length).length) (afterOpen F pre.length o) := by
  induction F with
  | nil => intro pre post o _ u w'; simp [calls, run, forestFits, nodes, afterOpen, Forest.isNil, eq_comm]
  | cons name attrs ch rest ihc ihr =>
    intro pre post o ho u w'
    simp only [calls, run, exec, run_append]
    rw [M.bind_of_unit (fun u s' => (newNode_ok_iff v pre post o ho name u s').trans and_assoc.symm)]
    generalize hnm : utf8 name = nm
    generalize hH0 : header v.toNat 0 0 0 nm.length = H0
    have hH0l : H0.length = headerSize v.toNat := by rw [← hH0]; simp
    generalize hn0 : (⟨pre.length, pre.length + headerSize v.toNat + nm.length, ⟨0, 0, 0, nm.length⟩, false, false⟩ :
      OpenNode) = n0
    generalize hat : attrs.flatMap (produced Z) = at'
    rw [M.bind_of_unit (fun u s' => attrs_ok_iff Z v _ attrs _ _ n0 (by subst hn0; simp) u s')]
    have hcoff : (pre ++ (H0 ++ nm) ++ at').length = pre.length + headerSize v.toNat + nm.length + at'.length := by
      simp [hH0l]; omega
    have hno : TopOk (pre ++ (H0 ++ nm) ++ at').length (bumpN attrs.length n0 :: childTop pre.length o) := by
      intro n r h
      simp only [List.cons.injEq] at h
      obtain ⟨rfl, rfl⟩ := h
      right
      rw [hcoff]; subst hn0; simp [bumpN]
    rw [hat, M.bind_of_unit (fun u s' => ihc _ _ _ hno u s')]
    rw [hcoff]
    generalize hco : pre.length + headerSize v.toNat + nm.length + at'.length = coff
    generalize hch : nodes v.toNat (produced Z) ch coff = ch'
    -- the innermost node when it is closed
    generalize hn1 : (if ch.isNil then bumpN attrs.length n0 else { fin coff (bumpN attrs.length n0) with hasChild := true }) = n1
    have haft : afterOpen ch coff (bumpN attrs.length n0 :: childTop pre.length o) = n1 :: childTop pre.length o := by
      rw [← hn1]; simp only [afterOpen]; cases ch.isNil <;> rfl
    rw [haft]
    have hfinal : (fin (coff + ch'.length) n1).header = ⟨0, attrs.length, at'.length, nm.length⟩ := by
      rw [← hn1]
      cases hcn : ch.isNil with
      | true =>
        have : ch' = [] := by rw [← hch]; cases ch <;> simp_all [Forest.isNil, nodes]
        subst this; subst hn0
        simp [fin, bumpN]; omega
      | false =>
        subst hn0
        simp [fin, bumpN]; omega
    have hmk : (n1.hasChild = true ∨ n1.header.numAttrs = 0) ↔ needsMarker attrs ch = true := by
      rw [← hn1]; subst hn0
      cases hcn : ch.isNil <;> simp [needsMarker, bumpN, hcn]
    have hpl : (pre ++ (H0 ++ nm) ++ at' ++ ch').length = coff + ch'.length := by simp [hH0l]; omega
    have hlast : ∀ (hr : Room pre H0), CloseOk v (pre ++ (H0 ++ nm) ++ at' ++ ch') pre H0 (nm ++ at' ++ ch') n1 := by
      intro hr
      refine ⟨by simp, ?_, hH0l, ?_, ?_⟩
      · rw [← hn1]; subst hn0; cases ch.isNil <;> simp [bumpN, fin]
      · rw [← hn1]; subst hn0; rw [hpl]
        cases ch.isNil
        · left; simp [fin_finalized]
        · right; simp [bumpN]; omega
      · have : H0 ≠ [] := by intro h; simp [h] at hH0l; have := headerSize_pos v.toNat; omega
        exact room_lt hr this
    rw [Room.append]
    have hzz : ((attrs.length == 0) = (at'.length == 0)) := by
      have := attrs_zero Z attrs
      rw [hat] at this
      by_cases h0 : attrs.length = 0
      · simp [h0, this.mpr h0]
      · have : ¬ at'.length = 0 := fun h => h0 (this.mp h)
        simp only [h0, this, beq_eq_false_iff_ne.mpr, ne_eq, not_false_eq_true]
    simp only [nodes, hnm, hat, hco, hch, forestFits, afterOpen, Forest.isNil, Bool.false_eq_true, if_false]
    generalize hmm : (if needsMarker attrs ch = true then marker v.toNat else []) = mm
    have hmml : (if needsMarker attrs ch = true then headerSize v.toNat else 0) = mm.length := by
      rw [← hmm]; cases needsMarker attrs ch <;> simp
    rw [hmml]
    have hclose : ∀ (hr : Room pre H0) post u s', closeNode (At v (pre ++ (H0 ++ nm) ++ at' ++ ch') post (n1 :: childTop pre.length o)) = (.ok u, s') ↔
        (Room (pre ++ (H0 ++ nm) ++ at' ++ ch') mm ∧ HeaderFits v.toNat (coff + ch'.length + mm.length) attrs.length at'.length) ∧
        s' = At v (pre ++ (header v.toNat (coff + ch'.length + mm.length) attrs.length at'.length nm.length ++ nm ++ at' ++ ch' ++ mm))
          (post.drop mm.length) (childTop pre.length o) := by
      intro hr post u s'
      rw [closeNode_ok_iff v _ pre H0 (nm ++ at' ++ ch') post n1 _ (hlast hr)]
      simp only [hmk, hmm, hpl, hfinal, hzz, true_and, and_assoc]
      simp only [List.append_assoc]
    generalize hend : coff + ch'.length + mm.length = eoff at *
    have hpost : ∀ (x : Bytes), (pre ++ (header v.toNat eoff attrs.length at'.length nm.length ++ nm ++ at' ++ ch' ++ mm)).length = eoff := by
      intro x; simp; omega
    have key : ∀ (hr : Room pre H0) post, ((closeNode >>= fun _ => run Z (calls rest)) (At v (pre ++ (H0 ++ nm) ++ at' ++ ch') post (n1 :: childTop pre.length o)) = (.ok u, w') ↔
       (Room (pre ++ (H0 ++ nm) ++ at' ++ ch') mm ∧ HeaderFits v.toNat eoff attrs.length at'.length) ∧
       forestFits v.toNat (produced Z) (callFits Z) rest eoff ∧
       w' = At v (pre ++ (header v.toNat eoff attrs.length at'.length nm.length ++ nm ++ at' ++ ch' ++ mm) ++
         nodes v.toNat (produced Z) rest eoff) ((post.drop mm.length).drop (nodes v.toNat (produced Z) rest eoff).length)
         (childTop pre.length o)) := by
      intro hr post
      rw [M.bind_of_unit (fun u s' => hclose hr post u s'), ihr _ _ _ (childTop_topOk _ _ _), hpost []]
      simp only [afterOpen, childTop_childTop, ite_self]
    have hH0ne : H0 ≠ [] := by intro h; simp [h] at hH0l; have := headerSize_pos v.toNat; omega
    constructor
    · rintro ⟨⟨h1, h2, h3⟩, ⟨h4, h5⟩, h6, h7⟩
      rw [key h2] at h7
      obtain ⟨⟨h8, h9⟩, h10, rfl⟩ := h7
      have hchr : Room (pre ++ (H0 ++ nm) ++ at') ch' := by
        rcases forest_room Z ch coff h6 with h | h
        · left; rw [← hch]; cases ch <;> simp_all [Forest.isNil, nodes]
        · right; rw [hcoff, hco, ← hch]; exact h
      have hall : Room pre ((H0 ++ nm) ++ at' ++ ch' ++ mm) := by
        simp only [Room.append]
        refine ⟨⟨⟨⟨h2, h3⟩, h5⟩, ?_⟩, ?_⟩
        · simpa using hchr
        · simpa using h8
      have hlt := room_lt hall (by simp [hH0ne])
      refine ⟨⟨h1, h4, ?_, h9, h6, h10⟩, ?_⟩
      · simp [hH0l] at hlt; omega
      · simp [List.drop_drop, hH0l, Nat.add_assoc]
    · rintro ⟨⟨h1, h4, h0, h9, h6, h10⟩, rfl⟩
      have hr : Room pre H0 := by right; omega
      refine ⟨⟨h1, hr, by right; simp; omega⟩, ⟨h4, by right; simp; omega⟩, h6, ?_⟩
      rw [key hr]
      refine ⟨⟨?_, h9⟩, h10, ?_⟩
      · right; rw [hpl]; omega
      · simp [List.drop_drop, hH0l, Nat.add_assoc]

end Fbx.Writer
