import Verif.Proof.Draft

/-! # The specification without a device agrees with the layout of documents -/

namespace Fbx.Writer
open Spec

theorem acts_append (Z : Zlib) (v : Nat) (xs ys : List Op) : ∀ d : Draft, d.acts Z v (xs ++ ys) =
    ((d.acts Z v xs).1 ++ ((d.acts Z v xs).2.acts Z v ys).1, ((d.acts Z v xs).2.acts Z v ys).2) := by
  induction xs with
  | nil => intro d; rfl
  | cons x xs ih => intro d; simp only [List.cons_append, Draft.acts, ih]

theorem acts_then {Z : Zlib} {v : Nat} {xs ys : List Op} {d d' : Draft} {rs : List (Res WErr Unit)} (h : d.acts Z v xs = (rs, d')) :
    d.acts Z v (xs ++ ys) = (rs ++ (d'.acts Z v ys).1, (d'.acts Z v ys).2) := by
  rw [acts_append, h]

/-- The draft after the nodes of a forest. -/
def grown (d : Draft) (nil : Bool) (bytes : Bytes) : Draft :=
  Draft.add ⟨d.finished, if nil then d.unfinished else becomesParent d.unfinished, d.behind.drop bytes.length⟩ bytes

theorem acts_attrs (Z : Zlib) (v : Nat) (fin : Bytes) (outer : List Unfinished) (as : List Append) (h : ∀ a ∈ as, fails Z a = false) :
    ∀ (u : Unfinished) (behind : Bytes), Draft.acts Z v ⟨fin, u :: outer, behind⟩ (as.map Op.append) =
      (List.replicate as.length (.ok ()), ⟨fin, { u with attrs := u.attrs ++ as.flatMap (leaves Z), count := u.count + as.length } :: outer,
        behind.drop (as.flatMap (leaves Z)).length⟩) := by
  induction as with
  | nil => intro u behind; simp [Draft.acts]
  | cons a as ih =>
    intro u behind
    have ha := fails_none (h a (by simp))
    have hact : Draft.act Z v ⟨fin, u :: outer, behind⟩ (.append a) = (.ok (), ⟨fin, { u with attrs := u.attrs ++ leaves Z a, count := u.count + 1 } :: outer,
        behind.drop (leaves Z a).length⟩) := by
      simp only [Draft.act, ha]; rfl
    simp only [List.map_cons, Draft.acts, hact]
    rw [ih (fun x hx => h x (by simp [hx]))]
    simp only [List.length_cons, List.replicate_succ, List.flatMap_cons, List.append_assoc, List.length_append, List.drop_drop,
      Prod.mk.injEq, true_and, Draft.mk.injEq, List.cons.injEq, Unfinished.mk.injEq, and_true]
    omega

theorem becomesParent_twice (us : List Unfinished) : becomesParent (becomesParent us) = becomesParent us := by
  cases us <;> rfl

theorem file_grown (v : Nat) (d : Draft) (nil : Bool) (bytes : Bytes) : (grown d nil bytes).file v = d.file v ++ bytes := by
  rw [grown, file_add]
  cases nil
  · simp only [Bool.false_eq_true, if_false, shownAfter_becomesParent]; rfl
  · rfl

theorem acts_calls (Z : Zlib) (v : Nat) (F : Forest Append) : ∀ d : Draft,
    forestFits v (leaves Z) (fun a => fails Z a = false) F (d.file v).length →
    d.acts Z v (calls F) = (List.replicate (calls F).length (.ok ()), grown d F.isNil (nodes v (leaves Z) F (d.file v).length)) := by
  induction F with
  | nil =>
    rintro ⟨fin, us, behind⟩ -
    simp only [calls, Draft.acts, List.length_nil, List.replicate_zero, nodes, grown, Forest.isNil, if_true, List.drop_zero]
    cases us <;> simp [Draft.add]
  | cons name attrs ch rest ihc ihr =>
    rintro ⟨fin, us, behind⟩ hfit
    simp only [forestFits] at hfit
    obtain ⟨h1, h4, h0, h9, h6, h10⟩ := hfit
    generalize hnm : utf8 name = nm at *
    generalize hat : attrs.flatMap (leaves Z) = at' at *
    generalize hoff : (Draft.file v ⟨fin, us, behind⟩).length = off at *
    generalize hco : off + headerSize v + nm.length + at'.length = coff at *
    generalize hch : nodes v (leaves Z) ch coff = ch' at *
    generalize hmm : (if needsMarker attrs ch = true then marker v else []) = mm at *
    have hmml : (if needsMarker attrs ch = true then headerSize v else 0) = mm.length := by
      rw [← hmm]; cases needsMarker attrs ch <;> simp
    rw [hmml] at h0 h9 h10
    generalize hend : coff + ch'.length + mm.length = eoff at *
    -- new_node
    have hnew : Draft.act Z v ⟨fin, us, behind⟩ (.newNode name) = (.ok (), ⟨fin, ⟨nm, [], 0, [], false⟩ :: becomesParent us,
        behind.drop (headerSize v + nm.length)⟩) := by
      simp only [Draft.act, hnm]
      rw [if_neg (by omega)]
    rw [calls]
    simp only [Draft.acts, hnew]
    rw [acts_then (acts_attrs Z v fin _ attrs h4 _ _), hat]
    simp only [List.nil_append, Nat.zero_add]
    -- children
    generalize hd2 : (⟨fin, ⟨nm, at', attrs.length, [], false⟩ :: becomesParent us, (behind.drop (headerSize v + nm.length)).drop at'.length⟩ : Draft) = d2
    have hl2 : (d2.file v).length = coff := by
      rw [← hd2]
      simp only [Draft.file, shownAfter, shownAfter_becomesParent, Unfinished.shown, List.append_nil, List.length_append, header_length]
      simp only [Draft.file] at hoff
      omega
    rw [acts_then (ihc d2 (by rw [hl2]; exact h6)), hl2, hch]
    -- close_node
    generalize hd3 : grown d2 ch.isNil ch' = d3
    have hl3 : (d3.file v).length = coff + ch'.length := by rw [← hd3, file_grown, List.length_append, hl2]
    have h3 : d3 = ⟨fin, ⟨nm, at', attrs.length, ch', !ch.isNil⟩ :: becomesParent us,
        ((behind.drop (headerSize v + nm.length)).drop at'.length).drop ch'.length⟩ := by
      rw [← hd3, ← hd2]
      simp only [grown]
      cases ch.isNil <;> simp [Draft.add, becomesParent]
    have hclose : d3.act Z v .closeNode = (.ok (), Draft.add ⟨fin, becomesParent us,
        (((behind.drop (headerSize v + nm.length)).drop at'.length).drop ch'.length).drop mm.length⟩
        (header v eoff attrs.length at'.length nm.length ++ nm ++ at' ++ ch' ++ mm)) := by
      have hmk : (if (!ch.isNil) = true ∨ attrs.length = 0 then marker v else []) = mm := by
        rw [← hmm]
        have hiff : ((!ch.isNil) = true ∨ attrs.length = 0) ↔ needsMarker attrs ch = true := by
          simp only [needsMarker]
          cases attrs <;> simp
        by_cases hn : needsMarker attrs ch = true
        · rw [if_pos hn, if_pos (hiff.mpr hn)]
        · rw [if_neg hn, if_neg (fun h => hn (hiff.mp h))]
      rw [h3] at hl3 ⊢
      simp only [Draft.act, hmk, hl3, hend]
      rw [if_neg]
      rintro ⟨hv, hb⟩
      have := (h9 hv).1
      omega
    simp only [Draft.acts, hclose]
    -- the rest
    generalize hN : header v eoff attrs.length at'.length nm.length ++ nm ++ at' ++ ch' ++ mm = N
    have hNl : off + N.length = eoff := by rw [← hN]; simp; omega
    have hl4 : (Draft.file v (Draft.add ⟨fin, becomesParent us, (((behind.drop (headerSize v + nm.length)).drop at'.length).drop ch'.length).drop mm.length⟩ N)).length = eoff := by
      rw [file_add, shownAfter_becomesParent, List.length_append]
      have : (shownAfter v fin us).length = off := hoff
      omega
    rw [ihr _ (by rw [hl4]; exact h10), hl4]
    refine Prod.ext ?_ ?_
    · simp only [List.length_cons, List.length_append, List.length_map, ← List.replicate_append_replicate, List.replicate_succ]
    · simp only [grown, nodes, hnm, hat, hco, hch, hmm, hend, hN, Forest.isNil, Bool.false_eq_true, if_false]
      generalize nodes v (leaves Z) rest eoff = R
      have hbl : headerSize v + nm.length + at'.length + ch'.length + mm.length = N.length := by rw [← hN]; simp; omega
      cases us with
      | nil =>
        simp only [becomesParent, Draft.add, ite_self, List.append_assoc, List.drop_drop, List.length_append, Draft.mk.injEq, true_and]
        congr 1; omega
      | cons p ps =>
        simp only [becomesParent, Draft.add, ite_self, List.append_assoc, List.drop_drop, List.length_append, Draft.mk.injEq, true_and]
        congr 1; omega

/-- Calls which the borrow checker accepts can be made, if no name is too long. -/
theorem results_some (Z : Zlib) (v : FbxVersion) (ops : List Op) : ∀ (d : Draft) (alive : Bool), Fine d.unfinished → AliveOk alive d →
    (d.file v.toNat).length + (ops.map (need Z v.toNat)).sum < 2 ^ 64 → legal alive ops = true →
    (∀ name, Op.newNode name ∈ ops → (utf8 name).length < 256) → ∃ x, results Z ⟨ofDraft v d, alive⟩ ops = some x := by
  induction ops with
  | nil => intro d alive _ _ _ _ _; exact ⟨_, rfl⟩
  | cons o os ih =>
    intro d alive hf ha hr hl hn
    simp only [List.map_cons, List.sum_cons] at hr
    have hn' : ∀ name, Op.newNode name ∈ os → (utf8 name).length < 256 := fun name h => hn name (by simp [h])
    simp only [results]
    cases o with
    | newNode name =>
      obtain ⟨h1, h2, h3, h4⟩ := newNode_draft Z v d hf name (by simp only [need] at hr; omega)
      have hok : (d.act Z v.toNat (.newNode name)).1 = .ok () := by
        have := hn name (by simp)
        simp only [Draft.act]
        rw [if_neg (by omega)]
      have hstep : Session.step Z ⟨ofDraft v d, alive⟩ (.newNode name) = some (.ok (), ⟨ofDraft v (d.act Z v.toNat (.newNode name)).2, true⟩) := by
        simp only [Session.step, exec, h1, hok]
      rw [hok] at h4
      simp only [legal] at hl
      simp only [need] at hr
      obtain ⟨x, hx⟩ := ih _ true h2 h4 (by omega) hl hn'
      rw [hstep]
      simp only [hx]
      exact ⟨_, rfl⟩
    | append a =>
      simp only [legal, Bool.and_eq_true] at hl
      obtain ⟨rfl, hl⟩ := hl
      simp only [need] at hr
      obtain ⟨h1, h2, h3, h4⟩ := append_draft Z v d hf a ha (by omega)
      obtain ⟨x, hx⟩ := ih _ true h2 h4 (by omega) hl hn'
      simp only [Session.step, exec, h1, if_true, hx]
      exact ⟨_, rfl⟩
    | closeNode =>
      simp only [legal] at hl
      simp only [need] at hr
      obtain ⟨h1, h2, h3⟩ := closeNode_draft Z v d hf (by omega)
      obtain ⟨x, hx⟩ := ih _ false h2 (fun h => by cases h) (by omega) hl hn'
      simp only [Session.step, exec, h1, hx]
      exact ⟨_, rfl⟩

theorem fits_names {v : Nat} {enc : Append → Bytes} {P : Append → Prop} (F : Forest Append) : ∀ off, forestFits v enc P F off →
    ∀ name, Op.newNode name ∈ calls F → (utf8 name).length < 256 := by
  induction F with
  | nil => intro off _ name h; cases h
  | cons n as ch r ih1 ih2 =>
    intro off hfit name h
    simp only [forestFits] at hfit
    obtain ⟨h1, -, -, -, h5, h6⟩ := hfit
    simp only [calls, List.mem_cons, List.mem_append, List.mem_map, reduceCtorEq, and_false, exists_false, false_or,
      Op.newNode.injEq] at h
    rcases h with rfl | h | h
    · exact h1
    · exact ih1 _ h5 name h
    · exact ih2 _ h6 name h

end Fbx.Writer
