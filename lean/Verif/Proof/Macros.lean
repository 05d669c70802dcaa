import Verif.Proof.TreeLoad
import Verif.Spec.Macros

/-! # The macros -/

namespace Fbx
open Spec

namespace Tree
variable {t u : Tree}

theorem Grew.attr {p : Nat} {name : String} {as : List AttrValue} (ht : WF t) (h : Grew t u p name as) (v : AttrValue) :
    ∃ w, appendAttribute t.size v u = (.ok (), w) ∧ Grew t w p name (as ++ [v]) := by
  obtain ⟨h1, h2, h3⟩ := upd_attrs_wf h.wf t.size (fun l => l ++ [v])
  refine ⟨_, ?_, h1, h.size, h.root, ?_, ?_, ?_, ?_, ?_, ?_, ?_, ?_, ?_⟩
  · have : t.size < u.size := by rw [h.size]; omega
    have hr : t.size ≠ u.root := by rw [h.root]; have := ht.root; omega
    simp only [appendAttribute, assertNotRoot, assertValid, bind, M.bind, if_neg hr, if_neg (Nat.not_le.mpr this)]
    rfl
  · have := h.name
    unfold name? at this ⊢
    rw [h3]; exact this
  · rw [h3]; simp [h.attrs]
  · rw [h2]; exact h.leaf
  · rw [h3]; exact h.parent
  · intro i hi
    have := h.oldName i hi
    unfold name? at this ⊢
    rw [h3]; exact this
  · intro i hi; rw [h3]; simp only; rw [if_neg (by omega)]; exact h.oldAttrs i hi
  · intro i hi; rw [h3]; exact h.oldParent i hi
  · rw [h2]; exact h.kids
  · intro i hi hne; rw [h2]; exact h.others i hi hne

theorem Grew.attrsAll {p : Nat} {name : String} (ht : WF t) : ∀ (vs : List AttrValue) {u : Tree} {as : List AttrValue}, Reachable u → Grew t u p name as →
    ∃ w, appendAttributes t.size vs u = (.ok (), w) ∧ Reachable w ∧ Grew t w p name (as ++ vs) := by
  intro vs
  induction vs with
  | nil => intro u as hr h; exact ⟨u, rfl, hr, by simpa using h⟩
  | cons v vs ih =>
    intro u as hr h
    obtain ⟨w, h1, h2⟩ := h.attr ht v
    obtain ⟨x, h3, h4, h5⟩ := ih (.step (op := .appendAttribute t.size v) hr trivial h1) h2
    refine ⟨x, ?_, h4, by simpa using h5⟩
    simp only [appendAttributes, bind, M.bind, h1, h3]

theorem appendNew_grew (ht : WF t) (hr : Reachable t) {p : Nat} (hp : p < t.size) (name : String) :
    ∃ u, appendNew p name t = (.ok t.size, u) ∧ Reachable u ∧ Grew t u p name [] := by
  obtain ⟨w, u, h1, h2, h3⟩ := grew ht hp name []
  have h4 : appendNew p name t = (.ok t.size, u) := by
    simp only [appendNew, bind, M.bind, h1, h2]; rfl
  refine ⟨u, h4, .step (op := .appendNew p name) hr trivial ?_, h3⟩
  simp only [run, done, M.bind, h4]
  rfl

/-- The nodes of a literal become the last children of the innermost open node. -/
theorem buildNodes_spine : ∀ (l : Lit) {t : Tree} {p : Nat} {is : List Nat} {m : Level} {ls : List Level}, WF t → Reachable t →
    Spine t (p :: is) (m :: ls) [] →
    ∃ u, buildNodes p l t = (.ok (), u) ∧ WF u ∧ Reachable u ∧ Spine u (p :: is) (⟨m.name, m.attrs, m.kids.append l.forest⟩ :: ls) [] := by
  -- a node with its attributes
  have key : ∀ (sub rest : Lit) (name : String) (vs : List AttrValue) {t : Tree} {p : Nat} {is : List Nat} {m : Level} {ls : List Level}, WF t → Reachable t →
      Spine t (p :: is) (m :: ls) [] →
      (∀ {t : Tree} {p : Nat} {is : List Nat} {m : Level} {ls : List Level}, WF t → Reachable t → Spine t (p :: is) (m :: ls) [] →
        ∃ u, buildNodes p sub t = (.ok (), u) ∧ WF u ∧ Reachable u ∧ Spine u (p :: is) (⟨m.name, m.attrs, m.kids.append sub.forest⟩ :: ls) []) →
      (∀ {t : Tree} {p : Nat} {is : List Nat} {m : Level} {ls : List Level}, WF t → Reachable t → Spine t (p :: is) (m :: ls) [] →
        ∃ u, buildNodes p rest t = (.ok (), u) ∧ WF u ∧ Reachable u ∧ Spine u (p :: is) (⟨m.name, m.attrs, m.kids.append rest.forest⟩ :: ls) []) →
      ∃ a b c d, appendNew p name t = (.ok t.size, a) ∧ appendAttributes t.size vs a = (.ok (), b) ∧ buildNodes t.size sub b = (.ok (), c) ∧
        buildNodes p rest c = (.ok (), d) ∧ WF d ∧ Reachable d ∧
        Spine d (p :: is) (⟨m.name, m.attrs, m.kids.append (.cons name vs sub.forest rest.forest)⟩ :: ls) [] := by
    intro sub rest name vs t p is m ls ht hr hs ih1 ih2
    obtain ⟨a, h1, h2, h3⟩ := appendNew_grew ht hr hs.1 name
    obtain ⟨b, g1, g2, g3⟩ := h3.attrsAll ht vs h2
    simp only [List.nil_append] at g3
    obtain ⟨c, i1, i2, i3, i4⟩ := ih1 g3.wf g2 (hs.push ht g3)
    obtain ⟨d, j1, j2, j3, j4⟩ := ih2 i2 i3 i4.pop
    refine ⟨a, b, c, d, h1, g1, i1, j1, j2, j3, ?_⟩
    have e : (m.kids.append (.cons name vs sub.forest .nil)).append rest.forest =
        m.kids.append (.cons name vs sub.forest rest.forest) := by
      generalize m.kids = F
      induction F with
      | nil => rfl
      | cons n as ch r _ ih => simp only [Forest.append]; rw [ih]
    rw [← e]
    exact j4
  intro l
  induction l with
  | nil =>
    intro t p is m ls ht hr hs
    refine ⟨t, rfl, ht, hr, ?_⟩
    have : m.kids.append Lit.nil.forest = m.kids := by
      generalize m.kids = F
      simp only [Lit.forest]
      induction F with
      | nil => rfl
      | cons n as ch r _ ih => simp only [Forest.append]; rw [ih]
    rw [this]; exact hs
  | comma rest ih => intro t p is m ls ht hr hs; exact ih ht hr hs
  | bare name sub rest ih1 ih2 =>
    intro t p is m ls ht hr hs
    obtain ⟨a, b, c, d, h1, h2, h3, h4, h5⟩ := key sub rest name [] ht hr hs ih1 ih2
    cases h2
    exact ⟨d, by simp only [buildNodes, bind, M.bind, h1, h3, h4], h5⟩
  | list name vs sub rest ih1 ih2 =>
    intro t p is m ls ht hr hs
    obtain ⟨a, b, c, d, h1, h2, h3, h4, h5⟩ := key sub rest name (vs.map RustVal.into) ht hr hs ih1 ih2
    exact ⟨d, by simp only [buildNodes, bind, M.bind, h1, h2, h3, h4], h5⟩
  | iter name vs sub rest ih1 ih2 =>
    intro t p is m ls ht hr hs
    obtain ⟨a, b, c, d, h1, h2, h3, h4, h5⟩ := key sub rest name vs ht hr hs ih1 ih2
    exact ⟨d, by simp only [buildNodes, bind, M.bind, h1, h2, h3, h4], h5⟩

theorem treeMacro_spec (l : Lit) :
    ∃ t, treeMacro l = (.ok (), t) ∧ WF t ∧ Reachable t ∧ Rep t t.root (.node "" [] l.forest.roses) := by
  obtain ⟨t, h1, h2, h3, h4⟩ := buildNodes_spine l (t := empty) (p := empty.root) (is := []) (m := ⟨"", [], .nil⟩) (ls := []) empty_wf .empty
    ⟨Nat.zero_lt_one, rfl, rfl, ⟨[], rfl, .nil⟩, rfl⟩
  refine ⟨t, h1, h2, h3, ?_⟩
  obtain ⟨g1, g2, g3, ⟨fin, g4, g5⟩, g6⟩ := h4
  simp only at g2 g3
  simp only [Spine] at g6
  have hroot : t.root = empty.root := by simpa using g6.symm
  rw [hroot, show ([] : List AttrValue) = (t.nodes empty.root).attrs from g3.symm]
  refine .mk g2 ?_
  rw [g4]
  simpa [Forest.append] using g5

end Tree

namespace Writer
variable {Z : Zlib}

theorem macroAttr_eq (v : AttrValue) : macroAttr Z v = append Z (appendOf v) := by cases v <;> rfl

theorem macroAttrs_eq (vs : List AttrValue) : macroAttrs Z vs = run Z ((vs.map appendOf).map Op.append) := by
  rw [run_attrs]
  induction vs with
  | nil => rfl
  | cons v vs ih => simp only [macroAttrs, appendAll, macroAttr_eq, ih]

/-- The macro makes the calls that write the document. -/
theorem writeMacro_eq (l : Lit) : writeMacro Z l = run Z (calls (l.forest.map appendOf)) := by
  induction l with
  | nil => rfl
  | comma rest ih => exact ih
  | bare name sub rest ih1 ih2 =>
    simp only [writeMacro, Lit.forest, Forest.map, calls, run, run_append, M.bind_assoc', ih1, ih2, exec, List.map_nil, M.pure_bind']
  | list name vs sub rest ih1 ih2 =>
    simp only [writeMacro, Lit.forest, Forest.map, calls, run, run_append, M.bind_assoc', ih1, ih2, exec, macroAttrs_eq]
  | iter name vs sub rest ih1 ih2 =>
    simp only [writeMacro, Lit.forest, Forest.map, calls, run, run_append, M.bind_assoc', ih1, ih2, exec, macroAttrs_eq]

theorem macroSession_eq (l : Lit) (s : Sink) (v : FbxVersion) (f : FooterSpec) :
    macroSession Z s v l f = session Z s v (calls (l.forest.map appendOf)) f := by
  unfold macroSession session
  rw [writeMacro_eq]
  rcases new s v with ⟨_ | _ | _, _⟩ <;> rfl

end Writer
end Fbx
