import Verif.Proof.TreeLoad
import Verif.Proof.TreeDoc

/-! # The loader leaves no node outside of the document -/

namespace Fbx
open Spec

namespace Tree
variable {t u : Tree}

/-- Every node but the root has a parent. -/
structure Joined (t : Tree) : Prop where
  wf : WF t
  parent : ∀ i, i < t.size → i ≠ t.root → ∃ p, (t.nodes i).parent = some p

theorem empty_joined : Joined Tree.empty := by
  refine ⟨empty_wf, fun i hi hr => ?_⟩
  have : i = 0 := by simp only [Tree.empty] at hi; omega
  subst this
  exact absurd rfl hr

theorem Grew.joined {p : Nat} {name : String} {attrs : List AttrValue} (g : Grew t u p name attrs) (h : Joined t) : Joined u := by
  refine ⟨g.wf, fun i hi hr => ?_⟩
  rw [g.size] at hi
  rw [g.root] at hr
  by_cases hl : i < t.size
  · rw [g.oldParent i hl]; exact h.parent i hl hr
  · have : i = t.size := by omega
    subst this
    exact ⟨p, g.parent⟩

theorem Joined.anc (h : Joined t) {i : Nat} (hi : i < t.size) : Anc t t.root i := by
  obtain ⟨n, hd⟩ := h.wf.acyclic i hi
  obtain ⟨ch, hl⟩ := h.wf.linked
  induction hd with
  | @top j hp =>
    by_cases hr : j = t.root
    · subst hr; exact .refl
    · obtain ⟨p, h2⟩ := h.parent j hi hr; rw [hp] at h2; cases h2
  | @step n j p hp _ ih => exact .step hp (ih (hl.parent_valid hi hp))

theorem le_nodup_length {l : List Nat} {n : Nat} (hl : ∀ x, x < n → x ∈ l) : n ≤ l.length := by
  have := (List.nodup_range (n := n)).length_le_of_subset (l₂ := l) (fun x hx => hl x (List.mem_range.mp hx))
  simpa using this

theorem Joined.count (h : Joined t) {r : Rose} (hr : Rep t t.root r) : t.size = Rose.count r := by
  refine Nat.le_antisymm ?_ (h.wf.count_le h.wf.root hr)
  obtain ⟨l, gl⟩ := h.wf.goodTour t.root h.wf.root
  rw [← rep_count.1 t.root r hr l gl.tour]
  exact le_nodup_length (fun j hj => mem_opens.mpr (gl.all j hj (h.anc hj)).1)

end Tree

namespace Load
open Tree

theorem addNode_joined {Z : Zlib} {parent : Nat} {name : String} {s s' : St} {id : Nat} (h : addNode Z parent name s = (.ok id, s'))
    (hj : Joined s.tree) : Joined s'.tree := by
  unfold addNode at h
  simp only at h
  split at h
  · cases h
  · cases h
  · split at h
    · cases h
    · cases h
    · rename_i attrs ap' _
      by_cases hp : parent < s.tree.size
      · obtain ⟨w, u, h1, h2, h3⟩ := grew hj.wf hp name attrs
        have e : (newNode { s.tree with names := (intern s.tree.names name).2 } (intern s.tree.names name).1 attrs) = (s.tree.size, w) := by
          have := h1
          simp only [createWith] at this
          refine Prod.ext ?_ ?_
          · rfl
          · exact (Prod.mk.inj this).2
        rw [e] at h
        simp only [h2] at h
        cases h
        exact h3.joined hj
      · exfalso
        have : ∀ c w, w.size = s.tree.size + 1 → c = s.tree.size → ∃ x, appendRaw c parent w = (.panic x, w) := by
          intro c w hw hc
          subst hc
          by_cases hb : parent = s.tree.size
          · subst hb
            simp only [appendRaw, bind, M.bind, checkChild]
            rw [if_neg (by omega), hw]
            simp only [hasAncestor, if_true]
            exact ⟨_, rfl⟩
          · simp only [appendRaw, bind, M.bind, checkChild]
            rw [if_pos (by omega)]
            exact ⟨_, rfl⟩
        obtain ⟨x, hx⟩ := this (newNode { s.tree with names := (intern s.tree.names name).2 } (intern s.tree.names name).1 attrs).1
          (newNode { s.tree with names := (intern s.tree.names name).2 } (intern s.tree.names name).1 attrs).2 rfl rfl
        rw [hx] at h
        cases h

theorem loop_joined {Z : Zlib} : ∀ (n : Nat) (s : St) {f : Except PErr Footer} {s' : St}, loop Z n s = (.ok f, s') → Joined s.tree → Joined s'.tree
  | 0, _, _, _, h, _ => by cases h
  | n + 1, s, f, s', h, hj => by
    unfold loop at h
    split at h
    · cases h
    · split at h
      · cases h
      · cases h
      · split at h
        · rename_i id t heq
          have hj' : Joined t.tree := addNode_joined heq hj
          exact loop_joined n _ h hj'
        · cases h
        · cases h
      · exact loop_joined n _ h hj
      · split at h
        · cases h; exact hj
        · cases h

/-- Every node of a loaded tree belongs to its document. -/
theorem load_joined {Z : Zlib} {p q : Parser} {t : Tree} {f : Except PErr Footer} (h : load Z p = (.ok (t, f), q)) : Joined t := by
  unfold load at h
  split at h
  · cases h
  · split at h
    · rename_i heq
      cases h
      exact loop_joined _ _ heq empty_joined
    · cases h
    · cases h

end Load
end Fbx
