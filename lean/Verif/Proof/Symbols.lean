import Verif.Model.Symbols
import Verif.Proof.Size
import Verif.Proof.TreeLoad

/-! # The limit of the interner -/

namespace Fbx
open Spec

namespace Tree

theorem internWithin_eq {limit : Nat} {names : List String} (h : names.length < limit) (name : String) :
    internWithin limit names name = some (intern names name) := by
  unfold internWithin intern
  cases lookup names name with
  | some i => rfl
  | none => simp only [if_pos h]

theorem intern_len (names : List String) (name : String) : names.length ≤ (intern names name).2.length ∧ (intern names name).2.length ≤ names.length + 1 := by
  unfold intern
  split
  · exact ⟨Nat.le_refl _, by simp only; omega⟩
  · simp

/-- Where the limit shows. -/
theorem internWithin_cases (limit : Nat) (names : List String) (name : String) :
    internWithin limit names name = some (intern names name) ∧ ((intern names name).2.length ≤ limit ∨ (intern names name).2.length = names.length) ∨
    internWithin limit names name = none ∧ limit < (intern names name).2.length := by
  unfold internWithin intern
  cases lookup names name with
  | some i => exact .inl ⟨rfl, .inr rfl⟩
  | none =>
    simp only
    split
    · refine .inl ⟨rfl, .inl ?_⟩
      simp only [List.length_append, List.length_singleton]; omega
    · refine .inr ⟨rfl, ?_⟩
      simp only [List.length_append, List.length_singleton]; omega

theorem createWithin_eq {limit : Nat} {t : Tree} (h : t.names.length < limit) (name : String) (attrs : List AttrValue) :
    createWithin limit name attrs t = createWith name attrs t := by
  unfold createWithin createWith
  rw [internWithin_eq h]

theorem runWithin_eq {limit : Nat} {t : Tree} (h : t.names.length < limit) (op : TreeOp) : runWithin limit op t = run op t := by
  have hc := fun n => createWithin_eq (limit := limit) h n []
  cases op with
  | createNode n => simp only [runWithin, run, done, M.bind, createNode, hc]
  | appendNew p n => simp only [runWithin, run, done, M.bind, appendNew, appendNewWithin, bind, hc]
  | prependNew p n => simp only [runWithin, run, done, M.bind, prependNew, prependNewWithin, bind, hc]
  | insertNewAfter b n =>
    simp only [runWithin, run, done, M.bind, insertNewAfter, insertNewAfterWithin, bind, assertNotRoot]
    by_cases hb : b = t.root
    · simp only [if_pos hb]
    · simp only [if_neg hb, hc]
  | insertNewBefore b n =>
    simp only [runWithin, run, done, M.bind, insertNewBefore, insertNewBeforeWithin, bind, assertNotRoot]
    by_cases hb : b = t.root
    · simp only [if_pos hb]
    · simp only [if_neg hb, hc]
  | _ => rfl

/-! ## Names and nodes -/

theorem connect_same (a b c : Option Nat) (t : Tree) : (connect a b c t).names = t.names ∧ (connect a b c t).size = t.size := by
  unfold connect
  cases a <;> cases b <;> cases c <;> exact ⟨rfl, rfl⟩

theorem detachRaw_same (c : Nat) (t : Tree) : (detachRaw c t).names = t.names ∧ (detachRaw c t).size = t.size := by
  unfold detachRaw
  exact connect_same _ _ _ _

theorem insertWith_same {c : Nat} {p a b : Option Nat} {t u : Tree} {r : Res Empty Unit} (h : insertWith c p a b t = (r, u)) :
    u.names = t.names ∧ u.size = t.size := by
  unfold insertWith at h
  split at h
  · cases h; exact ⟨rfl, rfl⟩
  · simp only [Prod.mk.injEq] at h
    rw [← h.2]
    have h1 := connect_same p (some c) b (connect p a (some c) (t.upd c (fun n => { n with parent := p })))
    have h2 := connect_same p a (some c) (t.upd c (fun n => { n with parent := p }))
    exact ⟨h1.1.trans h2.1, h1.2.trans h2.2⟩

theorem appendRaw_same {c p : Nat} {t u : Tree} {r : Res Empty Unit} (h : appendRaw c p t = (r, u)) : u.names = t.names ∧ u.size = t.size := by
  unfold appendRaw at h
  simp only [bind, M.bind, checkChild, M.modify, M.get] at h
  split at h
  · rename_i heq
    split at heq
    · cases heq
    · split at heq
      · cases heq
      · cases heq
        have h1 := insertWith_same h
        have h2 := detachRaw_same c t
        exact ⟨h1.1.trans h2.1, h1.2.trans h2.2⟩
  · rename_i heq
    cases h
    split at heq <;> try split at heq
    all_goals cases heq
  · rename_i heq
    cases h
    split at heq <;> try split at heq
    all_goals (cases heq; try exact ⟨rfl, rfl⟩)

/-- Not more names are added than nodes. -/
def Adds {β : Type} (m : TM β) : Prop := ∀ t, t.names.length ≤ (m t).2.names.length ∧ (m t).2.names.length + t.size ≤ t.names.length + (m t).2.size

theorem Adds.bind {β γ : Type} {m : TM β} {f : β → TM γ} (h : Adds m) (hf : ∀ a, Adds (f a)) : Adds (m >>= f) := by
  intro t
  have h1 := h t
  simp only [Bind.bind, M.bind]
  rcases hm : m t with ⟨a | e | x, u⟩
  · rw [hm] at h1
    have h2 := hf a u
    simp only at h1 ⊢
    omega
  · rw [hm] at h1; exact h1
  · rw [hm] at h1; exact h1

theorem Adds.pure {β : Type} (a : β) : Adds (Pure.pure a : TM β) := fun t => ⟨Nat.le_refl _, Nat.le_refl _⟩

theorem Adds.of_same {β : Type} {m : TM β} (h : ∀ t, (m t).2.names = t.names ∧ (m t).2.size = t.size) : Adds m := by
  intro t
  obtain ⟨h1, h2⟩ := h t
  rw [h1, h2]
  exact ⟨Nat.le_refl _, Nat.le_refl _⟩

theorem adds_modify {f : Tree → Tree} (h : ∀ t, (f t).names = t.names ∧ (f t).size = t.size) : Adds (M.modify f) := .of_same h

theorem adds_insertWith (c : Nat) (p a b : Option Nat) : Adds (insertWith c p a b) := .of_same fun _ => insertWith_same rfl

theorem adds_checkChild (c p : Nat) : Adds (checkChild c p) := .of_same fun t => by
  unfold checkChild
  split
  · exact ⟨rfl, rfl⟩
  · split <;> exact ⟨rfl, rfl⟩

theorem adds_checkSibling (c p : Nat) : Adds (checkSibling c p) := .of_same fun t => by
  unfold checkSibling
  split
  · exact ⟨rfl, rfl⟩
  · split <;> exact ⟨rfl, rfl⟩

theorem adds_get : Adds (M.get : TM Tree) := .of_same fun _ => ⟨rfl, rfl⟩

theorem adds_raw (c p : Nat) : Adds (appendRaw c p) ∧ Adds (prependRaw c p) ∧ Adds (insertAfterRaw c p) ∧ Adds (insertBeforeRaw c p) := by
  refine ⟨?_, ?_, ?_, ?_⟩
  · exact (adds_checkChild c p).bind fun _ => (adds_modify (detachRaw_same c)).bind fun _ => adds_get.bind fun _ => adds_insertWith _ _ _ _
  · exact (adds_checkChild c p).bind fun _ => (adds_modify (detachRaw_same c)).bind fun _ => adds_get.bind fun _ => adds_insertWith _ _ _ _
  · exact (adds_checkSibling c p).bind fun _ => (adds_modify (detachRaw_same c)).bind fun _ => adds_get.bind fun _ => adds_insertWith _ _ _ _
  · exact (adds_checkSibling c p).bind fun _ => (adds_modify (detachRaw_same c)).bind fun _ => adds_get.bind fun _ => adds_insertWith _ _ _ _

theorem adds_create (name : String) (attrs : List AttrValue) : Adds (createWith name attrs) := by
  intro t
  have := intern_len t.names name
  simp only [createWith, newNode]
  omega

theorem adds_notRoot (i : Nat) : Adds (assertNotRoot i) := .of_same fun t => by
  unfold assertNotRoot
  split <;> exact ⟨rfl, rfl⟩

theorem adds_valid (i : Nat) : Adds (assertValid i) := .of_same fun t => by
  unfold assertValid
  split <;> exact ⟨rfl, rfl⟩

theorem Adds.done {β : Type} {m : TM β} (h : Adds m) : Adds (Tree.done m) := h.bind fun _ => .pure _

theorem adds_detach (c : Nat) : Adds (Tree.detach c) := .of_same fun t => by
  unfold Tree.detach
  split
  · exact ⟨rfl, rfl⟩
  · exact detachRaw_same c t

theorem adds_run (op : TreeOp) : Adds (run op) := by
  cases op with
  | createNode n => exact (adds_create n []).done
  | append c p => exact (adds_raw c p).1
  | prepend c p => exact (adds_raw c p).2.1
  | insertAfter c p => exact (adds_raw c p).2.2.1
  | insertBefore c p => exact (adds_raw c p).2.2.1
  | appendNew p n => exact Adds.done ((adds_create n []).bind fun i => (adds_raw i p).1.bind fun _ => .pure _)
  | prependNew p n => exact Adds.done ((adds_create n []).bind fun i => (adds_raw i p).2.1.bind fun _ => .pure _)
  | insertNewAfter b n => exact Adds.done ((adds_notRoot b).bind fun _ => (adds_create n []).bind fun i => (adds_raw i b).2.2.1.bind fun _ => .pure _)
  | insertNewBefore b n => exact Adds.done ((adds_notRoot b).bind fun _ => (adds_create n []).bind fun i => (adds_raw i b).2.2.2.bind fun _ => .pure _)
  | detach c => exact adds_detach c
  | appendAttribute i v => exact (adds_notRoot i).bind fun _ => (adds_valid i).bind fun _ => adds_modify fun _ => ⟨rfl, rfl⟩
  | setAttribute i k v =>
    refine Adds.done ((adds_valid i).bind fun _ => adds_get.bind fun _ => Adds.bind ?_ fun _ => .pure _)
    exact adds_modify fun _ => ⟨rfl, rfl⟩
  | takeAttributes i =>
    refine Adds.done ((adds_valid i).bind fun _ => adds_get.bind fun _ => Adds.bind ?_ fun _ => .pure _)
    exact adds_modify fun _ => ⟨rfl, rfl⟩
  | setAttributes i vs => exact (adds_valid i).bind fun _ => adds_modify fun _ => ⟨rfl, rfl⟩

theorem Reachable.names_le {t : Tree} (h : Reachable t) : t.names.length ≤ t.size := by
  induction h with
  | empty => exact Nat.le_refl _
  | step _ _ hr ih =>
    rename_i t u op _ _
    have := adds_run op t
    rw [hr] at this
    simp only at this
    omega

end Tree

namespace Load
open Tree
variable {Z : Zlib} {L limit : Nat}

theorem addNodeWithin_eq {s : St} (h : s.tree.names.length < limit) (parent : Nat) (name : String) :
    addNodeWithin limit Z parent name s = addNode Z parent name s := by
  unfold addNodeWithin addNode
  rw [internWithin_eq h]
  rfl

/-- One event. -/
theorem next_inv (hL : L + 2 ^ 32 ≤ 2 ^ 64) {p q : Parser} (hi : CInv L ⟨p, none⟩) {ev : Event} (h : Parser.nextEvent p = (.ok ev, q)) :
    CInv L ⟨q, none⟩ ∧ q.reader.rest.length ≤ p.reader.rest.length := by
  obtain ⟨a, hc⟩ : ∃ a, (⟨p, none⟩ : Client).call Zlib.stored (.next : Call AttrValue) = some (.event ev, ⟨q, a⟩) := by
    simp only [Client.call, h]
    exact ⟨_, rfl⟩
  have hd := call_did hL hi hc
  have hi' := hd.inv hi (fun _ => nofun)
  exact ⟨⟨hi'.parser, hi'.last, hi'.fin, fun _ h => by cases h⟩, (hd.moves (fun _ => nofun)).len_le⟩

theorem start_inv (hL : L + 2 ^ 32 ≤ 2 ^ 64) {p q : Parser} (hi : CInv L ⟨p, none⟩) {name : String} {n : Nat} (h : Parser.nextEvent p = (.ok (.startNode name n), q)) :
    CInv L ⟨q, attrsOf q⟩ ∧ q.reader.rest.length + 13 ≤ p.reader.rest.length := by
  have hc : (⟨p, none⟩ : Client).call Zlib.stored (.next : Call AttrValue) = some (.event (.startNode name n), ⟨q, attrsOf q⟩) := by
    simp only [Client.call, h]
  have hr : Runs Zlib.stored ⟨p, none⟩ ([] ++ [(.next, .event (.startNode name n))] : History AttrValue) _ := .snoc .nil (by simp) hc
  have hcalm : History.calm ([] ++ [(.next, .event (.startNode name n))] : History AttrValue) := by
    intro c x hm
    simp at hm
  refine ⟨hr.inv hL hi hcalm, ?_⟩
  have := hr.names hL hi hcalm
  simp only [List.nil_append, namesOf, List.filterMap_cons, List.filterMap_nil, List.map_cons, List.map_nil, List.sum_cons, List.sum_nil, nodeSize] at this
  split at this <;> omega

theorem collect_inv (hL : L + 2 ^ 32 ≤ 2 ^ 64) : ∀ (n : Nat) (acc : List AttrValue) (a b : AP) (vs : List AttrValue), CInv L ⟨a.parser, some a.attrs⟩ →
    collectAttrs Z n acc a = (.ok vs, b) → CInv L ⟨b.parser, some b.attrs⟩ ∧ b.parser.reader.rest.length ≤ a.parser.reader.rest.length
  | 0, _, a, b, vs, hi, h => by cases h; exact ⟨hi, Nat.le_refl _⟩
  | n + 1, acc, a, b, vs, hi, h => by
    unfold collectAttrs at h
    rw [M.bind_apply] at h
    rcases hl : AP.load Z false directLoader a with ⟨x | x | x, c⟩
    · rw [hl] at h
      have key : ∀ o : Outcome AttrValue, (∀ x, o ≠ .panic x) → (⟨a.parser, some a.attrs⟩ : Client).call Z (.load false directLoader) = some (o, ⟨c.parser, some c.attrs⟩) →
          CInv L ⟨c.parser, some c.attrs⟩ ∧ c.parser.reader.rest.length ≤ a.parser.reader.rest.length := fun o ho hc => by
        have hd := call_did hL hi hc
        exact ⟨hd.inv hi ho, (hd.moves ho).len_le⟩
      cases x with
      | none =>
        cases h
        exact key .noValue (fun _ => nofun) (by simp only [Client.call, hl])
      | some v =>
        obtain ⟨k1, k2⟩ := key (.value v) (fun _ => nofun) (by simp only [Client.call, hl])
        obtain ⟨k3, k4⟩ := collect_inv hL n _ _ _ _ k1 h
        exact ⟨k3, by omega⟩
    · rw [hl] at h; cases h
    · rw [hl] at h; cases h

theorem cinv_plain {s : Client} (h : CInv L s) : CInv L ⟨s.parser, none⟩ := ⟨h.parser, h.last, h.fin, fun _ h => by cases h⟩

/-- What a node that was added adds. -/
theorem addNode_names (hL : L + 2 ^ 32 ≤ 2 ^ 64) {s s' : St} {parent id : Nat} {name : String} (hi : CInv L ⟨s.parser, attrsOf s.parser⟩)
    (h : addNode Z parent name s = (.ok id, s')) :
    CInv L ⟨s'.parser, none⟩ ∧ s'.parser.reader.rest.length ≤ s.parser.reader.rest.length ∧ s'.tree.names = (intern s.tree.names name).2 := by
  unfold addNode at h
  simp only at h
  split at h
  · cases h
  · cases h
  · rename_i ap hap
    split at h
    · cases h
    · cases h
    · rename_i attrs ap' hc
      split at h
      · rename_i tree' ha
        cases h
        have hst : attrsOf s.parser = some ap.attrs ∧ ap.parser = s.parser := by
          unfold attrsOf
          rw [hap]
          refine ⟨rfl, ?_⟩
          unfold AP.ofParser at hap
          split at hap
          · cases hap
          · cases hap
            rfl
        rw [hst.1, ← hst.2] at hi
        obtain ⟨h1, h2⟩ := collect_inv hL _ _ _ _ _ hi hc
        rw [hst.2] at h2
        exact ⟨cinv_plain h1, h2, (appendRaw_same ha).1⟩
      · cases h
      · rename_i e _ _
        exact nomatch e

theorem loopWithin_eq (hL : L + 2 ^ 32 ≤ 2 ^ 64) : ∀ (n : Nat) (s : St), CInv L ⟨s.parser, none⟩ →
    13 * s.tree.names.length + s.parser.reader.rest.length ≤ 13 * limit + 12 → loopWithin limit Z n s = loop Z n s
  | 0, _, _, _ => rfl
  | n + 1, s, hi, hb => by
    simp only [loopWithin, loop]
    cases s.stack with
    | nil => rfl
    | cons top below =>
      simp only
      rcases hx : Parser.nextEvent s.parser with ⟨ev | e | x, q⟩
      · obtain ⟨i1, i2⟩ := next_inv hL hi hx
        cases ev with
        | startNode name k =>
          obtain ⟨k1, k2⟩ := start_inv hL hi hx
          simp only
          rw [addNodeWithin_eq (by simp only; omega)]
          rcases ha : addNode Z top name ⟨q, s.tree, top :: below⟩ with ⟨id | e | x, s'⟩
          · obtain ⟨j1, j2, j3⟩ := addNode_names hL k1 ha
            simp only
            have := (intern_len s.tree.names name).2
            refine loopWithin_eq hL n _ j1 ?_
            simp only at j2 j3 ⊢
            rw [j3]
            omega
          · rfl
          · rfl
        | endNode => exact loopWithin_eq hL n _ i1 (by simp only at i2 ⊢; omega)
        | endFbx f => rfl
      · rfl
      · rfl

theorem addNode_interns {s s' : St} {parent id : Nat} {name : String} (h : addNode Z parent name s = (.ok id, s')) :
    s'.tree.names = (intern s.tree.names name).2 := by
  unfold addNode at h
  simp only at h
  split at h
  · cases h
  · cases h
  · split at h
    · cases h
    · cases h
    · split at h
      · rename_i ha
        cases h
        exact (appendRaw_same ha).1
      · cases h
      · rename_i e _ _
        exact nomatch e

theorem addNodeWithin_cases (limit : Nat) (Z : Zlib) (parent : Nat) (name : String) (s : St) :
    addNodeWithin limit Z parent name s = addNode Z parent name s ∧
      ((intern s.tree.names name).2.length ≤ limit ∨ (intern s.tree.names name).2.length = s.tree.names.length) ∨
    addNodeWithin limit Z parent name s = (.panic .tooManyNames, s) ∧ limit < (intern s.tree.names name).2.length := by
  rcases internWithin_cases limit s.tree.names name with ⟨h, h'⟩ | ⟨h, h'⟩
  · refine .inl ⟨?_, h'⟩
    unfold addNodeWithin addNode
    rw [h]
    rfl
  · refine .inr ⟨?_, h'⟩
    unfold addNodeWithin
    rw [h]

theorem loop_mono : ∀ (n : Nat) (s s' : St) {f : Except PErr Footer}, loop Z n s = (.ok f, s') → s.tree.names.length ≤ s'.tree.names.length
  | 0, _, _, _, h => by cases h
  | n + 1, s, s', f, h => by
    unfold loop at h
    split at h
    · cases h
    · split at h
      · cases h
      · cases h
      · split at h
        · rename_i heq
          have h1 := addNode_interns heq
          have h2 := loop_mono n _ _ h
          simp only [h1] at h2
          exact Nat.le_trans (intern_len _ _).1 h2
        · cases h
        · cases h
      · have h2 := loop_mono n _ _ h
        exact h2
      · split at h
        · cases h; exact Nat.le_refl _
        · cases h

theorem loop_exact : ∀ (n : Nat) (s s' : St) {f : Except PErr Footer}, loop Z n s = (.ok f, s') → s.tree.names.length ≤ limit →
    (s'.tree.names.length ≤ limit → loopWithin limit Z n s = (.ok f, s')) ∧
    (limit < s'.tree.names.length → ∃ t, loopWithin limit Z n s = (.panic .tooManyNames, t))
  | 0, _, _, _, h, _ => by cases h
  | n + 1, s, s', f, h, hs => by
    simp only [loop] at h
    simp only [loopWithin]
    cases hst : s.stack with
    | nil => rw [hst] at h; cases h
    | cons top below =>
      rw [hst] at h
      simp only at h ⊢
      rcases hx : Parser.nextEvent s.parser with ⟨ev | e | x, q⟩
      · rw [hx] at h
        cases ev with
        | startNode name k =>
          simp only at h ⊢
          rcases ha : addNode Z top name ⟨q, s.tree, top :: below⟩ with ⟨id | e | x, s1⟩
          · rw [ha] at h
            simp only at h
            have h1 := addNode_interns ha
            simp only at h1
            have h2 := loop_mono n _ _ h
            simp only at h2
            rcases addNodeWithin_cases limit Z top name ⟨q, s.tree, top :: below⟩ with ⟨k1, k2⟩ | ⟨k1, k2⟩
            · rw [k1, ha]
              refine loop_exact n _ _ h ?_
              simp only at k2 ⊢
              rw [h1]
              omega
            · simp only at k2
              rw [← h1] at k2
              rw [k1]
              exact ⟨fun hc => by omega, fun _ => ⟨_, rfl⟩⟩
          · rw [ha] at h; cases h
          · rw [ha] at h; cases h
        | endNode => exact loop_exact n _ _ h hs
        | endFbx g =>
          simp only at h ⊢
          split at h
          · cases h
            rw [if_pos (by assumption)]
            exact ⟨fun _ => rfl, fun hc => absurd hc (Nat.not_lt.mpr hs)⟩
          · cases h
      · rw [hx] at h; cases h
      · rw [hx] at h; cases h

/-! ## The names in the interner are those of the nodes -/

/-- All names are in use. -/
def Used (t : Tree) : Prop := WF t ∧ ∀ x ∈ t.names, ∃ i, i < t.size ∧ t.name? i = some x

theorem addNode_used {parent : Nat} {name : String} {s s' : St} {id : Nat} (h : addNode Z parent name s = (.ok id, s')) (hu : Used s.tree) : Used s'.tree := by
  have hn := addNode_interns h
  unfold addNode at h
  simp only at h
  split at h
  · cases h
  · cases h
  · split at h
    · cases h
    · cases h
    · rename_i attrs ap' _
      by_cases hp : parent < s.tree.size
      · obtain ⟨w, u, h1, h2, h3⟩ := grew hu.1 hp name attrs
        have e : (newNode { s.tree with names := (intern s.tree.names name).2 } (intern s.tree.names name).1 attrs) = (s.tree.size, w) := by
          have := h1
          simp only [createWith] at this
          refine Prod.ext ?_ ?_
          · rfl
          · exact (Prod.mk.inj this).2
        rw [e] at h
        simp only [h2] at h
        cases h
        refine ⟨h3.wf, fun x hx => ?_⟩
        simp only at hn hx ⊢
        rw [hn] at hx
        have : x ∈ s.tree.names ∨ x = name := by
          unfold intern at hx
          split at hx
          · exact .inl hx
          · simpa using hx
        rw [h3.size]
        rcases this with hx | hx
        · obtain ⟨i, hi, hi'⟩ := hu.2 x hx
          exact ⟨i, by omega, by rw [h3.oldName i hi, hi']⟩
        · exact ⟨s.tree.size, by omega, by rw [h3.name, hx]⟩
      · exfalso
        have : ∀ c w, w.size = s.tree.size + 1 → c = s.tree.size → ∃ x, appendRaw c parent w = (.panic x, w) := by
          intro c w hw hc
          subst hc
          by_cases hb : parent = s.tree.size
          · subst hb
            simp only [appendRaw, bind, M.bind, checkChild]
            rw [if_neg (by omega), hw]
            simp only [hasAncestor, if_true]
            exact ⟨_, rfl⟩
          · simp only [appendRaw, bind, M.bind, checkChild]
            rw [if_pos (by omega)]
            exact ⟨_, rfl⟩
        obtain ⟨x, hx⟩ := this (newNode { s.tree with names := (intern s.tree.names name).2 } (intern s.tree.names name).1 attrs).1
          (newNode { s.tree with names := (intern s.tree.names name).2 } (intern s.tree.names name).1 attrs).2 rfl rfl
        rw [hx] at h
        cases h

theorem loop_used : ∀ (n : Nat) (s : St) {f : Except PErr Footer} {s' : St}, loop Z n s = (.ok f, s') → Used s.tree → Used s'.tree
  | 0, _, _, _, h, _ => by cases h
  | n + 1, s, f, s', h, hj => by
    unfold loop at h
    split at h
    · cases h
    · split at h
      · cases h
      · cases h
      · split at h
        · rename_i id t heq
          have hu : Used t.tree := by
            have := addNode_used heq
            exact this hj
          exact loop_used n _ h hu
        · cases h
        · cases h
      · exact loop_used n _ h hj
      · split at h
        · cases h; exact hj
        · cases h

theorem empty_used : Used Tree.empty := by
  refine ⟨empty_wf, fun x hx => ⟨0, by decide, ?_⟩⟩
  simp only [Tree.empty, List.mem_singleton] at hx
  subst hx
  rfl

theorem appendRaw_size {c p : Nat} {t u : Tree} {r : Res Empty Unit} (h : appendRaw c p t = (r, u)) : u.size = t.size := (appendRaw_same h).2

theorem addNode_adds {parent : Nat} {name : String} {s s' : St} {id : Nat} (h : addNode Z parent name s = (.ok id, s')) (hs : s.tree.names.length ≤ s.tree.size) :
    s'.tree.names.length ≤ s'.tree.size := by
  have hn := addNode_interns h
  have hl := (intern_len s.tree.names name).2
  unfold addNode at h
  simp only at h
  split at h
  · cases h
  · cases h
  · split at h
    · cases h
    · cases h
    · split at h
      · rename_i ha
        cases h
        have := appendRaw_size ha
        simp only [newNode] at this
        rw [hn]
        simp only
        omega
      · cases h
      · rename_i e _ _
        exact nomatch e

theorem loop_adds : ∀ (n : Nat) (s : St) {f : Except PErr Footer} {s' : St}, loop Z n s = (.ok f, s') → s.tree.names.length ≤ s.tree.size → s'.tree.names.length ≤ s'.tree.size
  | 0, _, _, _, h, _ => by cases h
  | n + 1, s, f, s', h, hj => by
    unfold loop at h
    split at h
    · cases h
    · split at h
      · cases h
      · cases h
      · split at h
        · rename_i id t heq
          have hu : t.tree.names.length ≤ t.tree.size := by
            have := addNode_adds heq
            exact this hj
          exact loop_adds n _ h hu
        · cases h
        · cases h
      · exact loop_adds n _ h hj
      · split at h
        · cases h; exact hj
        · cases h

end Load
end Fbx
