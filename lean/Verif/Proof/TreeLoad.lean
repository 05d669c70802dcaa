import Verif.Proof.TreeWrite
import Verif.Proof.HistoryCounts
import Verif.Proof.ReadAttr

/-! # The tree loader is a client of the pull parser -/

namespace Fbx
open Spec

namespace Tree
variable {t u : Tree}

/-- `u` is `t` with one more node, the new last child of `p`. -/
structure Grew (t u : Tree) (p : Nat) (name : String) (attrs : List AttrValue) : Prop where
  wf : WF u
  size : u.size = t.size + 1
  root : u.root = t.root
  name : u.name? t.size = some name
  attrs : (u.nodes t.size).attrs = attrs
  leaf : u.children t.size = []
  parent : (u.nodes t.size).parent = some p
  oldName : ∀ i, i < t.size → u.name? i = t.name? i
  oldAttrs : ∀ i, i < t.size → (u.nodes i).attrs = (t.nodes i).attrs
  oldParent : ∀ i, i < t.size → (u.nodes i).parent = (t.nodes i).parent
  kids : u.children p = t.children p ++ [t.size]
  others : ∀ i, i < t.size → i ≠ p → u.children i = t.children i

theorem grew (h : WF t) {p : Nat} (hp : p < t.size) (name : String) (attrs : List AttrValue) :
    ∃ w u, createWith name attrs t = (.ok t.size, w) ∧ appendRaw t.size p w = (.ok (), u) ∧ Grew t u p name attrs := by
  obtain ⟨w, h1, h2, h3, h4, h5, h6, h7, h8, h9, h10, h11⟩ := createWith_wf h name attrs
  obtain ⟨v, g1, g2⟩ := appendRaw_wf h2 (c := t.size) (p := p) (by omega) (by omega) (Anc.fresh h2 (by omega) h10 (by omega) (by omega))
  rw [(h11 p hp).2.2, fresh_filter h hp] at g2
  refine ⟨w, v, h1, g1, g2.wf, by rw [g2.same.size, h3], by rw [g2.same.root, h4], by rw [g2.same.name?, h5], by rw [g2.same.attrs, h6], ?_, ?_, ?_, ?_, ?_, g2.kids p rfl, ?_⟩
  · rw [g2.others t.size (by omega) (by intro e; cases e; omega), h10]; rfl
  · rw [g2.parent, if_pos rfl]
  · intro i hi; rw [g2.same.name?, (h11 i hi).2.1]
  · intro i hi; rw [g2.same.attrs, (h11 i hi).1]
  · intro i hi; rw [g2.parent, if_neg (by omega), (h11 i hi).1]
  · intro i hi hne
    rw [g2.others i (by omega) (by intro e; cases e; exact hne rfl), (h11 i hi).2.2, fresh_filter h hi]

/-- Documents that do not contain `p` are not affected by a new child of `p`. -/
theorem Grew.rep {p : Nat} {name : String} {attrs : List AttrValue} (ht : WF t) (h : Grew t u p name attrs) :
    (∀ i r, Rep t i r → i < t.size → ¬ Anc t i p → Rep u i r) ∧
    ∀ is rs, RepList t is rs → (∀ i ∈ is, i < t.size ∧ ¬ Anc t i p) → RepList u is rs := by
  have h1 : ∀ {i name kids}, t.name? i = some name → ((∀ c ∈ t.children i, c < t.size ∧ ¬ Anc t c p) → RepList u (t.children i) kids) →
      i < t.size → ¬ Anc t i p → Rep u i (.node name (t.nodes i).attrs kids) := by
    intro i nm kids hn ih hi hna
    have hip : i ≠ p := by rintro rfl; exact hna .refl
    have := ih (fun c hc => ⟨ht.child_valid hi hc, fun ha => hna (Anc.trans (.step ((ht.mem_children (ht.child_valid hi hc) hi).mpr hc) .refl) ha)⟩)
    rw [← h.oldAttrs i hi]
    refine .mk (by rw [h.oldName i hi]; exact hn) ?_
    rw [h.others i hi hip]
    exact this
  constructor
  · intro i r hr
    refine Rep.rec (motive_1 := fun i r _ => i < t.size → ¬ Anc t i p → Rep u i r)
      (motive_2 := fun is rs _ => (∀ i ∈ is, i < t.size ∧ ¬ Anc t i p) → RepList u is rs) ?_ ?_ ?_ hr
    · intro i nm kids hn _ ih hi hna; exact h1 hn ih hi hna
    · intro _; exact .nil
    · intro i is r rs _ _ ih1 ih2 ha
      exact .cons (ih1 (ha i (by simp)).1 (ha i (by simp)).2) (ih2 (fun j hj => ha j (by simp [hj])))
  · intro is rs hr
    refine RepList.rec (motive_1 := fun i r _ => i < t.size → ¬ Anc t i p → Rep u i r)
      (motive_2 := fun is rs _ => (∀ i ∈ is, i < t.size ∧ ¬ Anc t i p) → RepList u is rs) ?_ ?_ ?_ hr
    · intro i nm kids hn _ ih hi hna; exact h1 hn ih hi hna
    · intro _; exact .nil
    · intro i is r rs _ _ ih1 ih2 ha
      exact .cons (ih1 (ha i (by simp)).1 (ha i (by simp)).2) (ih2 (fun j hj => ha j (by simp [hj])))

/-- An open node: its name, its attributes and the children completed so far. -/
structure Level where
  name : String
  attrs : List AttrValue
  kids : Forest AttrValue

/-- The open nodes, innermost first, and their completed children; `inner` is the open child of the innermost node of
the list, if any. -/
def Spine (t : Tree) : List Nat → List Level → (inner : List Nat) → Prop
  | [], [], inner => inner = [t.root]
  | i :: is, l :: ls, inner =>
    i < t.size ∧ t.name? i = some l.name ∧ (t.nodes i).attrs = l.attrs ∧
    (∃ fin, t.children i = fin ++ inner ∧ RepList t fin l.kids.roses) ∧ Spine t is ls [i]
  | _, _, _ => False

/-- A new child of the innermost open node leaves the outer ones as they are. -/
theorem Spine.outer {p : Nat} {name : String} {attrs : List AttrValue} (ht : WF t) (h : Grew t u p name attrs) :
    ∀ {is : List Nat} {ls : List Level} {c : Nat}, Spine t is ls [c] → c < t.size → Anc t c p → Spine u is ls [c] := by
  intro is
  induction is with
  | nil =>
    intro ls c hs hc ha
    cases ls with
    | nil => simp only [Spine] at hs ⊢; rw [h.root]; exact hs
    | cons => exact hs
  | cons i is ih =>
    intro ls c hs hc ha
    cases ls with
    | nil => exact hs
    | cons l ls =>
      obtain ⟨h1, h2, h3, ⟨fin, h4, h5⟩, h6⟩ := hs
      have hpar : (t.nodes c).parent = some i := (ht.mem_children hc h1).mpr (by rw [h4]; simp)
      have hai : Anc t i p := Anc.trans (.step hpar .refl) ha
      have hip : i ≠ p := by
        rintro rfl
        obtain ⟨d, hd⟩ := ht.acyclic c hc
        exact hd.not_self ⟨i, hpar, ha⟩
      refine ⟨by rw [h.size]; omega, by rw [h.oldName i h1]; exact h2, by rw [h.oldAttrs i h1]; exact h3,
        ⟨fin, by rw [h.others i h1 hip]; exact h4, (h.rep ht).2 _ _ h5 ?_⟩, ih h6 h1 hai⟩
      intro j hj
      have hjm : j ∈ t.children i := by rw [h4]; simp [hj]
      have hjv := ht.child_valid h1 hjm
      refine ⟨hjv, fun haj => ?_⟩
      have hpj : (t.nodes j).parent = some i := (ht.mem_children hjv h1).mpr hjm
      obtain ⟨d, hd⟩ := ht.acyclic i h1
      have := Anc.unique haj ha (.step hpj hd) (.step hpar hd)
      subst this
      have hnd := ht.children_nodup h1
      rw [h4] at hnd
      exact (List.nodup_append.mp hnd).2.2 j hj j (by simp) rfl

/-- A node starts. -/
theorem Spine.push {p : Nat} {name : String} {attrs : List AttrValue} (ht : WF t) (h : Grew t u p name attrs)
    {is : List Nat} {l : Level} {ls : List Level} (hs : Spine t (p :: is) (l :: ls) []) :
    Spine u (t.size :: p :: is) (⟨name, attrs, .nil⟩ :: l :: ls) [] := by
  obtain ⟨h1, h2, h3, ⟨fin, h4, h5⟩, h6⟩ := hs
  refine ⟨by rw [h.size]; omega, h.name, h.attrs, ⟨[], by rw [h.leaf]; rfl, .nil⟩, by rw [h.size]; omega, by rw [h.oldName p h1]; exact h2,
    by rw [h.oldAttrs p h1]; exact h3, ⟨fin, ?_, (h.rep ht).2 _ _ h5 ?_⟩, Spine.outer ht h h6 h1 .refl⟩
  · rw [h.kids, h4]; simp
  · intro j hj
    have hjm : j ∈ t.children p := by rw [h4]; simp [hj]
    have hjv := ht.child_valid h1 hjm
    refine ⟨hjv, fun haj => ?_⟩
    have hpj : (t.nodes j).parent = some p := (ht.mem_children hjv h1).mpr hjm
    obtain ⟨d, hd⟩ := ht.acyclic j hjv
    exact hd.not_self ⟨p, hpj, haj⟩

theorem repList_append {as bs : List Nat} {rs ss : List Rose} (h : RepList t as rs) (g : RepList t bs ss) : RepList t (as ++ bs) (rs ++ ss) := by
  induction as generalizing rs with
  | nil => cases h; exact g
  | cons a as ih => cases h with | cons h1 h2 => exact .cons h1 (ih h2)

/-- A node ends. -/
theorem Spine.pop {i : Nat} {is : List Nat} {l m : Level} {ls : List Level} (hs : Spine t (i :: is) (l :: m :: ls) []) :
    Spine t is (⟨m.name, m.attrs, m.kids.append (.cons l.name l.attrs l.kids .nil)⟩ :: ls) [] := by
  obtain ⟨h1, h2, h3, ⟨fin, h4, h5⟩, h6⟩ := hs
  cases is with
  | nil => exact h6.elim
  | cons j is =>
    obtain ⟨g1, g2, g3, ⟨fin', g4, g5⟩, g6⟩ := h6
    refine ⟨g1, g2, g3, ⟨fin' ++ [i], by rw [g4]; simp, ?_⟩, g6⟩
    rw [Forest.roses_append]
    refine repList_append g5 (.cons ?_ .nil)
    rw [← h3]
    refine .mk h2 ?_
    rw [h4]; simpa using h5

end Tree

/-! ## What was seen -/

namespace Load
open Tree

open Forest (plain)

theorem events_append (F G : Forest DAttr) : events (F.append G) = events F ++ events G := by
  induction F with
  | nil => rfl
  | cons n as ch r _ ih => simp [Forest.append, events, ih]

theorem plain_append (F G : Forest AttrValue) : plain (F.append G) = (plain F).append (plain G) := by
  induction F with
  | nil => rfl
  | cons n as ch r _ ih => simp only [plain, Forest.append, Forest.map] at ih ⊢; rw [ih]

/-- The observations that lead to the given open nodes. -/
def trail : List Level → List (Obs AttrValue)
  | [] => []
  | l :: ls => trail ls ++ ((if ls.isEmpty then [] else [.start l.name l.attrs.length (l.attrs.map some)]) ++ events (plain l.kids))

theorem trail_push (name : String) (attrs : List AttrValue) (l : Level) (ls : List Level) :
    trail (⟨name, attrs, .nil⟩ :: l :: ls) = trail (l :: ls) ++ [.start name attrs.length (attrs.map some)] := by
  simp [trail, plain, Forest.map, events]

theorem trail_pop (l m : Level) (ls : List Level) :
    trail (⟨m.name, m.attrs, m.kids.append (.cons l.name l.attrs l.kids .nil)⟩ :: ls) = trail (l :: m :: ls) ++ [.end] := by
  simp only [trail, plain_append, events_append]
  simp [plain, Forest.map, events]

/-! ## Attributes -/

variable {Z : Zlib} {L : Nat}

/-- Loading all attributes, as a client and as the loader does. -/
theorem collect_eq (hL : L + 2 ^ 32 ≤ 2 ^ 64) : ∀ (n : Nat) (acc : List AttrValue) (a : AP), AP.AInv L a → a.parser.health = .running → a.attrs.rest = n →
    match loadEach Z false (List.replicate n directLoader) a with
    | (.ok vs, b) => ∃ xs, vs = xs.map some ∧ xs.length = n ∧ collectAttrs Z (n + 1) acc a = (.ok (acc.reverse ++ xs), b) ∧
        Parser.Quiet a.parser b.parser ∧ Reader.RInv L b.parser.reader
    | (.err e, b) => collectAttrs Z (n + 1) acc a = (.err e, b)
    | (.panic _, _) => False := by
  intro n
  induction n with
  | zero =>
    intro acc a hi hr h0
    refine ⟨[], rfl, rfl, ?_, .refl _, hi.parser.reader⟩
    rw [collectAttrs, M.bind_apply, AP.load_none false directLoader a hr h0]
    simp
  | succ n ih =>
    intro acc a hi hr h0
    have hw := AP.wp_load (Z := Z) hL hi false directLoader
    simp only [M.wp] at hw
    rw [List.replicate_succ, loadEach, collectAttrs, M.bind_apply, M.bind_apply]
    rcases hx : AP.load Z false directLoader a with ⟨x, c⟩
    rw [hx] at hw
    cases x with
    | panic x => exact hw
    | err e => rfl
    | ok v =>
      cases v with
      | none =>
        have := hw.2.1
        omega
      | some v =>
        obtain ⟨-, q1, q2, q3, q4, q5⟩ := hw
        have := ih (v :: acc) c ⟨q1.inv hi.parser q4, by have := hi.rest; omega, q5⟩ (by rw [q1.health]; exact hr) (by omega)
        simp only [M.bind_apply]
        rcases hy : loadEach Z false (List.replicate n directLoader) c with ⟨y, d⟩
        rw [hy] at this
        cases y with
        | panic y => exact this
        | err e => exact this
        | ok vs =>
          obtain ⟨xs, rfl, hlen, hc, hq, hri⟩ := this
          refine ⟨v :: xs, rfl, by simp [hlen], ?_, q1.trans hq, hri⟩
          simp only [hc]
          simp

/-! ## The loop -/

theorem ofParser_emits {p q : Parser} {name : String} {n : Nat} (h : Parser.Emits p q (.startNode name n)) :
    AP.ofParser q = .ok ⟨q, ⟨n, n, q.reader.position⟩⟩ := by
  obtain ⟨r, hd, ae, outer, tl, -, -, -, -, -, -, -, -, hst, -⟩ := h.started
  simp only [AP.ofParser, hst]

theorem addNode_ok {s : St} {parent : Nat} {name : String} {ap b : AP} {attrs : List AttrValue} (ht : WF s.tree) (hp : parent < s.tree.size)
    (hof : AP.ofParser s.parser = .ok ap) (hc : collectAttrs Z (ap.attrs.rest + 1) [] ap = (.ok attrs, b)) :
    ∃ u, addNode Z parent name s = (.ok s.tree.size, { s with parser := b.parser, tree := u }) ∧ Grew s.tree u parent name attrs := by
  obtain ⟨w, u, h1, h2, h3⟩ := grew ht hp name attrs
  refine ⟨u, ?_, h3⟩
  have hw : w = (newNode { s.tree with names := (intern s.tree.names name).2 } (intern s.tree.names name).1 attrs).2 := by
    simp only [createWith, Prod.mk.injEq] at h1
    exact h1.2.symm
  subst hw
  have hid : (newNode { s.tree with names := (intern s.tree.names name).2 } (intern s.tree.names name).1 attrs).1 = s.tree.size := rfl
  simp only [addNode, hof, hc]
  rw [hid, h2]

/-- The outcome of the loader, given what the client sees who loads all attributes. -/
def Mirrors (Z : Zlib) (fuel : Nat) (s : St) (p0 : Parser) : Res PErr (List (Obs AttrValue)) × Parser → Prop
  | (.ok obs, q) => ∃ F footer t, obs = events (plain F) ++ [.fbx footer] ∧ loop Z fuel s = (.ok footer, ⟨q, t, []⟩) ∧
      WF t ∧ t.root = s.tree.root ∧ Rep t t.root (.node "" [] F.roses)
  | (.err e, q) => ∃ s', loop Z fuel s = (.err (.parser e), s') ∧ s'.parser = q
  | (.panic x, q) => ∃ s', loop Z fuel s = (.panic x, s') ∧ s'.parser = q ∧ x = .attrEndOverflow ∧ p0.checks = true ∧ ¬ p0.version < 7500

theorem loop_drive (hL : L + 2 ^ 32 ≤ 2 ^ 64) : ∀ (fuel k : Nat) (s : St) (ls : List Level) (p0 : Parser), CInv L ⟨s.parser, none⟩ → WF s.tree →
    Spine s.tree s.stack ls [] → ls.length = s.parser.depth + 1 → (ls.getLast?.map (fun l => (l.name, l.attrs))) = some ("", []) →
    2 * s.parser.reader.rest.length + s.parser.depth < fuel → (s.parser.checks = p0.checks ∧ s.parser.version = p0.version) →
    Mirrors Z fuel s p0 (drive Z false everything fuel k (trail ls) s.parser) := by
  intro fuel
  induction fuel with
  | zero => intro k s ls p0 _ _ _ _ _ h; omega
  | succ fuel ih =>
    intro k s ls p0 hi ht hs hlen hroot hf hp0
    obtain ⟨l, ls, rfl⟩ : ∃ l ls', ls = l :: ls' := by
      cases ls with
      | nil => simp at hlen
      | cons l ls => exact ⟨l, ls, rfl⟩
    obtain ⟨top, below, hst⟩ : ∃ top below, s.stack = top :: below := by
      cases h : s.stack with
      | nil => rw [h] at hs; exact hs.elim
      | cons a b => exact ⟨a, b, rfl⟩
    have hw := Parser.wp_nextEvent hL hi.parser hi.last
    simp only [M.wp] at hw
    rw [drive, M.bind_apply]
    rcases hx : Parser.nextEvent s.parser with ⟨x, q⟩
    rw [hx] at hw
    have hcall : ∀ ev, x = .ok ev → CInv L ⟨q, none⟩ := by
      intro ev hev
      subst hev
      have hc : ∃ a, Client.call (α := AttrValue) Z ⟨s.parser, none⟩ .next = some (.event ev, ⟨q, a⟩) := by
        simp only [Client.call, hx]
        exact ⟨_, rfl⟩
      obtain ⟨a, hc⟩ := hc
      have := (call_did hL hi hc).inv hi (by intro x h; cases h)
      exact ⟨this.parser, this.last, this.fin, by intro a h; cases h⟩
    cases x with
    | panic x =>
      obtain ⟨h1, h2, h3, h4⟩ := hw
      refine ⟨{ s with parser := q }, ?_, rfl, h2, hp0.1 ▸ h3, hp0.2 ▸ h4⟩
      simp only [loop, hst, hx]
    | err e =>
      refine ⟨{ s with parser := q }, ?_, rfl⟩
      simp only [loop, hst, hx]
    | ok ev =>
      obtain ⟨hrun, hem, hri⟩ := hw
      have hci := hcall ev rfl
      have hmv := hem.moves.len_le
      have hfr := hem.frame
      have hdep := hem.depth
      have hhe := hem.health
      cases ev with
      | startNode name n =>
        simp only [DepthChange] at hdep
        simp only [Bool.false_eq_true, if_false] at hhe
        have hof := ofParser_emits hem
        have hsh : q.reader.rest.length + 13 ≤ s.parser.reader.rest.length := by
          obtain ⟨r, hd, ae, outer, tl, hmo, -, -, -, -, hle, -, hqr, -⟩ := hem.started
          have := hmo.len_le
          have hw := (headWidth_le s.parser.version).2
          rw [hqr]
          simp only [Reader.consume, List.length_drop]
          omega
        have hai : AP.AInv L ⟨q, ⟨n, n, q.reader.position⟩⟩ := ⟨hci.parser, Nat.le_refl _, hri.1⟩
        have hcol := collect_eq (Z := Z) hL n [] _ hai (by rw [hhe]; exact hrun) rfl
        have hs' := hs
        rw [hst] at hs'
        simp only [withAttrs, hof, everything, M.bind_apply]
        rcases hy : loadEach Z false (List.replicate n directLoader) ⟨q, ⟨n, n, q.reader.position⟩⟩ with ⟨y, b⟩
        rw [hy] at hcol
        cases y with
        | panic y => exact hcol.elim
        | err e =>
          refine ⟨{ s with parser := b.parser }, ?_, rfl⟩
          simp only [loop, hst, hx, addNode, hof, hcol]
        | ok vs =>
          obtain ⟨xs, rfl, hxl, hco, hq, hbi⟩ := hcol
          obtain ⟨u, hadd, hg⟩ := addNode_ok (s := { s with parser := q }) (Z := Z) (name := name) ht hs'.1 hof hco
          have hnext := ih (k + 1) ⟨b.parser, u, s.tree.size :: top :: below⟩ (⟨name, xs, .nil⟩ :: l :: ls) p0
            ⟨hq.inv hci.parser hbi, by rw [hq.last, hq.health]; exact hci.last, by rw [hq.health, hq.started]; exact hci.fin, by intro a h; cases h⟩
            hg.wf (Spine.push ht hg hs')
            (by
              have : b.parser.depth = q.depth := by simp only [Parser.depth, hq.started]
              simp only [List.length_cons, this, hdep] at hlen ⊢; omega)
            (by simpa using hroot)
            (by
              have := hq.moves.len_le
              have h2 : b.parser.depth = q.depth := by simp only [Parser.depth, hq.started]
              simp only at this ⊢
              omega)
            ⟨by rw [hq.checks, hfr.2.1]; exact hp0.1, by rw [hq.version, hfr.1]; exact hp0.2⟩
          have hloop : loop Z (fuel + 1) s = loop Z fuel ⟨b.parser, u, s.tree.size :: top :: below⟩ := by
            simp only [loop, hst, hx]
            rw [hst] at hadd
            rw [hadd]
          rw [trail_push, hxl] at hnext
          simp only [Mirrors] at hnext ⊢
          rw [hloop]
          generalize drive Z false everything fuel (k + 1) _ b.parser = d at hnext ⊢
          have hur := hg.root
          obtain ⟨_ | _ | _, _⟩ := d
          · simp only at hnext ⊢; rw [← hur]; exact hnext
          · exact hnext
          · exact hnext
      | endNode =>
        simp only [DepthChange] at hdep
        obtain ⟨m, ls, rfl⟩ : ∃ m ls', ls = m :: ls' := by
          cases ls with
          | nil => simp only [List.length_cons, List.length_nil] at hlen; omega
          | cons m ls => exact ⟨m, ls, rfl⟩
        have hs' := hs
        rw [hst] at hs'
        have hnext := ih k ⟨q, s.tree, below⟩ (⟨m.name, m.attrs, m.kids.append (.cons l.name l.attrs l.kids .nil)⟩ :: ls) p0 hci ht hs'.pop
          (by simp only [List.length_cons] at hlen ⊢; omega)
          (by
            rw [List.getLast?_cons_cons] at hroot
            cases ls with
            | nil => simpa using hroot
            | cons => simpa using hroot)
          (by simp only; omega) ⟨by rw [hfr.2.1]; exact hp0.1, by rw [hfr.1]; exact hp0.2⟩
        have hloop : loop Z (fuel + 1) s = loop Z fuel ⟨q, s.tree, below⟩ := by
          simp only [loop, hst, hx]
        rw [trail_pop] at hnext
        simp only
        generalize drive Z false everything fuel k _ q = d at hnext ⊢
        simp only [Mirrors] at hnext ⊢
        rw [hloop]
        exact hnext
      | endFbx f =>
        simp only [DepthChange] at hdep
        have hls : ls = [] := by
          simp only [List.length_cons] at hlen
          exact List.eq_nil_of_length_eq_zero (by omega)
        subst hls
        have hs' := hs
        rw [hst] at hs'
        obtain ⟨h1, h2, h3, ⟨fin, h4, h5⟩, h6⟩ := hs'
        have hb : below = [] := by
          cases below with
          | nil => rfl
          | cons => exact h6.elim
        subst hb
        have htop : top = s.tree.root := by simpa [Spine] using h6
        simp only [List.getLast?_singleton, Option.map_some, Option.some.injEq, Prod.mk.injEq] at hroot
        refine ⟨l.kids, f, s.tree, ?_, ?_, ht, rfl, ?_⟩
        · simp [trail]
        · simp only [loop, hst, hx, if_true]
        · rw [← htop, ← hroot.2, ← h3, ← hroot.1]
          refine .mk h2 ?_
          rw [h4]; simpa using h5

end Load
end Fbx
