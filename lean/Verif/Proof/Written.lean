import Verif.Proof.Marked
import Verif.Proof.DraftLayout
import Verif.Spec.Written

/-! # The document a client has written, as the calls and their results tell it -/

namespace Fbx.Writer
open Spec
open Parser (marks marked markedFits planLoads LoadsWith)

/-- The bytes of an attribute. -/
def encLeaves (Z : Zlib) (x : Append × Bool) : Bytes := leaves Z x.1

/-- Whether a child was begun or refused is kept with the attributes. -/
def markFlag (as : List (Append × Bool)) : Bool := as.any (·.2)

/-- What is read of an attribute. -/
def viewFlag (x : Append × Bool) : DAttr := denote x.1

theorem marked_append {β : Type} (v : Nat) (enc : β → Bytes) (mark : List β → Bool) (F G : Forest β) : ∀ off,
    marked v enc mark (F.append G) off = marked v enc mark F off ++ marked v enc mark G (off + (marked v enc mark F off).length) := by
  induction F with
  | nil => intro off; simp [Forest.append, marked]
  | cons n as ch r _ ih =>
    intro off
    simp only [Forest.append, marked, ih, List.append_assoc, List.length_append, Writer.header_length]
    congr 6
    congr 1
    omega

theorem marker_if_length (v : Nat) (b : Bool) : (if b then marker v else []).length = if b then headerSize v else 0 := by
  split <;> simp [marker]

theorem markedFits_append {β : Type} (v : Nat) (enc : β → Bytes) (mark : List β → Bool) (F G : Forest β) : ∀ off,
    markedFits v enc mark F off → markedFits v enc mark G (off + (marked v enc mark F off).length) → markedFits v enc mark (F.append G) off := by
  induction F with
  | nil => intro off h1 h2; simpa [Forest.append, marked] using h2
  | cons n as ch r _ ih =>
    intro off h1 h2
    simp only [Forest.append, markedFits] at h1 ⊢
    obtain ⟨a, b, c, d, e⟩ := h1
    refine ⟨a, b, c, d, ih _ e ?_⟩
    simp only [marked, List.length_append, Writer.header_length, marker_if_length] at h2
    refine cast (congrArg _ ?_) h2
    omega

theorem map_append {α β : Type} (f : α → β) (F G : Forest α) : (F.append G).map f = (F.map f).append (G.map f) := by
  induction F with
  | nil => rfl
  | cons n as ch r _ ih => simp only [Forest.append, Forest.map, ih]

/-- What is kept of the nodes not yet closed. -/
def Holds (Z : Zlib) (v : Nat) (fin : Bytes) : List Unfinished → List Begun → Prop
  | [], [] => True
  | u :: us, n :: ns =>
    (u.name = utf8 n.name ∧ (utf8 n.name).length < 256 ∧ u.attrs = n.attrs.flatMap (leaves Z) ∧ u.count = n.attrs.length ∧
      ∃ C : Forest (Append × Bool), C.map Prod.fst = n.children ∧
        u.inner = marked v (encLeaves Z) markFlag C ((shownAfter v fin us).length + headerSize v + u.name.length + u.attrs.length) ∧
        markedFits v (encLeaves Z) markFlag C ((shownAfter v fin us).length + headerSize v + u.name.length + u.attrs.length) ∧
        (C.isNil = false → u.parent = true)) ∧ Holds Z v fin us ns
  | _, _ => False

/-- The draft is the document of the record. -/
structure Tells (Z : Zlib) (v : Nat) (d : Draft) (s : Record) : Prop where
  closed : ∃ F : Forest (Append × Bool), F.map Prod.fst = s.closed ∧
    d.finished = signature ++ le 4 v ++ marked v (encLeaves Z) markFlag F 27 ∧ markedFits v (encLeaves Z) markFlag F 27
  begun : Holds Z v d.finished d.unfinished s.open

theorem holds_becomesParent {Z : Zlib} {v : Nat} {fin : Bytes} : ∀ {us : List Unfinished} {ns : List Begun}, Holds Z v fin us ns →
    Holds Z v fin (becomesParent us) ns
  | [], [], h => h
  | u :: us, n :: ns, ⟨⟨h1, h2, h3, h4, C, h5, h6, h7, h8⟩, h9⟩ => ⟨⟨h1, h2, h3, h4, C, h5, h6, h7, fun _ => rfl⟩, h9⟩

theorem flatMap_flag (Z : Zlib) (as : List Append) (b : Bool) : (as.map (·, b)).flatMap (encLeaves Z) = as.flatMap (leaves Z) := by
  induction as with
  | nil => rfl
  | cons a as ih => simp only [List.map_cons, List.flatMap_cons, ih]; rfl

/-- A node that is closed. -/
theorem close_marked (Z : Zlib) (v : Nat) (fin : Bytes) (us : List Unfinished) (u : Unfinished) (n : Begun) (ns : List Begun)
    (h : Holds Z v fin (u :: us) (n :: ns)) :
    ∃ C : Forest (Append × Bool), C.map Prod.fst = n.children ∧
      (let mark := if u.parent ∨ u.count = 0 then marker v else []
       let eo := (shownAfter v fin (u :: us)).length + mark.length
       marked v (encLeaves Z) markFlag (.cons n.name (n.attrs.map (·, u.parent)) C .nil) (shownAfter v fin us).length =
        header v eo u.count u.attrs.length u.name.length ++ u.name ++ u.attrs ++ u.inner ++ mark ∧
       (eo < 2 ^ 64 → (v < 7500 → eo < 2 ^ 32) →
        markedFits v (encLeaves Z) markFlag (.cons n.name (n.attrs.map (·, u.parent)) C .nil) (shownAfter v fin us).length)) := by
  obtain ⟨⟨h1, h2, h3, h4, C, h5, h6, h7, h8⟩, h9⟩ := h
  refine ⟨C, h5, ?_⟩
  have hm : marks markFlag (n.attrs.map (·, u.parent)) C = decide (u.parent = true ∨ u.count = 0) := by
    rw [h4]
    cases hp : u.parent with
    | true =>
      cases hn : n.attrs with
      | nil => simp [marks]
      | cons a as => simp [marks, markFlag]
    | false =>
      have : C.isNil = true := by
        cases hc : C.isNil with
        | true => rfl
        | false => rw [hp] at h8; exact absurd (h8 hc) (by simp)
      cases hn : n.attrs with
      | nil => simp [marks]
      | cons a as => simp [marks, markFlag, this]
  have hl : (shownAfter v fin (u :: us)).length = (shownAfter v fin us).length + headerSize v + (utf8 n.name).length +
      (n.attrs.flatMap (leaves Z)).length + u.inner.length := by
    simp only [shownAfter, Unfinished.shown, List.length_append, Writer.header_length, h1, h3]; omega
  have hmk : (if marks markFlag (n.attrs.map (·, u.parent)) C = true then marker v else []) =
      (if u.parent = true ∨ u.count = 0 then marker v else []) := by
    rw [hm]; simp only [decide_eq_true_eq]
  rw [h1, h3] at h6 h7
  refine ⟨?_, fun g1 g2 => ?_⟩
  · simp only [marked, flatMap_flag, hmk, List.length_map, ← h6, List.append_nil]
    rw [hl, h1, h3, h4]
  · have hmk' : (if marks markFlag (n.attrs.map (·, u.parent)) C = true then headerSize v else 0) =
        (if u.parent = true ∨ u.count = 0 then marker v else []).length := by
      rw [← hmk]; split <;> simp [marker]
    simp only [markedFits, flatMap_flag, ← h6, hmk', and_true]
    rw [hl] at g1 g2
    exact ⟨h2, g1, g2, h7⟩

theorem shownAfter_length_cons (v : Nat) (fin : Bytes) (u : Unfinished) (us : List Unfinished) :
    (shownAfter v fin (u :: us)).length = (shownAfter v fin us).length + headerSize v + u.name.length + u.attrs.length + u.inner.length := by
  simp only [shownAfter, Unfinished.shown, List.length_append, Writer.header_length]; omega

/-- One call. -/
theorem act_tells {Z : Zlib} {v : Nat} {d : Draft} {s : Record} (h : Tells Z v d s) (hf : Fine d.unfinished) (o : Op)
    (ha : ∀ a, o = .append a → AliveOk true d) (hp : (d.file v).length + headerSize v < 2 ^ 64 ∨ o ≠ .closeNode) :
    Tells Z v (d.act Z v o).2 (s.note o (d.act Z v o).1) := by
  obtain ⟨fin, us, behind⟩ := d
  obtain ⟨cl, ns⟩ := s
  obtain ⟨⟨F, hF, hfin, hfit⟩, hb⟩ := h
  simp only at hF hfin hb hf
  cases o with
  | newNode name =>
    by_cases hl : 255 < (utf8 name).length
    · simp only [Draft.act, if_pos hl, Record.note]
      exact ⟨⟨F, hF, hfin, hfit⟩, holds_becomesParent hb⟩
    · simp only [Draft.act, if_neg hl, Record.note]
      exact ⟨⟨F, hF, hfin, hfit⟩, ⟨rfl, by show (utf8 name).length < 256; omega, rfl, rfl, .nil, rfl, rfl, trivial, fun h => by cases h⟩, holds_becomesParent hb⟩
  | append a =>
    obtain ⟨u, outer, hu, hpar⟩ := ha a rfl rfl
    simp only at hu
    subst hu
    cases ns with
    | nil => exact hb.elim
    | cons n ns =>
      obtain ⟨⟨h1, h2, h3, h4, C, h5, h6, h7, h8⟩, h9⟩ := hb
      have hC : C = .nil := by
        cases C with
        | nil => rfl
        | cons => rw [hpar] at h8; exact absurd (h8 rfl) (by simp)
      subst hC
      simp only [Draft.act, Record.note]
      refine ⟨⟨F, hF, hfin, hfit⟩, ⟨h1, h2, by simp [h3], by simp [h4], .nil, h5, ?_, trivial, fun h => by cases h⟩, h9⟩
      simpa [marked] using h6
  | closeNode =>
    cases us with
    | nil =>
      cases ns with
      | nil => exact ⟨⟨F, hF, hfin, hfit⟩, hb⟩
      | cons n ns => exact hb.elim
    | cons u outer =>
      cases ns with
      | nil => exact hb.elim
      | cons n ns =>
        have hp : (shownAfter v fin (u :: outer)).length + headerSize v < 2 ^ 64 := hp.resolve_right (by simp)
        obtain ⟨C, hC, hbytes, hfits⟩ := close_marked Z v fin outer u n ns hb
        have hml : (if u.parent = true ∨ u.count = 0 then marker v else []).length ≤ headerSize v := by split <;> simp [marker]
        generalize hm : (if u.parent = true ∨ u.count = 0 then marker v else []) = m at *
        simp only [Draft.act, hm]
        by_cases hbig : v < 7500 ∧ 2 ^ 32 ≤ (Draft.file v ⟨fin, u :: outer, behind⟩).length + m.length
        · rw [if_pos hbig]
          exact ⟨⟨F, hF, hfin, hfit⟩, hb.2⟩
        · rw [if_neg hbig]
          have hfits := hfits (by omega) (fun hv => by
            apply Nat.lt_of_not_le
            intro hge
            exact hbig ⟨hv, hge⟩)
          have hbytes : _ = header v ((Draft.file v ⟨fin, u :: outer, behind⟩).length + m.length) u.count u.attrs.length u.name.length ++
            u.name ++ u.attrs ++ u.inner ++ m := hbytes
          have hnew : (Forest.cons n.name (n.attrs.map (·, u.parent)) C .nil).map Prod.fst = .cons n.name n.attrs n.children .nil := by
            simp [Forest.map, hC, Function.comp_def]
          rw [← hbytes]
          have hrest := hb.2
          cases outer with
          | nil =>
            cases ns with
            | cons => exact hrest.elim
            | nil =>
              have hoff : (shownAfter v fin []).length = 27 + (marked v (encLeaves Z) markFlag F 27).length := by
                have : signature.length = 23 := by decide
                simp only [shownAfter, hfin, this, List.length_append, le_eq, leBytes_length]
              rw [hoff] at hfits ⊢
              refine ⟨⟨F.append (.cons n.name (n.attrs.map (·, u.parent)) C .nil), ?_, ?_, markedFits_append _ _ _ _ _ _ hfit hfits⟩, trivial⟩
              · rw [map_append, hF, hnew]; rfl
              · simp only [Draft.add, hfin, marked_append, List.append_assoc]
          | cons w outer =>
            cases ns with
            | nil => exact hrest.elim
            | cons m ns =>
              obtain ⟨⟨h1, h2, h3, h4, D, h5, h6, h7, h8⟩, h9⟩ := hrest
              have hoff := shownAfter_length_cons v fin w outer
              rw [h6] at hoff
              rw [hoff] at hfits ⊢
              refine ⟨⟨F, hF, hfin, hfit⟩, ⟨h1, h2, h3, h4, D.append (.cons n.name (n.attrs.map (·, u.parent)) C .nil), ?_, ?_,
                markedFits_append _ _ _ _ _ _ h7 hfits, fun _ => hf.nested w (by simp)⟩, h9⟩
              · rw [map_append, h5, hnew]
              · show w.inner ++ _ = marked v (encLeaves Z) markFlag (D.append _)
                  ((shownAfter v fin outer).length + headerSize v + w.name.length + w.attrs.length)
                rw [marked_append, ← h6]

/-- A whole history. -/
theorem results_tells (Z : Zlib) (v : FbxVersion) (ops : List Op) : ∀ (d : Draft) (alive : Bool) (s : Record), Fine d.unfinished →
    AliveOk alive d → (d.file v.toNat).length + (ops.map (need Z v.toNat)).sum < 2 ^ 64 → Tells Z v.toNat d s →
    ∀ rs t, results Z ⟨ofDraft v d, alive⟩ ops = some (rs, t) → Tells Z v.toNat (d.acts Z v.toNat ops).2 (s.notes (ops.zip rs)) := by
  induction ops with
  | nil =>
    intro d alive s _ _ _ hs rs t h
    exact hs
  | cons o os ih =>
    intro d alive s hf ha hr hs rs t h
    simp only [List.map_cons, List.sum_cons] at hr
    simp only [results] at h
    have key : ∀ (alive1 : Bool), Session.step Z ⟨ofDraft v d, alive⟩ o =
          some ((d.act Z v.toNat o).1, ⟨ofDraft v (d.act Z v.toNat o).2, alive1⟩) → Fine (d.act Z v.toNat o).2.unfinished →
        AliveOk alive1 (d.act Z v.toNat o).2 → ((d.act Z v.toNat o).2.file v.toNat).length ≤ (d.file v.toNat).length + need Z v.toNat o →
        (∀ a, o = .append a → AliveOk true d) →
        Tells Z v.toNat (d.acts Z v.toNat (o :: os)).2 (s.notes ((o :: os).zip rs)) := by
      intro alive1 hstep hf1 ha1 hl1 hal
      rw [hstep] at h
      simp only [Option.map_eq_some_iff, Prod.mk.injEq] at h
      obtain ⟨⟨rs1, t1⟩, h, rfl, rfl⟩ := h
      have hs1 := act_tells hs hf o hal (by
        by_cases ho : o = .closeNode
        · subst ho; left; simp only [need] at hr; omega
        · exact .inr ho)
      exact ih _ alive1 _ hf1 ha1 (by omega) hs1 rs1 t1 h
    cases o with
    | newNode name =>
      obtain ⟨h1, h2, h3, h4⟩ := newNode_draft Z v d hf name (by simp only [need] at hr; omega)
      exact key _ (by simp only [Session.step, exec, h1]; rfl) h2 h4 h3 (fun a h => by cases h)
    | append a =>
      cases alive with
      | false => simp [Session.step] at h
      | true =>
        obtain ⟨h1, h2, h3, h4⟩ := append_draft Z v d hf a ha (by simp only [need] at hr; omega)
        exact key _ (by simp only [Session.step, exec, h1, if_true]) h2 h4 h3 (fun _ _ => ha)
    | closeNode =>
      obtain ⟨h1, h2, h3⟩ := closeNode_draft Z v d hf (by simp only [need] at hr; omega)
      exact key false (by simp only [Session.step, exec, h1]) h2 (fun h => by cases h) h3 (fun a h => by cases h)

/-- The bytes and limits of an attribute that was appended successfully. -/
theorem succeeds_fits {Z : Zlib} {a : Append} (h : fails Z a = false) : attrFits Z (denote a) := by
  have hn := fails_none h
  have harr : ∀ {α : Type} (d : DAttr) (xs : List (Except WErr α)), arrayError Z d xs = none →
      arrayCount d.value < 2 ^ 32 ∧ (arrayPayload Z d).length < 2 ^ 32 := by
    intro α d xs h
    simp only [arrayError] at h
    split at h
    · cases h
    · split at h
      · rename_i hc
        simp only [lengthError] at h
        split at h
        · rename_i hl; exact ⟨hc, hl⟩
        · cases h
      · cases h
  have hlen : ∀ n, lengthError n = none → n < 2 ^ 32 := by
    intro n h
    simp only [lengthError] at h
    split at h
    · assumption
    · cases h
  have hor : ∀ (x y : Option WErr), x.or y = none → y = none := by intro x y h; cases x <;> simp_all
  cases a with
  | arrBool enc xs => exact harr _ _ hn
  | arrI32 enc xs => exact harr _ _ hn
  | arrI64 enc xs => exact harr _ _ hn
  | arrF32 enc xs => exact harr _ _ hn
  | arrF64 enc xs => exact harr _ _ hn
  | binary bs => exact hlen _ hn
  | string s => exact hlen _ hn
  | binaryReader cs e =>
    cases e with
    | none => exact hlen _ hn
    | some e => cases hn
  | binaryIter xs => exact hlen _ (hor _ _ hn)
  | stringIter xs => exact hlen _ (hor _ _ hn)
  | _ => trivial

theorem leaves_intact {Z : Zlib} {a : Append} (h : fails Z a = false) (hi : intact a) : leaves Z a = attrBytes Z (denote a) := by
  rw [leaves_produced Z a h, produced_intact Z a hi]
  rfl

theorem prudent_loads {Z : Zlib} (hZ : Z.Lawful) {α : Type} (buffered : Bool) (plan : Nat → String → Nat → List (Loader α))
    (F : Forest (Append × Bool)) : ∀ k, prudent Z plan (F.map Prod.fst) k → planLoads Z buffered (encLeaves Z) viewFlag plan F k := by
  induction F with
  | nil => intro k _; trivial
  | cons name as ch r ih1 ih2 =>
    intro k h
    simp only [Forest.map, prudent, List.length_map, Forest.count_map] at h
    obtain ⟨h1, h2, h3⟩ := h
    refine ⟨?_, ih1 _ h2, ih2 _ h3⟩
    intro vals hv p t n r hs hf hsk hh hc htop hrest
    obtain ⟨j, j1, -, j2⟩ := Parser.withAttrs_each buffered (encLeaves Z) viewFlag (plan k name as.length) as p t vals n r hs hv hf (.inl hsk) hh hc htop
      (fun x hx => by
        have hg := h1 x.1 (by rw [← List.map_take]; exact List.mem_map_of_mem hx)
        intro l a t m g1 g2 g3 g4 g5 g6 g7 g8 g9
        have := AP.loadsOne_fine (α := α) buffered (denote x.1) (fun _ => hZ.roundtrip _) (succeeds_fits hg.1) l a t m g1 g2 g3 g4 g5 g6 g7 g8
          (by rw [← leaves_intact hg.1 hg.2]; exact g9)
        rw [← leaves_intact hg.1 hg.2] at this
        exact this) hrest
    exact ⟨j, j1, j2⟩

end Fbx.Writer
