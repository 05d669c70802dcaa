import Verif.Spec.Debug
import Verif.Proof.TreeDoc

/-! # The text written by `debug_tree` is the text of the document -/

namespace Fbx
namespace Debug

variable {S : Shows} {alt : Bool} {t : Tree}

mutual
/-- What is printed for a document. -/
def rose (S : Shows) (alt : Bool) : Rose → Text
  | .node name attrs kids => struct alt ['N', 'o', 'd', 'e']
      [(['n', 'a', 'm', 'e'], S.str name),
       (['a', 't', 't', 'r', 'i', 'b', 'u', 't', 'e', 's'], list alt (attrs.map (attr S alt))),
       (['c', 'h', 'i', 'l', 'd', 'r', 'e', 'n'], list alt (roses S alt kids))]
/-- The same for lists. -/
def roses (S : Shows) (alt : Bool) : List Rose → List Text
  | [] => []
  | k :: ks => rose S alt k :: roses S alt ks
end

theorem node_rose {i : Nat} {r : Rose} (h : Tree.Rep t i r) : ∀ fuel, Rose.count r ≤ fuel → node S alt t fuel i = some (rose S alt r) := by
  refine Tree.Rep.rec (motive_1 := fun i r _ => ∀ fuel, Rose.count r ≤ fuel → node S alt t fuel i = some (rose S alt r))
    (motive_2 := fun is rs _ => ∀ fuel, (rs.map Rose.count).sum ≤ fuel → all (is.map (node S alt t fuel)) = some (roses S alt rs)) ?_ ?_ ?_ h
  · intro i name kids hn hk ih fuel hf
    rw [Tree.count_node] at hf
    cases fuel with
    | zero => omega
    | succ fuel =>
      simp only [node, hn, ih fuel (by omega), rose]
  · intro fuel _; simp only [List.map_nil, all, roses]
  · intro i is r rs _ _ ih1 ih2 fuel hf
    simp only [List.map_cons, List.sum_cons] at hf
    simp only [List.map_cons, ih1 fuel (by omega), all, ih2 fuel (by omega), Option.map_some, roses]

theorem tree_rose {r : Rose} (h : Tree.WF t) (hr : Tree.Rep t t.root r) : tree S alt t = some (rose S alt r) :=
  node_rose hr _ (h.count_le h.root hr)

/-! ## On one line -/

theorem entries_compact (has : Bool) (vs : List Text) :
    entries false has vs = (if has && !vs.isEmpty then [',', ' '] else []) ++ Spec.commas vs := by
  induction vs generalizing has with
  | nil => simp [entries, Spec.commas]
  | cons v vs ih =>
    cases vs with
    | nil => cases has <;> simp [entries, Spec.commas]
    | cons w ws =>
      rw [entries, ih true]
      cases has <;> simp [Spec.commas]

theorem list_compact (vs : List Text) : list false vs = Spec.brackets vs := by
  simp [list, entries_compact, Spec.brackets]

theorem int_decimal (i : Int) : int i = Spec.decimal i := rfl
theorem bool_truth (b : Bool) : bool b = Spec.truth b := by cases b <;> rfl
theorem map_truth (v : List Bool) : v.map bool = v.map Spec.truth := by
  apply List.map_congr_left; intro b _; exact bool_truth b

theorem attr_compact (v : AttrValue) : attr S false v = Spec.attrText S v := by
  cases v <;>
    simp [attr, tuple, Spec.attrText, Spec.contentText, Spec.kind, AttrValue.type_, Spec.content, list_compact, int_decimal, bool_truth, map_truth]

mutual
theorem rose_compact : ∀ r : Rose, rose S false r = Spec.docText S r
  | .node name attrs kids => by
    have h1 : attrs.map (attr S false) = attrs.map (Spec.attrText S) := by
      apply List.map_congr_left; intro b _; exact attr_compact b
    simp [rose, Spec.docText, struct, fields, list_compact, h1, roses_compact kids]
theorem roses_compact : ∀ rs : List Rose, roses S false rs = Spec.docTexts S rs
  | [] => by simp only [roses, Spec.docTexts]
  | k :: ks => by simp only [roses, Spec.docTexts, rose_compact k, roses_compact ks]
end

/-! ## On several lines -/

/-- Proper lines. -/
structure Good (ls : List Text) : Prop where
  ne : ls ≠ []
  line : ∀ l ∈ ls, '\n' ∉ l

/-- Lines, each with a line break at its end. -/
def unl (ls : List Text) : Text := (ls.map (· ++ ['\n'])).flatten

theorem unl_append (a b : List Text) : unl (a ++ b) = unl a ++ unl b := by simp [unl]

theorem lines_append (ls : List Text) (c : Text) : Spec.lines (ls ++ [c]) = unl ls ++ c := by
  induction ls with
  | nil => rfl
  | cons l ls ih =>
    cases ls with
    | nil => simp [Spec.lines, unl]
    | cons m ls => simp only [List.cons_append, Spec.lines]; rw [show m :: (ls ++ [c]) = (m :: ls) ++ [c] from rfl, ih]; simp [unl]

theorem pad_rest {l : Text} (h : '\n' ∉ l) (rest : Text) : pad false (l ++ '\n' :: rest) = l ++ '\n' :: pad true rest := by
  induction l with
  | nil => simp [pad]
  | cons c l ih =>
    have hc : c ≠ '\n' := fun e => h (by simp [e])
    simp only [List.cons_append, pad, Bool.false_eq_true, if_false, List.nil_append, beq_eq_false_iff_ne.mpr hc]
    rw [ih (fun hm => h (by simp [hm]))]

theorem pad_line {l : Text} (h : '\n' ∉ l) (rest : Text) :
    pad true (l ++ '\n' :: rest) = [' ', ' ', ' ', ' '] ++ l ++ '\n' :: pad true rest := by
  cases l with
  | nil => simp [pad]
  | cons c l =>
    have hc : c ≠ '\n' := fun e => h (by simp [e])
    simp only [List.cons_append, pad, if_true, beq_eq_false_iff_ne.mpr hc]
    rw [pad_rest (fun hm => h (by simp [hm]))]
    simp

theorem pad_item {ls : List Text} (h : Good ls) : pad true (Spec.lines ls ++ [',', '\n']) = unl (Spec.item ls) := by
  obtain ⟨hne, hl⟩ := h
  induction ls with
  | nil => exact absurd rfl hne
  | cons l ls ih =>
    have h1 := hl l (by simp)
    cases ls with
    | nil =>
      simp only [Spec.lines, Spec.item]
      have := pad_line (l := l ++ [',']) (by simp [h1]) []
      simp only [List.append_assoc, List.cons_append, List.nil_append] at this ⊢
      rw [this]
      simp [unl, pad]
    | cons m ls =>
      simp only [Spec.lines, Spec.item]
      have := pad_line h1 (Spec.lines (m :: ls) ++ [',', '\n'])
      simp only [List.append_assoc, List.cons_append, List.nil_append] at this ⊢
      rw [this, ih (by simp) (fun l hm => hl l (by simp [hm]))]
      simp [unl]

theorem entries_pretty (has : Bool) {items : List (List Text)} (h : ∀ ls ∈ items, Good ls) :
    entries true has (items.map Spec.lines) = (if has || items.isEmpty then [] else ['\n']) ++ unl (items.map Spec.item).flatten := by
  induction items generalizing has with
  | nil => simp [entries, unl]
  | cons ls items ih =>
    simp only [List.map_cons, entries, if_true, pad_item (h ls (by simp)), ih true (fun m hm => h m (by simp [hm])), List.flatten_cons, unl_append]
    cases has <;> simp

theorem good_item {ls : List Text} (h : ∀ l ∈ ls, '\n' ∉ l) : ∀ l ∈ Spec.item ls, '\n' ∉ l := by
  induction ls with
  | nil => simp [Spec.item]
  | cons l ls ih =>
    have h1 := h l (by simp)
    cases ls with
    | nil => simp [Spec.item, h1]
    | cons m ls =>
      have := ih (fun l hm => h l (by simp [hm]))
      simp only [Spec.item, List.mem_cons, forall_eq_or_imp]
      exact ⟨by simp [h1], this⟩

theorem good_block {o c : Text} {items : List (List Text)} (ho : '\n' ∉ o) (hc : '\n' ∉ c) (h : ∀ ls ∈ items, Good ls) :
    Good (Spec.block o c items) := by
  unfold Spec.block
  split
  · exact ⟨by simp, by simp [ho, hc]⟩
  · refine ⟨by simp, ?_⟩
    intro l hl
    simp only [List.mem_append, List.mem_flatten, List.mem_map, List.mem_singleton] at hl
    rcases hl with (rfl | ⟨x, ⟨y, hy, rfl⟩, hx⟩) | rfl
    · exact ho
    · exact good_item (h y hy).line l hx
    · exact hc

theorem good_labelled {lab : Text} {ls : List Text} (hl : '\n' ∉ lab) (h : ∀ l ∈ ls, '\n' ∉ l) : Good (Spec.labelled lab ls) := by
  cases ls with
  | nil => exact ⟨by simp [Spec.labelled], by simp [Spec.labelled, hl]⟩
  | cons l ls =>
    have h1 := h l (by simp)
    refine ⟨by simp [Spec.labelled], ?_⟩
    simp only [Spec.labelled, List.mem_cons, forall_eq_or_imp]
    exact ⟨by simp [hl, h1], fun m hm => h m (by simp [hm])⟩

theorem lines_labelled (lab : Text) (ls : List Text) : Spec.lines (Spec.labelled lab ls) = lab ++ ([':', ' '] ++ Spec.lines ls) := by
  cases ls with
  | nil => simp [Spec.labelled, Spec.lines]
  | cons l ls => cases ls <;> simp [Spec.labelled, Spec.lines]

theorem list_pretty {items : List (List Text)} (h : ∀ ls ∈ items, Good ls) :
    list true (items.map Spec.lines) = Spec.lines (Spec.block ['['] [']'] items) := by
  simp only [list, entries_pretty false h, Spec.block]
  cases items with
  | nil => rfl
  | cons a as =>
    simp only [Bool.false_or, List.isEmpty_cons, Bool.false_eq_true, if_false]
    rw [lines_append, unl_append]
    simp [unl]

theorem tuple_pretty {ls : List Text} (name : Text) (h : Good ls) :
    tuple true name (Spec.lines ls) = Spec.lines (Spec.block (name ++ ['(']) [')'] [ls]) := by
  simp only [tuple, if_true, pad_item h, Spec.block, List.isEmpty_cons, Bool.false_eq_true, if_false, lines_append, unl_append]
  simp [unl]

theorem toDigits_line (n : Nat) : '\n' ∉ Nat.toDigits 10 n := fun h => by
  have := Nat.isDigit_of_mem_toDigits (by omega) (by omega) h
  exact absurd this (by decide)

theorem decimal_line (i : Int) : '\n' ∉ Spec.decimal i := by
  unfold Spec.decimal
  split
  · simp [toDigits_line]
  · exact toDigits_line _

theorem truth_line (b : Bool) : '\n' ∉ Spec.truth b := by cases b <;> decide

theorem lines_one (x : Text) : Spec.lines [x] = x := rfl

theorem good_one {x : Text} (h : '\n' ∉ x) : Good [x] := ⟨by simp, by simpa using h⟩

theorem list_ones {α : Type} {f : α → Text} (v : List α) (h : ∀ a, '\n' ∉ f a) :
    Spec.lines (Spec.block ['['] [']'] ((v.map f).map (fun x => [x]))) = list true (v.map f) ∧
    Good (Spec.block ['['] [']'] ((v.map f).map (fun x => [x]))) := by
  have hg : ∀ ls ∈ (v.map f).map (fun x => [x]), Good ls := by
    intro ls hl
    simp only [List.mem_map] at hl
    obtain ⟨x, ⟨a, _, rfl⟩, rfl⟩ := hl
    exact good_one (h a)
  refine ⟨?_, good_block (by decide) (by decide) hg⟩
  rw [← list_pretty hg]
  simp [Spec.lines, Function.comp_def]

theorem kind_line (ty : AttrType) : '\n' ∉ Spec.kind ty ++ ['('] := by cases ty <;> decide

theorem content_lines (hS : Spec.OneLine S) (v : AttrValue) :
    Good (Spec.contentLines (Spec.content S v)) := by
  cases v with
  | bool v => exact good_one (truth_line v)
  | i16 v => exact good_one (decimal_line _)
  | i32 v => exact good_one (decimal_line _)
  | i64 v => exact good_one (decimal_line _)
  | f32 v => exact good_one (hS.f32 v)
  | f64 v => exact good_one (hS.f64 v)
  | string v => exact good_one (hS.str v)
  | arrBool v => exact (list_ones v truth_line).2
  | arrI32 v => exact (list_ones v (fun x => decimal_line _)).2
  | arrI64 v => exact (list_ones v (fun x => decimal_line _)).2
  | arrF32 v => exact (list_ones v hS.f32).2
  | arrF64 v => exact (list_ones v hS.f64).2
  | binary v => exact (list_ones v (fun x => decimal_line _)).2

theorem attr_good (hS : Spec.OneLine S) (v : AttrValue) : Good (Spec.attrLines S v) := by
  refine good_block (kind_line _) (by decide) ?_
  intro ls hl
  rw [List.mem_singleton] at hl
  rw [hl]
  exact content_lines hS v

theorem attr_pretty (hS : Spec.OneLine S) (v : AttrValue) : attr S true v = Spec.lines (Spec.attrLines S v) := by
  unfold Spec.attrLines
  rw [← tuple_pretty _ (content_lines hS v)]
  cases v with
  | bool v => simp only [attr, bool_truth]; rfl
  | i16 v => rfl
  | i32 v => rfl
  | i64 v => rfl
  | f32 v => rfl
  | f64 v => rfl
  | string v => rfl
  | arrBool v => simp only [Spec.content, Spec.contentLines, (list_ones v truth_line).1, attr, map_truth]; rfl
  | arrI32 v => simp only [Spec.content, Spec.contentLines, (list_ones v (fun x => decimal_line x.toInt)).1]; rfl
  | arrI64 v => simp only [Spec.content, Spec.contentLines, (list_ones v (fun x => decimal_line x.toInt)).1]; rfl
  | arrF32 v => simp only [Spec.content, Spec.contentLines, (list_ones v hS.f32).1]; rfl
  | arrF64 v => simp only [Spec.content, Spec.contentLines, (list_ones v hS.f64).1]; rfl
  | binary v => simp only [Spec.content, Spec.contentLines, (list_ones v (fun x => decimal_line x.toNat)).1]; rfl

theorem fields_pretty (has : Bool) {fs : List (Text × List Text)} (hl : ∀ f ∈ fs, '\n' ∉ f.1 ∧ Good f.2) :
    fields true has (fs.map (fun f => (f.1, Spec.lines f.2))) =
      (if has || fs.isEmpty then [] else [' ', '{', '\n']) ++ unl ((fs.map (fun f => Spec.labelled f.1 f.2)).map Spec.item).flatten := by
  induction fs generalizing has with
  | nil => simp [fields, unl]
  | cons f fs ih =>
    obtain ⟨h1, h2⟩ := hl f (by simp)
    have h3 := pad_item (good_labelled h1 h2.line)
    rw [lines_labelled] at h3
    simp only [List.append_assoc, List.cons_append, List.nil_append] at h3
    simp only [List.map_cons, fields, if_true, ih true (fun m hm => hl m (by simp [hm])), List.flatten_cons, unl_append,
      List.append_assoc, List.cons_append, List.nil_append, h3]
    cases has <;> simp

theorem struct_pretty (name : Text) {fs : List (Text × List Text)} (hne : fs ≠ []) (hl : ∀ f ∈ fs, '\n' ∉ f.1 ∧ Good f.2) :
    struct true name (fs.map (fun f => (f.1, Spec.lines f.2))) =
      Spec.lines (Spec.block (name ++ [' ', '{']) ['}'] (fs.map (fun f => Spec.labelled f.1 f.2))) := by
  simp only [struct, fields_pretty false hl, Spec.block]
  cases fs with
  | nil => exact absurd rfl hne
  | cons f fs =>
    simp only [Bool.false_or, List.map_cons, List.isEmpty_cons, Bool.false_eq_true, if_false, if_true]
    rw [lines_append, unl_append]
    simp [unl]

mutual
theorem rose_pretty (hS : Spec.OneLine S) : ∀ r : Rose, rose S true r = Spec.lines (Spec.docLines S r) ∧ Good (Spec.docLines S r)
  | .node name attrs kids => by
    have hk := roses_pretty hS kids
    have ha : ∀ ls ∈ attrs.map (Spec.attrLines S), Good ls := by
      intro ls h
      simp only [List.mem_map] at h
      obtain ⟨v, _, rfl⟩ := h
      exact attr_good hS v
    have ga := good_block (o := ['[']) (c := [']']) (by decide) (by decide) ha
    have gk := good_block (o := ['[']) (c := [']']) (by decide) (by decide) hk.2
    have e1 : attrs.map (attr S true) = (attrs.map (Spec.attrLines S)).map Spec.lines := by
      rw [List.map_map]
      apply List.map_congr_left; intro b _; exact attr_pretty hS b
    have hf : ∀ f ∈ [((['n', 'a', 'm', 'e'] : Text), [S.str name]),
        (['a', 't', 't', 'r', 'i', 'b', 'u', 't', 'e', 's'], Spec.block ['['] [']'] (attrs.map (Spec.attrLines S))),
        (['c', 'h', 'i', 'l', 'd', 'r', 'e', 'n'], Spec.block ['['] [']'] (Spec.docsLines S kids))], '\n' ∉ f.1 ∧ Good f.2 := by
      intro f hm
      simp only [List.mem_cons, List.not_mem_nil, or_false] at hm
      rcases hm with rfl | rfl | rfl
      · exact ⟨by simp, good_one (hS.str name)⟩
      · exact ⟨by simp, ga⟩
      · exact ⟨by simp, gk⟩
    have hp := struct_pretty ['N', 'o', 'd', 'e'] (by simp) hf
    constructor
    · simp only [rose, Spec.docLines, e1, hk.1, list_pretty ha, list_pretty hk.2]
      exact hp
    · simp only [Spec.docLines]
      refine good_block (by simp) (by decide) ?_
      intro ls h
      simp only [List.mem_cons, List.not_mem_nil, or_false] at h
      rcases h with rfl | rfl | rfl
      · exact good_labelled (by simp) (good_one (hS.str name)).line
      · exact good_labelled (by simp) ga.line
      · exact good_labelled (by simp) gk.line
theorem roses_pretty (hS : Spec.OneLine S) : ∀ rs : List Rose, roses S true rs = (Spec.docsLines S rs).map Spec.lines ∧ ∀ ls ∈ Spec.docsLines S rs, Good ls
  | [] => by simp [roses, Spec.docsLines]
  | k :: ks => by
    have h1 := rose_pretty hS k
    have h2 := roses_pretty hS ks
    simp only [roses, Spec.docsLines, List.map_cons, h1.1, h2.1, true_and, List.mem_cons, forall_eq_or_imp]
    exact ⟨h1.2, h2.2⟩
end

end Debug
end Fbx
