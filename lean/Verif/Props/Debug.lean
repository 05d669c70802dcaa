import Verif.Proof.DebugInj
import Verif.Props.Tree

/-!
# C67: `debug_tree`
-/

namespace Fbx
open Tree

/-- **C67** (`{:?}`). `debug_tree` prints the document of the tree on one line: names, attributes and children of every node, in order. It
does not panic, and it ends. -/
theorem C67_text (S : Shows) {t : Tree} {r : Rose} (h : WF t) (hr : Rep t t.root r) : Debug.tree S false t = some (Spec.docText S r) := by
  rw [Debug.tree_rose h hr, Debug.rose_compact]

/-- **C67** (`{:#?}`). With `#` it prints the document with each value on its own line, four spaces for each level. -/
theorem C67_pretty {S : Shows} (hS : Spec.OneLine S) {t : Tree} {r : Rose} (h : WF t) (hr : Rep t t.root r) :
    Debug.tree S true t = some (Spec.lines (Spec.docLines S r)) := by
  rw [Debug.tree_rose h hr, (Debug.rose_pretty hS r).1]

/-- **C67** (total). It can be printed at any time, whatever calls have been made. -/
theorem C67_total (S : Shows) (alt : Bool) {t : Tree} (h : Reachable t) : ∃ text, Debug.tree S alt t = some text := by
  have hw := C43_reachable_well_formed h
  obtain ⟨r, hr⟩ := hw.rep _ hw.root
  exact ⟨_, Debug.tree_rose hw hr⟩

/-- **C67** (the text shows the document). Two trees print the same text exactly if their documents have the same names, the same structure and
the same attributes, up to floating point numbers that are shown alike. -/
theorem C67_shows {S : Shows} (hS : Spec.Readable S) {t u : Tree} {r s : Rose} (ht : WF t) (hu : WF u) (hr : Rep t t.root r)
    (hs : Rep u u.root s) : Debug.tree S false t = Debug.tree S false u ↔ Spec.AlikeDoc S r s := by
  rw [C67_text S ht hr, C67_text S hu hs, Option.some.injEq]
  constructor
  · intro h
    exact (Debug.doc_inj hS _ r s [] [] (Nat.le_refl _) (by rw [h])).1
  · exact Debug.alike_doc

/-- **C67** (`strict_eq`). Trees that are strictly equal print the same text in both formats, however they have been built. -/
theorem C67_strict_eq (S : Shows) (alt : Bool) {t u : Tree} (ht : WF t) (hu : WF u) (h : strictEq t u = .ok true) :
    Debug.tree S alt t = Debug.tree S alt u := by
  obtain ⟨r, hr⟩ := ht.rep _ ht.root
  obtain ⟨s, hs⟩ := hu.rep _ hu.root
  have := (C40_strict_eq ht hu hr hs).1.mp h
  subst this
  rw [Debug.tree_rose ht hr, Debug.tree_rose hu hs]

/-- **C67** (without floating point numbers). If no floating point numbers are shown alike, then trees print the same text on one line exactly if
they are strictly equal. -/
theorem C67_text_iff_strict_eq {S : Shows} (hS : Spec.Readable S) (h32 : ∀ x y, S.f32 x = S.f32 y → x = y) (h64 : ∀ x y, S.f64 x = S.f64 y → x = y)
    {t u : Tree} (ht : WF t) (hu : WF u) : Debug.tree S false t = Debug.tree S false u ↔ strictEq t u = .ok true := by
  refine ⟨?_, C67_strict_eq S false ht hu⟩
  obtain ⟨r, hr⟩ := ht.rep _ ht.root
  obtain ⟨s, hs⟩ := hu.rep _ hu.root
  rw [C67_shows hS ht hu hr hs, (C40_strict_eq ht hu hr hs).1]
  have ha : ∀ a b, Spec.alikeAttr S a b → a = b := by
    intro a b h
    cases a <;> cases b <;> simp only [Spec.alikeAttr, reduceCtorEq] at h <;> first
      | exact h
      | rw [h32 _ _ h]
      | rw [h64 _ _ h]
      | rw [Debug.map_inj h32 h]
      | rw [Debug.map_inj h64 h]
  have hl : ∀ l r, Spec.AlikeAttrs S l r → l = r := by
    intro l r h
    induction h with
    | nil => rfl
    | cons h _ ih => rw [ha _ _ h, ih]
  intro h
  refine Spec.AlikeDoc.rec (motive_1 := fun r s _ => r = s) (motive_2 := fun ks ms _ => ks = ms) ?_ ?_ ?_ h
  · intro n l r ks ms h1 _ h2; rw [hl _ _ h1, h2]
  · rfl
  · intro a b l r _ _ h1 h2; rw [h1, h2]

/-! ## Examples -/

/-- Strings in quotes, with quotes, backslashes and line breaks escaped. -/
def exQuote : List Char → Text
  | [] => ['"']
  | c :: cs => (if c = '"' then ['\\', '"'] else if c = '\\' then ['\\', '\\'] else if c = '\n' then ['\\', 'n'] else [c]) ++ exQuote cs

/-- Floating point numbers by their bits. -/
def exShows : Shows := ⟨fun s => '"' :: exQuote s.toList, fun x => Spec.decimal x.toNat, fun x => Spec.decimal x.toNat⟩

theorem exQuote_line (cs : List Char) : '\n' ∉ exQuote cs := by
  induction cs with
  | nil => decide
  | cons c cs ih =>
    simp only [exQuote, List.mem_append, not_or]
    refine ⟨?_, ih⟩
    split
    · decide
    · split
      · decide
      · split
        · decide
        · rename_i h; simpa [eq_comm] using h

theorem exQuote_inj (as bs : List Char) (x y : Text) (h : exQuote as ++ x = exQuote bs ++ y) : as = bs ∧ x = y := by
  induction as generalizing bs with
  | nil =>
    cases bs with
    | nil => simpa [exQuote] using h
    | cons b bs =>
      exfalso
      simp only [exQuote] at h
      repeat' split at h
      all_goals simp_all [eq_comm]
  | cons a as ih =>
    cases bs with
    | nil =>
      exfalso
      simp only [exQuote] at h
      repeat' split at h
      all_goals simp_all [eq_comm]
    | cons b bs =>
      have : a = b ∧ exQuote as ++ x = exQuote bs ++ y := by
        simp only [exQuote] at h
        repeat' split at h
        all_goals simp_all [eq_comm]
      obtain ⟨h1, h2⟩ := this
      obtain ⟨h3, h4⟩ := ih _ h2
      exact ⟨by rw [h1, h3], h4⟩

theorem exShows_oneLine : Spec.OneLine exShows where
  str s := by simp [exShows, exQuote_line]
  f32 x := Debug.decimal_line x.toNat
  f64 x := Debug.decimal_line x.toNat

theorem exShows_readable : Spec.Readable exShows where
  str a b x y h := by
    simp only [exShows, List.cons_append, List.cons.injEq, true_and] at h
    obtain ⟨h1, h2⟩ := exQuote_inj _ _ _ _ h
    exact ⟨String.toList_inj.mp h1, h2⟩
  f32 x := ⟨(Debug.decimal_plain x.toNat).ne, fun c hc => by
    have := (Debug.decimal_plain x.toNat).mem c hc; simp only [Debug.Stop, not_or] at this; exact this⟩
  f64 x := ⟨(Debug.decimal_plain x.toNat).ne, fun c hc => by
    have := (Debug.decimal_plain x.toNat).mem c hc; simp only [Debug.Stop, not_or] at this; exact this⟩

/-- Trees built in two ways. -/
def exShownA : Tree := (run (.appendNew 0 "E") (run (.appendNew 0 "A") Tree.empty).2).2
def exShownB : Tree := (run (.prependNew 0 "A") (run (.appendNew 0 "E") Tree.empty).2).2
example : Debug.tree exShows true exShownA = Debug.tree exShows true exShownB :=
  C67_strict_eq _ _ (C43_reachable_well_formed (.step (op := .appendNew 0 "E") (.step (op := .appendNew 0 "A") .empty trivial rfl) trivial rfl))
    (C43_reachable_well_formed (.step (op := .prependNew 0 "A") (.step (op := .appendNew 0 "E") .empty trivial rfl) trivial rfl)) (by decide)
/-- All NaNs may be shown alike. -/
example : Spec.alikeAttr { exShows with f32 := fun _ => ['N', 'a', 'N'] } (.f32 0x7fc00000#32) (.f32 0x7fc00001#32) := rfl
example : ¬ Spec.alikeAttr exShows (.i16 0#16) (.i32 0#32) := fun h => nomatch h

/-- A root with a node with two attributes. -/
def exShown : Tree := (run (.setAttributes 1 [.i16 (-5#16), .arrI32 [7#32, 10#32]]) (run (.appendNew 0 "A\n") Tree.empty).2).2

set_option maxRecDepth 10000 in
example : Debug.tree exShows false exShown = some
    "Node { name: \"\", attributes: [], children: [Node { name: \"A\\n\", attributes: [I16(-5), ArrI32([7, 10])], children: [] }] }".toList := by
  decide
set_option maxRecDepth 10000 in
example : Debug.tree exShows true exShown = some (
"Node {
    name: \"\",
    attributes: [],
    children: [
        Node {
            name: \"A\\n\",
            attributes: [
                I16(
                    -5,
                ),
                ArrI32(
                    [
                        7,
                        10,
                    ],
                ),
            ],
            children: [],
        },
    ],
}".toList) := by decide

end Fbx
