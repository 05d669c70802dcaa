import Verif.Proof.Dump
import Verif.Proof.ReadDocument

/-! # The outline of documents -/

namespace Fbx
open Reader Parser Spec
variable {Z : Zlib} {α : Type} {S : Dump.Shows}

/-- All attributes with one loader. -/
def allBy (l : Loader α) : Nat → String → Nat → List (Loader α) := fun _ _ n => List.replicate n l

/-- The lines of what a client sees. -/
def obsText (S : Dump.Shows) (text : α → Text) : List (Obs α) → (depth : Nat) → Text
  | [], _ => []
  | .start name _ vals :: os, depth =>
    outlineLine depth (startText S name) ++ ((vals.filterMap (Option.map text)).map (fun t => outlineLine (depth + 1) (attributeText t))).flatten ++
      obsText S text os (depth + 1)
  | .end :: os, depth => outlineLine (depth - 1) endText ++ obsText S text os (depth - 1)
  | .fbx _ :: os, depth => obsText S text os depth

/-- No end of the document. -/
def noEnd : Obs α → Bool
  | .fbx _ => false
  | _ => true

theorem readingFor_noEnd (m : Skipping) (e : Ending) (checks b : Bool) (plan : Nat → String → Nat → List (Loader α)) : ∀ (n k : Nat) (a : Ahead),
    ∀ o ∈ (readingFor Z m e checks b plan n k a).seen, noEnd o = true := by
  intro n
  induction n with
  | zero => intro k a o ho; cases ho
  | succ n ih =>
    intro k a o ho
    simp only [readingFor] at ho
    generalize a.nextFrom m e checks = X at *
    obtain ⟨vd, w, bb⟩ := X
    cases vd with
    | fails _ => cases ho
    | overflows => cases ho
    | finishes => cases ho
    | ends =>
      simp only [ReadingFor.after, List.mem_cons] at ho
      rcases ho with rfl | ho
      · rfl
      · exact ih k bb o ho
    | starts name c =>
      simp only at ho
      generalize attributesFor Z m e b c (plan k name c) c bb.pos bb = r at ho
      cases he : r.error with
      | some x => rw [he] at ho; cases ho
      | none =>
        rw [he] at ho
        simp only [ReadingFor.after, List.mem_cons] at ho
        rcases ho with rfl | ho
        · rfl
        · exact ih _ _ o ho

/-- The outline, if the document can be read to its end. -/
theorem outline_reading (m : Skipping) (e : Ending) (checks : Bool) (fmt : Dump.Format) (l : Loader α) (text : α → Text)
    (hshow : ∀ count b, attributesShown S Z m e count b fmt = allWith Z m e l text count b) : ∀ (n k : Nat) (a b : Ahead),
    (readingFor Z m e checks false (allBy l) n k a).close = .footer b →
    (outline S Z m e checks fmt n a).close = .footer b ∧
      (outline S Z m e checks fmt n a).text = obsText S text (readingFor Z m e checks false (allBy l) n k a).seen a.opened.length ∧
      (outline S Z m e checks fmt n a).warnings = (readingFor Z m e checks false (allBy l) n k a).warnings := by
  intro n
  induction n with
  | zero => intro k a b h; cases h
  | succ n ih =>
    intro k a b h
    have hd := nextFrom_deepens m e a checks
    simp only [readingFor] at h ⊢
    simp only [outline]
    generalize a.nextFrom m e checks = X at *
    obtain ⟨vd, w, bb⟩ := X
    cases vd with
    | fails _ => cases h
    | overflows => cases h
    | finishes => cases h; exact ⟨rfl, rfl, rfl⟩
    | ends =>
      simp only [deepens] at hd
      obtain ⟨i1, i2, i3⟩ := ih k bb b h
      refine ⟨i1, ?_, ?_⟩
      · simp only [Outline.after, ReadingFor.after, obsText, i2]
        rw [show a.opened.length - 1 = bb.opened.length by omega]
      · simp only [Outline.after, ReadingFor.after, i3]
    | starts name c =>
      simp only [deepens] at hd
      simp only [hshow, allWith] at h ⊢
      have hop := attributesFor_opened (Z := Z) m e false c (List.replicate c l) c bb.pos bb
      simp only [allBy] at h ⊢
      generalize attributesFor Z m e false c (List.replicate c l) c bb.pos bb = r at h hop ⊢
      cases he : r.error with
      | some x => rw [he] at h; cases h
      | none =>
        rw [he] at h
        obtain ⟨i1, i2, i3⟩ := ih (k + 1) r.ahead b h
        refine ⟨i1, ?_, ?_⟩
        · simp only [Outline.after, ReadingFor.after, obsText, i2, hop, hd, Nat.add_sub_cancel]
        · simp only [Outline.after, ReadingFor.after, i3]

/-- More steps do not change a finished outline. -/
theorem outline_more (m : Skipping) (e : Ending) (checks : Bool) (fmt : Dump.Format) : ∀ (n : Nat) (a : Ahead) (k : Nat),
    (outline S Z m e checks fmt n a).close ≠ .more → outline S Z m e checks fmt (n + k) a = outline S Z m e checks fmt n a := by
  intro n
  induction n with
  | zero => intro a k h; exact absurd rfl h
  | succ n ih =>
    intro a k h
    rw [show n + 1 + k = n + k + 1 by omega]
    simp only [outline] at h ⊢
    generalize a.nextFrom m e checks = X at *
    obtain ⟨vd, w, bb⟩ := X
    cases vd with
    | fails _ => rfl
    | overflows => rfl
    | finishes => rfl
    | ends =>
      simp only at h ⊢
      rw [ih bb k h]
    | starts name c =>
      simp only at h ⊢
      generalize attributesShown S Z m e c bb fmt = r at h ⊢
      cases he : r.error with
      | some x => rfl
      | none =>
        rw [he] at h
        simp only at h ⊢
        rw [ih r.ahead k h]

theorem outline_unique {m : Skipping} {e : Ending} {checks : Bool} {fmt : Dump.Format} {n k : Nat} {a : Ahead}
    (hn : (outline S Z m e checks fmt n a).close ≠ .more) (hk : (outline S Z m e checks fmt k a).close ≠ .more) :
    outline S Z m e checks fmt n a = outline S Z m e checks fmt k a := by
  have h1 := outline_more m e checks fmt n a k hn
  have h2 := outline_more m e checks fmt k a n hk
  rw [← h1, ← h2, Nat.add_comm]

/-- The lines of a forest. -/
theorem obsText_expected (fmt : Dump.Format) (l : Loader α) (text : α → Text) (f : AttrValue → α) (hl : ∀ v, present false l v = .ok (f v))
    (ht : ∀ v, text (f v) = shown S fmt v) : ∀ (F : Forest DAttr) (k depth : Nat) (os : List (Obs α)),
    planOk false (allBy l) F k ∧
    obsText S text (expected false (allBy l) F k ++ os) depth = forestText S fmt F depth ++ obsText S text os depth := by
  have hall : ∀ vs : List AttrValue, presentAll false (List.replicate vs.length l) vs = some (vs.map (fun v => some (f v))) := by
    intro vs
    induction vs with
    | nil => rfl
    | cons v vs ih => simp [List.replicate_succ, presentAll, hl, ih]
  intro F
  induction F with
  | nil => intro k depth os; exact ⟨trivial, rfl⟩
  | cons name attrs ch r ih1 ih2 =>
    intro k depth os
    have ha := hall (attrs.map DAttr.value)
    rw [List.length_map] at ha
    refine ⟨⟨by rw [allBy, ha]; rfl, (ih1 _ 0 []).1, (ih2 _ 0 []).1⟩, ?_⟩
    simp only [expected, forestText, List.cons_append, List.append_assoc, obsText, (ih1 _ _ _).2, (ih2 _ _ _).2, Nat.add_sub_cancel]
    simp only [allBy, ha, Option.getD_some]
    congr 2
    simp only [List.filterMap_map, List.map_filterMap, List.map_map]
    congr 1
    induction attrs with
    | nil => rfl
    | cons a as ih => simp [ht] at ih ⊢

end Fbx
