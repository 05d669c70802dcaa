import Verif.Proof.Debug

/-! # The text of a document shows the document -/

namespace Fbx
namespace Debug

variable {S : Shows}

/-- Characters that end values. -/
def Stop (c : Char) : Prop := c = ',' ∨ c = ')' ∨ c = ']'

/-- Text without such characters. -/
structure Plain (p : Text) : Prop where
  ne : p ≠ []
  mem : ∀ c ∈ p, ¬ Stop c

theorem run_split {p q : Text} (hp : ∀ c ∈ p, ¬ Stop c) (hq : ∀ c ∈ q, ¬ Stop c) {c d : Char} (hc : Stop c) (hd : Stop d) {x y : Text}
    (h : p ++ c :: x = q ++ d :: y) : p = q ∧ c :: x = d :: y := by
  induction p generalizing q with
  | nil =>
    cases q with
    | nil => exact ⟨rfl, h⟩
    | cons e q =>
      simp only [List.nil_append, List.cons_append, List.cons.injEq] at h
      exact absurd (h.1 ▸ hc) (hq e (by simp))
  | cons e p ih =>
    cases q with
    | nil =>
      simp only [List.nil_append, List.cons_append, List.cons.injEq] at h
      exact absurd (h.1 ▸ hd) (hp e (by simp))
    | cons e' q =>
      simp only [List.cons_append, List.cons.injEq] at h
      obtain ⟨g1, g2⟩ := ih (q := q) (fun c hc => hp c (by simp [hc])) (fun c hc => hq c (by simp [hc])) h.2
      exact ⟨by rw [h.1, g1], g2⟩

/-- Lists related one by one. -/
inductive All2 {α : Type} (R : α → α → Prop) : List α → List α → Prop where
  | nil : All2 R [] []
  | cons {a b : α} {as bs : List α} : R a b → All2 R as bs → All2 R (a :: as) (b :: bs)

theorem All2.map_eq {α β : Type} {f : α → β} {as bs : List α} (h : All2 (fun a b => f a = f b) as bs) : as.map f = bs.map f := by
  induction h with
  | nil => rfl
  | cons h _ ih => simp [h, ih]

theorem commas_cons (v : Text) (vs : List Text) (x : Text) :
    ∃ c r, Stop c ∧ Spec.commas (v :: vs) ++ ']' :: x = v ++ c :: r ∧
      ((vs = [] ∧ c = ']' ∧ r = x) ∨ (vs ≠ [] ∧ c = ',' ∧ r = ' ' :: (Spec.commas vs ++ ']' :: x))) := by
  cases vs with
  | nil => exact ⟨']', x, .inr (.inr rfl), by simp [Spec.commas], .inl ⟨rfl, rfl, rfl⟩⟩
  | cons w ws => exact ⟨',', _, .inl rfl, by simp [Spec.commas], .inr ⟨by simp, rfl, rfl⟩⟩

theorem commas_inj {α : Type} {f : α → Text} {R : α → α → Prop} (hne : ∀ a, ∃ c p, f a = c :: p ∧ ¬ Stop c) :
    ∀ (as bs : List α), (∀ a ∈ as, ∀ b x y c d, Stop c → Stop d → f a ++ c :: x = f b ++ d :: y → R a b ∧ c :: x = d :: y) →
      ∀ x y : Text, Spec.commas (as.map f) ++ ']' :: x = Spec.commas (bs.map f) ++ ']' :: y → All2 R as bs ∧ x = y := by
  have hs : Stop ']' := .inr (.inr rfl)
  intro as
  induction as with
  | nil =>
    intro bs _ x y h
    cases bs with
    | nil => simp only [List.map_nil, Spec.commas, List.nil_append, List.cons.injEq, true_and] at h; exact ⟨.nil, h⟩
    | cons b bs =>
      obtain ⟨c, r, hc, e, _⟩ := commas_cons (f b) (bs.map f) y
      obtain ⟨d, p, hb, hd⟩ := hne b
      rw [List.map_cons, e, hb] at h
      simp only [List.map_nil, Spec.commas, List.nil_append, List.cons_append, List.cons.injEq] at h
      exact absurd (h.1 ▸ hs) hd
  | cons a as ih =>
    intro bs hR x y h
    obtain ⟨c, r, hc, e, ha⟩ := commas_cons (f a) (as.map f) x
    cases bs with
    | nil =>
      obtain ⟨d, p, hb, hd⟩ := hne a
      rw [List.map_cons, e, hb] at h
      simp only [List.map_nil, Spec.commas, List.nil_append, List.cons_append, List.cons.injEq] at h
      exact absurd (h.1 ▸ hs) hd
    | cons b bs =>
      obtain ⟨c', r', hc', e', hb⟩ := commas_cons (f b) (bs.map f) y
      rw [List.map_cons, List.map_cons, e, e'] at h
      obtain ⟨g1, g2⟩ := hR a (by simp) b _ _ _ _ hc hc' h
      simp only [List.cons.injEq] at g2
      rcases ha with ⟨h1, rfl, rfl⟩ | ⟨h1, rfl, rfl⟩
      · rcases hb with ⟨h2, _, rfl⟩ | ⟨_, rfl, _⟩
        · rw [List.map_eq_nil_iff] at h1 h2
          subst h1 h2
          exact ⟨.cons g1 .nil, g2.2⟩
        · exact absurd g2.1 (by decide)
      · rcases hb with ⟨_, rfl, _⟩ | ⟨_, _, rfl⟩
        · exact absurd g2.1 (by decide)
        · have := ih bs (fun a ha => hR a (by simp [ha])) x y (by simpa using g2.2)
          exact ⟨.cons g1 this.1, this.2⟩

theorem plain_brackets {α : Type} {f : α → Text} (hf : ∀ a, Plain (f a)) {as bs : List α} {x y : Text}
    (h : Spec.brackets (as.map f) ++ x = Spec.brackets (bs.map f) ++ y) : as.map f = bs.map f ∧ x = y := by
  have hne : ∀ a, ∃ c p, f a = c :: p ∧ ¬ Stop c := by
    intro a
    obtain ⟨h1, h2⟩ := hf a
    cases e : f a with
    | nil => exact absurd e h1
    | cons c p => exact ⟨c, p, rfl, h2 c (by simp [e])⟩
  have := commas_inj (R := fun a b => f a = f b) hne as bs
    (fun a _ b x y c d hc hd h => run_split (hf a).mem (hf b).mem hc hd h) x y (by simpa [Spec.brackets] using h)
  exact ⟨this.1.map_eq, this.2⟩

theorem truth_plain (b : Bool) : Plain (Spec.truth b) := by
  cases b <;> exact ⟨by decide, by simp [Spec.truth, Stop]⟩

theorem truth_inj {a b : Bool} (h : Spec.truth a = Spec.truth b) : a = b := by
  cases a <;> cases b <;> first | rfl | exact absurd h (by decide)

theorem digit_not_stop {c : Char} (h : c.isDigit = true) : ¬ Stop c ∧ c ≠ '-' := by
  refine ⟨?_, ?_⟩
  · rintro (rfl | rfl | rfl) <;> exact absurd h (by decide)
  · rintro rfl; exact absurd h (by decide)

theorem decimal_plain (i : Int) : Plain (Spec.decimal i) := by
  have hd : ∀ c ∈ Nat.toDigits 10 i.natAbs, ¬ Stop c := fun c hc =>
    (digit_not_stop (Nat.isDigit_of_mem_toDigits (by omega) (by omega) hc)).1
  unfold Spec.decimal
  split
  · refine ⟨by simp, ?_⟩
    simp only [List.mem_cons, forall_eq_or_imp]
    exact ⟨by simp [Stop], hd⟩
  · exact ⟨Nat.toDigits_ne_nil, hd⟩

theorem digits_inj {m n : Nat} (h : Nat.toDigits 10 m = Nat.toDigits 10 n) : m = n := by
  rw [← Nat.ofDigitChars_ten_toDigits (n := m), h, Nat.ofDigitChars_ten_toDigits]

theorem decimal_inj {i j : Int} (h : Spec.decimal i = Spec.decimal j) : i = j := by
  have hm : ∀ n r, Nat.toDigits 10 n ≠ '-' :: r := fun n r e =>
    (digit_not_stop (Nat.isDigit_of_mem_toDigits (b := 10) (n := n) (c := '-') (by omega) (by omega) (by simp [e]))).2 rfl
  unfold Spec.decimal at h
  split at h <;> split at h
  · simp only [List.cons.injEq, true_and] at h
    have := digits_inj h; omega
  · exact absurd h.symm (hm _ _)
  · exact absurd h (hm _ _)
  · have := digits_inj h; omega

theorem map_inj {α β : Type} {f : α → β} (hf : ∀ a b, f a = f b → a = b) {as bs : List α} (h : as.map f = bs.map f) : as = bs := by
  induction as generalizing bs with
  | nil => cases bs with
    | nil => rfl
    | cons => simp at h
  | cons a as ih => cases bs with
    | nil => simp at h
    | cons b bs =>
      simp only [List.map_cons, List.cons.injEq] at h
      rw [hf _ _ h.1, ih h.2]

theorem f32_plain (hS : Spec.Readable S) (x : BitVec 32) : Plain (S.f32 x) :=
  ⟨(hS.f32 x).1, fun c hc => by have := (hS.f32 x).2 c hc; simp only [Stop, not_or]; exact this⟩
theorem f64_plain (hS : Spec.Readable S) (x : BitVec 64) : Plain (S.f64 x) :=
  ⟨(hS.f64 x).1, fun c hc => by have := (hS.f64 x).2 c hc; simp only [Stop, not_or]; exact this⟩

theorem kind_inj {a b : AttrType} {x y : Text} (h : Spec.kind a ++ '(' :: x = Spec.kind b ++ '(' :: y) : a = b ∧ x = y := by
  cases a <;> cases b <;> simp [Spec.kind] at h <;> exact ⟨rfl, h⟩

theorem one_inj {p q x y : Text} (hp : Plain p) (hq : Plain q) (h : p ++ ')' :: x = q ++ ')' :: y) : p = q ∧ x = y := by
  have := run_split hp.mem hq.mem (.inr (.inl rfl)) (.inr (.inl rfl)) h
  simpa using this

theorem attr_inj (hS : Spec.Readable S) {a b : AttrValue} {x y : Text} (h : Spec.attrText S a ++ x = Spec.attrText S b ++ y) :
    Spec.alikeAttr S a b ∧ x = y := by
  unfold Spec.attrText at h
  simp only [List.append_assoc, List.cons_append, List.nil_append] at h
  obtain ⟨ht, h⟩ := kind_inj h
  have hi16 : ∀ a b : BitVec 16, Spec.decimal a.toInt = Spec.decimal b.toInt → a = b := fun a b h => BitVec.eq_of_toInt_eq (decimal_inj h)
  have hi32 : ∀ a b : BitVec 32, Spec.decimal a.toInt = Spec.decimal b.toInt → a = b := fun a b h => BitVec.eq_of_toInt_eq (decimal_inj h)
  have hi64 : ∀ a b : BitVec 64, Spec.decimal a.toInt = Spec.decimal b.toInt → a = b := fun a b h => BitVec.eq_of_toInt_eq (decimal_inj h)
  have hu8 : ∀ a b : UInt8, Spec.decimal a.toNat = Spec.decimal b.toNat → a = b := fun a b h => by
    have := decimal_inj h
    exact UInt8.toNat_inj.mp (by omega)
  cases a <;> cases b <;> simp only [AttrValue.type_, reduceCtorEq] at ht <;> simp only [Spec.content, Spec.contentText] at h <;>
    simp only [Spec.alikeAttr]
  case bool.bool a b => obtain ⟨h1, h2⟩ := one_inj (truth_plain _) (truth_plain _) h; exact ⟨by rw [truth_inj h1], h2⟩
  case i16.i16 a b => obtain ⟨h1, h2⟩ := one_inj (decimal_plain _) (decimal_plain _) h; exact ⟨by rw [hi16 _ _ h1], h2⟩
  case i32.i32 a b => obtain ⟨h1, h2⟩ := one_inj (decimal_plain _) (decimal_plain _) h; exact ⟨by rw [hi32 _ _ h1], h2⟩
  case i64.i64 a b => obtain ⟨h1, h2⟩ := one_inj (decimal_plain _) (decimal_plain _) h; exact ⟨by rw [hi64 _ _ h1], h2⟩
  case f32.f32 a b => exact one_inj (f32_plain hS _) (f32_plain hS _) h
  case f64.f64 a b => exact one_inj (f64_plain hS _) (f64_plain hS _) h
  case string.string a b => obtain ⟨h1, h2⟩ := hS.str _ _ _ _ h; exact ⟨by rw [h1], by simpa using h2⟩
  case arrBool.arrBool a b =>
    obtain ⟨h1, h2⟩ := plain_brackets truth_plain h
    exact ⟨by rw [map_inj (fun _ _ => truth_inj) h1], by simpa using h2⟩
  case arrI32.arrI32 a b =>
    obtain ⟨h1, h2⟩ := plain_brackets (f := fun x : BitVec 32 => Spec.decimal x.toInt) (fun _ => decimal_plain _) h
    exact ⟨by rw [map_inj hi32 h1], by simpa using h2⟩
  case arrI64.arrI64 a b =>
    obtain ⟨h1, h2⟩ := plain_brackets (f := fun x : BitVec 64 => Spec.decimal x.toInt) (fun _ => decimal_plain _) h
    exact ⟨by rw [map_inj hi64 h1], by simpa using h2⟩
  case arrF32.arrF32 a b =>
    obtain ⟨h1, h2⟩ := plain_brackets (f32_plain hS) h
    exact ⟨h1, by simpa using h2⟩
  case arrF64.arrF64 a b =>
    obtain ⟨h1, h2⟩ := plain_brackets (f64_plain hS) h
    exact ⟨h1, by simpa using h2⟩
  case binary.binary a b =>
    obtain ⟨h1, h2⟩ := plain_brackets (f := fun x : UInt8 => Spec.decimal x.toNat) (fun _ => decimal_plain _) h
    exact ⟨by rw [map_inj hu8 h1], by simpa using h2⟩

theorem attr_start (a : AttrValue) : ∃ c p, Spec.attrText S a = c :: p ∧ ¬ Stop c := by
  cases a <;> exact ⟨_, _, rfl, by simp [Stop]⟩

theorem All2.attrs {as bs : List AttrValue} (h : All2 (Spec.alikeAttr S) as bs) : Spec.AlikeAttrs S as bs := by
  induction h with
  | nil => exact .nil
  | cons h _ ih => exact .cons h ih

theorem attrs_inj (hS : Spec.Readable S) {as bs : List AttrValue} {x y : Text}
    (h : Spec.brackets (as.map (Spec.attrText S)) ++ x = Spec.brackets (bs.map (Spec.attrText S)) ++ y) : Spec.AlikeAttrs S as bs ∧ x = y := by
  have := commas_inj (R := Spec.alikeAttr S) attr_start as bs (fun a _ b x y c d _ _ h => attr_inj hS h) x y (by simpa [Spec.brackets] using h)
  exact ⟨this.1.attrs, this.2⟩

theorem docTexts_map (ks : List Rose) : Spec.docTexts S ks = ks.map (Spec.docText S) := by
  induction ks with
  | nil => simp only [Spec.docTexts, List.map_nil]
  | cons k ks ih => simp only [Spec.docTexts, List.map_cons, ih]

theorem doc_start (r : Rose) : ∃ c p, Spec.docText S r = c :: p ∧ ¬ Stop c := by
  cases r with
  | node n as ks =>
    rw [Spec.docText]
    exact ⟨'N', _, by simp only [List.cons_append]; rfl, by simp [Stop]⟩

theorem All2.docs {as bs : List Rose} (h : All2 (Spec.AlikeDoc S) as bs) : Spec.AlikeDocs S as bs := by
  induction h with
  | nil => exact .nil
  | cons h _ ih => exact .cons h ih

theorem count_mem {k : Rose} {ks : List Rose} (h : k ∈ ks) : Rose.count k ≤ (ks.map Rose.count).sum := by
  induction ks with
  | nil => cases h
  | cons m ms ih =>
    simp only [List.map_cons, List.sum_cons]
    rcases List.mem_cons.mp h with rfl | h
    · omega
    · have := ih h; omega

theorem doc_inj (hS : Spec.Readable S) : ∀ (n : Nat) (r s : Rose) (x y : Text), Rose.count r ≤ n →
    Spec.docText S r ++ x = Spec.docText S s ++ y → Spec.AlikeDoc S r s ∧ x = y := by
  intro n
  induction n with
  | zero => intro r s x y hr; cases r; rw [Tree.count_node] at hr; omega
  | succ n ih =>
    intro r s x y hr h
    cases r with
    | node a as ks =>
      cases s with
      | node b bs ms =>
        rw [Tree.count_node] at hr
        have hk : ∀ k ∈ ks, Rose.count k ≤ n := by
          intro k hk
          have : Rose.count k ≤ (ks.map Rose.count).sum := count_mem hk
          omega
        rw [Spec.docText, Spec.docText] at h
        simp only [List.append_assoc, List.cons_append, List.nil_append, List.cons.injEq, true_and] at h
        obtain ⟨h1, h⟩ := hS.str _ _ _ _ h
        simp only [List.cons.injEq, true_and] at h
        obtain ⟨h2, h⟩ := attrs_inj hS h
        simp only [List.cons.injEq, true_and, docTexts_map] at h
        have h3 := commas_inj (R := Spec.AlikeDoc S) doc_start ks ms (fun k hm m x y c d _ _ h => ih k m _ _ (hk k hm) h) _ _
          (by simpa only [Spec.brackets, List.append_assoc, List.cons_append, List.nil_append, List.cons.injEq, true_and] using h)
        subst h1
        exact ⟨.mk h2 h3.1.docs, by simpa using h3.2⟩

/-! ## The other direction -/

theorem alike_attr {a b : AttrValue} (h : Spec.alikeAttr S a b) : Spec.attrText S a = Spec.attrText S b := by
  cases a <;> cases b <;> simp only [Spec.alikeAttr, reduceCtorEq] at h <;> first
    | (rw [h])
    | (simp only [Spec.attrText, Spec.content, AttrValue.type_, h])

theorem alike_attrs {l r : List AttrValue} (h : Spec.AlikeAttrs S l r) : l.map (Spec.attrText S) = r.map (Spec.attrText S) := by
  induction h with
  | nil => rfl
  | cons h _ ih => simp only [List.map_cons, alike_attr h, ih]

theorem alike_doc {r s : Rose} (h : Spec.AlikeDoc S r s) : Spec.docText S r = Spec.docText S s := by
  refine Spec.AlikeDoc.rec (motive_1 := fun r s _ => Spec.docText S r = Spec.docText S s)
    (motive_2 := fun ks ms _ => Spec.docTexts S ks = Spec.docTexts S ms) ?_ ?_ ?_ h
  · intro n l r ks ms ha _ ih
    rw [Spec.docText, Spec.docText, alike_attrs ha, ih]
  · rfl
  · intro a b l r _ _ h1 h2; rw [Spec.docTexts, Spec.docTexts, h1, h2]

end Debug
end Fbx
