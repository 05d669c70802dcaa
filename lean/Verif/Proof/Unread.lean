import Verif.Proof.Local

/-! # Sources that differ in what follows -/

namespace Fbx
open Reader

/-- The second source has `x` where the first one has `y`. -/
def Beyond (x y : Bytes) (e : Option IoErr) (r s : Reader) : Prop :=
  ∃ c, s.rest = c ++ x ∧ r = { s with rest := c ++ y, ending := e } ∧ s.position + s.rest.length < u64Size

/-- Some of `x` has been consumed. -/
def Into (x : Bytes) (s : Reader) : Prop := s.rest.length < x.length

section
variable {x y : Bytes} {e : Option IoErr}

theorem Beyond.consume {r s : Reader} {c : Bytes} {k : Nat} (h1 : s.rest = c ++ x) (h2 : r = { s with rest := c ++ y, ending := e })
    (h3 : s.position + s.rest.length < u64Size) (hk : k ≤ c.length) : Beyond x y e (r.consume k) (s.consume k) := by
  refine ⟨c.drop k, ?_, ?_, ?_⟩
  · simp only [Reader.consume, h1, List.drop_append_of_le_length hk]
  · subst h2
    simp only [Reader.consume, List.drop_append_of_le_length hk]
  · simp only [Reader.consume, List.length_drop]
    rw [h1] at h3 ⊢
    simp only [List.length_append] at h3 ⊢
    omega

theorem Beyond.consumeInner {r s : Reader} {c : Bytes} {k : Nat} (h1 : s.rest = c ++ x) (h2 : r = { s with rest := c ++ y, ending := e })
    (h3 : s.position + s.rest.length < u64Size) (hk : k ≤ c.length) : Beyond x y e (r.consumeInner k) (s.consumeInner k) := by
  refine ⟨c.drop k, ?_, ?_, ?_⟩
  · simp only [Reader.consumeInner, h1, List.drop_append_of_le_length hk]
  · subst h2
    simp only [Reader.consumeInner, List.drop_append_of_le_length hk]
  · simp only [Reader.consumeInner, List.length_drop]
    omega

theorem into_consume {s : Reader} {c : Bytes} {k : Nat} (hx : x ≠ []) (h1 : s.rest = c ++ x) (hk : c.length < k) : Into x (s.consume k) := by
  have : 0 < x.length := List.length_pos_iff.mpr hx
  simp only [Into, Reader.consume, List.length_drop, h1, List.length_append]
  omega

theorem into_consumeInner {s : Reader} {c : Bytes} {k : Nat} (hx : x ≠ []) (h1 : s.rest = c ++ x) (hk : c.length < k) : Into x (s.consumeInner k) := by
  have : 0 < x.length := List.length_pos_iff.mpr hx
  simp only [Into, Reader.consumeInner, List.length_drop, h1, List.length_append]
  omega

theorem into_mono {s t : Reader} (h : Into x s) (ht : t.rest.length ≤ s.rest.length) : Into x t := Nat.lt_of_le_of_lt ht h

theorem exact_len (n : Nat) (s : Reader) : (readExact n s).2.rest.length ≤ s.rest.length := by
  simp only [readExact]
  split <;> split <;> simp [Reader.consume]

theorem read_len (n : Nat) (s : Reader) : (Reader.read n s).2.rest.length ≤ s.rest.length := by
  simp only [Reader.read]
  split
  · split
    · exact Nat.le_refl _
    · split <;> exact Nat.le_refl _
  · split <;> simp [Reader.consume]

theorem seekLoop_len : ∀ (f d : Nat) (s : Reader), (skipSeekLoop f d s).2.rest.length ≤ s.rest.length := by
  intro f
  induction f with
  | zero => intro d s; exact Nat.le_refl _
  | succ f ih =>
    intro d s
    simp only [skipSeekLoop]
    split
    · exact Nat.le_refl _
    · split
      · split
        · exact Nat.le_trans (ih _ _) (by simp [Reader.consume])
        · simp [Reader.consumeInner]
      · exact Nat.le_refl _

theorem skipTo_len (q : Nat) (s : Reader) : (skipTo q s).2.rest.length ≤ s.rest.length := by
  simp only [skipTo]
  split
  · exact Nat.le_refl _
  · simp only [skipDistance]
    split
    · exact seekLoop_len _ _ _
    · simp only [skipPlain]
      split
      · simp [Reader.consumeInner]
      · split <;> simp [Reader.consumeInner]

theorem seekLoop_sim (hx : x ≠ []) : ∀ (f d : Nat) (r s : Reader), Beyond x y e r s → Sim false (Beyond x y e) (Into x) (skipSeekLoop f d r) (skipSeekLoop f d s) := by
  intro f
  induction f with
  | zero => intro d r s h; exact .inl ⟨rfl, h⟩
  | succ f ih =>
    intro d r s h
    have hh := h
    obtain ⟨c, h1, h2, h3⟩ := h
    have hc : r.cursor = s.cursor := by rw [h2]
    have hl : r.seekLimit = s.seekLimit := by rw [h2]
    have hp : r.position = s.position := by rw [h2]
    simp only [skipSeekLoop, hc, hl, hp]
    generalize min d i64Max = part
    by_cases hd : d = 0
    · rw [if_pos hd, if_pos hd]; exact .inl ⟨rfl, hh⟩
    · rw [if_neg hd, if_neg hd]
      split
      · by_cases hk : part ≤ c.length
        · split
          · exact ih _ _ _ (.consume h1 h2 h3 hk)
          · exact .inl ⟨rfl, .consumeInner h1 h2 h3 hk⟩
        · split
          · exact .inr ⟨into_mono (into_consume hx h1 (by omega)) (seekLoop_len _ _ _), fun h => nomatch h⟩
          · exact .inr ⟨into_consumeInner hx h1 (by omega), fun h => nomatch h⟩
      · exact .inl ⟨rfl, hh⟩

theorem beyond_src (hx : x ≠ []) : LocSrc (Beyond x y e) (Into x) where
  pos := by rintro r s ⟨c, _, h, _⟩; rw [h]
  exact_ := by
    intro n
    refine ⟨fun {r s} h => ?_, fun s hs => into_mono hs (exact_len n s)⟩
    obtain ⟨c, h1, h2, h3⟩ := h
    have hp : r.position = s.position := by rw [h2]
    have hr : r.rest = c ++ y := by rw [h2]
    have hl : s.rest.length = c.length + x.length := by rw [h1, List.length_append]
    have hl' : r.rest.length = c.length + y.length := by rw [hr, List.length_append]
    by_cases hk : n ≤ c.length
    · simp only [readExact]
      rw [if_pos (by omega), if_pos (by omega), if_pos (by omega), if_pos (by omega)]
      refine .inl ⟨?_, .consume h1 h2 h3 hk⟩
      simp only [h1, hr, List.take_append_of_le_length hk]
    · refine .inr ⟨?_, fun h => nomatch h⟩
      simp only [readExact]
      split
      · rw [if_pos (by omega)]; exact into_consume hx h1 (by omega)
      · have : 0 < x.length := List.length_pos_iff.mpr hx
        exact into_consume hx h1 (by omega)
  read := by
    intro n
    refine ⟨fun {r s} h => ?_, fun s hs => into_mono hs (read_len n s)⟩
    have hh := h
    obtain ⟨c, h1, h2, h3⟩ := h
    have hp : r.position = s.position := by rw [h2]
    have hr : r.rest = c ++ y := by rw [h2]
    have hl : s.rest.length = c.length + x.length := by rw [h1, List.length_append]
    have hl' : r.rest.length = c.length + y.length := by rw [hr, List.length_append]
    have hx' : 0 < x.length := List.length_pos_iff.mpr hx
    by_cases hk : n ≤ c.length
    · simp only [Reader.read]
      rw [show min n r.rest.length = n by omega, show min n s.rest.length = n by omega]
      by_cases hn : n = 0
      · rw [if_pos hn, if_pos hn, if_pos hn, if_pos hn]; exact .inl ⟨rfl, hh⟩
      · rw [if_neg hn, if_neg hn, if_pos (by omega), if_pos (by omega)]
        refine .inl ⟨?_, .consume h1 h2 h3 hk⟩
        simp only [h1, hr, List.take_append_of_le_length hk]
    · refine .inr ⟨?_, fun h => nomatch h⟩
      simp only [Reader.read]
      rw [if_neg (by omega), if_pos (by omega)]
      exact into_consume hx h1 (by omega)
  skip := by
    intro q
    refine ⟨fun {r s} h => ?_, fun s hs => into_mono hs (skipTo_len q s)⟩
    have hh := h
    obtain ⟨c, h1, h2, h3⟩ := h
    have hp : r.position = s.position := by rw [h2]
    have hsk : r.seekable = s.seekable := by rw [h2]
    have hr : r.rest = c ++ y := by rw [h2]
    have hl : s.rest.length = c.length + x.length := by rw [h1, List.length_append]
    have hl' : r.rest.length = c.length + y.length := by rw [hr, List.length_append]
    have hx' : 0 < x.length := List.length_pos_iff.mpr hx
    simp only [skipTo, hp]
    split
    · exact .inl ⟨rfl, hh⟩
    · generalize q - s.position = d
      simp only [skipDistance, hsk]
      split
      · exact seekLoop_sim hx _ _ _ _ hh
      · by_cases hk : d ≤ c.length
        · simp only [skipPlain]
          rw [if_pos (by omega), if_pos (by omega)]
          exact .inl ⟨rfl, .consumeInner h1 h2 h3 hk⟩
        · refine .inr ⟨?_, fun h => nomatch h⟩
          simp only [skipPlain]
          split
          · exact into_consumeInner hx h1 (by omega)
          · split <;> exact into_consumeInner hx h1 (by omega)

theorem loadHeader_loc {R : Reader → Reader → Prop} {E : Reader → Prop} (H : LocSrc R E) : Loc R E loadHeader := by
  refine .bind (.mapErr (H.exact_ _)) fun m => .ite (.throw _) (.bind (.mapErr (H.exact_ _)) fun _ => .pure _)

/-- A history that leaves `x` unread. -/
theorem runs_unread {α : Type} {Z : Zlib} (hx : x ≠ []) {p q : Parser} {t : Client} {h : History α} {pre : Bytes}
    (hp : p.reader.rest = pre ++ x) (hf : p.reader.position + p.reader.rest.length < u64Size)
    (hq : q = { p with reader := { p.reader with rest := pre ++ y, ending := e } })
    (hr : Runs Z ⟨p, none⟩ h t) (hu : t.parser.reader.rest = x) :
    ∃ t', Runs Z ⟨q, none⟩ h t' ∧ t'.attrs = t.attrs ∧ t'.parser = { t.parser with reader := { t.parser.reader with rest := y, ending := e } } := by
  have h0 : CRel (Beyond x y e) ⟨q, none⟩ ⟨p, none⟩ := by
    refine ⟨⟨by subst hq; rfl, ?_⟩, rfl⟩
    subst hq
    exact ⟨pre, hp, rfl, hf⟩
  rcases runs_loc (beyond_src hx) h0 hr with h1 | ⟨t', h1, h2⟩
  · simp only [Into, hu, Nat.lt_irrefl] at h1
  · refine ⟨t', h1, h2.2.symm, ?_⟩
    obtain ⟨⟨e1, c, e2, e3, _⟩, _⟩ := h2
    rw [hu] at e2
    have hc : c = [] := List.append_cancel_right (bs := x) (e2.symm.trans (List.nil_append x).symm)
    rw [e1]
    simp only [hc, List.nil_append]
    rw [show t'.parser = { t'.parser with reader := t'.parser.reader } from rfl, e3, hc]
    rfl

end
end Fbx
