import Verif.Proof.Unread
import Verif.Spec.Growing

/-! # Files that grow -/

namespace Fbx
open Reader
variable {α : Type} {Z : Zlib}

/-- A source on the file, which stands where its cursor says. -/
def OnFile (c0 : Nat) (e : Option IoErr) (file : Bytes) (r : Reader) : Prop :=
  c0 ≤ r.cursor ∧ r.rest = file.drop (r.cursor - c0) ∧ (r.rest ≠ [] → r.position + r.rest.length < u64Size) ∧ r.ending = e

theorem OnFile.consume {c0 : Nat} {e : Option IoErr} {file : Bytes} {r : Reader} (h : OnFile c0 e file r) (k : Nat) : OnFile c0 e file (r.consume k) := by
  obtain ⟨h1, h2, h3, h4⟩ := h
  refine ⟨?_, ?_, ?_, h4⟩
  · show c0 ≤ r.cursor + k; omega
  · show r.rest.drop k = file.drop (r.cursor + k - c0)
    rw [h2, List.drop_drop]; congr 1; omega
  · show r.rest.drop k ≠ [] → r.position + k + (r.rest.drop k).length < u64Size
    intro hne
    have := h3 (fun h0 => by rw [h0] at hne; simp at hne)
    have hk : k < r.rest.length := by
      rcases Nat.lt_or_ge k r.rest.length with h | h
      · exact h
      · exact absurd (List.drop_eq_nil_of_le h) hne
    rw [List.length_drop]; omega

theorem OnFile.consumeInner {c0 : Nat} {e : Option IoErr} {file : Bytes} {r : Reader} (h : OnFile c0 e file r) (k : Nat) : OnFile c0 e file (r.consumeInner k) := by
  obtain ⟨h1, h2, h3, h4⟩ := h
  refine ⟨?_, ?_, ?_, h4⟩
  · show c0 ≤ r.cursor + k; omega
  · show r.rest.drop k = file.drop (r.cursor + k - c0)
    rw [h2, List.drop_drop]; congr 1; omega
  · show r.rest.drop k ≠ [] → r.position + (r.rest.drop k).length < u64Size
    intro hne
    have := h3 (fun h0 => by rw [h0] at hne; simp at hne)
    rw [List.length_drop]; omega

theorem onFile_loop {c0 : Nat} {e : Option IoErr} {file : Bytes} : ∀ (f d : Nat), Keeps (OnFile c0 e file) (skipSeekLoop f d)
  | 0, _ => fun _ h => h
  | f + 1, d => by
    intro r h
    simp only [skipSeekLoop]
    split
    · exact h
    · split
      · split
        · exact onFile_loop f _ _ (h.consume _)
        · exact h.consumeInner _
      · exact h

theorem onFile_src (c0 : Nat) (e : Option IoErr) (file : Bytes) : LocSrc (fun _ _ => False) (OnFile c0 e file) where
  pos := fun h => h.elim
  exact_ n := ⟨fun h => h.elim, fun r h => by
    simp only [readExact]
    split <;> split
    · exact h.consume _
    · exact h
    · exact h.consume _
    · exact h⟩
  read n := ⟨fun h => h.elim, fun r h => by
    simp only [Reader.read]
    split
    · split
      · exact h
      · split <;> exact h
    · split
      · exact h.consume _
      · exact h⟩
  skip q := ⟨fun h => h.elim, fun r h => by
    simp only [skipTo]
    split
    · exact h
    · simp only [skipDistance]
      split
      · exact onFile_loop _ _ _ h
      · simp only [skipPlain]
        split
        · exact h.consumeInner _
        · cases r.ending <;> exact h.consumeInner _⟩

theorem Client.eta {s : Client} {p : Parser} {a : Option Attrs} (h1 : s.parser = p) (h2 : s.attrs = a) : s = ⟨p, a⟩ := by cases h1; cases h2; rfl

/-- One call on the part that is shown, and the same call on the whole file. -/
theorem grow_call {t u : Client} {c : Call α} {o : Outcome α} {d : Showing} {later file : Bytes} {c0 : Nat} {e : Option IoErr}
    (ht : OnFile c0 e file (t.complete file c0 e).parser.reader) (hd : file.drop (t.parser.reader.cursor - c0) = d.rest ++ later)
    (hc1 : d.cursor = t.parser.reader.cursor) (hc2 : d.limit = t.parser.reader.seekLimit)
    (hc : (t.facing d).call Z c = some (o, u)) (hu : u.parser.reader.rest ≠ []) :
    (t.complete file c0 e).call Z c = some (o, u.complete file c0 e) := by
  have hdr : d.rest ≠ [] := by
    intro h0
    have hi : Into [0] (t.facing d).parser.reader := by simp [Into, Client.facing, h0]
    have := call_esc (beyond_src (y := []) (e := none) (by simp)) hi hc
    simp only [Into, List.length_singleton] at this
    exact hu (List.length_eq_zero_iff.mp (by omega))
  obtain ⟨pre, b, hb⟩ : ∃ pre b, d.rest = pre ++ [b] := ⟨_, _, (List.dropLast_concat_getLast hdr).symm⟩
  have hfull : (t.complete file c0 e).parser.reader.rest = pre ++ ([b] ++ later) := by
    show file.drop (t.parser.reader.cursor - c0) = _
    rw [hd, hb, List.append_assoc]
  have h0 : CRel (Beyond [b] ([b] ++ later) e) (t.complete file c0 e) (t.facing d) := by
    refine ⟨⟨rfl, pre, hb, ?_, ?_⟩, rfl⟩
    · show ({ t.parser.reader with rest := file.drop (t.parser.reader.cursor - c0), ending := e } : Reader) =
        { t.parser.reader with rest := pre ++ ([b] ++ later), ending := e, cursor := d.cursor, seekLimit := d.limit }
      rw [hc1, hc2, hd, hb, List.append_assoc]
    · have := ht.2.2.1 (by rw [hfull]; simp)
      rw [hfull] at this
      show t.parser.reader.position + d.rest.length < u64Size
      have h2 : (t.complete file c0 e).parser.reader.position = t.parser.reader.position := rfl
      rw [h2] at this
      rw [hb]
      simp only [List.length_append, List.length_singleton] at this ⊢
      omega
  rcases call_loc (beyond_src (by simp)) h0 c o u hc with h1 | ⟨w, h1, h2⟩
  · simp only [Into, List.length_singleton] at h1
    exact absurd (List.length_eq_zero_iff.mp (by omega)) hu
  · rw [h1]
    have hw : OnFile c0 e file w.parser.reader := call_esc (onFile_src c0 e file) ht h1
    obtain ⟨⟨e1, d', e2, e3, _⟩, e4⟩ := h2
    refine congrArg some (congrArg (Prod.mk o) (Client.eta ?_ e4.symm))
    have e5 : w.parser.reader.rest = file.drop (u.parser.reader.cursor - c0) := by rw [hw.2.1, e3]
    rw [show w.parser = { w.parser with reader := w.parser.reader } from rfl]
    rw [e1]
    simp only
    congr 1
    rw [e3]
    rw [e3] at e5
    simp only at e5
    rw [e5]

/-- The other direction: what a call does not reach need not be there yet. -/
theorem shrink_call {t w : Client} {c : Call α} {o : Outcome α} {d : Showing} {later file : Bytes} {c0 : Nat} {e : Option IoErr}
    (ht : OnFile c0 e file (t.complete file c0 e).parser.reader) (hd : file.drop (t.parser.reader.cursor - c0) = d.rest ++ later)
    (hc1 : d.cursor = t.parser.reader.cursor) (hc2 : d.limit = t.parser.reader.seekLimit)
    (hc : (t.complete file c0 e).call Z c = some (o, w)) (hw : later.length < w.parser.reader.rest.length) :
    ∃ u, (t.facing d).call Z c = some (o, u) ∧ u.parser.reader.rest ≠ [] ∧ w = u.complete file c0 e := by
  have hk : OnFile c0 e file w.parser.reader := call_esc (onFile_src c0 e file) ht hc
  have hx : w.parser.reader.rest ≠ [] := fun h => by rw [h] at hw; simp at hw
  have hmono : w.parser.reader.rest.length ≤ (t.complete file c0 e).parser.reader.rest.length := by
    have hi : Into (0 :: (t.complete file c0 e).parser.reader.rest) (t.complete file c0 e).parser.reader := by simp [Into]
    have := call_esc (beyond_src (y := []) (e := none) (by simp)) hi hc
    simp only [Into, List.length_cons] at this
    omega
  have hsuf : ∃ pre, (t.complete file c0 e).parser.reader.rest = pre ++ w.parser.reader.rest := by
    have h1 := ht.2.1
    have h2 := hk.2.1
    have hc0 := ht.1
    have hc0' := hk.1
    rw [h1, h2] at hmono
    rw [h2] at hx
    have : (t.complete file c0 e).parser.reader.cursor ≤ w.parser.reader.cursor := by
      simp only [List.length_drop] at hmono
      have : w.parser.reader.cursor - c0 < file.length := by
        rcases Nat.lt_or_ge (w.parser.reader.cursor - c0) file.length with h | h
        · exact h
        · exact absurd (List.drop_eq_nil_of_le h) hx
      omega
    refine ⟨(file.drop ((t.complete file c0 e).parser.reader.cursor - c0)).take (w.parser.reader.cursor - (t.complete file c0 e).parser.reader.cursor), ?_⟩
    rw [h1, h2]
    conv => lhs; rw [← List.take_append_drop (w.parser.reader.cursor - (t.complete file c0 e).parser.reader.cursor) (file.drop _)]
    rw [List.drop_drop]
    congr 2
    omega
  obtain ⟨pre, hpre⟩ := hsuf
  have hrest : (t.complete file c0 e).parser.reader.rest = d.rest ++ later := hd
  have hdp : ∃ y, d.rest = pre ++ y ∧ y ≠ [] := by
    have h1 : pre.length < d.rest.length := by
      have := congrArg List.length (hpre.symm.trans hrest)
      simp only [List.length_append] at this
      omega
    refine ⟨d.rest.drop pre.length, ?_, ?_⟩
    · have h2 : d.rest.take pre.length = pre := by
        have := congrArg (List.take pre.length) (hrest.symm.trans hpre)
        rw [List.take_append_of_le_length (by omega), List.take_append_of_le_length (Nat.le_refl _), List.take_length] at this
        exact this
      conv => lhs; rw [← List.take_append_drop pre.length d.rest, h2]
    · intro h
      have := List.drop_eq_nil_iff.mp h
      omega
  obtain ⟨y, hy, hyne⟩ := hdp
  have h0 : CRel (Beyond w.parser.reader.rest y d.ending) (t.facing d) (t.complete file c0 e) := by
    refine ⟨⟨rfl, pre, hpre, ?_, ?_⟩, rfl⟩
    · show ({ t.parser.reader with rest := d.rest, ending := d.ending, cursor := d.cursor, seekLimit := d.limit } : Reader) =
        { t.parser.reader with rest := pre ++ y, ending := d.ending }
      rw [hc1, hc2, hy]
    · exact ht.2.2.1 (fun h => by rw [h] at hpre; exact hx (List.append_eq_nil_iff.mp hpre.symm).2)
  rcases call_loc (beyond_src hx) h0 c o w hc with h1 | ⟨u, h1, h2⟩
  · simp only [Into, Nat.lt_irrefl] at h1
  · have hu : u.parser.reader.rest ≠ [] := by
      obtain ⟨⟨_, d', _, e3, _⟩, _⟩ := h2
      rw [e3]
      simp [hyne]
    refine ⟨u, h1, hu, ?_⟩
    have := grow_call (e := e) ht hd hc1 hc2 h1 hu
    rw [hc] at this
    cases this
    rfl

/-- The history of a growing file is a history of the complete file. -/
theorem Growing.runs {file : Bytes} {c0 : Nat} {e : Option IoErr} {s t : Client} {h : History α} (hg : Growing Z file c0 s h t)
    (hs : OnFile c0 e file (s.complete file c0 e).parser.reader) :
    Runs Z (s.complete file c0 e) h (t.complete file c0 e) ∧ OnFile c0 e file (t.complete file c0 e).parser.reader := by
  induction hg with
  | nil => exact ⟨.nil, hs⟩
  | snoc _ hn hd h1 h2 hc hu ih =>
    have := grow_call ih.2 hd h1 h2 hc hu
    exact ⟨.snoc ih.1 hn this, call_esc (onFile_src c0 e file) ih.2 this⟩

theorem Runs.last {s t : Client} {h : History α} {c : Call α} {o : Outcome α} (hr : Runs Z s (h ++ [(c, o)]) t) :
    ∃ u, Runs Z s h u ∧ h.calm ∧ u.call Z c = some (o, t) := by
  generalize hg : h ++ [(c, o)] = g at hr
  cases hr with
  | nil => simp at hg
  | snoc hr hn hc =>
    obtain ⟨h1, h2⟩ := List.append_inj' hg rfl
    cases h2
    subst h1
    exact ⟨_, hr, hn, hc⟩

/-- A history determines the state. -/
theorem Runs.unique {s t : Client} {h : History α} (hr : Runs Z s h t) : ∀ {t' : Client}, Runs Z s h t' → t' = t := by
  induction hr with
  | nil =>
    intro t' h'
    generalize hg : ([] : History α) = g at h'
    cases h' with
    | nil => rfl
    | snoc => simp at hg
  | snoc _ hn hc ih =>
    intro t' h'
    obtain ⟨u, h1, _, h2⟩ := h'.last
    rw [ih h1, hc] at h2
    cases h2
    rfl

end Fbx
