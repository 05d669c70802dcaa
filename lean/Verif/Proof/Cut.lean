import Verif.Proof.SimClient
import Verif.Proof.HistoryCounts

/-! # A source cut short -/

namespace Fbx
open Reader Parser
variable {α : Type} {Z : Zlib}

/-- The second source lacks the last bytes of the first; how the sources end may differ. -/
structure Cut (suf : Bytes) (r s : Reader) : Prop where
  rest : r.rest = s.rest ++ suf
  cursor : s.cursor = r.cursor
  position : s.position = r.position
  seekable : s.seekable = r.seekable
  seekLimit : s.seekLimit = r.seekLimit
  fits : s.position + s.rest.length < 2 ^ 64

def Reader.Dry (r : Reader) : Prop := r.rest = []

theorem Cut.consume {suf : Bytes} {r s : Reader} (h : Cut suf r s) {n : Nat} (hn : n ≤ s.rest.length) : Cut suf (r.consume n) (s.consume n) := by
  refine ⟨?_, ?_, ?_, h.seekable, h.seekLimit, ?_⟩
  · simp only [Reader.consume, h.rest]
    rw [List.drop_append_of_le_length hn]
  · simp only [Reader.consume, h.cursor]
  · simp only [Reader.consume, h.position]
  · have := h.fits
    simp only [Reader.consume, List.length_drop]
    omega

theorem Cut.inner {suf : Bytes} {r s : Reader} (h : Cut suf r s) {n : Nat} (hn : n ≤ s.rest.length) : Cut suf (r.consumeInner n) (s.consumeInner n) := by
  refine ⟨?_, ?_, h.position, h.seekable, h.seekLimit, ?_⟩
  · simp only [Reader.consumeInner, h.rest]
    rw [List.drop_append_of_le_length hn]
  · simp only [Reader.consumeInner, h.cursor]
  · have := h.fits
    simp only [Reader.consumeInner, List.length_drop]
    omega

theorem Reader.dry_consume {s : Reader} {n : Nat} (hn : s.rest.length ≤ n) : (s.consume n).Dry := by
  simp only [Reader.Dry, Reader.consume]
  exact List.drop_eq_nil_of_le hn

theorem Reader.dry_inner {s : Reader} {n : Nat} (hn : s.rest.length ≤ n) : (s.consumeInner n).Dry := by
  simp only [Reader.Dry, Reader.consumeInner]
  exact List.drop_eq_nil_of_le hn

theorem Reader.Dry.consume {s : Reader} (h : s.Dry) (n : Nat) : (s.consume n).Dry := dry_consume (by rw [h]; exact Nat.zero_le n)
theorem Reader.Dry.inner {s : Reader} (h : s.Dry) (n : Nat) : (s.consumeInner n).Dry := dry_inner (by rw [h]; exact Nat.zero_le n)

theorem cut_readExact {suf : Bytes} {r s : Reader} (n : Nat) (h : Cut suf r s) : Sim true (Cut suf) Dry (readExact n r) (readExact n s) := by
  have hf := h.fits
  have hu : u64Size = 2 ^ 64 := rfl
  by_cases hn : n ≤ s.rest.length
  · have hr : n ≤ r.rest.length := by rw [h.rest, List.length_append]; omega
    have hp := h.position
    refine .inl ?_
    simp only [readExact, if_pos hn, if_pos hr]
    rw [if_pos (by omega), if_pos (by omega)]
    refine ⟨?_, h.consume hn⟩
    rw [h.rest, List.take_append_of_le_length hn]
  · refine .inr ?_
    simp only [readExact, if_neg hn]
    rw [if_pos (by omega)]
    exact ⟨dry_consume (Nat.le_refl _), fun _ => rfl⟩

theorem cut_read {suf : Bytes} {r s : Reader} (n : Nat) (h : Cut suf r s) : Sim false (Cut suf) Dry (Reader.read n r) (Reader.read n s) := by
  have hf := h.fits
  have hu : u64Size = 2 ^ 64 := rfl
  have hp := h.position
  by_cases hn : n ≤ s.rest.length
  · have hr : n ≤ r.rest.length := by rw [h.rest, List.length_append]; omega
    refine .inl ?_
    simp only [Reader.read, Nat.min_eq_left hn, Nat.min_eq_left hr]
    by_cases h0 : n = 0
    · simp only [h0, if_true]; exact ⟨rfl, h⟩
    · rw [if_neg h0, if_neg h0, if_pos (by omega), if_pos (by omega)]
      refine ⟨?_, h.consume hn⟩
      rw [h.rest, List.take_append_of_le_length hn]
  · refine .inr ⟨?_, fun h => nomatch h⟩
    simp only [Reader.read, Nat.min_eq_right (Nat.le_of_not_le hn)]
    by_cases h0 : s.rest.length = 0
    · have hd : s.Dry := List.length_eq_zero_iff.mp h0
      rw [if_pos h0, if_neg (by omega)]
      cases s.ending <;> exact hd
    · rw [if_neg h0, if_pos (by omega)]
      exact dry_consume (Nat.le_refl _)

theorem keepExact_dry (n : Nat) : Keeps Dry (readExact n) := by
  intro s h
  unfold readExact
  split
  · split
    · exact h.consume n
    · exact h
  · split
    · exact h.consume _
    · exact h

theorem keepRead_dry (n : Nat) : Keeps Dry (Reader.read n) := by
  intro s h
  simp only [Reader.read]
  split
  · split
    · exact h
    · split <;> exact h
  · split
    · exact h.consume _
    · exact h

theorem keepLoop_dry : ∀ fuel d, Keeps Dry (skipSeekLoop fuel d) := by
  intro fuel
  induction fuel with
  | zero => intro d s h; exact h
  | succ f ih =>
    intro d s h
    simp only [skipSeekLoop]
    split
    · exact h
    · split
      · split
        · exact ih _ _ (h.consume _)
        · exact h.inner _
      · exact h

theorem keepSkip_dry (q : Nat) : Keeps Dry (skipTo q) := by
  intro s h
  unfold skipTo
  split
  · exact h
  · unfold skipDistance
    split
    · exact keepLoop_dry _ _ s h
    · unfold skipPlain
      split
      · exact h.inner _
      · cases s.ending <;> exact h.inner _

theorem cut_loop {suf : Bytes} : ∀ (fuel d : Nat) (r s : Reader), Cut suf r s → Sim false (Cut suf) Dry (skipSeekLoop fuel d r) (skipSeekLoop fuel d s) := by
  intro fuel
  induction fuel with
  | zero => intro d r s h; exact .pure () h
  | succ f ih =>
    intro d r s h
    simp only [skipSeekLoop]
    rw [h.cursor, h.seekLimit, h.position]
    by_cases h0 : d = 0
    · rw [if_pos h0, if_pos h0]; exact .inl ⟨rfl, h⟩
    · rw [if_neg h0, if_neg h0]
      by_cases h1 : r.cursor + min d i64Max ≤ r.seekLimit
      · rw [if_pos h1, if_pos h1]
        by_cases h2 : r.position + min d i64Max < u64Size
        · rw [if_pos h2, if_pos h2]
          by_cases h3 : min d i64Max ≤ s.rest.length
          · exact ih _ _ _ (h.consume h3)
          · exact .inr ⟨keepLoop_dry _ _ _ (dry_consume (by omega)), fun h => nomatch h⟩
        · rw [if_neg h2, if_neg h2]
          by_cases h3 : min d i64Max ≤ s.rest.length
          · exact .inl ⟨rfl, h.inner h3⟩
          · exact .inr ⟨dry_inner (by omega), fun h => nomatch h⟩
      · rw [if_neg h1, if_neg h1]; exact .inl ⟨rfl, h⟩

theorem cut_skipTo {suf : Bytes} {r s : Reader} (q : Nat) (h : Cut suf r s) : Sim false (Cut suf) Dry (skipTo q r) (skipTo q s) := by
  unfold skipTo
  rw [h.position]
  split
  · exact .inl ⟨rfl, h⟩
  · unfold skipDistance
    rw [h.seekable]
    split
    · exact cut_loop _ _ _ _ h
    · unfold skipPlain
      by_cases hn : q - r.position ≤ s.rest.length
      · rw [if_pos hn, if_pos (by rw [h.rest, List.length_append]; omega)]
        exact .inl ⟨rfl, h.inner hn⟩
      · rw [if_neg hn]
        refine .inr ⟨?_, fun h => nomatch h⟩
        cases s.ending <;> exact dry_inner (Nat.le_refl _)

theorem cut_related (suf : Bytes) : Related (Cut suf) Dry where
  pos h := h.position
  len h := by rw [h.rest, List.length_append]; omega
  exact_ n h := cut_readExact n h
  read n h := cut_read n h
  esc := by
    intro s n h hn
    have h' : s.rest = [] := h
    unfold readExact
    rw [h']
    rw [if_neg (by simp; omega)]
    split <;> rfl
  keepExact := keepExact_dry
  keepRead := keepRead_dry
  keepSkip := keepSkip_dry

theorem cut_skipSim {suf : Bytes} {s t : Client} (h : CRel (Cut suf) s t) (c : Call α) : SkipSim (Cut suf) Dry s t c := by
  cases c with
  | next => exact fun n _ _ _ => cut_skipTo _ h.1.2
  | load b l => exact fun n _ _ _ => cut_skipTo _ h.1.2
  | skip => exact fun n _ _ => cut_skipTo _ h.1.2
  | setHandler g => trivial

/-- On an exhausted source nothing starts and the document does not end. -/
theorem dry_call {L : Nat} (hL : L + 2 ^ 32 ≤ 2 ^ 64) {s t : Client} (hs : CInv L s) (hd : s.parser.reader.Dry) {c : Call α} {o : Outcome α}
    (hc : s.call Z c = some (o, t)) (hx : ∀ x, o ≠ .panic x) : t.parser.reader.Dry ∧ o.isStart = false ∧ o.isEndFbx = false := by
  have h := call_did hL hs hc
  have hm := h.moves hx
  have hd' : s.parser.reader.rest = [] := hd
  refine ⟨?_, ?_⟩
  · have := hm.len_le
    rw [hd'] at this
    exact List.length_eq_zero_iff.mp (Nat.le_zero.mp this)
  · cases h with
    | event hrun he hi ha =>
      cases he with
      | start h1 h2 h3 =>
        exfalso
        cases h1 with
        | start hr hh hne hlen hname hp' hrd hae hq =>
          have := hr.moves.len_le
          rw [hd', List.length_nil] at this
          omega
      | endNode => exact ⟨rfl, rfl⟩
      | endFbx h1 h2 =>
        exfalso
        cases h1 with
        | endFbx hst hh hlen hq => rw [hd', List.length_nil] at hlen; omega
    | nextRefused => exact ⟨rfl, rfl⟩
    | nextFailed => exact ⟨rfl, rfl⟩
    | nextPanic => exact ⟨rfl, rfl⟩
    | value => exact ⟨rfl, rfl⟩
    | noValue => exact ⟨rfl, rfl⟩
    | loadRefused => exact ⟨rfl, rfl⟩
    | loadFailed => exact ⟨rfl, rfl⟩
    | skip => exact ⟨rfl, rfl⟩
    | skipFailed => exact ⟨rfl, rfl⟩
    | skipPanic => exact ⟨rfl, rfl⟩
    | handler => exact ⟨rfl, rfl⟩

/-- The run on the cut source either is a run on the whole source, or leaves it at some call and is exhausted after it. -/
theorem cut_runs {suf : Bytes} {L L' : Nat} (hL : L + 2 ^ 32 ≤ 2 ^ 64) (hL' : L' + 2 ^ 32 ≤ 2 ^ 64) {s s' t' : Client} (hs : CInv L s)
    (hs' : CInv L' s') (h : CRel (Cut suf) s s') {hist : History α} (hr : Runs Z s' hist t') (hc : hist.calm) :
    (∃ t, Runs Z s hist t ∧ CRel (Cut suf) t t') ∨
    ∃ a c o' b u u' o w, hist = a ++ (c, o') :: b ∧ Runs Z s a u ∧ Runs Z s' a u' ∧ CRel (Cut suf) u u' ∧ u.call Z c = some (o, w) ∧
      o'.isStart = false ∧ (o'.isEndFbx = true → o.isEndFbx = true) ∧ t'.parser.reader.Dry ∧
      ∀ x ∈ b, x.2.isStart = false ∧ x.2.isEndFbx = false := by
  induction hr with
  | nil => exact .inl ⟨s, .nil, h⟩
  | @snoc hist t u c o hr hn hcall ih =>
    have hcalm : History.calm hist := hn
    have hi' := hr.inv hL' hs' hn
    have hx : ∀ x, o ≠ .panic x := fun x hx => hc c x (by simp [hx])
    rcases ih hcalm with ⟨v, h1, h2⟩ | ⟨a, d, o', b, v, v', p, w, h1, h2, h3, h4, h5, h6, h7, h8, h9⟩
    · have hi := h1.inv hL hs hn
      have := call_sim (Z := Z) (cut_related suf) hL h2 hi c (cut_skipSim h2 c)
      rw [hcall] at this
      cases hv : v.call Z c with
      | none => rw [hv] at this; exact this.elim
      | some x =>
        obtain ⟨p, w⟩ := x
        rw [hv] at this
        rcases this with ⟨rfl, e2⟩ | ⟨e1, e2, e3⟩
        · exact .inl ⟨w, .snoc h1 hn hv, e2⟩
        · exact .inr ⟨hist, c, o, [], v, t, p, w, rfl, h1, hr, h2, hv, e2, e3, e1, fun x hx => by cases hx⟩
    · obtain ⟨k1, k2, k3⟩ := dry_call hL' hi' h8 hcall hx
      refine .inr ⟨a, d, o', b ++ [(c, o)], v, v', p, w, by rw [h1]; simp, h2, h3, h4, h5, h6, h7, k1, ?_⟩
      intro x hx
      rcases List.mem_append.mp hx with hx | hx
      · exact h9 x hx
      · rw [List.mem_singleton] at hx
        subst hx
        exact ⟨k2, k3⟩

end Fbx
