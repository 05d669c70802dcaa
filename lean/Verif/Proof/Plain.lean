import Verif.Proof.SimClient
import Verif.Spec.Sources

/-! # Seekable and plain sources -/

namespace Fbx
open Reader Parser
variable {α : Type} {Z : Zlib}

/-- The same source without seeking. -/
def Unseek (r s : Reader) : Prop := s = { r with seekable := false }

theorem unseek_related : Related Unseek (fun _ => False) where
  pos h := by subst h; rfl
  len h := by subst h; exact Nat.le_refl _
  exact_ := by
    intro r s n h
    subst h
    refine .inl ?_
    simp only [readExact]
    split <;> split <;> exact ⟨rfl, rfl⟩
  read := by
    intro r s n h
    subst h
    refine .inl ?_
    simp only [Reader.read]
    split
    · split
      · exact ⟨rfl, rfl⟩
      · obtain ⟨a, e, b, c, d, f⟩ := r
        cases e <;> exact ⟨rfl, rfl⟩
    · split <;> exact ⟨rfl, rfl⟩
  esc _ h := h.elim
  keepExact _ _ h := h.elim
  keepRead _ _ h := h.elim
  keepSkip _ _ h := h.elim

theorem unseek_skip {r s : Reader} (h : Unseek r s) : Sim false Unseek (fun _ => False) (skipTo r.position r) (skipTo r.position s) := by
  subst h
  refine .inl ?_
  simp only [skipTo, Nat.lt_irrefl, if_false, Nat.sub_self, skipDistance, skipSeek, skipSeekLoop, skipPlain, Nat.zero_le, if_true,
    Bool.false_eq_true]
  cases hs : r.seekable
  · exact ⟨rfl, by cases r; subst hs; simp [consumeInner, Unseek]⟩
  · exact ⟨rfl, by simp [consumeInner, Unseek]⟩

theorem unseek_skipSim {s t : Client} (h : CRel Unseek s t) (c : Call α) (hc : s.caughtUp c) : SkipSim Unseek (fun _ => False) s t c := by
  cases c with
  | next => exact fun n o h1 h2 => absurd (hc n o h1) (by omega)
  | load b l =>
    intro a h1 h2 h3
    rcases hc a h1 with h4 | h4
    · exact absurd h4 h2
    · omega
  | skip =>
    intro n o h1
    rw [hc n o h1]
    exact unseek_skip h.1.2
  | setHandler g => trivial

theorem unseek_eq {s t : Client} (h : CRel Unseek s t) : t = s.plain := by
  obtain ⟨p, a⟩ := s
  obtain ⟨q, b⟩ := t
  obtain ⟨⟨h1, h2⟩, h3⟩ := h
  simp only [Unseek] at h1 h2 h3
  rw [h2] at h1
  simp only [Client.plain]
  rw [h1, h3]

theorem Runs.nil_eq {s t : Client} (h : Runs Z s ([] : History α) t) : t = s := by
  generalize hl : ([] : History α) = l at h
  cases h with
  | nil => rfl
  | snoc _ _ _ => simp at hl

theorem Runs.one {s t : Client} {c : Call α} {o : Outcome α} (h : Runs Z s [(c, o)] t) : s.call Z c = some (o, t) := by
  generalize hl : [(c, o)] = l at h
  cases h with
  | nil => cases hl
  | @snoc h u _ c' o' hr hn hc =>
    have hl' : [] ++ [(c, o)] = h ++ [(c', o')] := hl
    obtain ⟨h1, h2⟩ := List.append_inj' hl' rfl
    subst h1
    cases h2
    rw [hr.nil_eq] at hc
    exact hc

theorem skipsNothing_nil (s : Client) : SkipsNothing Z s ([] : History α) := by
  intro a c o b u h
  simp at h

theorem skipsNothing_cons {s t : Client} {c : Call α} {o : Outcome α} {h : History α} (h0 : s.caughtUp c) (hc : s.call Z c = some (o, t))
    (h1 : SkipsNothing Z t h) : SkipsNothing Z s ((c, o) :: h) := by
  intro a c' o' b u hab hu
  cases a with
  | nil =>
    cases hab
    rw [hu.nil_eq]
    exact h0
  | cons x a =>
    obtain ⟨h2, h3⟩ := List.cons.inj hab
    subst h2
    obtain ⟨t', h4, h5, _⟩ := Runs.split (a := [(c, o)]) hu
    have := h4.one
    rw [hc] at this
    cases this
    exact h1 a c' o' b u h3 h5

theorem unseek_runs {L : Nat} (hL : L + 2 ^ 32 ≤ 2 ^ 64) {s s' t : Client} (hs : CInv L s) (h : CRel Unseek s s') {hist : History α}
    (hr : Runs Z s hist t) (hn : SkipsNothing Z s hist) : ∃ t', Runs Z s' hist t' ∧ CRel Unseek t t' := by
  induction hr with
  | nil => exact ⟨s', .nil, h⟩
  | @snoc hist t u c o hr hx hcall ih =>
    obtain ⟨t', h1, h2⟩ := ih (fun a c' o' b v hab hv => hn a c' o' (b ++ [(c, o)]) v (by rw [hab]; simp) hv)
    have hi := hr.inv hL hs hx
    have := call_sim (Z := Z) unseek_related hL h2 hi c (unseek_skipSim h2 c (hn hist c o [] t rfl hr))
    rw [hcall] at this
    cases hv : t'.call Z c with
    | none => rw [hv] at this; exact this.elim
    | some x =>
      obtain ⟨p, w⟩ := x
      rw [hv] at this
      rcases this with ⟨rfl, e2⟩ | ⟨e1, _⟩
      · exact ⟨w, .snoc h1 hx hv, e2⟩
      · exact e1.elim

end Fbx
