import Verif.Proof.HistoryStack

/-! # Single calls inside a history -/

namespace Fbx
open Reader Parser
variable {α : Type} {Z : Zlib}

/-- A call in the middle of a history. -/
theorem Runs.at {s u : Client} {a b : History α} {c : Call α} {o : Outcome α} (h : Runs Z s (a ++ (c, o) :: b) u) :
    ∃ t t', Runs Z s a t ∧ a.calm ∧ t.call Z c = some (o, t') ∧ Runs Z t' b u ∧ (b ≠ [] → ∀ x, o ≠ .panic x) := by
  obtain ⟨t, h1, h2, h3⟩ := h.split
  have h2' : Runs Z t ([(c, o)] ++ b) u := h2
  obtain ⟨t', h4, h5, h6⟩ := h2'.split
  refine ⟨t, t', h1, h3 (by simp), ?_, h5, fun hb x hx => h6 hb c x (by simp [hx])⟩
  generalize hl : [(c, o)] = l at h4
  cases h4 with
  | nil => cases hl
  | @snoc h t'' _ c' o' hr hn hc =>
    have : h = [] := by
      cases h with
      | nil => rfl
      | cons x xs => simp at hl
    subst this
    simp at hl
    obtain ⟨rfl, rfl⟩ := hl
    generalize hl : [] = l at hr
    cases hr with
    | nil => exact hc
    | snoc => simp at hl

/-- Without failure and without `EndFbx` the parser keeps running. -/
theorem Runs.still {L : Nat} (hL : L + 2 ^ 32 ≤ 2 ^ 64) {s t : Client} {h : History α} (hr : Runs Z s h t) (hs : CInv L s)
    (h0 : s.parser.health = .running) (hn : h.calm) (hcl : h.clean) (hf : ∀ x ∈ h, x.2.isEndFbx = false) : t.parser.health = .running := by
  refine hr.ind hL hs (P := fun h t => h.calm → h.clean → (∀ x ∈ h, x.2.isEndFbx = false) → t.parser.health = .running) (fun _ _ _ => h0) ?_ hn hcl hf
  intro h t u c o hr hi ih hn hd hc hn' hcl' hf'
  obtain ⟨k1, k2⟩ := calm_snoc hn'
  obtain ⟨g1, g2⟩ := clean_snoc hcl'
  have i1 := ih k1 g1 (fun x hx => hf' x (by simp [hx]))
  cases hd with
  | @event ev hrun he hi ha =>
    have := he.health
    cases ev with
    | endFbx f => exact absurd (hf' (.next, .event (.endFbx f)) (by simp)) (by simp [Outcome.isEndFbx])
    | startNode _ _ => simpa [i1] using this
    | endNode => simpa [i1] using this
  | nextRefused hp hr ha => have := g2 rfl; cases this
  | nextFailed hrun hf hi hp he ha => have := g2 rfl; cases this
  | nextPanic hx' => exact absurd rfl (k2 _)
  | value ha hp hrun hr ht => subst ht; exact hr.1.health.trans (by rw [← hp]; exact hrun)
  | noValue ha hrun h0 ht => subst ht; exact i1
  | loadRefused ha ht hr => have := g2 rfl; cases this
  | loadFailed ha hp hrun hr hpos ht he => have := g2 rfl; cases this
  | skip hst hm hi hge' hpos hplain ht => subst ht; exact i1
  | skipFailed hst hm hi hge' ht => subst ht; exact i1
  | skipPanic hx' => exact absurd rfl (k2 _)
  | handler ht => subst ht; exact i1

/-- A failing call can lose at most one node. -/
theorem Runs.depth_ge {L : Nat} (hL : L + 2 ^ 32 ≤ 2 ^ 64) {s t : Client} {h : History α} (hr : Runs Z s h t) (hs : CInv L s) (hn : h.calm) :
    s.parser.depth + h.starts ≤ t.parser.depth + h.ends + h.skips + 1 := by
  refine (hr.ind hL hs (P := fun h t => h.calm → s.parser.depth + h.starts ≤ t.parser.depth + h.ends + h.skips + 1) (fun _ => ?_) ?_ hn)
  · simp [History.starts]; omega
  · intro h t u c o hr hi ih hn hd hc hn'
    obtain ⟨k1, k2⟩ := calm_snoc hn'
    have i1 := ih k1
    obtain ⟨c1, c2, c3, c4⟩ := counts_snoc h c o
    have c5 := skips_snoc h c o
    rw [c1, c2, c5]
    by_cases hcl : History.clean (h ++ [(c, o)])
    · have := ((Runs.snoc hr hn hc).depth hL hs hn').2 hcl
      rw [c1, c2, c5] at this
      omega
    · have quiet : ∀ {p q : Parser}, Quiet p q → q.depth = p.depth := fun h => by rw [Parser.depth, h.started]; rfl
      cases hd with
      | @event ev hrun he hi ha =>
        have := he.depth
        cases ev <;> simp [DepthChange, Outcome.isStart, Outcome.isEnd] at this ⊢ <;> omega
      | nextRefused hp hr ha => simp [hp, Outcome.isStart, Outcome.isEnd]; omega
      | @nextFailed e q hrun hf hi hp he ha =>
        obtain ⟨_, hcl', _⟩ := hr.running hL hs hn hrun
        have := (hr.depth hL hs hn).2 hcl'
        have hq : t.parser.depth ≤ u.parser.depth + 1 := by
          rw [hp]
          rcases hf with hf | ⟨p', n, outer, hf, hst, hq⟩
          · have := quiet hf
            show t.parser.depth ≤ q.depth + 1
            omega
          · simp [Parser.depth, hst, setAborted, hq]
        simp [Outcome.isStart, Outcome.isEnd]
        omega
      | nextPanic hx' => exact absurd rfl (k2 _)
      | value ha hp hrun hr ht => subst ht; have := quiet hr.1; rw [← hp] at this; simp [Outcome.isStart, Outcome.isEnd]; omega
      | noValue ha hrun h0 ht => subst ht; simp [Outcome.isStart, Outcome.isEnd]; omega
      | loadRefused ha ht hr => subst ht; simp [Outcome.isStart, Outcome.isEnd]; omega
      | @loadFailed b l e a c pos ha hp hrun hr hpos ht he =>
        subst ht
        have h1 := quiet (reads_quiet hr)
        rw [← hp] at h1
        have : (c.parser.setAborted pos).depth = c.parser.depth := rfl
        simp [Outcome.isStart, Outcome.isEnd]; omega
      | skip hst hm hi hge hpos hplain ht => subst ht; simp [Outcome.isStart, Outcome.isEnd, Parser.depth, hst] at i1 ⊢; omega
      | skipFailed hst hm hi hge ht => subst ht; simp [Outcome.isStart, Outcome.isEnd, Parser.depth, hst] at i1 ⊢; omega
      | skipPanic hx' => exact absurd rfl (k2 _)
      | handler ht => subst ht; have : (t.parser.setHandler ‹_›).depth = t.parser.depth := rfl; simp [Outcome.isStart, Outcome.isEnd]; omega

/-- The parser just opened. -/
theorem Opens.state {p : Parser} {bytes : Bytes} (h : Opens p bytes) : p.health = .running ∧ p.started = [] ∧ p.toplevel = 0 ∧ p.last = none ∧
    p.handler = none ∧ p.log = [] ∧ p.reader.rest = bytes ∧ p.reader.position = headerLen := by
  obtain ⟨ck, v, e, c, s, lim, h⟩ := h
  unfold Parser.create at h
  split at h
  · cases h
  · cases h
    exact ⟨rfl, rfl, rfl, rfl, rfl, rfl, rfl, rfl⟩

end Fbx
