import Verif.Proof.Histories

/-! # Consequences of the effects of calls -/

namespace Fbx
open Reader Parser
variable {α : Type} {Z : Zlib}

theorem pushNode_reader (n : Started) (p : Parser) : (pushNode n p).reader = p.reader := by unfold pushNode; split <;> rfl
theorem pushNode_frame (n : Started) (p : Parser) : (pushNode n p).version = p.version ∧ (pushNode n p).checks = p.checks ∧
    (pushNode n p).handler = p.handler ∧ (pushNode n p).log = p.log ∧ (pushNode n p).health = p.health := by
  unfold pushNode; split <;> exact ⟨rfl, rfl, rfl, rfl, rfl⟩

theorem Parser.Steps.moves {p q : Parser} {k : EvKind} (h : Steps p q k) : Moves p.reader q.reader := by
  cases h with
  | start hr hh hne hlen hname hp' hrd hae hq => subst hq; rw [pushNode_reader]; exact hp'.moves
  | implicit hr hst hp' hrd hend hq => subst hq; exact hp'.moves
  | explicit hr hst hh hlen hp' hrd hend hq => subst hq; exact hp'.moves
  | endFbx hst hh hlen hq => subst hq; exact .consume _ _

theorem Parser.Steps.frame {p q : Parser} {k : EvKind} (h : Steps p q k) : q.version = p.version ∧ q.checks = p.checks ∧ q.handler = p.handler := by
  cases h with
  | @start r h name p' attrEnd hr hh hne hlen hname hp' hrd hae hq =>
    have h1 := pushNode_frame ⟨r.position, h.endOffset, h.numAttrs, attrEnd, name, 0⟩ p'
    subst hq
    exact ⟨h1.1.trans hp'.version, h1.2.1.trans hp'.checks, h1.2.2.1.trans hp'.handler⟩
  | implicit hr hst hp' hrd hend hq => subst hq; exact ⟨hp'.version, hp'.checks, hp'.handler⟩
  | explicit hr hst hh hlen hp' hrd hend hq => subst hq; exact ⟨hp'.version, hp'.checks, hp'.handler⟩
  | endFbx hst hh hlen hq => subst hq; exact ⟨rfl, rfl, rfl⟩

theorem Parser.Emits.moves {p q : Parser} {ev : Event} (h : Emits p q ev) : Moves p.reader q.reader := by
  cases h with
  | start hs hst hq => subst hq; exact hs.moves
  | endNode hs hq => subst hq; exact hs.moves
  | endFbx hs hq => exact hs.moves.trans hq.moves

theorem Parser.Emits.frame {p q : Parser} {ev : Event} (h : Emits p q ev) : q.version = p.version ∧ q.checks = p.checks ∧ q.handler = p.handler := by
  cases h with
  | start hs hst hq => subst hq; exact hs.frame
  | endNode hs hq => subst hq; exact hs.frame
  | endFbx hs hq =>
    have := hs.frame
    exact ⟨hq.version.trans this.1, hq.checks.trans this.2.1, hq.handler.trans this.2.2⟩

theorem Parser.Failed.moves {p q : Parser} (h : Failed p q) : Moves p.reader q.reader := by
  rcases h with h | ⟨p', n, outer, h, hst, rfl⟩
  · exact h.moves
  · exact h.moves

theorem Parser.Failed.frame {p q : Parser} (h : Failed p q) : q.version = p.version ∧ q.checks = p.checks ∧ q.handler = p.handler := by
  rcases h with h | ⟨p', n, outer, h, hst, rfl⟩
  · exact ⟨h.version, h.checks, h.handler⟩
  · exact ⟨h.version, h.checks, h.handler⟩

/-- Depths before and after an event. -/
def DepthChange (p q : Parser) : Event → Prop
  | .startNode _ _ => q.depth = p.depth + 1
  | .endNode => p.depth = q.depth + 1
  | .endFbx _ => p.depth = 0 ∧ q.depth = 0

theorem Parser.Emits.depth {p q : Parser} {ev : Event} (h : Emits p q ev) : DepthChange p q ev := by
  cases h with
  | start hs hst hq => subst hq; have := hs.depth; simp only [depthOk, decide_eq_true_eq] at this; exact this
  | endNode hs hq => subst hq; have := hs.depth; simp only [depthOk, decide_eq_true_eq] at this; exact this
  | endFbx hs hq =>
    have := hs.depth
    simp only [depthOk, decide_eq_true_eq] at this
    refine ⟨this.1, ?_⟩
    rw [Parser.depth, hq.started]
    exact this.2

/-- Reading an attribute, successfully or not, moves the source forwards. -/
theorem reads_quiet {L : Nat} {a c : AP} (h : AP.Reads L a c ∨ AP.Reads1 L a c) : Quiet a.parser c.parser := by
  rcases h with h | h <;> exact h.1

theorem Did.moves {L : Nat} {s t : Client} {c : Call α} {o : Outcome α} (h : Did L s t c o) (hx : ∀ x, o ≠ .panic x) :
    Moves s.parser.reader t.parser.reader := by
  cases h with
  | event hrun he hi ha => exact he.moves
  | nextRefused hp hr ha => rw [hp]; exact .refl _
  | nextFailed hrun hf hi hp he ha => have := hf.moves; rw [hp]; exact this
  | nextPanic hx' => exact absurd rfl (hx _)
  | value ha hp hrun hr ht => subst ht; rw [hp]; exact hr.1.moves
  | noValue ha hrun h0 ht => subst ht; exact .refl _
  | loadRefused ha ht hr => subst ht; exact .refl _
  | loadFailed ha hp hrun hr hpos ht he => subst ht; rw [hp]; exact (reads_quiet hr).moves
  | skip hst hm hi hge hpos hplain ht => subst ht; exact hm
  | skipFailed hst hm hi hge ht => subst ht; exact hm
  | skipPanic hx' => exact absurd rfl (hx _)
  | handler ht => subst ht; exact .refl _

theorem Did.frame {L : Nat} {s t : Client} {c : Call α} {o : Outcome α} (h : Did L s t c o) (hx : ∀ x, o ≠ .panic x) :
    t.parser.version = s.parser.version ∧ t.parser.checks = s.parser.checks := by
  cases h with
  | event hrun he hi ha => have := he.frame; exact ⟨this.1, this.2.1⟩
  | nextRefused hp hr ha => rw [hp]; exact ⟨rfl, rfl⟩
  | nextFailed hrun hf hi hp he ha => rw [hp]; have := hf.frame; exact ⟨this.1, this.2.1⟩
  | nextPanic hx' => exact absurd rfl (hx _)
  | value ha hp hrun hr ht => subst ht; rw [hp]; exact ⟨hr.1.version, hr.1.checks⟩
  | noValue ha hrun h0 ht => subst ht; exact ⟨rfl, rfl⟩
  | loadRefused ha ht hr => subst ht; exact ⟨rfl, rfl⟩
  | loadFailed ha hp hrun hr hpos ht he => subst ht; rw [hp]; have := reads_quiet hr; exact ⟨this.version, this.checks⟩
  | skip hst hm hi hge hpos hplain ht => subst ht; exact ⟨rfl, rfl⟩
  | skipFailed hst hm hi hge ht => subst ht; exact ⟨rfl, rfl⟩
  | skipPanic hx' => exact absurd rfl (hx _)
  | handler ht => subst ht; exact ⟨rfl, rfl⟩

/-- Calls on a parser that does not run any more. -/
theorem Did.stuck {L : Nat} {s t : Client} {c : Call α} {o : Outcome α} (h : Did L s t c o) (hx : ∀ x, o ≠ .panic x)
    (hh : s.parser.health ≠ .running) : t.parser.health = s.parser.health ∧
      (c.reads = true → t.parser = s.parser ∧ ∃ e, o = .err e ∧ Refused s.parser e) := by
  cases h with
  | event hrun he hi ha => exact absurd hrun hh
  | nextRefused hp hr ha => exact ⟨by rw [hp], fun _ => ⟨hp, _, rfl, hr⟩⟩
  | nextFailed hrun hf hi hp he ha => exact absurd hrun hh
  | nextPanic hx' => exact absurd rfl (hx _)
  | value ha hp hrun hr ht => exact absurd hrun hh
  | noValue ha hrun h0 ht => exact absurd hrun hh
  | loadRefused ha ht hr => subst ht; exact ⟨rfl, fun _ => ⟨rfl, _, rfl, hr⟩⟩
  | loadFailed ha hp hrun hr hpos ht he => exact absurd hrun hh
  | skip hst hm hi hge hpos hplain ht => subst ht; exact ⟨rfl, fun h => by cases h⟩
  | skipFailed hst hm hi hge ht => subst ht; exact ⟨rfl, fun h => by cases h⟩
  | skipPanic hx' => exact absurd rfl (hx _)
  | handler ht => subst ht; exact ⟨rfl, fun h => by cases h⟩

theorem Parser.Refused.congr {p q : Parser} {e : PErr} (h : Refused p e) (hh : q.health = p.health) : Refused q e := by
  rcases h with ⟨h1, h2⟩ | ⟨pos, h1, h2⟩
  · exact .inl ⟨hh.trans h1, h2⟩
  · exact .inr ⟨pos, hh.trans h1, h2⟩

/-- Histories of a parser that does not run any more. -/
theorem Runs.stuck {L : Nat} (hL : L + 2 ^ 32 ≤ 2 ^ 64) {s t : Client} {h : History α} (hr : Runs Z s h t) (hs : CInv L s)
    (hh : s.parser.health ≠ .running) : ∀ c o, (c, o) ∈ h → c.reads = true → ∃ e, o = .err e ∧ Refused s.parser e := by
  have key : (∀ c x, (c, .panic x) ∉ h) → t.parser.health = s.parser.health := by
    refine hr.ind hL hs (P := fun h t => (∀ c x, (c, .panic x) ∉ h) → t.parser.health = s.parser.health) (fun _ => rfl) ?_
    intro h t u c o hr hi ih hn hd hc hn'
    have h1 := ih hn
    exact (hd.stuck (fun x hx => hn' c x (by simp [hx])) (by rw [h1]; exact hh)).1.trans h1
  clear key
  have key2 : (∀ c o, (c, o) ∈ h → c.reads = true → ∃ e, o = .err e ∧ Refused s.parser e) ∧ ((∀ c x, (c, .panic x) ∉ h) → t.parser.health = s.parser.health) := by
    refine hr.ind hL hs (P := fun h t => (∀ c o, (c, o) ∈ h → c.reads = true → ∃ e, o = .err e ∧ Refused s.parser e) ∧
      ((∀ c x, (c, .panic x) ∉ h) → t.parser.health = s.parser.health)) ⟨by simp, fun _ => rfl⟩ ?_
    intro h t u c o hr hi ih hn hd hc
    have h1 := ih.2 hn
    have hnr : t.parser.health ≠ .running := by rw [h1]; exact hh
    refine ⟨?_, ?_⟩
    · intro c' o' hm hrd
      rcases List.mem_append.mp hm with hm | hm
      · exact ih.1 c' o' hm hrd
      · simp only [List.mem_singleton, Prod.mk.injEq] at hm
        obtain ⟨rfl, rfl⟩ := hm
        have hnp : ∀ x, o' ≠ .panic x := by
          intro x hx
          subst hx
          cases hd with
          | nextPanic hx' => exact hnr hx'.1
          | skipPanic hx' => cases hrd
        obtain ⟨_, e, he, hre⟩ := (hd.stuck hnp hnr).2 hrd
        exact ⟨e, he, Parser.Refused.congr hre h1.symm⟩
    · intro hn'
      exact (hd.stuck (fun x hx => hn' c x (by simp [hx])) hnr).1.trans h1
  exact key2.1

theorem Runs.stuck_state {L : Nat} (hL : L + 2 ^ 32 ≤ 2 ^ 64) {s t : Client} {h : History α} (hr : Runs Z s h t) (hs : CInv L s)
    (hh : s.parser.health ≠ .running) (ha : ∀ x ∈ h, x.1.reads = true) : t.parser = s.parser := by
  have h0 := hr.stuck hL hs hh
  have : (∀ x ∈ h, x.1.reads = true) → (∀ c o, (c, o) ∈ h → c.reads = true → ∃ e, o = .err e ∧ Refused s.parser e) → t.parser = s.parser := by
    refine hr.ind hL hs (P := fun h t => (∀ x ∈ h, x.1.reads = true) → (∀ c o, (c, o) ∈ h → c.reads = true → ∃ e, o = .err e ∧ Refused s.parser e) → t.parser = s.parser) (fun _ _ => rfl) ?_
    intro h t u c o hr hi ih hn hd hc ha he
    have h1 := ih (fun x hx => ha x (by simp [hx])) (fun c o hm => he c o (by simp [hm]))
    have hcr := ha (c, o) (by simp)
    obtain ⟨e, rfl, _⟩ := he c o (by simp) hcr
    exact ((hd.stuck (fun x hx => by cases hx) (by rw [h1]; exact hh)).2 hcr).1.trans h1
  exact this ha h0

/-- The reader's position and the tracked position move together on seekable sources. -/
theorem Runs.moves {L : Nat} (hL : L + 2 ^ 32 ≤ 2 ^ 64) {s t : Client} {h : History α} (hr : Runs Z s h t) (hs : CInv L s)
    (hn : ∀ c x, (c, .panic x) ∉ h) : Moves s.parser.reader t.parser.reader := by
  refine hr.ind hL hs (P := fun h t => (∀ c x, (c, .panic x) ∉ h) → Moves s.parser.reader t.parser.reader) (fun _ => .refl _) ?_ hn
  intro h t u c o hr hi ih hn hd hc hn'
  exact (ih hn).trans (hd.moves (fun x hx => hn' c x (by simp [hx])))

theorem Runs.frame {L : Nat} (hL : L + 2 ^ 32 ≤ 2 ^ 64) {s t : Client} {h : History α} (hr : Runs Z s h t) (hs : CInv L s)
    (hn : ∀ c x, (c, .panic x) ∉ h) : t.parser.version = s.parser.version ∧ t.parser.checks = s.parser.checks := by
  refine hr.ind hL hs (P := fun h t => (∀ c x, (c, .panic x) ∉ h) → t.parser.version = s.parser.version ∧ t.parser.checks = s.parser.checks) (fun _ => ⟨rfl, rfl⟩) ?_ hn
  intro h t u c o hr hi ih hn hd hc hn'
  have h1 := ih hn
  have h2 := hd.frame (fun x hx => hn' c x (by simp [hx]))
  exact ⟨h2.1.trans h1.1, h2.2.trans h1.2⟩

/-- As long as the parser runs nothing has failed and the document has not ended. -/
theorem Runs.running {L : Nat} (hL : L + 2 ^ 32 ≤ 2 ^ 64) {s t : Client} {h : History α} (hr : Runs Z s h t) (hs : CInv L s)
    (hn : ∀ c x, (c, .panic x) ∉ h) (hrun : t.parser.health = .running) :
    s.parser.health = .running ∧ h.clean ∧ ∀ x ∈ h, x.2.isEndFbx = false := by
  refine hr.ind hL hs (P := fun h t => (∀ c x, (c, .panic x) ∉ h) → t.parser.health = .running → s.parser.health = .running ∧ h.clean ∧ ∀ x ∈ h, x.2.isEndFbx = false) ?_ ?_ hn hrun
  · exact fun _ h => ⟨h, by simp [History.clean], by simp⟩
  · intro h t u c o hr hi ih hn hd hc hn' hrun
    have hnp : ∀ x, o ≠ .panic x := fun x hx => hn' c x (by simp [hx])
    have key : t.parser.health = .running ∧ (c.reads = true → o.isErr = false) ∧ o.isEndFbx = false := by
      by_cases ht : t.parser.health = .running
      · refine ⟨ht, ?_⟩
        cases hd with
        | @event ev hrun' he hi ha =>
          refine ⟨fun _ => rfl, ?_⟩
          have := he.health
          rw [hrun] at this
          cases ev <;> first | rfl | simp at this
        | nextRefused hp hr ha => rcases hr with ⟨h1, _⟩ | ⟨_, h1, _⟩ <;> rw [ht] at h1 <;> cases h1
        | nextFailed hrun' hf hi hp he ha => rw [hp] at hrun; cases hrun
        | nextPanic hx' => exact absurd rfl (hnp _)
        | value ha hp hrun hr ht => exact ⟨fun _ => rfl, rfl⟩
        | noValue ha hrun h0 ht => exact ⟨fun _ => rfl, rfl⟩
        | loadRefused ha ht' hr => rcases hr with ⟨h1, _⟩ | ⟨_, h1, _⟩ <;> rw [ht] at h1 <;> cases h1
        | loadFailed ha hp hrun' hr hpos ht' he => subst ht'; cases hrun
        | skip hst hm hi hge hpos hplain ht => exact ⟨fun _ => rfl, rfl⟩
        | skipFailed hst hm hi hge ht => exact ⟨fun h => by (cases h), rfl⟩
        | skipPanic hx' => exact absurd rfl (hnp _)
        | handler ht => exact ⟨fun _ => rfl, rfl⟩
      · have := (hd.stuck hnp ht).1
        rw [hrun] at this
        exact absurd this.symm ht
    obtain ⟨k1, k2, k3⟩ := key
    obtain ⟨g1, g2, g3⟩ := ih hn k1
    refine ⟨g1, ?_, ?_⟩
    · intro x hx
      rcases List.mem_append.mp hx with hx | hx
      · exact g2 x hx
      · simp only [List.mem_singleton] at hx
        subst hx
        exact k2
    · intro x hx
      rcases List.mem_append.mp hx with hx | hx
      · exact g3 x hx
      · simp only [List.mem_singleton] at hx
        subst hx
        exact k3

end Fbx
