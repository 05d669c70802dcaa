import Verif.Proof.HistoryAt
import Verif.Spec.Unsteady

/-! # Histories on sources that change between the calls -/

namespace Fbx
open Reader Parser
variable {α : Type} {Z : Zlib}

theorem facing_inv {L : Nat} {s : Client} (hs : CInv L s) {d : Showing} (hd : d.rest ≠ [] → s.parser.reader.position + d.rest.length ≤ L) :
    CInv L (s.facing d) := by
  refine ⟨⟨⟨hs.parser.reader.1, ?_⟩, hs.parser.top, hs.parser.ends⟩, hs.last, hs.fin, hs.attrs⟩
  by_cases h : d.rest = []
  · rcases hs.parser.reader.2 with ⟨h1, _⟩ | h1
    · exact .inl ⟨h1, h⟩
    · refine .inr ?_
      show s.parser.reader.position + d.rest.length ≤ L
      rw [h]
      simp only [List.length_nil]
      omega
  · exact .inr (hd h)

theorem Unsteady.inv {L : Nat} (hL : L + 2 ^ 32 ≤ 2 ^ 64) {s t : Client} {h : History α} (hr : Unsteady Z L s h t) (hs : CInv L s)
    (hn : h.calm) : CInv L t := by
  induction hr with
  | nil => exact hs
  | @snoc h t u c o d hr hn' hd hc ih =>
    have h1 := facing_inv (ih hn') hd
    exact (call_did hL h1 hc).inv h1 (calm_snoc hn).2

/-- Induction: a property that does not depend on the device and is kept by each call. -/
theorem Unsteady.ind {L : Nat} (hL : L + 2 ^ 32 ≤ 2 ^ 64) {s t : Client} {h : History α} (hr : Unsteady Z L s h t) (hs : CInv L s)
    {P : History α → Client → Prop} (hP : ∀ h t d, P h t → P h (t.facing d)) (h0 : P [] s)
    (step : ∀ h t u c o, CInv L t → P h t → h.calm → Did L t u c o → P (h ++ [(c, o)]) u) : P h t := by
  induction hr with
  | nil => exact h0
  | @snoc h t u c o d hr hn hd hc ih =>
    have h1 := facing_inv (hr.inv hL hs hn) hd
    exact step h (t.facing d) u c o h1 (hP _ _ _ ih) hn (call_did hL h1 hc)

/-- A call in the middle of a history. -/
theorem Unsteady.at {L : Nat} {s u : Client} {a b : History α} {c : Call α} {o : Outcome α} (h : Unsteady Z L s (a ++ (c, o) :: b) u) :
    ∃ t t' d, Unsteady Z L s a t ∧ a.calm ∧ (d.rest ≠ [] → t.parser.reader.position + d.rest.length ≤ L) ∧ (t.facing d).call Z c = some (o, t') ∧
      Unsteady Z L t' b u ∧ (b ≠ [] → ∀ x, o ≠ .panic x) := by
  generalize hab : a ++ (c, o) :: b = ab at h
  induction h generalizing b with
  | nil => simp at hab
  | @snoc h t u c' o' d hr hn hd hc ih =>
    rcases List.eq_nil_or_concat b with rfl | ⟨b', x, rfl⟩
    · obtain ⟨h1, h2⟩ := List.append_inj' hab rfl
      cases h2
      subst h1
      exact ⟨t, u, d, hr, hn, hd, hc, .nil, fun h => absurd rfl h⟩
    · rw [List.concat_eq_append, ← List.cons_append, ← List.append_assoc] at hab
      obtain ⟨h1, h2⟩ := List.append_inj' hab rfl
      cases h2
      obtain ⟨t', t'', d', g1, g2, g3, g4, g5, _⟩ := ih h1
      rw [← h1] at hn
      refine ⟨t', t'', d', g1, g2, g3, g4, ?_, fun _ x hx => hn c x (by simp [hx])⟩
      rw [List.concat_eq_append]
      refine .snoc g5 (fun c'' x hm => hn c'' x ?_) hd hc
      exact List.mem_append_right _ (List.mem_cons_of_mem _ hm)

theorem Unsteady.frame {L : Nat} (hL : L + 2 ^ 32 ≤ 2 ^ 64) {s t : Client} {h : History α} (hr : Unsteady Z L s h t) (hs : CInv L s)
    (hn : h.calm) : t.parser.version = s.parser.version ∧ t.parser.checks = s.parser.checks ∧ s.parser.reader.position ≤ t.parser.reader.position := by
  refine hr.ind hL hs (P := fun h t => h.calm → t.parser.version = s.parser.version ∧ t.parser.checks = s.parser.checks ∧
    s.parser.reader.position ≤ t.parser.reader.position) (fun _ _ _ h => h) (fun _ => ⟨rfl, rfl, Nat.le_refl _⟩) ?_ hn
  intro h t u c o hi ih hn hd hn'
  obtain ⟨h1, h2, h3⟩ := ih hn
  have h4 := hd.frame (calm_snoc hn').2
  have h5 := (hd.moves (calm_snoc hn').2).pos_le
  exact ⟨h4.1.trans h1, h4.2.trans h2, Nat.le_trans h3 h5⟩

/-- What a call does to the depth: it changes by what is observed, but a failing call may lose one node. -/
theorem Did.depth {L : Nat} {t u : Client} {c : Call α} {o : Outcome α} (hd : Did L t u c o) (k2 : ∀ x, o ≠ .panic x) :
    ∃ d, u.parser.depth + (if o.isEnd then 1 else 0) + History.skips [(c, o)] + d =
          t.parser.depth + (if o.isStart then 1 else 0) ∧ (d = 0 ∨ d = 1 ∧ t.parser.health = .running ∧ c.reads = true ∧ o.isErr = true) := by
  have quiet : ∀ {p q : Parser}, Quiet p q → q.depth = p.depth := fun h => by rw [Parser.depth, h.started]; rfl
  have hsk : History.skips [(c, o)] = (match (c, o) with | (.skip, .done) => 1 | (.skip, .err _) => 1 | _ => 0) := by
    cases c <;> cases o <;> rfl
  rw [hsk]
  cases hd with
  | @event ev hrun he hi ha =>
    have := he.depth
    cases ev with
    | startNode name n => exact ⟨0, by simp only [Outcome.isStart, Outcome.isEnd]; simp [DepthChange] at this ⊢; omega, .inl rfl⟩
    | endNode => exact ⟨0, by simp only [Outcome.isStart, Outcome.isEnd]; simp [DepthChange] at this ⊢; omega, .inl rfl⟩
    | endFbx f => exact ⟨0, by simp only [Outcome.isStart, Outcome.isEnd]; simp [DepthChange] at this ⊢; omega, .inl rfl⟩
  | nextRefused hp hr ha => exact ⟨0, by simp [Outcome.isStart, Outcome.isEnd, hp], .inl rfl⟩
  | @nextFailed e q hrun hf hi hp he ha =>
    rcases hf with hf | ⟨p', n, outer, hf, hst, hq⟩
    · exact ⟨0, by simp [Outcome.isStart, Outcome.isEnd, hp]; have := quiet hf; exact this, .inl rfl⟩
    · refine ⟨1, ?_, .inr ⟨rfl, hrun, rfl, rfl⟩⟩
      simp only [Outcome.isStart, Outcome.isEnd, hp]
      simp [Parser.depth, hst, setAborted, hq]
  | nextPanic hx' => exact absurd rfl (k2 _)
  | value ha hp hrun hr ht => subst ht; exact ⟨0, by simp [Outcome.isStart, Outcome.isEnd, hp]; exact quiet hr.1, .inl rfl⟩
  | noValue ha hrun h0 ht => subst ht; exact ⟨0, by simp [Outcome.isStart, Outcome.isEnd], .inl rfl⟩
  | loadRefused ha ht hr => subst ht; exact ⟨0, by simp [Outcome.isStart, Outcome.isEnd], .inl rfl⟩
  | loadFailed ha hp hrun hr hpos ht he =>
    subst ht
    exact ⟨0, by simp [Outcome.isStart, Outcome.isEnd, hp]; have := quiet (reads_quiet hr); exact this, .inl rfl⟩
  | skip hst hm hi hge hpos hplain ht => subst ht; exact ⟨0, by simp [Outcome.isStart, Outcome.isEnd, Parser.depth, hst], .inl rfl⟩
  | skipFailed hst hm hi hge ht => subst ht; exact ⟨0, by simp [Outcome.isStart, Outcome.isEnd, Parser.depth, hst], .inl rfl⟩
  | skipPanic hx' => exact absurd rfl (k2 _)
  | handler ht => subst ht; exact ⟨0, by simp [Outcome.isStart, Outcome.isEnd]; rfl, .inl rfl⟩

/-- After a call the parser runs exactly if it ran before and nothing was reported that ends it. -/
theorem Did.running {L : Nat} {t u : Client} {c : Call α} {o : Outcome α} (hd : Did L t u c o) (k2 : ∀ x, o ≠ .panic x) :
    u.parser.health = .running ↔ t.parser.health = .running ∧ (c.reads = true → o.isErr = false) ∧ o.isEndFbx = false := by
  by_cases ht : t.parser.health = .running
  · cases hd with
    | @event ev hrun' he hi ha =>
      have := he.health
      rw [this]
      cases ev <;> simp [ht, Outcome.isErr, Outcome.isEndFbx]
    | nextRefused hp hr ha => rcases hr with ⟨h1, _⟩ | ⟨_, h1, _⟩ <;> rw [ht] at h1 <;> cases h1
    | nextFailed hrun' hf hi hp he ha => rw [hp]; simp [setAborted, Call.reads, Outcome.isErr]
    | nextPanic hx' => exact absurd rfl (k2 _)
    | value ha hp hrun hr ht' =>
      subst ht'
      have h1 : _ = _ := hr.1.health
      rw [← hp] at h1
      simp only [h1, ht]
      simp [Outcome.isErr, Outcome.isEndFbx]
    | noValue ha hrun h0 ht' => subst ht'; simp [ht, Outcome.isErr, Outcome.isEndFbx]
    | loadRefused ha ht' hr => rcases hr with ⟨h1, _⟩ | ⟨_, h1, _⟩ <;> rw [ht] at h1 <;> cases h1
    | loadFailed ha hp hrun' hr hpos ht' he => subst ht'; simp [setAborted, Call.reads, Outcome.isErr]
    | skip hst hm hi hge hpos hplain ht' => subst ht'; simp [ht, Outcome.isErr, Outcome.isEndFbx]
    | skipFailed hst hm hi hge ht' => subst ht'; simp [ht, Call.reads, Outcome.isEndFbx]
    | skipPanic hx' => exact absurd rfl (k2 _)
    | handler ht' => subst ht'; simp [setHandler, ht, Outcome.isErr, Outcome.isEndFbx]
  · have := (hd.stuck k2 ht).1
    rw [this]
    exact ⟨fun h => absurd h ht, fun h => absurd h.1 ht⟩

/-- The parser runs exactly as long as nothing has failed and the document has not ended. -/
theorem Unsteady.running {L : Nat} (hL : L + 2 ^ 32 ≤ 2 ^ 64) {s t : Client} {h : History α} (hr : Unsteady Z L s h t) (hs : CInv L s)
    (hn : h.calm) : t.parser.health = .running ↔ s.parser.health = .running ∧ h.clean ∧ ∀ x ∈ h, x.2.isEndFbx = false := by
  refine hr.ind hL hs (P := fun h t => h.calm → (t.parser.health = .running ↔ s.parser.health = .running ∧ h.clean ∧ ∀ x ∈ h, x.2.isEndFbx = false))
    (fun _ _ _ h => h) (fun _ => ⟨fun h => ⟨h, by simp [History.clean], by simp⟩, fun h => h.1⟩) ?_ hn
  intro h t u c o hi ih hn hd hn'
  rw [hd.running (calm_snoc hn').2, ih hn]
  simp only [History.clean, List.mem_append, List.mem_singleton]
  constructor
  · rintro ⟨⟨h1, h2, h3⟩, h4, h5⟩
    refine ⟨h1, ?_, ?_⟩
    · rintro x (hx | rfl)
      · exact h2 x hx
      · exact h4
    · rintro x (hx | rfl)
      · exact h3 x hx
      · exact h5
  · rintro ⟨h1, h2, h3⟩
    exact ⟨⟨h1, fun x hx => h2 x (.inl hx), fun x hx => h3 x (.inl hx)⟩, h2 (c, o) (.inr rfl), h3 (c, o) (.inr rfl)⟩

/-- Depth and counts. -/
theorem Unsteady.depth {L : Nat} (hL : L + 2 ^ 32 ≤ 2 ^ 64) {s t : Client} {h : History α} (hr : Unsteady Z L s h t) (hs : CInv L s)
    (hn : h.calm) : ∃ d, t.parser.depth + h.ends + h.skips + d = s.parser.depth + h.starts ∧ d ≤ 1 ∧ (h.clean → d = 0) ∧
      (t.parser.health = .running → d = 0) := by
  refine hr.ind hL hs (P := fun h t => h.calm → ∃ d, t.parser.depth + h.ends + h.skips + d = s.parser.depth + h.starts ∧ d ≤ 1 ∧
    (h.clean → d = 0) ∧ (t.parser.health = .running → d = 0)) (fun _ _ _ h => h) (fun _ => ⟨0, by simp [History.ends, History.skips, History.starts], by omega, fun _ => rfl, fun _ => rfl⟩) ?_ hn
  intro h t u c o hi ih hn hd hn'
  obtain ⟨k1, k2⟩ := calm_snoc hn'
  obtain ⟨d, i1, i2, i3, i4⟩ := ih k1
  obtain ⟨c1, c2, c3, c4⟩ := counts_snoc h c o
  have c5 : History.skips (h ++ [(c, o)]) = h.skips + History.skips [(c, o)] := by simp only [History.skips, List.countP_append]
  obtain ⟨e, j1, j2⟩ := hd.depth k2
  rw [c1, c2, c5]
  refine ⟨d + e, by omega, ?_, fun hcl => ?_, fun hu => ?_⟩
  · rcases j2 with j2 | ⟨j2, j3, _⟩
    · omega
    · have := i4 j3; omega
  · obtain ⟨g1, g2⟩ := clean_snoc hcl
    have := i3 g1
    rcases j2 with j2 | ⟨_, _, j3, j4⟩
    · omega
    · rw [g2 j3] at j4; cases j4
  · obtain ⟨g1, g2, _⟩ := (hd.running k2).mp hu
    have := i4 g1
    rcases j2 with j2 | ⟨_, _, j3, j4⟩
    · omega
    · rw [g2 j3] at j4; cases j4

/-- Everything but the device. -/
def Parser.SameBut (p q : Parser) : Prop := ∃ r e c l, q = { p with reader := { p.reader with rest := r, ending := e, cursor := c, seekLimit := l } }

theorem Parser.SameBut.refl (p : Parser) : p.SameBut p := ⟨_, _, _, _, rfl⟩

theorem Parser.SameBut.facing {p : Parser} {t : Client} (h : p.SameBut t.parser) (d : Showing) : p.SameBut (t.facing d).parser := by
  obtain ⟨r, e, c, l, h⟩ := h
  refine ⟨d.rest, d.ending, d.cursor, d.limit, ?_⟩
  simp only [Client.facing, h]

/-- On a parser that does not run any more all readings are refused, and change nothing of the parser. -/
theorem Unsteady.stuck {L : Nat} (hL : L + 2 ^ 32 ≤ 2 ^ 64) {s t : Client} {h : History α} (hr : Unsteady Z L s h t) (hs : CInv L s)
    (hh : s.parser.health ≠ .running) : (∀ c o, (c, o) ∈ h → c.reads = true → ∃ e, o = .err e ∧ Refused s.parser e) ∧
      (h.calm → t.parser.health = s.parser.health) ∧ ((∀ x ∈ h, x.1.reads = true) → s.parser.SameBut t.parser) := by
  refine hr.ind hL hs (P := fun h t => (∀ c o, (c, o) ∈ h → c.reads = true → ∃ e, o = .err e ∧ Refused s.parser e) ∧
    (h.calm → t.parser.health = s.parser.health) ∧ ((∀ x ∈ h, x.1.reads = true) → s.parser.SameBut t.parser))
    (fun _ _ d h => ⟨h.1, h.2.1, fun hx => (h.2.2 hx).facing d⟩) ⟨by simp, fun _ => rfl, fun _ => .refl _⟩ ?_
  intro h t u c o hi ih hn hd
  have h1 := ih.2.1 hn
  have hnr : t.parser.health ≠ .running := by rw [h1]; exact hh
  have hnp : c.reads = true → ∀ x, o ≠ .panic x := by
    intro hrd x hx
    subst hx
    cases hd with
    | nextPanic hx' => exact hnr hx'.1
    | skipPanic hx' => cases hrd
  refine ⟨?_, ?_, ?_⟩
  · intro c' o' hm hrd
    rcases List.mem_append.mp hm with hm | hm
    · exact ih.1 c' o' hm hrd
    · simp only [List.mem_singleton, Prod.mk.injEq] at hm
      obtain ⟨rfl, rfl⟩ := hm
      obtain ⟨_, e, he, hre⟩ := (hd.stuck (hnp hrd) hnr).2 hrd
      exact ⟨e, he, Parser.Refused.congr hre h1.symm⟩
  · intro hn'
    exact (hd.stuck (calm_snoc hn').2 hnr).1.trans h1
  · intro hall
    have hrd := hall (c, o) (by simp)
    rw [((hd.stuck (hnp hrd) hnr).2 hrd).1]
    exact ih.2.2 (fun x hx => hall x (by simp [hx]))

/-- Along a history without failures the parser's open nodes are those given by the events. -/
theorem Unsteady.paths {L : Nat} (hL : L + 2 ^ 32 ≤ 2 ^ 64) {s t : Client} {h : History α} (hr : Unsteady Z L s h t) (hs : CInv L s)
    (h0 : s.parser.started = [] ∧ s.parser.toplevel = 0) (hn : h.calm) (hcl : h.clean) :
    t.parser.toplevel = h.openNodes.2 ∧ Matches t.parser.toplevel h.openNodes.1 t.parser.started := by
  refine hr.ind hL hs (P := fun h t => h.calm → h.clean → t.parser.toplevel = h.openNodes.2 ∧ Matches t.parser.toplevel h.openNodes.1 t.parser.started)
    (fun _ _ _ h => h) (fun _ _ => by rw [h0.1, h0.2]; exact ⟨rfl, trivial⟩) ?_ hn hcl
  intro h t u c o hi ih hn hd hn' hcl'
  obtain ⟨k1, k2⟩ := calm_snoc hn'
  obtain ⟨g1, g2⟩ := clean_snoc hcl'
  obtain ⟨i1, i2⟩ := ih k1 g1
  have quiet : ∀ {p q : Parser}, Quiet p q → q.started = p.started ∧ q.toplevel = p.toplevel := fun h => ⟨h.started, h.toplevel⟩
  rw [openNodes_snoc]
  rcases hon : History.openNodes h with ⟨st, top⟩
  rw [hon] at i1 i2
  simp only at i1 i2
  have same : ∀ (p : Parser), p.started = t.parser.started → p.toplevel = t.parser.toplevel → p.toplevel = top ∧ Matches p.toplevel st p.started := by
    intro p h1 h2
    rw [h1, h2]; exact ⟨i1, i2⟩
  have pop : ∀ (p : Parser) (n : Started) (outer : List Started), t.parser.started = n :: outer → p.started = outer → p.toplevel = t.parser.toplevel →
      ∃ y st', st = y :: st' ∧ p.toplevel = top ∧ Matches p.toplevel st' p.started := by
    intro p n outer h1 h2 h3
    rw [h1] at i2
    cases st with
    | nil => exact i2.elim
    | cons y st' => exact ⟨y, st', rfl, h3.trans i1, by rw [h2, h3]; exact i2.2.2.2⟩
  cases hd with
  | @event ev hrun he hi ha =>
    cases ev with
    | startNode name n =>
      obtain ⟨r, hd, ae, outer, tl, _, _, _, _, _, _, _, _, e1, e2, e3⟩ := he.started
      cases hst : t.parser.started with
      | nil =>
        rw [hst] at i2 e3
        obtain ⟨rfl, rfl⟩ := e3
        cases st with
        | cons y st' => exact i2.elim
        | nil =>
          simp only [History.openStep]
          rw [e1, e2]
          exact ⟨by rw [i1], rfl, rfl, by rw [i1], trivial⟩
      | cons m o =>
        rw [hst] at i2 e3
        obtain ⟨rfl, rfl⟩ := e3
        cases st with
        | nil => exact i2.elim
        | cons y st' =>
          obtain ⟨nm, i, k⟩ := y
          obtain ⟨j1, j2, j3, j4⟩ := i2
          simp only [History.openStep]
          rw [e1, e2]
          refine ⟨i1, rfl, rfl, by rw [j2], j1, by rw [j2], ?_, j4⟩
          exact j3
    | endNode =>
      obtain ⟨n, outer, h1, h2, h3, h4⟩ := he.ended
      obtain ⟨y, st', rfl, p1, p2⟩ := pop u.parser n outer h1 h2 h4
      exact ⟨p1, p2⟩
    | endFbx f =>
      have h1 := he.finished
      have hm := he
      simp only [History.openStep]
      have htl : u.parser.toplevel = t.parser.toplevel := by
        generalize hev : Event.endFbx f = ev at hm
        cases hm with
        | @endFbx q' f' hs hq =>
          cases hs with
          | endFbx hst hh hlen hq' =>
            rw [hq'] at hq
            exact hq.toplevel
        | start hs hst hq => cases hev
        | endNode hs hq => cases hev
      exact same _ (by rw [h1.1, h1.2.1]) htl
  | nextRefused hp hr ha => have := g2 rfl; cases this
  | nextFailed hrun hf hi hp he ha => have := g2 rfl; cases this
  | nextPanic hx' => exact absurd rfl (k2 _)
  | value ha hp hrun hr ht => subst ht; rw [hp] at same; exact same _ (quiet hr.1).1 (quiet hr.1).2
  | noValue ha hrun h0 ht => subst ht; exact same _ rfl rfl
  | loadRefused ha ht hr => have := g2 rfl; cases this
  | loadFailed ha hp hrun hr hpos ht he => have := g2 rfl; cases this
  | skip hst hm hi hge hpos hplain ht =>
    subst ht
    obtain ⟨y, st', rfl, p1, p2⟩ := pop { t.parser with started := _, last := some .endNode, reader := _ } _ _ hst rfl rfl
    exact ⟨p1, p2⟩
  | skipFailed hst hm hi hge ht =>
    subst ht
    obtain ⟨y, st', rfl, p1, p2⟩ := pop { t.parser with started := _, last := some .endNode, reader := _ } _ _ hst rfl rfl
    exact ⟨p1, p2⟩
  | skipPanic hx' => exact absurd rfl (k2 _)
  | handler ht => subst ht; exact same _ rfl rfl

end Fbx
