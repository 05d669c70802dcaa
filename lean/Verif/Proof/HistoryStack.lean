import Verif.Proof.HistoryCounts

/-! # The open nodes below the ones a client works on -/

namespace Fbx
open Reader Parser
variable {α : Type} {Z : Zlib}

theorem inner_snoc {h : History α} {x : Call α × Outcome α} (hi : History.inner (h ++ [x])) :
    h.inner ∧ History.ends (h ++ [x]) + History.skips (h ++ [x]) ≤ History.starts (h ++ [x]) :=
  ⟨fun a b hab => hi a (b ++ [x]) (by rw [hab, List.append_assoc]), hi (h ++ [x]) [] (by simp)⟩

/-- Everything below the innermost open node stays as it is while the client works inside it. -/
theorem Runs.stack {L : Nat} (hL : L + 2 ^ 32 ≤ 2 ^ 64) {s t : Client} {h : History α} (hr : Runs Z s h t) (hs : CInv L s)
    {n : Started} {outer : List Started} (h0 : s.parser.started = n :: outer) (hn : h.calm) (hcl : h.clean) (hin : h.inner) :
    ∃ up k, t.parser.started = up ++ { n with kids := k } :: outer ∧ t.parser.toplevel = s.parser.toplevel := by
  refine hr.ind hL hs (P := fun h t => h.calm → h.clean → h.inner →
    ∃ up k, t.parser.started = up ++ { n with kids := k } :: outer ∧ t.parser.toplevel = s.parser.toplevel) (fun _ _ _ => ?_) ?_ hn hcl hin
  · exact ⟨[], n.kids, h0, rfl⟩
  · intro h t u c o hr hi ih hn hd hc hn' hcl' hin'
    obtain ⟨k1, k2⟩ := calm_snoc hn'
    obtain ⟨g1, g2⟩ := clean_snoc hcl'
    obtain ⟨j1, j2⟩ := inner_snoc hin'
    obtain ⟨up, k, i1, i2⟩ := ih k1 g1 j1
    have hdep : u.parser.depth + History.ends (h ++ [(c, o)]) + History.skips (h ++ [(c, o)]) = s.parser.depth + History.starts (h ++ [(c, o)]) :=
      ((Runs.snoc hr hn hc).depth hL hs hn').2 hcl'
    have hge : outer.length + 1 ≤ u.parser.started.length := by
      have : s.parser.depth = outer.length + 1 := by rw [Parser.depth, h0]; rfl
      simp only [Parser.depth] at hdep this
      omega
    have same : ∀ (p : Parser), p.started = t.parser.started → p.toplevel = t.parser.toplevel →
        ∃ up k, p.started = up ++ { n with kids := k } :: outer ∧ p.toplevel = s.parser.toplevel := by
      intro p h1 h2
      exact ⟨up, k, h1.trans i1, h2.trans i2⟩
    have quiet : ∀ {p q : Parser}, Quiet p q → q.started = p.started ∧ q.toplevel = p.toplevel := fun h => ⟨h.started, h.toplevel⟩
    have pop : ∀ (p : Parser) (m : Started) (ou : List Started), t.parser.started = m :: ou → p.started = ou → outer.length + 1 ≤ p.started.length →
        p.toplevel = t.parser.toplevel → ∃ up k, p.started = up ++ { n with kids := k } :: outer ∧ p.toplevel = s.parser.toplevel := by
      intro p m ou h1 h2 h3 h4
      rw [h1] at i1
      cases up with
      | nil =>
        simp only [List.nil_append, List.cons.injEq] at i1
        rw [h2, i1.2] at h3
        omega
      | cons x up =>
        simp only [List.cons_append, List.cons.injEq] at i1
        exact ⟨up, k, h2.trans i1.2, h4.trans i2⟩
    cases hd with
    | @event ev hrun he hi ha =>
      cases ev with
      | startNode name m =>
        obtain ⟨r, hd, ae, ou, tl, _, _, _, _, _, _, _, _, e1, e2, e3⟩ := he.started
        rw [i1] at e3
        cases up with
        | nil =>
          simp only [List.nil_append] at e3
          obtain ⟨rfl, rfl⟩ := e3
          exact ⟨[_], k + 1, by rw [e1]; rfl, e2.trans i2⟩
        | cons x up =>
          simp only [List.cons_append] at e3
          obtain ⟨rfl, rfl⟩ := e3
          exact ⟨_ :: _ :: up, k, by rw [e1]; rfl, e2.trans i2⟩
      | endNode =>
        obtain ⟨m, ou, h1, h2, h3, h4⟩ := he.ended
        exact pop u.parser m ou h1 h2 hge h4
      | endFbx f =>
        have := he.finished.1
        rw [i1] at this
        simp at this
    | nextRefused hp hr ha => have := g2 rfl; cases this
    | nextFailed hrun hf hi hp he ha => have := g2 rfl; cases this
    | nextPanic hx' => exact absurd rfl (k2 _)
    | value ha hp hrun hr ht => subst ht; rw [hp] at same; exact same _ (quiet hr.1).1 (quiet hr.1).2
    | noValue ha hrun h0 ht => subst ht; exact same _ rfl rfl
    | loadRefused ha ht hr => have := g2 rfl; cases this
    | loadFailed ha hp hrun hr hpos ht he => have := g2 rfl; cases this
    | skip hst hm hi hge' hpos hplain ht => subst ht; exact pop _ _ _ hst rfl hge rfl
    | skipFailed hst hm hi hge' ht => subst ht; exact pop _ _ _ hst rfl hge rfl
    | skipPanic hx' => exact absurd rfl (k2 _)
    | handler ht => subst ht; exact same _ rfl rfl

/-- Working inside the innermost open node and then closing it. -/
theorem Runs.closes {L : Nat} (hL : L + 2 ^ 32 ≤ 2 ^ 64) {s t u : Client} {h : History α} (hr : Runs Z s h t) (hs : CInv L s)
    {n : Started} {outer : List Started} (h0 : s.parser.started = n :: outer) (hn : h.calm) (hcl : h.clean) (hin : h.inner)
    (heq : h.starts = h.ends + h.skips) (hc : t.call Z (.next : Call α) = some (.event .endNode, u)) :
    u.parser.started = outer ∧ u.parser.reader.position = n.endOff ∧ u.parser.toplevel = s.parser.toplevel ∧ u.parser.last = some .endNode ∧
      u.parser.health = .running := by
  obtain ⟨up, k, h1, h2⟩ := hr.stack hL hs h0 hn hcl hin
  have hd := (hr.depth hL hs hn).2 hcl
  have hup : up = [] := by
    simp only [Parser.depth, h0, h1, List.length_append, List.length_cons] at hd
    exact List.eq_nil_of_length_eq_zero (by omega)
  subst hup
  have ht := hr.inv hL hs hn
  cases call_did hL ht hc with
  | event hrun he hi ha =>
    obtain ⟨m, ou, e1, e2, e3, e4⟩ := he.ended
    rw [h1] at e1
    cases e1
    refine ⟨e2, e3, e4.trans h2, ?_, ?_⟩
    · generalize hev : Event.endNode = ev at he
      cases he with
      | endNode hs hq => rw [hq]
      | start hs hst hq => cases hev
      | endFbx hs hq => cases hev
    · have := he.health
      simpa [hrun] using this

end Fbx
