import Verif.Proof.Handler
import Verif.Proof.HistoryFacts

/-! # Histories with and without a warning handler -/

namespace Fbx
open Reader Parser Spec
variable {α : Type} {Z : Zlib}

/-- Two clients, the first without a handler. -/
def Client.Twin (h0 : Option Handler) (base : List (Warning × SynPos)) (s t : Client) : Prop :=
  Parser.Twin h0 base s.parser t.parser ∧ t.attrs = s.attrs

theorem attrsOf_twin {h0 : Option Handler} {base : List (Warning × SynPos)} {p q : Parser} (h : Parser.Twin h0 base p q) : attrsOf q = attrsOf p := by
  rw [h.2.1]
  simp only [attrsOf, AP.ofParser]
  cases p.started <;> rfl

/-- One call. -/
theorem call_twin {L : Nat} (hL : L + 2 ^ 32 ≤ 2 ^ 64) {h0 : Option Handler} {base : List (Warning × SynPos)} {s t : Client} (h : s.Twin h0 base t)
    (ht : CInv L t) {c : Call α} (hc : ∀ f, c ≠ .setHandler f) :
    (s.call Z c = none ∧ t.call Z c = none) ∨ (∃ o s' t', s.call Z c = some (o, s') ∧ t.call Z c = some (o, t') ∧ s'.Twin h0 base t') ∨
    ∃ o t' w pos rest e0, t.call Z c = some (o, t') ∧ t'.parser.log = (w, pos) :: rest ∧ Accepted h0 base rest ∧ Objects h0 rest w pos e0 ∧ Reports e0 pos o t'.parser := by
  cases c with
  | next =>
    right
    simp only [Client.call]
    have hw := wp_nextEvent hL ht.parser ht.last
    simp only [M.wp] at hw
    rcases nextEvent_twin h.1 with h1 | h1
    · left
      obtain ⟨h1, h2⟩ := h1
      rcases hp : nextEvent s.parser with ⟨r, p⟩
      rcases hq : nextEvent t.parser with ⟨r', q⟩
      rw [hp, hq] at h1 h2
      simp only at h1 h2
      subst h1
      cases r with
      | ok ev =>
        refine ⟨_, _, _, rfl, rfl, h2, ?_⟩
        cases ev with
        | startNode a b => exact attrsOf_twin h2
        | endNode => rfl
        | endFbx f => rfl
      | err e => exact ⟨_, _, _, rfl, rfl, h2, rfl⟩
      | panic x => exact ⟨_, _, _, rfl, rfl, h2, rfl⟩
    · right
      rcases hq : nextEvent t.parser with ⟨r', q⟩
      rw [hq] at h1 hw
      cases h1 with
      | @failed q e pos h hp =>
        obtain ⟨w, ps, rest, e0, h1, h2, h3, h4⟩ := h
        refine ⟨_, _, w, ps, rest, e0, rfl, h1, h2, h3, .inl ⟨_, _, rfl, ?_, rfl, rfl⟩⟩
        rw [h4]; rfl
      | @footer q e h hh =>
        obtain ⟨w, ps, rest, e0, h1, h2, h3, h4⟩ := h
        refine ⟨_, _, w, ps, rest, e0, rfl, h1, h2, h3, .inr ⟨?_, hh⟩⟩
        rw [h4]; rfl
      | panic => exact absurd hw.2.1 (by simp)
  | load b l =>
    simp only [Client.call, h.2]
    cases ha : s.attrs with
    | none => exact .inl ⟨rfl, rfl⟩
    | some a =>
      right
      simp only
      obtain ⟨i1, i2, _⟩ := ht.attrs a (h.2.trans ha)
      have hw := AP.wp_load (Z := Z) hL (a := ⟨t.parser, a⟩) ⟨ht.parser, i1, i2⟩ b l
      simp only [M.wp] at hw
      rcases AP.load_twin (Z := Z) (a := ⟨s.parser, a⟩) (b := ⟨t.parser, a⟩) ⟨h.1, rfl⟩ b l with h1 | h1
      · left
        obtain ⟨h1, h2⟩ := h1
        rcases hp : AP.load Z b l ⟨s.parser, a⟩ with ⟨r, p⟩
        rcases hq : AP.load Z b l ⟨t.parser, a⟩ with ⟨r', q⟩
        rw [hp, hq] at h1 h2
        simp only at h1 h2
        subst h1
        have h3 : Client.Twin h0 base ⟨p.parser, some p.attrs⟩ ⟨q.parser, some q.attrs⟩ := ⟨h2.1, by rw [h2.2]⟩
        cases r with
        | ok v => cases v <;> exact ⟨_, _, _, rfl, rfl, h3⟩
        | err e => exact ⟨_, _, _, rfl, rfl, h3⟩
        | panic x => exact ⟨_, _, _, rfl, rfl, h3⟩
      · right
        rcases hq : AP.load Z b l ⟨t.parser, a⟩ with ⟨r', q⟩
        rw [hq] at h1 hw
        cases h1 with
        | @failed q e pos h hp =>
          obtain ⟨w, ps, rest, e0, h1, h2, h3, h4⟩ := h
          refine ⟨_, _, w, ps, rest, e0, rfl, h1, h2, h3, .inl ⟨_, _, rfl, ?_, rfl, rfl⟩⟩
          rw [h4]; rfl
        | panic => exact hw.elim
  | skip =>
    right; left
    simp only [Client.call]
    obtain ⟨h1, h2⟩ := skipCurrentNode_twin h.1
    rcases hp : skipCurrentNode s.parser with ⟨r, p⟩
    rcases hq : skipCurrentNode t.parser with ⟨r', q⟩
    rw [hp, hq] at h1 h2
    simp only at h1 h2
    subst h1
    cases r <;> exact ⟨_, _, _, rfl, rfl, h2, rfl⟩
  | setHandler f => exact absurd rfl (hc f)

/-- A call on a parser that does not run raises no warning. -/
theorem Did.quiet {L : Nat} {s t : Client} {c : Call α} {o : Outcome α} (h : Did L s t c o) (hh : s.parser.health ≠ .running) (hx : ∀ x, o ≠ .panic x) :
    t.parser.log = s.parser.log := by
  cases h with
  | event hrun he hi ha => exact absurd hrun hh
  | nextRefused hp hr ha => rw [hp]
  | nextFailed hrun hf hi hp he ha => exact absurd hrun hh
  | nextPanic hx' => exact absurd rfl (hx _)
  | value ha hp hrun hr ht => exact absurd hrun hh
  | noValue ha hrun h0 ht => exact absurd hrun hh
  | loadRefused ha ht hr => subst ht; rfl
  | loadFailed ha hp hrun hr hpos ht he => exact absurd hrun hh
  | skip hst hm hi hge hpos hplain ht => subst ht; rfl
  | skipFailed hst hm hi hge ht => subst ht; rfl
  | skipPanic hx' => exact absurd rfl (hx _)
  | handler ht => subst ht; rfl

theorem accepted_length {h0 : Option Handler} {base log : List (Warning × SynPos)} (h : Accepted h0 base log) : base.length ≤ log.length := by
  induction h with
  | refl => exact Nat.le_refl _
  | step _ _ ih => simp only [List.length_cons]; omega

/-- If the handler objected to the newest warning the warnings are not all accepted. -/
theorem not_accepted {h0 : Option Handler} {base rest : List (Warning × SynPos)} {w : Warning} {pos : SynPos} {e : PErr}
    (ha : Accepted h0 base rest) (h : Objects h0 rest w pos e) : ¬ Accepted h0 base ((w, pos) :: rest) := by
  intro g
  generalize hl : (w, pos) :: rest = l at g
  cases g with
  | refl =>
    have := accepted_length ha
    rw [← hl] at this
    simp only [List.length_cons] at this
    omega
  | step g1 g2 => cases hl; exact g2 e h

/-- Where the handler objects. -/
structure Objection (Z : Zlib) (h0 : Option Handler) (base : List (Warning × SynPos)) (s t : Client) (h : History α) (u : Client) : Prop where
  found : ∃ h1 c o h2 s1 t1 t2 w pos rest e0, h = h1 ++ (c, o) :: h2 ∧ Runs Z s h1 s1 ∧ Runs Z t h1 t1 ∧ s1.Twin h0 base t1 ∧ t1.call Z c = some (o, t2) ∧
    t2.parser.log = (w, pos) :: rest ∧ Accepted h0 base rest ∧ Objects h0 rest w pos e0 ∧ Reports e0 pos o t2.parser ∧
    (h.calm → u.parser.log = t2.parser.log ∧ u.parser.health = t2.parser.health)

theorem Reports.stopped {e0 : PErr} {pos : SynPos} {o : Outcome α} {q : Parser} (h : Reports e0 pos o q) : q.health ≠ .running := by
  rcases h with ⟨_, _, _, _, _, h⟩ | ⟨_, h⟩ <;> rw [h] <;> simp

theorem runs_twin {L : Nat} (hL : L + 2 ^ 32 ≤ 2 ^ 64) {h0 : Option Handler} {base : List (Warning × SynPos)} {s t : Client} (hst : s.Twin h0 base t)
    (ht : CInv L t) {h : History α} {u : Client} (hr : Runs Z t h u) (hs : NoSet h) :
    (∃ s', Runs Z s h s' ∧ s'.Twin h0 base u) ∨ Objection Z h0 base s t h u := by
  induction hr with
  | nil => exact .inl ⟨s, .nil, hst⟩
  | @snoc h v u c o hr hn hc ih =>
    have hv := hr.inv hL ht hn
    rcases ih (fun x hx => hs x (by simp [hx])) with ⟨s', h1, h2⟩ | ⟨⟨a, c1, o1, b, s1, t1, t2, w, pos, rest, e0, g1, g2, g3, g4, g5, g6, g7, g8, g9, g10⟩⟩
    · rcases call_twin hL h2 hv (Z := Z) (c := c) (hs (c, o) (by simp)) with ⟨_, h3⟩ | ⟨o', s'', t', h3, h4, h5⟩ | ⟨o', t', w, pos, rest, e0, h3, h4, h5, h6, h7⟩
      · rw [h3] at hc; cases hc
      · rw [h4] at hc; cases hc
        exact .inl ⟨s'', h1.snoc hn h3, h5⟩
      · rw [h3] at hc; cases hc
        exact .inr ⟨⟨h, c, o, [], s', v, u, w, pos, rest, e0, rfl, h1, hr, h2, h3, h4, h5, h6, h7, fun _ => ⟨rfl, rfl⟩⟩⟩
    · refine .inr ⟨⟨a, c1, o1, b ++ [(c, o)], s1, t1, t2, w, pos, rest, e0, by rw [g1]; simp, g2, g3, g4, g5, g6, g7, g8, g9, ?_⟩⟩
      intro hcalm
      obtain ⟨k1, k2⟩ := g10 hn
      have hnr : v.parser.health ≠ .running := by rw [k2]; exact Reports.stopped g9
      have hd := call_did hL hv hc
      have hnp : ∀ x, o ≠ .panic x := fun x hx => hcalm c x (by simp [hx])
      exact ⟨(hd.quiet hnr hnp).trans k1, (hd.stuck hnp hnr).1.trans k2⟩

theorem set_inv {L : Nat} {s : Client} (hs : CInv L s) (f : Handler) : CInv L ⟨s.parser.setHandler f, none⟩ :=
  ⟨⟨hs.parser.reader, hs.parser.top, hs.parser.ends⟩, hs.last, hs.fin, fun a h => by cases h⟩

theorem set_twin {s : Parser} (h : s.handler = none) (f : Handler) : Client.Twin (some f) s.log ⟨s, none⟩ ⟨s.setHandler f, none⟩ :=
  ⟨⟨h, rfl, .refl⟩, rfl⟩

theorem Client.Twin.eq {h0 : Option Handler} {base : List (Warning × SynPos)} {s t : Client} (h : s.Twin h0 base t) : s = ⟨{ t.parser with handler := none }, t.attrs⟩ := by
  obtain ⟨⟨h1, h2, _⟩, h3⟩ := h
  obtain ⟨sp, sa⟩ := s
  simp only at h1 h2 h3
  rw [h2, h3]
  cases sp
  simp only at h1
  subst h1
  rfl

/-- A handler that accepts everything accepts every list of warnings it sees. -/
theorem accepted_ok {f : Handler} (hf : ∀ log w pos, f log w pos = none) (rest : List (Warning × SynPos)) (w : Warning) (pos : SynPos) (e : PErr) :
    ¬ Objects (some f) rest w pos e := by
  simp [Objects, hf]

end Fbx
