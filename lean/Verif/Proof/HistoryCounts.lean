import Verif.Proof.HistoryFacts

/-! # Counting events along a history -/

namespace Fbx
open Reader Parser
variable {α : Type} {Z : Zlib}

/-- What a node start found in the source and did to the parser. -/
theorem Parser.Emits.started {p q : Parser} {name : String} {n : Nat} (h : Emits p q (.startNode name n)) :
    ∃ r hd ae outer tl, Moves p.reader r ∧ Skipped p r ∧ headerAt (headWidth p.version) r.rest = hd ∧ hd ≠ .nodeEnd ∧ hd.numAttrs = n ∧
      3 * headWidth p.version + 1 + hd.nameLen ≤ r.rest.length ∧
      stringOfUtf8 ((r.rest.drop (3 * headWidth p.version + 1)).take hd.nameLen) = some name ∧
      q.reader = r.consume (3 * headWidth p.version + 1 + hd.nameLen) ∧
      q.started = ⟨r.position, hd.endOffset, n, ae, name, 0⟩ :: outer ∧ q.toplevel = tl ∧
      (match p.started with | [] => outer = [] ∧ tl = p.toplevel + 1 | m :: o => outer = { m with kids := m.kids + 1 } :: o ∧ tl = p.toplevel) := by
  generalize hev : Event.startNode name n = ev at h
  cases h with
  | @start q' nd ou hs hst hq =>
    cases hev
    cases hs with
    | @start r hd nm p' ae hr hh hne hlen hname hp' hrd hae hq' =>
      have h5 := hp'.started
      have h6 := hp'.toplevel
      subst hq
      subst hq'
      refine ⟨r, hd, ae, ou, (pushNode ⟨r.position, hd.endOffset, hd.numAttrs, ae, nm, 0⟩ p').toplevel, hr.moves, hr, hh, hne, ?_, hlen, ?_, ?_, ?_, rfl, ?_⟩
      · unfold pushNode at hst
        split at hst <;> cases hst <;> rfl
      · unfold pushNode at hst
        split at hst <;> cases hst <;> exact hname
      · rw [show ({ pushNode ⟨r.position, hd.endOffset, hd.numAttrs, ae, nm, 0⟩ p' with last := some .startNode } : Parser).reader = p'.reader from pushNode_reader _ _]
        exact hrd
      · show (pushNode ⟨r.position, hd.endOffset, hd.numAttrs, ae, nm, 0⟩ p').started = _
        rw [hst]
        unfold pushNode at hst
        split at hst <;> cases hst <;> rfl
      · rw [← h5, ← h6]
        unfold pushNode at hst ⊢
        cases hps : p'.started with
        | nil => rw [hps] at hst; cases hst; exact ⟨rfl, by rfl⟩
        | cons m o => rw [hps] at hst; cases hst; exact ⟨rfl, by rfl⟩
  | endNode hs hq => cases hev
  | endFbx hs hq => cases hev

/-- What a node end did. -/
theorem Parser.Emits.ended {p q : Parser} (h : Emits p q .endNode) : ∃ n outer, p.started = n :: outer ∧ q.started = outer ∧
    q.reader.position = n.endOff ∧ q.toplevel = p.toplevel := by
  generalize hev : Event.endNode = ev at h
  cases h with
  | endNode hs hq =>
    cases hs with
    | @implicit r n outer p' hr hst hp' hrd hend hq' =>
      subst hq; subst hq'
      exact ⟨n, outer, hst, rfl, by rw [← hend, ← hrd], hp'.toplevel⟩
    | @explicit r n outer p' hr hst hh hlen hp' hrd hend hq' =>
      subst hq; subst hq'
      exact ⟨n, outer, hst, rfl, hend, hp'.toplevel⟩
  | start hs hst hq => cases hev
  | endFbx hs hq => cases hev

/-- What the end of the document did. -/
theorem Parser.Emits.finished {p q : Parser} {f : Except PErr Footer} (h : Emits p q (.endFbx f)) : p.started = [] ∧ q.started = [] ∧
    headerAt (headWidth p.version) p.reader.rest = .nodeEnd ∧ 3 * headWidth p.version + 1 ≤ p.reader.rest.length ∧
    Moves (p.reader.consume (3 * headWidth p.version + 1)) q.reader ∧ q.health = .finished := by
  generalize hev : Event.endFbx f = ev at h
  cases h with
  | @endFbx q' f' hs hq =>
    cases hs with
    | endFbx hst hh hlen hq' =>
      rw [hq'] at hq
      exact ⟨hst, hq.started.trans hst, hh, hlen, hq.moves, hq.health⟩
  | start hs hst hq => cases hev
  | endNode hs hq => cases hev

theorem counts_snoc (h : History α) (c : Call α) (o : Outcome α) :
    History.starts (h ++ [(c, o)]) = h.starts + (if o.isStart then 1 else 0) ∧
    History.ends (h ++ [(c, o)]) = h.ends + (if o.isEnd then 1 else 0) ∧
    History.events (h ++ [(c, o)]) = h.events + (if o.isEvent then 1 else 0) ∧
    History.values (h ++ [(c, o)]) = h.values + (if o.isValue then 1 else 0) := by
  refine ⟨?_, ?_, ?_, ?_⟩ <;>
    simp only [History.starts, History.ends, History.events, History.values, List.countP_append, List.countP_singleton]

theorem skips_snoc (h : History α) (c : Call α) (o : Outcome α) :
    History.skips (h ++ [(c, o)]) = h.skips + (match (c, o) with | (.skip, .done) => 1 | (.skip, .err _) => 1 | _ => 0) := by
  simp only [History.skips, List.countP_append, List.countP_singleton]
  congr 1
  cases c <;> cases o <;> rfl

theorem calm_snoc {h : History α} {c : Call α} {o : Outcome α} (hc : History.calm (h ++ [(c, o)])) : h.calm ∧ ∀ x, o ≠ .panic x :=
  ⟨fun c' x hm => hc c' x (by simp [hm]), fun x hx => hc c x (by simp [hx])⟩

theorem calm_append {a b : History α} : History.calm (a ++ b) ↔ a.calm ∧ b.calm := by
  simp only [History.calm, List.mem_append, not_or]
  exact ⟨fun h => ⟨fun c x => (h c x).1, fun c x => (h c x).2⟩, fun h c x => ⟨h.1 c x, h.2 c x⟩⟩

theorem clean_snoc {h : History α} {c : Call α} {o : Outcome α} (hc : History.clean (h ++ [(c, o)])) : h.clean ∧ (c.reads = true → o.isErr = false) :=
  ⟨fun x hm => hc x (by simp [hm]), hc (c, o) (by simp)⟩

/-- Depth and counts. -/
theorem Runs.depth {L : Nat} (hL : L + 2 ^ 32 ≤ 2 ^ 64) {s t : Client} {h : History α} (hr : Runs Z s h t) (hs : CInv L s) (hn : h.calm) :
    t.parser.depth + h.ends + h.skips ≤ s.parser.depth + h.starts ∧ (h.clean → t.parser.depth + h.ends + h.skips = s.parser.depth + h.starts) := by
  refine hr.ind hL hs (P := fun h t => h.calm → t.parser.depth + h.ends + h.skips ≤ s.parser.depth + h.starts ∧
    (h.clean → t.parser.depth + h.ends + h.skips = s.parser.depth + h.starts)) (fun _ => ?_) ?_ hn
  · simp [History.ends, History.skips, History.starts]
  · intro h t u c o hr hi ih hn hd hc hn'
    obtain ⟨k1, k2⟩ := calm_snoc hn'
    obtain ⟨i1, i2⟩ := ih k1
    obtain ⟨c1, c2, c3, c4⟩ := counts_snoc h c o
    have c5 := skips_snoc h c o
    rw [c1, c2, c5]
    have key : ∀ (d : Nat), u.parser.depth + (if o.isEnd then 1 else 0) + (match (c, o) with | (.skip, .done) => 1 | (.skip, .err _) => 1 | _ => 0) + d =
          t.parser.depth + (if o.isStart then 1 else 0) → ((c.reads = true → o.isErr = false) → d = 0) →
        (u.parser.depth + (h.ends + if o.isEnd = true then 1 else 0) + (h.skips + match (c, o) with | (.skip, .done) => 1 | (.skip, .err _) => 1 | _ => 0) ≤
          s.parser.depth + (h.starts + if o.isStart = true then 1 else 0)) ∧ (History.clean (h ++ [(c, o)]) →
        u.parser.depth + (h.ends + if o.isEnd = true then 1 else 0) + (h.skips + match (c, o) with | (.skip, .done) => 1 | (.skip, .err _) => 1 | _ => 0) =
          s.parser.depth + (h.starts + if o.isStart = true then 1 else 0)) := by
      intro d h1 h2
      refine ⟨by omega, fun hcl => ?_⟩
      obtain ⟨g1, g2⟩ := clean_snoc hcl
      have := h2 g2
      have := i2 g1
      omega
    have quiet : ∀ {p q : Parser}, Quiet p q → q.depth = p.depth := fun h => by rw [Parser.depth, h.started]; rfl
    cases hd with
    | @event ev hrun he hi ha =>
      have := he.depth
      cases ev with
      | startNode name n => exact key 0 (by simp only [Outcome.isStart, Outcome.isEnd]; simp [DepthChange] at this ⊢; omega) (fun _ => rfl)
      | endNode => exact key 0 (by simp only [Outcome.isStart, Outcome.isEnd]; simp [DepthChange] at this ⊢; omega) (fun _ => rfl)
      | endFbx f => exact key 0 (by simp only [Outcome.isStart, Outcome.isEnd]; simp [DepthChange] at this ⊢; omega) (fun _ => rfl)
    | nextRefused hp hr ha => exact key 0 (by simp [Outcome.isStart, Outcome.isEnd, hp]) (fun _ => rfl)
    | @nextFailed e q hrun hf hi hp he ha =>
      rcases hf with hf | ⟨p', n, outer, hf, hst, hq⟩
      · exact key 0 (by simp [Outcome.isStart, Outcome.isEnd, hp]; have := quiet hf; exact this) (fun _ => rfl)
      · refine key 1 ?_ (fun h => by simpa [Outcome.isErr] using h rfl)
        simp only [Outcome.isStart, Outcome.isEnd, hp]
        simp [Parser.depth, hst, setAborted, hq]
    | nextPanic hx' => exact absurd rfl (k2 _)
    | value ha hp hrun hr ht => subst ht; exact key 0 (by simp [Outcome.isStart, Outcome.isEnd, hp]; exact quiet hr.1) (fun _ => rfl)
    | noValue ha hrun h0 ht => subst ht; exact key 0 (by simp [Outcome.isStart, Outcome.isEnd]) (fun _ => rfl)
    | loadRefused ha ht hr => subst ht; exact key 0 (by simp [Outcome.isStart, Outcome.isEnd]) (fun _ => rfl)
    | loadFailed ha hp hrun hr hpos ht he =>
      subst ht
      exact key 0 (by simp [Outcome.isStart, Outcome.isEnd, hp]; have := quiet (reads_quiet hr); exact this) (fun _ => rfl)
    | skip hst hm hi hge hpos hplain ht => subst ht; exact key 0 (by simp [Outcome.isStart, Outcome.isEnd, Parser.depth, hst]) (fun _ => rfl)
    | skipFailed hst hm hi hge ht => subst ht; exact key 0 (by simp [Outcome.isStart, Outcome.isEnd, Parser.depth, hst]) (fun _ => rfl)
    | skipPanic hx' => exact absurd rfl (k2 _)
    | handler ht => subst ht; exact key 0 (by simp [Outcome.isStart, Outcome.isEnd]; rfl) (fun _ => rfl)

/-- Every started node takes at least 13 bytes (25 from version 7.5 on). -/
theorem Runs.bytes {L : Nat} (hL : L + 2 ^ 32 ≤ 2 ^ 64) {s t : Client} {h : History α} (hr : Runs Z s h t) (hs : CInv L s) (hn : h.calm) :
    (3 * headWidth s.parser.version + 1) * h.starts + t.parser.reader.rest.length ≤ s.parser.reader.rest.length := by
  refine hr.ind hL hs (P := fun h t => h.calm →
    (3 * headWidth s.parser.version + 1) * h.starts + t.parser.reader.rest.length ≤ s.parser.reader.rest.length) (fun _ => ?_) ?_ hn
  · simp [History.starts]
  · intro h t u c o hr hi ih hn hd hc hn'
    obtain ⟨k1, k2⟩ := calm_snoc hn'
    have i1 := ih k1
    obtain ⟨c1, c2, c3, c4⟩ := counts_snoc h c o
    rw [c1]
    have hm := (hd.moves k2).len_le
    by_cases ho : o.isStart
    · rw [if_pos ho, Nat.mul_add]
      cases hd with
      | @event ev hrun he hi ha =>
        cases ev with
        | startNode name n =>
          obtain ⟨r, hd, ae, outer, tl, h1, _, h2, h3, h4, h5, h6, h7, h8⟩ := he.started
          have hv := (hr.frame hL hs k1).1
          rw [hv] at h5 h7
          have := h1.len_le
          rw [h7]
          simp only [consume_rest, List.length_drop]
          omega
        | endNode => cases ho
        | endFbx f => cases ho
      | _ => cases ho
    · have h0 : (if o.isStart = true then 1 else 0) = 0 := if_neg ho
      rw [h0]
      simp only [Nat.add_zero]
      omega

/-- The document ends once. -/
theorem Runs.events_le {L : Nat} (hL : L + 2 ^ 32 ≤ 2 ^ 64) {s t : Client} {h : History α} (hr : Runs Z s h t) (hs : CInv L s) (hn : h.calm) :
    h.events ≤ h.starts + h.ends + 1 ∧ (t.parser.health = .running → h.events = h.starts + h.ends) := by
  refine hr.ind hL hs (P := fun h t => h.calm → h.events ≤ h.starts + h.ends + 1 ∧ (t.parser.health = .running → h.events = h.starts + h.ends)) (fun _ => ?_) ?_ hn
  · simp [History.starts, History.events, History.ends]
  · intro h t u c o hr hi ih hn hd hc hn'
    obtain ⟨k1, k2⟩ := calm_snoc hn'
    obtain ⟨i1, i2⟩ := ih k1
    obtain ⟨c1, c2, c3, c4⟩ := counts_snoc h c o
    rw [c1, c2, c3]
    have hst : u.parser.health = .running → t.parser.health = .running := by
      intro hu
      by_cases ht : t.parser.health = .running
      · exact ht
      · have := (hd.stuck k2 ht).1
        rw [hu] at this
        exact this.symm
    cases o with
    | event ev =>
      cases hd with
      | event hrun he hi ha =>
        have := i2 hrun
        have hh := he.health
        cases ev with
        | startNode a b => simp [Outcome.isEvent, Outcome.isStart, Outcome.isEnd]; omega
        | endNode => simp [Outcome.isEvent, Outcome.isStart, Outcome.isEnd]; omega
        | endFbx f =>
          simp [Outcome.isEvent, Outcome.isStart, Outcome.isEnd] at hh ⊢
          rw [hh]
          refine ⟨by omega, fun h => by cases h⟩
    | value v => simpa [Outcome.isEvent, Outcome.isStart, Outcome.isEnd] using ⟨i1, fun h => i2 (hst h)⟩
    | noValue => simpa [Outcome.isEvent, Outcome.isStart, Outcome.isEnd] using ⟨i1, fun h => i2 (hst h)⟩
    | done => simpa [Outcome.isEvent, Outcome.isStart, Outcome.isEnd] using ⟨i1, fun h => i2 (hst h)⟩
    | err e => simpa [Outcome.isEvent, Outcome.isStart, Outcome.isEnd] using ⟨i1, fun h => i2 (hst h)⟩
    | panic x => exact absurd rfl (k2 x)

/-- Loading attributes: what remains of the count. -/
theorem Runs.loads {L : Nat} (hL : L + 2 ^ 32 ≤ 2 ^ 64) {s t : Client} {h : History α} (hr : Runs Z s h t) (hs : CInv L s) (hn : h.calm)
    (hl : ∀ x ∈ h, x.1.isLoad = true) {a : Attrs} (ha : s.attrs = some a) :
    ∃ b, t.attrs = some b ∧ b.total = a.total ∧ b.rest + h.values ≤ a.rest ∧ (h.clean → b.rest + h.values = a.rest) := by
  refine hr.ind hL hs (P := fun h t => h.calm → (∀ x ∈ h, x.1.isLoad = true) →
    ∃ b, t.attrs = some b ∧ b.total = a.total ∧ b.rest + h.values ≤ a.rest ∧ (h.clean → b.rest + h.values = a.rest)) (fun _ _ => ?_) ?_ hn hl
  · exact ⟨a, ha, rfl, by simp [History.values], by simp [History.values]⟩
  · intro h t u c o hr hi ih hn hd hc hn' hl'
    obtain ⟨k1, k2⟩ := calm_snoc hn'
    obtain ⟨b, i1, i2, i3, i4⟩ := ih k1 (fun x hx => hl' x (by simp [hx]))
    obtain ⟨c1, c2, c3, c4⟩ := counts_snoc h c o
    have hcl := hl' (c, o) (by simp)
    rw [c4]
    cases hd with
    | value ha' hp hrun hr ht =>
      subst ht
      rw [ha'] at i1
      cases i1
      obtain ⟨g1, g2, g3, g4, g5⟩ := hr
      refine ⟨_, rfl, g2.trans i2, by simp [Outcome.isValue]; omega, fun hh => ?_⟩
      have := i4 (clean_snoc hh).1
      simp [Outcome.isValue]; omega
    | noValue ha' hrun h0 ht =>
      subst ht
      exact ⟨b, i1, i2, by simpa [Outcome.isValue] using i3, fun hh => by simpa [Outcome.isValue] using i4 (clean_snoc hh).1⟩
    | loadRefused ha' ht hr =>
      subst ht
      exact ⟨b, i1, i2, by simpa [Outcome.isValue] using i3, fun hh => by simpa [Outcome.isValue] using i4 (clean_snoc hh).1⟩
    | @loadFailed _ _ e a' c' pos ha' hp hrun hr hpos ht he =>
      subst ht
      rw [ha'] at i1
      cases i1
      have hr' : c'.attrs.total = a'.attrs.total ∧ c'.attrs.rest ≤ a'.attrs.rest := by
        rcases hr with ⟨a1, a2, a3, a4, a5⟩ | ⟨a1, a2, a3, a4, a5⟩
        · exact ⟨a2, by omega⟩
        · exact ⟨a2, by omega⟩
      refine ⟨_, rfl, hr'.1.trans i2, by simp [Outcome.isValue]; omega, fun hh => ?_⟩
      have := (clean_snoc hh).2 rfl
      cases this
    | _ => cases hcl

/-! ## Paths -/

theorem nodePath_cons (tl : Nat) (n : Started) (outer : List Started) :
    nodePath tl (n :: outer) = nodePath tl outer ++ [((match outer with | [] => tl | m :: _ => m.kids) - 1, n.name)] := by
  have zip_snoc : ∀ (xs : List Nat) (a y : Nat) (ys : List String) (b : String), xs.length = ys.length →
      List.zip (a :: (xs ++ [y])) (ys ++ [b]) = List.zip (a :: xs) ys ++ [((a :: xs).getLast (by simp), b)] := by
    intro xs
    induction xs with
    | nil =>
      intro a y ys b h
      have : ys = [] := List.eq_nil_of_length_eq_zero h.symm
      subst this
      rfl
    | cons x xs ih =>
      intro a y ys b h
      cases ys with
      | nil => cases h
      | cons z ys =>
        have := ih x y ys b (by simpa using h)
        simp only [List.cons_append, List.zip_cons_cons] at this ⊢
        rw [this]
        simp
  simp only [nodePath, List.reverse_cons, List.map_append, List.map_cons, List.map_nil]
  rw [zip_snoc _ _ _ _ _ (by simp)]
  congr 2
  cases outer with
  | nil => rfl
  | cons m outer =>
    simp only [List.reverse_cons, List.map_append, List.map_cons, List.map_nil]
    rw [List.getLast_cons (by simp)]
    simp

/-- The open nodes of the parser are those of the history. -/
def Matches (tl : Nat) : List (String × Nat × Nat) → List Started → Prop
  | [], [] => True
  | (nm, i, k) :: st, n :: outer => nm = n.name ∧ k = n.kids ∧ i + 1 = (match outer with | [] => tl | m :: _ => m.kids) ∧ Matches tl st outer
  | _, _ => False

theorem Matches.path {tl : Nat} : ∀ {st : List (String × Nat × Nat)} {started : List Started}, Matches tl st started →
    nodePath tl started = (st.map (fun n => (n.2.1, n.1))).reverse
  | [], [], _ => rfl
  | (nm, i, k) :: st, n :: outer, h => by
    obtain ⟨h1, h2, h3, h4⟩ := h
    rw [nodePath_cons, Matches.path h4, ← h3, ← h1]
    simp
  | [], _ :: _, h => h.elim
  | _ :: _, [], h => h.elim

theorem openNodes_snoc (h : History α) (x : Call α × Outcome α) : History.openNodes (h ++ [x]) = History.openStep h.openNodes x := by
  simp only [History.openNodes, List.foldl_append, List.foldl_cons, List.foldl_nil]

theorem Matches.length {tl : Nat} : ∀ {st : List (String × Nat × Nat)} {started : List Started}, Matches tl st started → st.length = started.length
  | [], [], _ => rfl
  | (nm, i, k) :: st, n :: outer, h => by simp [Matches.length h.2.2.2]
  | [], _ :: _, h => h.elim
  | _ :: _, [], h => h.elim

/-- Along a history without failures the parser's open nodes are those given by the events. -/
theorem Runs.paths {L : Nat} (hL : L + 2 ^ 32 ≤ 2 ^ 64) {s t : Client} {h : History α} (hr : Runs Z s h t) (hs : CInv L s)
    (h0 : s.parser.started = [] ∧ s.parser.toplevel = 0) (hn : h.calm) (hcl : h.clean) :
    t.parser.toplevel = h.openNodes.2 ∧ Matches t.parser.toplevel h.openNodes.1 t.parser.started := by
  refine hr.ind hL hs (P := fun h t => h.calm → h.clean → t.parser.toplevel = h.openNodes.2 ∧ Matches t.parser.toplevel h.openNodes.1 t.parser.started) (fun _ _ => ?_) ?_ hn hcl
  · rw [h0.1, h0.2]; exact ⟨rfl, trivial⟩
  · intro h t u c o hr hi ih hn hd hc hn' hcl'
    obtain ⟨k1, k2⟩ := calm_snoc hn'
    obtain ⟨g1, g2⟩ := clean_snoc hcl'
    obtain ⟨i1, i2⟩ := ih k1 g1
    have quiet : ∀ {p q : Parser}, Quiet p q → q.started = p.started ∧ q.toplevel = p.toplevel := fun h => ⟨h.started, h.toplevel⟩
    rw [openNodes_snoc]
    rcases hon : History.openNodes h with ⟨st, top⟩
    rw [hon] at i1 i2
    simp only at i1 i2
    have same : ∀ (p : Parser), p.started = t.parser.started → p.toplevel = t.parser.toplevel → p.toplevel = top ∧ Matches p.toplevel st p.started := by
      intro p h1 h2
      rw [h1, h2]; exact ⟨i1, i2⟩
    have pop : ∀ (p : Parser) (n : Started) (outer : List Started), t.parser.started = n :: outer → p.started = outer → p.toplevel = t.parser.toplevel →
        ∃ y st', st = y :: st' ∧ p.toplevel = top ∧ Matches p.toplevel st' p.started := by
      intro p n outer h1 h2 h3
      rw [h1] at i2
      cases st with
      | nil => exact i2.elim
      | cons y st' => exact ⟨y, st', rfl, h3.trans i1, by rw [h2, h3]; exact i2.2.2.2⟩
    cases hd with
    | @event ev hrun he hi ha =>
      cases ev with
      | startNode name n =>
        obtain ⟨r, hd, ae, outer, tl, _, _, _, _, _, _, _, _, e1, e2, e3⟩ := he.started
        cases hst : t.parser.started with
        | nil =>
          rw [hst] at i2 e3
          obtain ⟨rfl, rfl⟩ := e3
          cases st with
          | cons y st' => exact i2.elim
          | nil =>
            simp only [History.openStep]
            rw [e1, e2]
            exact ⟨by rw [i1], rfl, rfl, by rw [i1], trivial⟩
        | cons m o =>
          rw [hst] at i2 e3
          obtain ⟨rfl, rfl⟩ := e3
          cases st with
          | nil => exact i2.elim
          | cons y st' =>
            obtain ⟨nm, i, k⟩ := y
            obtain ⟨j1, j2, j3, j4⟩ := i2
            simp only [History.openStep]
            rw [e1, e2]
            refine ⟨i1, rfl, rfl, by rw [j2], j1, by rw [j2], ?_, j4⟩
            exact j3
      | endNode =>
        obtain ⟨n, outer, h1, h2, h3, h4⟩ := he.ended
        obtain ⟨y, st', rfl, p1, p2⟩ := pop u.parser n outer h1 h2 h4
        exact ⟨p1, p2⟩
      | endFbx f =>
        have h1 := he.finished
        have hm := he
        simp only [History.openStep]
        have htl : u.parser.toplevel = t.parser.toplevel := by
          generalize hev : Event.endFbx f = ev at hm
          cases hm with
          | @endFbx q' f' hs hq =>
            cases hs with
            | endFbx hst hh hlen hq' =>
              rw [hq'] at hq
              exact hq.toplevel
          | start hs hst hq => cases hev
          | endNode hs hq => cases hev
        exact same _ (by rw [h1.1, h1.2.1]) htl
    | nextRefused hp hr ha => have := g2 rfl; cases this
    | nextFailed hrun hf hi hp he ha => have := g2 rfl; cases this
    | nextPanic hx' => exact absurd rfl (k2 _)
    | value ha hp hrun hr ht => subst ht; rw [hp] at same; exact same _ (quiet hr.1).1 (quiet hr.1).2
    | noValue ha hrun h0 ht => subst ht; exact same _ rfl rfl
    | loadRefused ha ht hr => have := g2 rfl; cases this
    | loadFailed ha hp hrun hr hpos ht he => have := g2 rfl; cases this
    | skip hst hm hi hge hpos hplain ht =>
      subst ht
      obtain ⟨y, st', rfl, p1, p2⟩ := pop { t.parser with started := _, last := some .endNode, reader := _ } _ _ hst rfl rfl
      exact ⟨p1, p2⟩
    | skipFailed hst hm hi hge ht =>
      subst ht
      obtain ⟨y, st', rfl, p1, p2⟩ := pop { t.parser with started := _, last := some .endNode, reader := _ } _ _ hst rfl rfl
      exact ⟨p1, p2⟩
    | skipPanic hx' => exact absurd rfl (k2 _)
    | handler ht => subst ht; exact same _ rfl rfl

end Fbx
