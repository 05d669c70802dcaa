import Verif.Proof.CallInv
import Verif.Spec.History

/-! # Invariants of arbitrary client histories -/

namespace Fbx
open Reader Parser
variable {α : Type} {Z : Zlib}

/-- Invariant of a client's state. -/
structure CInv (L : Nat) (s : Client) : Prop where
  parser : PInv L s.parser
  last : s.parser.last = some .endFbx → s.parser.health ≠ .running
  fin : s.parser.health = .finished → s.parser.started = []
  attrs : ∀ a, s.attrs = some a → a.rest ≤ a.total ∧ a.next < 2 ^ 64 ∧ ∃ n outer, s.parser.started = n :: outer ∧ n.attrCount = a.total

/-- The attribute reader that exists after an event. -/
def readerOf (ev : Event) (pos : Nat) : Option Attrs := match ev with
  | .startNode _ n => some ⟨n, n, pos⟩
  | _ => none

/-- The effect of a call. -/
inductive Did (L : Nat) (s t : Client) : Call α → Outcome α → Prop where
  | event {ev : Event} (hrun : s.parser.health = .running) (he : Emits s.parser t.parser ev) (hi : RInv L t.parser.reader)
      (ha : t.attrs = readerOf ev t.parser.reader.position) : Did L s t .next (.event ev)
  | nextRefused {e : PErr} (hp : t.parser = s.parser) (hr : Refused s.parser e) (ha : t.attrs = none) : Did L s t .next (.err e)
  | nextFailed {e : PErr} {q : Parser} (hrun : s.parser.health = .running) (hf : Failed s.parser q) (hi : RInv L q.reader)
      (hp : t.parser = q.setAborted q.synPos) (he : e.pos = some q.synPos) (ha : t.attrs = none) : Did L s t .next (.err e)
  | nextPanic {x : Panic} (hx : s.parser.health = .running ∧ x = .attrEndOverflow ∧ s.parser.checks = true ∧ ¬ s.parser.version < 7500) : Did L s t .next (.panic x)
  | value {b : Bool} {l : Loader α} {v : α} {a c : AP} (ha : s.attrs = some a.attrs) (hp : s.parser = a.parser)
      (hrun : s.parser.health = .running) (hr : AP.Reads1 L a c) (ht : t = ⟨c.parser, some c.attrs⟩) : Did L s t (.load b l) (.value v)
  | noValue {b : Bool} {l : Loader α} {a : Attrs} (ha : s.attrs = some a) (hrun : s.parser.health = .running) (h0 : a.rest = 0)
      (ht : t = s) : Did L s t (.load b l) .noValue
  | loadRefused {b : Bool} {l : Loader α} {e : PErr} (ha : s.attrs.isSome) (ht : t = s) (hr : Refused s.parser e) : Did L s t (.load b l) (.err e)
  | loadFailed {b : Bool} {l : Loader α} {e : PErr} {a c : AP} {pos : SynPos} (ha : s.attrs = some a.attrs) (hp : s.parser = a.parser)
      (hrun : s.parser.health = .running) (hr : AP.Reads L a c ∨ AP.Reads1 L a c)
      (hpos : pos = { c.parser.synPos with compPos := a.attrs.next, attrIdx := some (a.attrs.total - a.attrs.rest) })
      (ht : t = ⟨c.parser.setAborted pos, some c.attrs⟩) (he : e.pos = some pos) : Did L s t (.load b l) (.err e)
  | skip {n : Started} {outer : List Started} {r : Reader} (hst : s.parser.started = n :: outer) (hm : Moves s.parser.reader r) (hi : RInv L r)
      (hge : s.parser.reader.position ≤ n.endOff) (hpos : s.parser.reader.seekable = true → r.position = n.endOff)
      (hplain : s.parser.reader.seekable = false → r = s.parser.reader.consumeInner (min (n.endOff - s.parser.reader.position) s.parser.reader.rest.length))
      (ht : t = ⟨{ s.parser with started := outer, last := some .endNode, reader := r }, none⟩) : Did L s t .skip .done
  | skipFailed {n : Started} {outer : List Started} {r : Reader} {e : PErr} (hst : s.parser.started = n :: outer) (hm : Moves s.parser.reader r)
      (hi : RInv L r) (hge : s.parser.reader.position ≤ n.endOff)
      (ht : t = ⟨{ s.parser with started := outer, last := some .endNode, reader := r }, none⟩) : Did L s t .skip (.err e)
  | skipPanic {x : Panic} (hx : x = .skipRoot ∧ s.parser.started = [] ∨ x = .skipBackward ∧ ∃ n outer, s.parser.started = n :: outer ∧ n.endOff < s.parser.reader.position) :
      Did L s t .skip (.panic x)
  | handler {h : Handler} (ht : t = ⟨s.parser.setHandler h, none⟩) : Did L s t (.setHandler h) .done

theorem Parser.Emits.health {p q : Parser} {ev : Event} (h : Emits p q ev) : q.health = if (match ev with | .endFbx _ => true | _ => false) then .finished else p.health := by
  cases h with
  | start hs hst hq =>
    subst hq
    cases hs with
    | start hr hh hne hlen hname hp' hrd hae hq =>
      subst hq
      simp only [Bool.false_eq_true, if_false]
      rw [← hp'.health]
      unfold pushNode
      split <;> rfl
  | endNode hs hq =>
    subst hq
    cases hs with
    | implicit hr hst hp' hrd hend hq => subst hq; exact hp'.health
    | explicit hr hst hh hlen hp' hrd hend hq => subst hq; exact hp'.health
  | endFbx hs hq => exact hq.health

/-- A call does what `Did` says. -/
theorem call_did {L : Nat} (hL : L + 2 ^ 32 ≤ 2 ^ 64) {s t : Client} (hs : CInv L s) {c : Call α} {o : Outcome α} (h : s.call Z c = some (o, t)) :
    Did L s t c o := by
  cases c with
  | next =>
    simp only [Client.call] at h
    have hw := wp_nextEvent hL hs.parser hs.last
    simp only [M.wp] at hw
    rcases hx : nextEvent s.parser with ⟨x, q⟩
    rw [hx] at hw h
    cases x with
    | ok ev =>
      cases h
      obtain ⟨h1, h2, h3⟩ := hw
      refine .event h1 h2 h3 ?_
      cases h2 with
      | start hst hn hq =>
        subst hq
        simp only [attrsOf, AP.ofParser, hn, readerOf]
      | endNode hst hq => rfl
      | endFbx hst hq => rfl
    | err e =>
      cases h
      rcases hw with ⟨h1, h2⟩ | ⟨h1, q', h2, h3, h4, h5⟩
      · exact .nextRefused h1 h2 rfl
      · exact .nextFailed h1 h2 h3 h4 h5 rfl
    | panic x => cases h; exact .nextPanic hw
  | load b l =>
    simp only [Client.call] at h
    cases ha : s.attrs with
    | none => rw [ha] at h; cases h
    | some a =>
      rw [ha] at h
      obtain ⟨i1, i2, _⟩ := hs.attrs a ha
      have hw := AP.wp_load (Z := Z) hL (a := ⟨s.parser, a⟩) ⟨hs.parser, i1, i2⟩ b l
      simp only [M.wp] at hw h
      rcases hx : AP.load Z b l ⟨s.parser, a⟩ with ⟨x, c⟩
      rw [hx] at hw h
      cases x with
      | ok v =>
        cases v with
        | none =>
          cases h
          obtain ⟨h1, h2, h3⟩ := hw
          subst h3
          refine .noValue ha h1 h2 ?_
          rw [← ha]
        | some v =>
          cases h
          exact .value (a := ⟨s.parser, a⟩) ha rfl hw.1 hw.2 rfl
      | err e =>
        cases h
        rcases hw with ⟨h1, h2⟩ | ⟨h1, c', h2, pos, h3, h4, h5⟩
        · subst h1
          exact .loadRefused (by rw [ha]; rfl) (by rw [← ha]) h2
        · subst h4
          exact .loadFailed (a := ⟨s.parser, a⟩) ha rfl h1 h2 h3 rfl h5
      | panic x => exact hw.elim
  | skip =>
    simp only [Client.call] at h
    obtain ⟨p, at_⟩ := s
    obtain ⟨v, he, st, la, tl, rd, hd, lg, ch⟩ := p
    cases st with
    | nil =>
      simp only [skipCurrentNode, M.bind_apply, M.get] at h
      cases h
      exact .skipPanic (.inl ⟨rfl, rfl⟩)
    | cons n outer =>
      simp only [skipCurrentNode, M.bind_apply, M.get, M.set] at h
      by_cases hge : rd.position ≤ n.endOff
      · have hw : M.wp (Parser.io (skipTo n.endOff))
            (fun _ q => ∃ r, Moves rd r ∧ RInv L r ∧ (rd.seekable = true → r.position = n.endOff) ∧
              (rd.seekable = false → r = rd.consumeInner (min (n.endOff - rd.position) rd.rest.length)) ∧ q = ⟨v, he, outer, some .endNode, tl, r, hd, lg, ch⟩)
            (fun _ q => ∃ r, Moves rd r ∧ RInv L r ∧ q = ⟨v, he, outer, some .endNode, tl, r, hd, lg, ch⟩)
            (fun _ _ => False) ⟨v, he, outer, some .endNode, tl, rd, hd, lg, ch⟩ := by
          refine wp_io (wp_skipTo hs.parser.reader n.endOff hge (hs.parser.ends n (by simp)).1 ?_ ?_)
          · exact fun s hm hi hp hq => ⟨s, hm, hi, hp, hq, rfl⟩
          · exact fun e s hm hi => ⟨s, hm, hi, rfl⟩
        simp only [M.wp] at hw
        rcases hx : Parser.io (skipTo n.endOff) ⟨v, he, outer, some .endNode, tl, rd, hd, lg, ch⟩ with ⟨x, q⟩
        rw [hx] at hw h
        cases x with
        | ok u =>
          cases h
          obtain ⟨r, h1, h2, h3, h4, rfl⟩ := hw
          exact .skip rfl h1 h2 hge h3 h4 rfl
        | err e =>
          cases h
          obtain ⟨r, h1, h2, rfl⟩ := hw
          exact .skipFailed rfl h1 h2 hge rfl
        | panic x => exact hw.elim
      · have hlt : n.endOff < rd.position := by omega
        simp only [Parser.io, M.mapErr_apply, M.zoom_apply, skipTo, hlt, if_true] at h
        cases h
        exact .skipPanic (.inr ⟨rfl, n, outer, rfl, hlt⟩)
  | setHandler g =>
    cases h
    exact .handler rfl

/-- The invariant is kept by every call that does not panic. -/
theorem Did.inv {L : Nat} {s t : Client} {c : Call α} {o : Outcome α} (h : Did L s t c o) (hs : CInv L s)
    (hx : ∀ x, o ≠ .panic x) : CInv L t := by
  cases h with
  | @event ev hrun he hi ha =>
    have hh := he.health
    cases he with
    | @start q' n outer hst hn hq =>
      have h1 := hst.inv hs.parser (by rw [hq] at hi; exact hi)
      refine ⟨?_, ?_, ?_, ?_⟩
      · rw [hq]; exact ⟨h1.reader, h1.top, h1.ends⟩
      · rw [hq]; intro h; cases h
      · intro h; rw [hh] at h; simp only [Bool.false_eq_true, if_false] at h; rw [hrun] at h; cases h
      · intro a h
        rw [ha] at h
        cases h
        refine ⟨Nat.le_refl _, hi.1, n, outer, ?_, rfl⟩
        rw [hq]; exact hn
    | @endNode q' hst hq =>
      have h1 := hst.inv hs.parser (by rw [hq] at hi; exact hi)
      refine ⟨?_, ?_, ?_, ?_⟩
      · rw [hq]; exact ⟨h1.reader, h1.top, h1.ends⟩
      · rw [hq]; intro h; cases h
      · intro h; rw [hh] at h; simp only [Bool.false_eq_true, if_false] at h; rw [hrun] at h; cases h
      · intro a h; rw [ha] at h; cases h
    | @endFbx q' f hst hq =>
      have h0 : q'.started = [] ∧ q'.toplevel = s.parser.toplevel := by
        cases hst with
        | endFbx hst hh hlen hq => rw [hq]; exact ⟨hst, rfl⟩
      have h1 : t.parser.started = [] := hq.started.trans h0.1
      refine ⟨⟨hi, fun h => absurd h1 h, fun n hn => by rw [h1] at hn; cases hn⟩, ?_, fun _ => h1, ?_⟩
      · intro _; rw [hh]; simp
      · intro a h; rw [ha] at h; cases h
  | nextRefused hp hr ha =>
    refine ⟨by rw [hp]; exact hs.parser, by rw [hp]; exact hs.last, by rw [hp]; exact hs.fin, ?_⟩
    intro a h; rw [ha] at h; cases h
  | @nextFailed e q hrun hf hi hp he ha =>
    have h1 := hf.inv hs.parser hi
    refine ⟨?_, ?_, ?_, ?_⟩
    · rw [hp]; exact ⟨h1.reader, h1.top, h1.ends⟩
    · rw [hp]; intro _ h; cases h
    · rw [hp]; intro h; cases h
    · intro a h; rw [ha] at h; cases h
  | nextPanic hx' => exact absurd rfl (hx _)
  | @value b l v a c ha hp hrun hr ht =>
    subst ht
    obtain ⟨g1, g2, g3, g4, g5⟩ := hr
    rw [← hp] at g1
    obtain ⟨i1, i2, n, outer, i3, i4⟩ := hs.attrs _ ha
    refine ⟨g1.inv hs.parser g4, ?_, ?_, ?_⟩
    · rw [g1.last, g1.health]; exact hs.last
    · rw [g1.health, g1.started]; exact hs.fin
    · intro b h
      cases h
      refine ⟨by omega, g5, n, outer, g1.started.trans i3, by rw [g2]; exact i4⟩
  | noValue ha hrun h0 ht => subst ht; exact hs
  | loadRefused ha ht hr => subst ht; exact hs
  | @loadFailed b l e a c pos ha hp hrun hr hpos ht he =>
    subst ht
    have hr' : Quiet a.parser c.parser ∧ c.attrs.total = a.attrs.total ∧ c.attrs.rest ≤ a.attrs.rest ∧ RInv L c.parser.reader ∧ c.attrs.next < 2 ^ 64 := by
      rcases hr with ⟨a1, a2, a3, a4, a5⟩ | ⟨a1, a2, a3, a4, a5⟩
      · exact ⟨a1, a2, by omega, a4, a5⟩
      · exact ⟨a1, a2, by omega, a4, a5⟩
    obtain ⟨g1, g2, g3, g4, g5⟩ := hr'
    rw [← hp] at g1
    obtain ⟨i1, i2, n, outer, i3, i4⟩ := hs.attrs _ ha
    have h1 := g1.inv hs.parser g4
    refine ⟨⟨h1.reader, h1.top, h1.ends⟩, ?_, ?_, ?_⟩
    · intro _ h; cases h
    · intro h; cases h
    · intro b h
      cases h
      refine ⟨by omega, g5, n, outer, g1.started.trans i3, by rw [g2]; exact i4⟩
  | @skip n outer r hst hm hi hge hpos hplain ht =>
    subst ht
    refine ⟨⟨hi, fun _ => hs.parser.top (by rw [hst]; simp), fun m hm => hs.parser.ends m (by rw [hst]; simp [hm])⟩, ?_, ?_, ?_⟩
    · intro h; cases h
    · intro h; have := hs.fin h; rw [hst] at this; cases this
    · intro a h; cases h
  | @skipFailed n outer r e hst hm hi hge ht =>
    subst ht
    refine ⟨⟨hi, fun _ => hs.parser.top (by rw [hst]; simp), fun m hm => hs.parser.ends m (by rw [hst]; simp [hm])⟩, ?_, ?_, ?_⟩
    · intro h; cases h
    · intro h; have := hs.fin h; rw [hst] at this; cases this
    · intro a h; cases h
  | skipPanic hx' => exact absurd rfl (hx _)
  | handler ht =>
    subst ht
    exact ⟨⟨hs.parser.reader, hs.parser.top, hs.parser.ends⟩, hs.last, hs.fin, fun a h => by cases h⟩

theorem open_inv {p : Parser} {bytes : Bytes} (h : Opens p bytes) (hsz : Sized bytes) :
    CInv (headerLen + bytes.length) ⟨p, none⟩ ∧ headerLen + bytes.length + 2 ^ 32 ≤ 2 ^ 64 := by
  obtain ⟨ck, v, e, c, s, lim, h⟩ := h
  unfold Parser.create at h
  split at h
  · cases h
  · cases h
    refine ⟨⟨⟨⟨?_, .inr (Nat.le_refl _)⟩, fun h => absurd rfl h, fun n hn => by cases hn⟩, (fun h => by cases h), (fun h => by cases h), fun a h => by cases h⟩, hsz⟩
    simp only [Sized] at hsz
    simp only []
    omega

/-- Every history keeps the invariant, and each call in it did what `Did` says. -/
theorem Runs.inv {L : Nat} (hL : L + 2 ^ 32 ≤ 2 ^ 64) {s t : Client} {h : History α} (hr : Runs Z s h t) (hs : CInv L s)
    (hx : ∀ c x, (c, .panic x) ∉ h) : CInv L t := by
  induction hr with
  | nil => exact hs
  | @snoc h t u c o hr hn hc ih =>
    have h1 := ih hn
    refine (call_did hL h1 hc).inv h1 ?_
    intro x hx'
    exact hx c x (by simp [hx'])

/-- Induction over a history: a property kept by each call. -/
theorem Runs.ind {L : Nat} (hL : L + 2 ^ 32 ≤ 2 ^ 64) {s t : Client} {h : History α} (hr : Runs Z s h t) (hs : CInv L s)
    {P : History α → Client → Prop} (h0 : P [] s)
    (step : ∀ h t u c o, Runs Z s h t → CInv L t → P h t → (∀ c x, (c, .panic x) ∉ h) → Did L t u c o → t.call Z c = some (o, u) → P (h ++ [(c, o)]) u) : P h t := by
  induction hr with
  | nil => exact h0
  | @snoc h t u c o hr hn hc ih =>
    have h1 := hr.inv hL hs hn
    exact step h t u c o hr h1 ih hn (call_did hL h1 hc) hc

theorem Runs.trans {s t u : Client} {a b : History α} (h1 : Runs Z s a t) (ha : ∀ c x, (c, .panic x) ∉ a) (h2 : Runs Z t b u) :
    Runs Z s (a ++ b) u := by
  induction h2 with
  | nil => simpa using h1
  | @snoc h t' u' c o hr hn hc ih =>
    rw [← List.append_assoc]
    refine ih.snoc ?_ hc
    intro c' x hm
    rcases List.mem_append.mp hm with hm | hm
    · exact ha c' x hm
    · exact hn c' x hm

/-- Histories split. -/
theorem Runs.split {s u : Client} {a b : History α} (h : Runs Z s (a ++ b) u) : ∃ t, Runs Z s a t ∧ Runs Z t b u ∧ (b ≠ [] → ∀ c x, (c, .panic x) ∉ a) := by
  generalize hab : a ++ b = ab at h
  induction h generalizing b with
  | nil =>
    obtain ⟨rfl, rfl⟩ := List.append_eq_nil_iff.mp hab
    exact ⟨s, .nil, .nil, fun h => absurd rfl h⟩
  | @snoc h t u c o hr hn hc ih =>
    rcases List.eq_nil_or_concat b with rfl | ⟨b', x, rfl⟩
    · rw [List.append_nil] at hab
      subst hab
      exact ⟨u, .snoc hr hn hc, .nil, fun h => absurd rfl h⟩
    · rw [List.concat_eq_append, ← List.append_assoc] at hab
      obtain ⟨h1, h2⟩ := List.append_inj' hab rfl
      cases h2
      obtain ⟨t', h3, h4, _⟩ := ih h1
      refine ⟨t', h3, ?_, ?_⟩
      · rw [List.concat_eq_append]
        refine .snoc h4 (fun c x hm => hn c x ?_) hc
        rw [← h1]; exact List.mem_append_right _ hm
      · intro _ c x hm
        exact hn c x (by rw [← h1]; exact List.mem_append_left _ hm)

/-- A list of calls gives a history. -/
theorem session_runs {s u : Client} {cs : List (Call α)} {os : List (Outcome α)} (h : s.session Z cs = some (os, u))
    (hx : ∀ x, .panic x ∉ os.dropLast) : Runs Z s (List.zip cs os) u := by
  induction cs generalizing s os with
  | nil => cases h; exact .nil
  | cons c cs ih =>
    simp only [Client.session] at h
    cases hc : s.call Z c with
    | none => rw [hc] at h; cases h
    | some ot =>
      obtain ⟨o, t⟩ := ot
      rw [hc] at h
      simp only at h
      cases hs : t.session Z cs with
      | none => rw [hs] at h; cases h
      | some osu =>
        obtain ⟨os', u'⟩ := osu
        rw [hs] at h
        cases h
        have h1 : Runs Z s ([] ++ [(c, o)]) t := .snoc .nil (by simp) hc
        cases os' with
        | nil =>
          cases cs with
          | nil => cases hs; exact h1
          | cons c' cs' =>
            simp only [Client.session] at hs
            split at hs
            · cases hs
            · split at hs <;> cases hs
        | cons o' os' =>
          have h2 := ih hs (fun x hm => hx x (by simp [List.dropLast_cons_of_ne_nil, hm]))
          have h3 := h1.trans (by
            intro c' x hm
            simp only [List.nil_append, List.mem_singleton, Prod.mk.injEq] at hm
            exact hx x (by rw [List.dropLast_cons_of_ne_nil (by simp)]; simp [hm.2])) h2
          simpa using h3

end Fbx
