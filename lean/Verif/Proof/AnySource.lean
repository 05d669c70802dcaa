import Verif.Spec.AnySource
import Verif.Spec.Drain
import Verif.Proof.Reference

/-! # Sources which cannot seek, or not everywhere -/

namespace Fbx
open Reader Parser Spec
variable {α : Type} {Z : Zlib}

/-- The way a source skips. -/
def Reader.skipping (r : Reader) : Skipping := if r.seekable then .seeks (r.seekLimit + r.position - r.cursor) else .reads

theorem Reader.Moves.skipping {r s : Reader} (h : Moves r s) : s.skipping = r.skipping := by
  obtain ⟨j, k, h⟩ := h
  unfold Reader.skipping
  rw [h.seekable]
  by_cases hs : r.seekable = true
  · have := h.eq hs
    rw [if_pos hs, if_pos hs, h.cursor, h.position, h.seekLimit, this]
    congr 1
    omega
  · rw [if_neg hs, if_neg hs]

theorem Reader.Moves.ending {r s : Reader} (h : Moves r s) : s.ending = r.ending := by
  obtain ⟨j, k, h⟩ := h
  exact h.ending

/-- Seeking in parts. -/
theorem skipSeekLoop_parts : ∀ (fuel d : Nat) (r : Reader), d < fuel * i64Max → r.position + d < 2 ^ 64 →
    skipSeekLoop fuel d r = if d = 0 ∨ r.cursor + d ≤ r.seekLimit then (.ok (), r.consume d)
      else (.err .invalidSeek, r.consume ((r.seekLimit - r.cursor) / i64Max * i64Max)) := by
  have hu : u64Size = 2 ^ 64 := rfl
  have hi : i64Max = 2 ^ 63 - 1 := rfl
  intro fuel
  induction fuel with
  | zero => intro d r h; omega
  | succ fuel ih =>
    intro d r hd hp
    rw [skipSeekLoop_succ]
    by_cases h0 : d = 0
    · subst h0
      rw [if_pos rfl, if_pos (.inl rfl), consume_zero]
    · rw [if_neg h0]
      by_cases hc : r.cursor + min d i64Max ≤ r.seekLimit
      · rw [if_pos hc, if_pos (by rw [hu]; omega)]
        by_cases hm : d ≤ i64Max
        · rw [Nat.min_eq_left hm] at hc ⊢
          rw [if_pos (.inr hc), Nat.sub_self]
          cases fuel with
          | zero => rfl
          | succ f => rw [skipSeekLoop_succ, if_pos rfl]
        · rw [Nat.min_eq_right (by omega)] at hc ⊢
          rw [ih (d - i64Max) (r.consume i64Max) (by rw [Nat.add_mul] at hd; omega) (by simp; omega)]
          simp only [consume_consume, consume_cursor, consume_seekLimit]
          by_cases hl : r.cursor + d ≤ r.seekLimit
          · rw [if_pos (.inr (by omega)), if_pos (.inr hl), show i64Max + (d - i64Max) = d by omega]
          · rw [if_neg (by omega), if_neg (by omega)]
            congr 2
            have : (r.seekLimit - r.cursor) / i64Max = (r.seekLimit - (r.cursor + i64Max)) / i64Max + 1 := by
              rw [show r.seekLimit - r.cursor = (r.seekLimit - (r.cursor + i64Max)) + i64Max by omega]
              exact Nat.add_div_right _ (by rw [hi]; decide)
            rw [this, Nat.add_mul]
            omega
      · rw [if_neg hc, if_neg (by omega)]
        rw [Nat.div_eq_of_lt (by omega), Nat.zero_mul, consume_zero]

theorem Spec.Ahead.skip_seeks (a : Ahead) (e : Ending) (k far : Nat) : a.skip (.seeks far) e k = if k = 0 ∨ a.pos + k ≤ far then (none, a.move k)
    else (some .invalidSeek, a.move ((far - a.pos) / i64Max * i64Max)) := rfl

/-- The result of a skip. -/
def skipRes : Option IoErr → Res IoErr Unit
  | none => .ok ()
  | some e => .err e

theorem skipTo_skips {L : Nat} (p : Parser) (hr : RInv L p.reader) (q : Nat) (hge : p.reader.position ≤ q) (hq : q < 2 ^ 64) :
    ∃ x r, skipTo q p.reader = (skipRes x, r) ∧ Moves p.reader r ∧ RInv L r ∧
      (look p).skip p.reader.skipping p.reader.ending (q - p.reader.position) = (x, look { p with reader := r }) := by
  have hi : i64Max = 2 ^ 63 - 1 := rfl
  have e1 : (look p).bytes = p.reader.rest := rfl
  have e2 : (look p).pos = p.reader.position := rfl
  have hw := wp_skipTo (P := fun _ s => Moves p.reader s ∧ RInv L s) (E := fun _ s => Moves p.reader s ∧ RInv L s) (X := fun _ _ => False)
    hr q hge hq (fun _ a b _ _ => ⟨a, b⟩) (fun _ _ a b => ⟨a, b⟩)
  have key : ∃ x r, skipTo q p.reader = (skipRes x, r) ∧
      (look p).skip p.reader.skipping p.reader.ending (q - p.reader.position) = (x, look { p with reader := r }) := by
    rw [skipTo, if_neg (by omega), skipDistance]
    cases hs : p.reader.seekable with
    | true =>
      rw [if_pos rfl, skipSeek, skipSeekLoop_parts _ _ _ (by
        have := Nat.div_add_mod (q - p.reader.position) i64Max
        have hm := Nat.mod_lt (q - p.reader.position) (show 0 < i64Max by omega)
        rw [Nat.add_mul, Nat.mul_comm]
        omega) (by omega)]
      rw [Reader.skipping, if_pos hs, Ahead.skip_seeks, e2]
      by_cases hc : q - p.reader.position = 0 ∨ p.reader.cursor + (q - p.reader.position) ≤ p.reader.seekLimit
      · rw [if_pos hc, if_pos (by omega)]
        exact ⟨none, _, rfl, rfl⟩
      · rw [if_neg hc, if_neg (by omega)]
        rw [show p.reader.seekLimit + p.reader.position - p.reader.cursor - p.reader.position = p.reader.seekLimit - p.reader.cursor by omega]
        exact ⟨some .invalidSeek, _, rfl, by rw [look_consume]⟩
    | false =>
      rw [if_neg (by simp), skipPlain]
      simp only [Ahead.skip, Reader.skipping, hs, Bool.false_eq_true, if_false, e1]
      by_cases hd : q - p.reader.position ≤ p.reader.rest.length
      · rw [if_pos hd, if_neg (by omega)]
        exact ⟨none, _, rfl, rfl⟩
      · rw [if_neg hd, if_pos (by omega)]
        have hdr : p.reader.rest.drop (q - p.reader.position) = p.reader.rest.drop p.reader.rest.length := by
          rw [List.drop_eq_nil_of_le (by omega), List.drop_length]
        cases he : p.reader.ending with
        | none => exact ⟨none, _, rfl, by rw [hdr]; simp only [look, consumeInner, he]⟩
        | some x => exact ⟨some x, _, rfl, by rw [hdr]; simp only [look, consumeInner, he]⟩
  obtain ⟨x, r, k1, k2⟩ := key
  refine ⟨x, r, k1, ?_, ?_, k2⟩
  · cases x with
    | none => exact (M.wp_ok hw k1).1
    | some x => exact (M.wp_err hw k1).1
  · cases x with
    | none => exact (M.wp_ok hw k1).2
    | some x => exact (M.wp_err hw k1).2

theorem skip_zero (m : Skipping) (e : Ending) (a : Ahead) : a.skip m e 0 = (none, a) := by
  cases m with
  | reads => simp [Ahead.skip]
  | seeks far => simp [Ahead.skip, Ahead.move]

/-! ## `next_event` -/

/-- The state left behind. -/
def LeftIn (p : Parser) (w : Option (Warning × SynPos)) (b : Ahead) (q : Parser) : Prop :=
  look q = b ∧ ∃ r, q = { p with log := w.toList ++ p.log, started := b.opened, toplevel := b.top, reader := r }

theorem Left.leftIn {p : Parser} {r : Reader} {w : Option (Warning × SynPos)} {b : Ahead} {q : Parser}
    (h : Left { p with reader := r } w b q) : LeftIn p w b q := by
  obtain ⟨h1, k, h2⟩ := h
  exact ⟨h1, _, h2⟩

/-- `m` answers what the table says. -/
def FollowsIn (p : Parser) (x : Verdict × Option (Warning × SynPos) × Ahead) (m : M PErr Parser EvKind) (p' : Parser) : Prop :=
  M.wp m (fun k q => LeftIn p x.2.1 x.2.2 q ∧ x.1.kind = some k) (fun e q => LeftIn p x.2.1 x.2.2 q ∧ x.1 = .fails e.kind ∧ e.pos = none)
    (fun pn _ => x.1 = .overflows ∧ pn = .attrEndOverflow) p'

theorem Follows.followsIn {p p' : Parser} {r : Reader} {x : Verdict × Option (Warning × SynPos) × Ahead} {m : M PErr Parser EvKind}
    (h : Follows { p with reader := r } x m p') : FollowsIn p x m p' :=
  M.wp_mono h (fun _ _ h => ⟨h.1.leftIn, h.2⟩) (fun _ _ h => ⟨h.1.leftIn, h.2⟩) (fun _ _ h => h)

/-- The core of `next_event`. -/
theorem agree_implFrom {L : Nat} (hL : L < 2 ^ 64) {p : Parser} (hp : PInv L p) (hrun : p.health = .running) (hlast : p.last ≠ some .endFbx)
    (ht : objection p.handler p.log ((look p).nextFrom p.reader.skipping p.reader.ending p.checks).2.1 = none)
    (hk : ∀ n outer, p.started = n :: outer → (p.last = some .endNode ↔ n.kids ≠ 0)) :
    FollowsIn p ((look p).nextFrom p.reader.skipping p.reader.ending p.checks) nextEventImpl p := by
  have hroom := room hL hp.reader
  unfold FollowsIn
  simp only [nextEventImpl, M.wp_bind, M.wp_get, M.wp_assert, hrun, hlast, ne_eq, not_false_eq_true, decide_true, if_true]
  obtain ⟨v, he, st, la, tl, rd, hd, lg, ch⟩ := p
  cases st with
  | nil =>
    refine wp_of (r := .ok ()) (s' := ⟨v, he, [], la, tl, rd, hd, lg, ch⟩) rfl ?_
    simp only [M.wp_bind, M.wp_get]
    refine wp_of (r := .ok false) (s' := ⟨v, he, [], la, tl, rd, hd, lg, ch⟩) rfl ?_
    have : (look ⟨v, he, [], la, tl, rd, hd, lg, ch⟩).nextFrom rd.skipping rd.ending ch = (look ⟨v, he, [], la, tl, rd, hd, lg, ch⟩).header ch := by
      have hu : (look ⟨v, he, [], la, tl, rd, hd, lg, ch⟩).unread = 0 := rfl
      rw [Ahead.nextFrom, hu, skip_zero]
      rfl
    simp only [this] at ht ⊢
    exact Follows.followsIn (p := ⟨v, he, [], la, tl, rd, hd, lg, ch⟩) (r := rd) (agree_header (p := ⟨v, he, [], la, tl, rd, hd, lg, ch⟩) hroom hp.top ht)
  | cons n outer =>
    have hb := (hp.ends n (by simp)).2.1
    have hkk := hk n outer rfl
    simp only at hkk hroom
    obtain ⟨x, r, hskip, hr, hx⟩ : ∃ x r, skipUnreadAttributes ⟨v, he, n :: outer, la, tl, rd, hd, lg, ch⟩ =
        (match x with | none => .ok () | some x => .err (PErr.ofIo x), ⟨v, he, n :: outer, la, tl, r, hd, lg, ch⟩) ∧ RInv L r ∧
        (look ⟨v, he, n :: outer, la, tl, rd, hd, lg, ch⟩).skip rd.skipping rd.ending (n.attrEnd - rd.position) =
          (x, look ⟨v, he, n :: outer, la, tl, r, hd, lg, ch⟩) := by
      rw [skipUnreadAttributes, M.get_bind]
      simp only [M.ite_apply]
      by_cases hg : n.attrEnd > rd.position
      · rw [if_pos hg]
        obtain ⟨x, r, h1, h2, h3, h4⟩ := skipTo_skips ⟨v, he, n :: outer, la, tl, rd, hd, lg, ch⟩ hp.reader n.attrEnd (Nat.le_of_lt hg) hb
        refine ⟨x, r, ?_, h3, h4⟩
        cases x with
        | none => exact io_exact (p := ⟨v, he, n :: outer, la, tl, rd, hd, lg, ch⟩) h1
        | some x => exact io_fail (p := ⟨v, he, n :: outer, la, tl, rd, hd, lg, ch⟩) h1
      · rw [if_neg hg]
        refine ⟨none, rd, rfl, hp.reader, ?_⟩
        rw [show n.attrEnd - rd.position = 0 by omega, skip_zero]
    have hroom' := room hL hr
    have hun : (look ⟨v, he, n :: outer, la, tl, rd, hd, lg, ch⟩).unread = n.attrEnd - rd.position := rfl
    simp only [Ahead.nextFrom, hun, hx] at ht ⊢
    refine wp_of hskip ?_
    cases x with
    | some x => exact ⟨⟨rfl, r, rfl⟩, rfl, rfl⟩
    | none =>
    simp only [M.wp_bind, M.wp_get]
    simp only [tryImplicitEnd, M.wp_bind, M.wp_get, M.wp_ite, M.wp_throw]
    have hnext : (look ⟨v, he, n :: outer, la, tl, r, hd, lg, ch⟩).resume ch =
        (if n.endOff < r.position then
          (.fails (.data (.nodeLengthMismatch n.endOff none)), none, look ⟨v, he, n :: outer, la, tl, r, hd, lg, ch⟩)
        else if n.endOff = r.position then
          (.ends, if n.kids ≠ 0 ∨ n.attrCount = 0 then some (.missingNodeEndMarker, (look ⟨v, he, n :: outer, la, tl, r, hd, lg, ch⟩).here) else none,
            look ⟨v, he, outer, la, tl, r, hd, lg, ch⟩)
        else (look ⟨v, he, n :: outer, la, tl, r, hd, lg, ch⟩).header ch) := rfl
    simp only [hnext] at ht ⊢
    by_cases h1 : n.endOff < r.position
    · rw [if_pos h1, if_pos h1]
      exact ⟨⟨rfl, r, rfl⟩, rfl, rfl⟩
    rw [if_neg h1] at ht
    rw [if_neg h1, if_neg h1]
    by_cases h2 : n.endOff = r.position
    · rw [if_pos h2] at ht
      rw [if_pos h2, if_pos h2]
      by_cases h3 : n.kids ≠ 0 ∨ n.attrCount = 0
      · have h3' : la = some EvKind.endNode ∨ ¬ n.attrCount ≠ 0 := by
          rcases h3 with h3 | h3
          · exact .inl (hkk.mpr h3)
          · exact .inr (by simp [h3])
        simp only [if_pos h3, if_pos h3'] at ht ⊢
        refine wp_of (position_ok (p := ⟨v, he, n :: outer, la, tl, r, hd, lg, ch⟩) hp.top) ?_
        simp only [M.wp_bind]
        rw [synPos_here]
        refine wp_of (warn_accepted (p := ⟨v, he, n :: outer, la, tl, r, hd, lg, ch⟩) ht) ?_
        exact ⟨⟨rfl, r, rfl⟩, rfl⟩
      · have h3' : ¬ (la = some EvKind.endNode ∨ ¬ n.attrCount ≠ 0) := by
          rintro (h | h)
          · exact h3 (.inl (hkk.mp h))
          · exact h3 (.inr (by simpa using h))
        simp only [if_neg h3, if_neg h3']
        exact ⟨⟨rfl, r, rfl⟩, rfl⟩
    · rw [if_neg h2] at ht
      rw [if_neg h2, if_neg h2]
      have := agree_header (p := ⟨v, he, n :: outer, la, tl, r, hd, lg, ch⟩) hroom' hp.top ht
      exact Follows.followsIn (p := ⟨v, he, n :: outer, la, tl, rd, hd, lg, ch⟩) this

theorem header_starts {a : Ahead} {c : Bool} {name : String} {n : Nat} {w : Option (Warning × SynPos)} {b : Ahead}
    (h : a.header c = (.starts name n, w, b)) : ∃ nd outer, b.opened = nd :: outer ∧ nd.name = name ∧ nd.attrCount = n := by
  have hs : ∀ a : Ahead, a.start c = (.starts name n, w, b) → ∃ nd outer, b.opened = nd :: outer ∧ nd.name = name ∧ nd.attrCount = n := by
    intro a h
    simp only [Ahead.start] at h
    split at h
    · cases h
    · split at h
      · cases h
      · split at h
        · cases h
        · simp only [Prod.mk.injEq, Verdict.starts.injEq] at h
          obtain ⟨⟨rfl, rfl⟩, _, rfl⟩ := h
          simp only [Ahead.enter]
          split <;> exact ⟨_, _, rfl, rfl, rfl⟩
  simp only [Ahead.header] at h
  split at h
  · cases h
  · split at h
    · split at h
      · cases h
      · split at h <;> cases h
    · exact hs _ h

theorem startsFrom_opened {m : Skipping} {e : Ending} {a : Ahead} {c : Bool} {name : String} {n : Nat} {w : Option (Warning × SynPos)} {b : Ahead}
    (h : a.nextFrom m e c = (.starts name n, w, b)) : ∃ nd outer, b.opened = nd :: outer ∧ nd.name = name ∧ nd.attrCount = n := by
  unfold Ahead.nextFrom at h
  split at h
  · cases h
  · unfold Ahead.resume at h
    split at h
    · exact header_starts h
    · split at h
      · cases h
      · split at h
        · cases h
        · exact header_starts h

theorem header_finishes {a : Ahead} {c : Bool} {w : Option (Warning × SynPos)} {b : Ahead}
    (h : a.header c = (.finishes, w, b)) : w = none ∧ b.opened = [] := by
  simp only [Ahead.header] at h
  split at h
  · cases h
  · split at h
    · split at h
      · rename_i ho
        cases h
        exact ⟨rfl, ho⟩
      · split at h <;> cases h
    · simp only [Ahead.start] at h
      split at h
      · cases h
      · split at h
        · cases h
        · split at h <;> cases h

theorem finishesFrom_state {m : Skipping} {e : Ending} {a : Ahead} {c : Bool} {w : Option (Warning × SynPos)} {b : Ahead}
    (h : a.nextFrom m e c = (.finishes, w, b)) : w = none ∧ b.opened = [] := by
  unfold Ahead.nextFrom at h
  split at h
  · cases h
  · unfold Ahead.resume at h
    split at h
    · exact header_finishes h
    · split at h
      · cases h
      · split at h
        · cases h
        · exact header_finishes h

theorem answers_nextFrom {L : Nat} (hL : L + 2 ^ 32 ≤ 2 ^ 64) {s : Client} (hi : CInv L s) (hrun : s.parser.health = .running)
    (ht : tolerant s.parser) (hk : ∀ n outer, s.parser.started = n :: outer → (s.parser.last = some .endNode ↔ n.kids ≠ 0)) :
    ∃ o t, s.call Z (.next : Call α) = some (o, t) ∧
      Answers s o t ((look s.parser).nextFrom s.parser.reader.skipping s.parser.reader.ending s.parser.checks) := by
  have hlast : s.parser.last ≠ some .endFbx := fun h => hi.last h hrun
  have hf := agree_implFrom (by omega) hi.parser hrun hlast (tolerant_accepts ht _) hk
  have hw := wp_nextEventImpl hL hi.parser hrun hlast
  have he : ensureContinuable s.parser = (.ok (), s.parser) := by simp only [ensureContinuable, hrun]
  obtain ⟨⟨vd, w, b⟩, hx⟩ : ∃ x, (look s.parser).nextFrom s.parser.reader.skipping s.parser.reader.ending s.parser.checks = x := ⟨_, rfl⟩
  rw [hx] at hf ⊢
  rcases hm : nextEventImpl s.parser with ⟨_ | _ | _, q⟩
  · rename_i k
    obtain ⟨⟨h1, j, h2⟩, h3⟩ := M.wp_ok hf hm
    obtain ⟨h4, h5⟩ := M.wp_ok hw hm
    simp only at h1 h2 h3
    have hn := nextEvent_of hrun hm h4.depth
    have hq : q.health = .running ∧ q.log = w.toList ++ s.parser.log ∧ q.version = s.parser.version ∧ q.handler = s.parser.handler := by
      rw [h2]; exact ⟨hrun, rfl, rfl, rfl⟩
    cases vd with
    | starts name n =>
      cases h3
      obtain ⟨nd, outer, g1, g2, g3⟩ := startsFrom_opened hx
      have g4 : q.started = nd :: outer := by rw [← g1, ← h1]; rfl
      simp only [reduceCtorEq, if_false, makeEvent, g4] at hn
      simp only [Client.call, hn]
      refine ⟨_, _, rfl, by rw [g2, g3], ?_, ?_, ?_⟩
      · exact hq.2.1
      · rw [← h1]; simp [look, g4]
      · exact hq.1
    | ends =>
      cases h3
      simp only [reduceCtorEq, if_false, makeEvent] at hn
      simp only [Client.call, hn]
      exact ⟨_, _, rfl, rfl, hq.2.1, by rw [← h1]; rfl, hq.1⟩
    | finishes =>
      cases h3
      obtain ⟨g1, g2⟩ := finishesFrom_state hx
      subst g1
      have ht' : tolerant { q with health := .finished, last := some .endFbx } := by
        intro f hf'
        exact ht f (by rw [← hq.2.2.2]; exact hf')
      obtain ⟨ft, q', f1, f2, f3⟩ := footer_says (p := { q with health := .finished, last := some .endFbx }) ht' (room (by omega) h5)
      simp only [if_true] at hn
      rw [f1] at hn
      simp only [Client.call, hn]
      refine ⟨_, _, rfl, rfl, f3, ft, rfl, ?_⟩
      have : look { q with health := .finished, last := some .endFbx } = b := by rw [← h1]; rfl
      rw [this] at f2
      have e1 : q.log = s.parser.log := hq.2.1
      simp only [hq.2.2.1, e1] at f2
      exact f2
    | fails k => cases h3
    | overflows => cases h3
  · rename_i e
    obtain ⟨⟨h1, j, h2⟩, h3, h4⟩ := M.wp_err hf hm
    simp only at h1 h2 h3
    subst h3
    have := next_of_impl (Z := Z) (α := α) hL hi hrun hm
    refine ⟨_, _, this, ?_, ?_, ?_, ?_⟩
    · simp only [PErr.andPosition, synPos_here, h1]
    · simp only [Parser.setAborted]; rw [h2]
    · rw [← h1]; rfl
    · simp only [Parser.setAborted, synPos_here, h1]
  · rename_i x
    obtain ⟨h1, h2⟩ := M.wp_pan hf hm
    simp only at h1
    subst h1 h2
    have hn : nextEvent s.parser = (.panic .attrEndOverflow, q) := by
      rw [nextEvent, M.get_bind]
      refine (M.bind_val he _).trans ?_
      simp only [hm]
    simp only [Client.call, hn]
    exact ⟨_, _, rfl, rfl⟩

/-! ## `load_next` -/

namespace AP
variable {a : AP}

/-- The skip to the next attribute. -/
theorem readNextType_from {L : Nat} (hr : RInv L a.parser.reader) (hrest : a.attrs.rest ≠ 0) (hn : a.attrs.next < 2 ^ 64) :
    ∃ x r, RInv L r ∧ Moves a.parser.reader r ∧
      (look a.parser).skip a.parser.reader.skipping a.parser.reader.ending (a.attrs.next - a.parser.reader.position) = (x, look { a.parser with reader := r }) ∧
      match x with
      | some e => readNextType a = (.err (PErr.ofIo e), a.withReader r)
      | none => readNextType a = (do
        let code ← io readU8
        match AttrType.fromTypeCode code with
        | none => M.throw (PErr.ofData (.invalidAttrTypeCode code))
        | some t => do
          M.modify (fun a => { a with attrs := { a.attrs with rest := a.attrs.rest - 1 } })
          pure (some t) : M PErr AP (Option AttrType)) (a.withReader r) := by
  rw [readNextType, M.get_bind, if_neg hrest]
  by_cases h : a.parser.reader.position < a.attrs.next
  · rw [if_pos h]
    obtain ⟨x, r, h1, h2, h3, h4⟩ := skipTo_skips a.parser hr a.attrs.next (Nat.le_of_lt h) hn
    refine ⟨x, r, h3, h2, h4, ?_⟩
    cases x with
    | none => exact M.bind_val (io_ok h1) _
    | some x => exact bind_err (io_err h1)
  · rw [if_neg h]
    refine ⟨none, a.parser.reader, hr, .refl _, ?_, ?_⟩
    · rw [show a.attrs.next - a.parser.reader.position = 0 by omega, skip_zero]
    · rfl

end AP

/-- `load_next` with `DirectLoader` answers what the table says. -/
theorem answers_loadFrom {L : Nat} (hL : L + 2 ^ 32 ≤ 2 ^ 64) {s : Client} {a : Attrs} (hi : CInv L s) (ha : s.attrs = some a) (hrest : a.rest ≠ 0)
    (hrun : s.parser.health = .running) (ht : tolerant s.parser) (buffered : Bool) :
    ∃ o t, s.call Z (.load buffered directLoader) = some (o, t) ∧
      LoadAnswersFrom Z s.parser.reader.skipping s.parser.reader.ending s a o t ∧ t.parser.handler = s.parser.handler := by
  obtain ⟨h1, h2, n, outer, h3, h4⟩ := hi.attrs a ha
  obtain ⟨x, r, hr, hm, hx, hread⟩ := AP.readNextType_from (a := ⟨s.parser, a⟩) hi.parser.reader hrest h2
  simp only at hr hm hx
  have hload := AP.load_eq (Z := Z) ⟨s.parser, a⟩ buffered directLoader
  simp only [hrun, h1, if_true] at hload
  have hpos0 : (look s.parser).pos = s.parser.reader.position := rfl
  simp only [LoadAnswersFrom, hpos0, hx]
  cases x with
  | some x =>
    simp only at hread
    have hb : AP.loadBody Z buffered directLoader a.next (a.total - a.rest) ⟨s.parser, a⟩ = (.err (PErr.ofIo x), (⟨s.parser, a⟩ : AP).withReader r) :=
      bind_err hread
    rw [hb] at hload
    simp only at hload
    rw [AP.position_eq, if_neg (fun h => hi.parser.top h.1 h.2)] at hload
    simp only [Client.call, ha, hload]
    refine ⟨_, _, rfl, ⟨?_, ?_, ?_, ?_⟩, ?_⟩
    · simp only [AP.withReader, synPos_here]; rfl
    · rfl
    · rfl
    · simp only [Parser.setAborted, AP.withReader, synPos_here]
    · rfl
  | none =>
  simp only at hread ⊢
  have hroom : Room r := room (by omega) hr
  have hcap : r.rest ≠ [] → r.position + r.rest.length + 2 ^ 32 ≤ 2 ^ 64 := by
    intro hne
    rcases hr.2 with ⟨-, e1⟩ | hc
    · exact absurd e1 hne
    · omega
  have hb := AP.body_from (Z := Z) (a := ⟨s.parser, a⟩) (start := a.next) (idx := a.total - a.rest) buffered ht hi.parser.top r hread hroom hcap _ rfl
  have hbytes : (look { s.parser with reader := r }).bytes = r.rest := rfl
  have hpos : (look { s.parser with reader := r }).pos = r.position := rfl
  rw [hm.ending] at hb
  simp only at hb
  simp only [hbytes, hpos]
  have hmv : ∀ k, (look { s.parser with reader := r }).move k = look { s.parser with reader := r.consume k } := fun _ => rfl
  simp only [hmv, ← synPos_here]
  generalize attrInFront Z s.parser.reader.ending r.rest = l at *
  cases hans : l.answer with
  | ok v =>
    rw [hans] at hb
    simp only at hb ⊢
    rw [hb] at hload
    simp only [Client.call, ha, hload]
    exact ⟨_, _, rfl, ⟨rfl, rfl, rfl, hrun, rfl⟩, rfl⟩
  | error k =>
    rw [hans] at hb
    obtain ⟨b, hb, hbp⟩ := hb
    rw [hb] at hload
    simp only at hload
    rw [AP.position_eq, hbp, if_neg (fun h => hi.parser.top h.1 h.2)] at hload
    simp only at hload
    simp only [Client.call, ha, hload]
    refine ⟨_, _, rfl, ⟨?_, ?_, ?_, ?_⟩, ?_⟩
    · simp only [hbp, Parser.setAborted]; rfl
    · rfl
    · simp only [hbp, Parser.setAborted]
    · rfl
    · simp only [hbp, Parser.setAborted]

theorem call_skipping {L : Nat} (hL : L + 2 ^ 32 ≤ 2 ^ 64) {s t : Client} (hi : CInv L s) {c : Call α} {o : Outcome α} (hc : s.call Z c = some (o, t))
    (ho : ∀ x, o ≠ .panic x) : t.parser.reader.skipping = s.parser.reader.skipping ∧ t.parser.reader.ending = s.parser.reader.ending :=
  have := (call_did hL hi hc).moves ho
  ⟨this.skipping, this.ending⟩

/-- All the attributes of a node. -/
theorem session_loadsFrom {L : Nat} (hL : L + 2 ^ 32 ≤ 2 ^ 64) (m : Skipping) (e : Ending) (buffered : Bool) : ∀ (n total next : Nat) (s : Client), CInv L s →
    s.attrs = some ⟨total, n, next⟩ → s.parser.health = .running → tolerant s.parser → s.parser.reader.skipping = m → s.parser.reader.ending = e →
    ∃ t, s.session Z (List.replicate (attributesFrom Z m e total n next (look s.parser)).outcomes.length (.load buffered directLoader)) =
        some ((attributesFrom Z m e total n next (look s.parser)).outcomes, t) ∧
      look t.parser = (attributesFrom Z m e total n next (look s.parser)).ahead ∧
      t.parser.log = (attributesFrom Z m e total n next (look s.parser)).warnings ++ s.parser.log ∧
      t.parser.health = (match (attributesFrom Z m e total n next (look s.parser)).error with | some ⟨_, some pos⟩ => .aborted pos | _ => .running) ∧
      t.parser.handler = s.parser.handler := by
  intro n
  induction n with
  | zero =>
    intro total next s hi ha hrun ht hm hend
    exact ⟨s, rfl, rfl, rfl, hrun, rfl⟩
  | succ n ih =>
    intro total next s hi ha hrun ht hm hend
    obtain ⟨o, t, hc, hans, hhd⟩ := answers_loadFrom (Z := Z) hL hi ha (by simp) hrun ht buffered
    rw [hend, hm] at hans
    simp only [LoadAnswersFrom] at hans
    simp only [attributesFrom]
    rcases hx : (look s.parser).skip m e (next - (look s.parser).pos) with ⟨_ | x, here⟩
    · rw [hx] at hans
      simp only at hans ⊢
      obtain ⟨hlook, hans⟩ := hans
      generalize attrInFront Z e here.bytes = l at *
      cases hl : l.answer with
      | error k =>
        rw [hl] at hans
        obtain ⟨h1, h2, h3⟩ := hans
        refine ⟨t, ?_, hlook, h2, h3, hhd⟩
        simp only [Attributes.outcomes, List.map_nil, List.nil_append, Option.toList, List.map_cons, List.length_cons, List.length_nil,
          List.replicate_succ, List.replicate_zero, Client.session, hc, h1]
      | ok v =>
        rw [hl] at hans
        simp only at hans ⊢
        obtain ⟨h1, h2, h3, h4⟩ := hans
        have hcalm : ∀ x, o ≠ .panic x := by rw [h1]; intro x h; cases h
        obtain ⟨c1, c2⟩ := call_skipping hL hi hc hcalm
        obtain ⟨u, g1, g2, g3, g4, g5⟩ := ih total (here.pos + l.len) t ((call_did hL hi hc).inv hi hcalm) h4 h3 (fun f hf => ht f (by rw [← hhd]; exact hf))
          (c1.trans hm) (c2.trans hend)
        rw [hlook] at g1 g2 g3 g4
        refine ⟨u, ?_, g2, by rw [g3, h2, List.append_assoc], g4, g5.trans hhd⟩
        simp only [Attributes.outcomes, List.map_cons, List.cons_append, List.length_cons, List.replicate_succ, Client.session, hc] at g1 ⊢
        rw [g1, h1]
    · rw [hx] at hans
      obtain ⟨h1, h2, h3, h4⟩ := hans
      refine ⟨t, ?_, h2, h3, h4, hhd⟩
      simp only [Attributes.outcomes, List.map_nil, List.nil_append, Option.toList, List.map_cons, List.length_cons, List.length_nil,
        List.replicate_succ, List.replicate_zero, Client.session, hc, h1]

theorem attributesFrom_length (Z : Zlib) (m : Skipping) (e : Ending) (total : Nat) : ∀ (n next : Nat) (a : Ahead),
    (attributesFrom Z m e total n next a).error = none → (attributesFrom Z m e total n next a).values.length = n
  | 0, _, _, _ => rfl
  | n + 1, next, a, h => by
    simp only [attributesFrom] at h ⊢
    split at h
    · cases h
    · split at h
      · cases h
      · rename_i v hv
        exact congrArg (· + 1) (attributesFrom_length Z m e total n _ _ h)

theorem attributesFrom_short (Z : Zlib) (m : Skipping) (e : Ending) (total : Nat) : ∀ (n next : Nat) (a : Ahead) (x : PErr),
    (attributesFrom Z m e total n next a).error = some x → (attributesFrom Z m e total n next a).values.length < n ∧ ∃ pos, x.pos = some pos
  | 0, _, _, _, h => by cases h
  | n + 1, next, a, x, h => by
    simp only [attributesFrom] at h ⊢
    split at h
    · cases h
      exact ⟨Nat.succ_pos n, _, rfl⟩
    · split at h
      · cases h
        exact ⟨Nat.succ_pos n, _, rfl⟩
      · rename_i v hv
        have := attributesFrom_short Z m e total n _ _ x h
        exact ⟨Nat.succ_lt_succ this.1, this.2⟩

/-! ## Whole files -/

/-- What does not change. -/
theorem Runs.source {L : Nat} (hL : L + 2 ^ 32 ≤ 2 ^ 64) {s t : Client} {h : History α} (hr : Runs Z s h t) (hs : CInv L s) (hn : h.calm) :
    t.parser.reader.skipping = s.parser.reader.skipping ∧ t.parser.reader.ending = s.parser.reader.ending :=
  have := hr.moves hL hs hn
  ⟨this.skipping, this.ending⟩

theorem create_eq {checks : Bool} {v : FbxVersion} {r : Reader} {p : Parser} (hp : Parser.create checks v r = .ok p) :
    p = ⟨v, .running, [], none, 0, r, none, [], checks⟩ := by
  unfold Parser.create at hp
  split at hp <;> cases hp
  rfl

theorem drive_readingFrom {checks : Bool} {v : FbxVersion} {r0 : Reader} {p : Parser} {m : Skipping} {e : Ending}
    (hp : Parser.create checks v r0 = .ok p) (hpos : r0.position = headerLen) (hsz : Sized r0.rest) (hm : r0.skipping = m) (he : r0.ending = e) (b : Bool) :
    ∀ (n k : Nat) (seen : List (Obs AttrValue)) (h : History AttrValue) (s : Client), Runs Z ⟨p, none⟩ h s → h.calm → s.parser.health = .running → tolerant s.parser →
      Sees v (readingFrom Z m e checks n (look s.parser)) seen s.parser.log (drive Z b everything n k seen s.parser) := by
  intro n
  induction n with
  | zero => intro k seen h s hr hn hrun ht; exact ⟨(congrArg Res.ok (List.append_nil seen).symm : _), rfl, rfl⟩
  | succ n ih =>
    intro k seen h s hr hn hrun ht
    obtain ⟨bytes, ending, cursor, position, seekable, limit⟩ := r0
    simp only at hpos hsz
    subst hpos
    obtain ⟨hi, hL⟩ := open_inv ⟨_, _, _, _, _, _, hp⟩ hsz
    have hst := Opens.state ⟨_, _, _, _, _, _, hp⟩
    have hpe := create_eq hp
    have hfr := hr.frame hL hi hn
    have hv : s.parser.version = v := hfr.1.trans (by rw [hpe])
    have hck : s.parser.checks = checks := hfr.2.trans (by rw [hpe])
    obtain ⟨hm1, he1⟩ := hr.source hL hi hn
    have hms : s.parser.reader.skipping = m := hm1.trans (by rw [hpe]; exact hm)
    have hes : s.parser.reader.ending = e := he1.trans (by rw [hpe]; exact he)
    have hkids := hr.kids hL hi hn hst.2.1 hrun
    obtain ⟨o, t, hc, hans⟩ := answers_nextFrom (Z := Z) (α := AttrValue) hL (hr.inv hL hi hn) hrun ht (fun n outer h => (hkids n outer h).1)
    rw [hck, hms, hes] at hans
    have hne := nextEvent_call hc
    have hcalm : ∀ {o' : Outcome AttrValue}, (∀ x, o' ≠ .panic x) → (h ++ [((.next : Call AttrValue), o')]).calm := by
      intro o' ho
      refine calm_append.mpr ⟨hn, ?_⟩
      intro c x hm
      simp only [List.mem_singleton, Prod.mk.injEq] at hm
      exact ho x hm.2.symm
    have hhd : ∀ {u : Client}, u.parser.handler = s.parser.handler → tolerant u.parser := fun hu f hf => ht f (hu ▸ hf)
    obtain ⟨⟨vd, w, bb⟩, hx⟩ : ∃ x, (look s.parser).nextFrom m e checks = x := ⟨_, rfl⟩
    rw [hx] at hans
    rw [drive, M.bind_apply]
    simp only [readingFrom]
    rw [hx]
    cases vd with
    | fails kd =>
      obtain ⟨rfl, h2, h3, h4⟩ := hans
      simp only at hne
      simp only [hne]
      exact ⟨rfl, h2⟩
    | overflows =>
      cases hans
      simp only at hne
      simp only [hne]
      exact rfl
    | finishes =>
      obtain ⟨rfl, h2, footer, rfl, h4⟩ := hans
      simp only at hne
      simp only [hne.1]
      refine ⟨footer, by simp, ?_⟩
      rw [hv] at h4
      exact h4
    | ends =>
      obtain ⟨rfl, h2, h3, h4⟩ := hans
      simp only at hne
      simp only [hne.1]
      have hd := call_did hL (hr.inv hL hi hn) hc
      have hr' := Runs.snoc hr hn hc
      have hn' := hcalm (o' := .event .endNode) (by simp)
      have hht : t.parser.handler = s.parser.handler := by
        cases hd with
        | event hrun he hi' ha => exact he.frame.2.2
      have := ih k (seen ++ [.end]) _ t hr' hn' h4 (hhd hht)
      rw [h3, h2] at this
      exact this.after
    | starts name c =>
      obtain ⟨rfl, h2, h3, h4⟩ := hans
      simp only at hne
      have hd := call_did hL (hr.inv hL hi hn) hc
      have hr' := Runs.snoc hr hn hc
      have hn' := hcalm (o' := .event (.startNode name c)) (by simp)
      have hht : t.parser.handler = s.parser.handler ∧ t.attrs = some ⟨c, c, t.parser.reader.position⟩ := by
        cases hd with
        | event hrun he hi' ha => exact ⟨he.frame.2.2, ha⟩
      obtain ⟨c1, c2⟩ := call_skipping hL (hr.inv hL hi hn) hc (by simp)
      obtain ⟨u, g1, g2, g3, g4, g5⟩ := session_loadsFrom (Z := Z) hL m e b c c t.parser.reader.position t (hr'.inv hL hi hn') hht.2 h4 (hhd hht.1)
        (c1.trans hms) (c2.trans hes)
      rw [h3, show t.parser.reader.position = bb.pos by rw [← h3]; rfl] at g1 g2 g3 g4
      simp only
      have hof : AP.ofParser t.parser = .ok ⟨t.parser, ⟨c, c, t.parser.reader.position⟩⟩ := by
        have h5 := hne.2
        rw [hht.2] at h5
        simp only [attrsOf] at h5
        unfold AP.ofParser at h5 ⊢
        split at h5
        · rename_i a ha
          split at ha
          · cases ha
          · cases ha
            cases h5
            rfl
        · cases h5
      simp only [hne.1, M.bind_apply, withAttrs, hof]
      have hlen1 := attributesFrom_short Z m e c c bb.pos bb
      have hlen2 := attributesFrom_length Z m e c c bb.pos bb
      generalize attributesFrom Z m e c c bb.pos bb = r at g1 g2 g3 g4 hlen1 hlen2 ⊢
      simp only [Attributes.outcomes] at g1
      cases he : r.error with
      | some x =>
        rw [he] at g1
        have hlt := (hlen1 x he).1
        obtain ⟨ap, k1, k2⟩ := loadEach_session b directLoader (c - (r.values.length + 1)) r.values t _ u [x] hht.2 (by simpa using g1) (by simp)
        simp only at k2
        rw [show r.values.length + 1 + (c - (r.values.length + 1)) = c by omega] at k2
        simp only [everything, k2]
        refine ⟨rfl, ?_⟩
        simp only [k1, g3, h2, List.append_assoc]
      | none =>
        rw [he] at g1 g4
        have k3 : u.parser.health = .running := g4
        have k4 := hlen2 he
        obtain ⟨ap, k1, k2⟩ := loadEach_session b directLoader 0 r.values t _ u [] hht.2 (by simpa using g1) (by simp)
        simp only [k4] at k2
        simp only [everything, k2]
        obtain ⟨hz, hr2, hn2⟩ : ∃ hz : History AttrValue, Runs Z t hz u ∧ hz.calm := by
          simp only [Option.toList, List.map_nil, List.append_nil] at g1
          refine ⟨_, session_runs g1 ?_, ?_⟩
          · intro x hm
            have := List.dropLast_subset _ hm
            simp at this
          · intro c x hm
            have := (List.of_mem_zip hm).2
            simp at this
        have := ih (k + 1) (seen ++ [.start name c (r.values.map some)]) _ u (hr'.trans hn' hr2) (calm_append.mpr ⟨hn', hn2⟩) k3 (hhd (g5.trans hht.1))
        rw [k1]
        rw [g2, g3, h2] at this
        refine Sees.after ?_
        rw [Part.obs, k4, List.append_assoc]
        exact this

end Fbx
