import Verif.Proof.EndMarkers
import Verif.Props.Low
import Verif.Props.ParseWritten

/-! # Properties of arbitrary client histories on arbitrary bytes

A history is any sequence of `next_event`, `load_next`, `load_next_buffered`, `skip_current_node` and
`set_warning_handler` calls, with any loaders and handlers, on any bytes (`Verif/Spec/History.lean`). -/

namespace Fbx
open Reader Parser Spec
variable {α : Type} {Z : Zlib}

deriving instance DecidableEq for Except
deriving instance DecidableEq for Event
deriving instance DecidableEq for Outcome

/-! ## Examples -/

/-- A parser on the given bytes. -/
def exParser (checks seekable : Bool) (v : FbxVersion) (bytes : Bytes) : Parser :=
  { version := v, health := .running, started := [], last := none, toplevel := 0,
    reader := ⟨bytes, none, headerLen, headerLen, seekable, 2 ^ 64⟩, handler := none, log := [], checks }

theorem exParser_create (checks seekable : Bool) (v : FbxVersion) (bytes : Bytes) (hv : ParserVersion.fromFbxVersion v = some .v7400) :
    Parser.create checks v ⟨bytes, none, headerLen, headerLen, seekable, 2 ^ 64⟩ = .ok (exParser checks seekable v bytes) := by
  simp [Parser.create, hv, exParser]

theorem exParser_opens (checks seekable : Bool) (v : FbxVersion) (bytes : Bytes) (hv : ParserVersion.fromFbxVersion v = some .v7400) :
    Opens (exParser checks seekable v bytes) bytes := ⟨_, _, _, _, _, _, exParser_create checks seekable v bytes hv⟩

/-- The bytes after the header of the file written for `exForest`: a node `A` with three attributes and a child `B`,
and a node `C` with one attribute. -/
def exBody : Bytes := (Writer.session Zlib.stored exSink 7400 (Spec.calls exForest) exFooter).2.buf.drop 27

theorem exBody_sized : Sized exBody := by
  have : exBody.length = 293 := by decide +kernel
  simp [Sized, this, headerLen]

/-- A client of that file. -/
def exClient : Client := ⟨exParser true true 7400 exBody, none⟩

/-- The history of some calls. -/
def Client.history (Z : Zlib) (s : Client) (cs : List (Call α)) : History α := match s.session Z cs with
  | some (os, _) => List.zip cs os
  | none => []

/-- The state after some calls. -/
def Client.after (Z : Zlib) (s : Client) (cs : List (Call α)) : Client := match s.session Z cs with
  | some (_, t) => t
  | none => s

def Outcome.isPanic : Outcome α → Bool
  | panic _ => true
  | _ => false

theorem calm_of_all {h : History α} (hh : h.all (fun x => !x.2.isPanic) = true) : h.calm := by
  intro c x hm
  have := List.all_eq_true.mp hh _ hm
  simp [Outcome.isPanic] at this

theorem clean_of_all {h : History α} (hh : h.all (fun x => !(x.1.reads && x.2.isErr)) = true) : h.clean := by
  intro x hm hr
  have := List.all_eq_true.mp hh _ hm
  simpa [hr] using this

/-- Sessions that panic at most in the last call are histories. -/
theorem runs_history (s : Client) (cs : List (Call α)) (h : (match s.session Z cs with | some (os, _) => os.dropLast.all (fun x => !x.isPanic) | none => false) = true) :
    Runs Z s (s.history Z cs) (s.after Z cs) := by
  cases hs : s.session Z cs with
  | none => rw [hs] at h; cases h
  | some x =>
    obtain ⟨os, u⟩ := x
    rw [hs] at h
    simp only [Client.history, Client.after, hs]
    refine session_runs hs (fun x hx => ?_)
    have := List.all_eq_true.mp h _ hx
    simp [Outcome.isPanic] at this

/-- Some calls on the example. -/
def exCalls : List (Call AttrValue) := [.next, .load false directLoader, .next, .skip, .next, .next, .load true directLoader,
  .load true directLoader, .next, .next]

/-- What they return. -/
example : ∃ f, (exClient.history Zlib.stored exCalls).map Prod.snd =
    [.event (.startNode "A" 3), .value (.i32 5), .event (.startNode "B" 0), .done, .event .endNode, .event (.startNode "C" 1),
      .value (.bool true), .noValue, .event .endNode, .event (.endFbx (.ok f))] := by
  refine ⟨⟨Writer.FooterSpec.field1 exFooter, 15, zeros 4, 7400, footerUnknown3⟩, ?_⟩
  decide +kernel

theorem exRuns : Runs Zlib.stored exClient (exClient.history Zlib.stored exCalls) (exClient.after Zlib.stored exCalls) :=
  runs_history _ _ (by decide +kernel)


theorem synPos_bytePos (q : Parser) : q.synPos.bytePos = q.reader.position := by unfold synPos; split <;> rfl
theorem synPos_attrIdx (q : Parser) : q.synPos.attrIdx = none := by unfold synPos; split <;> rfl
theorem synPos_path (q : Parser) : q.synPos.path = nodePath q.toplevel q.started := by
  unfold synPos
  split
  · rename_i h; rw [h]; rfl
  · rfl

theorem call_after (s : Client) (c : Call α) (o : Outcome α) (h : (s.call Z c).map Prod.fst = some o) : s.call Z c = some (o, s.after Z [c]) := by
  cases hc : s.call Z c with
  | none => rw [hc] at h; cases h
  | some x =>
    rw [hc] at h
    cases h
    simp only [Client.after, Client.session, hc]

theorem history_of (s : Client) (cs : List (Call α)) (os : List (Outcome α)) (h : (s.session Z cs).map Prod.fst = some os) :
    s.history Z cs = List.zip cs os := by
  cases hc : s.session Z cs with
  | none => rw [hc] at h; cases h
  | some x =>
    rw [hc] at h
    cases h
    simp only [Client.history, hc]

/-- Two nodes of which the inner one ends with a marker at the wrong place. -/
def exBad : Bytes :=
  leBytes 4 200 ++ leBytes 4 0 ++ leBytes 4 0 ++ [1, 65] ++ leBytes 4 100 ++ leBytes 4 0 ++ leBytes 4 0 ++ [1, 66] ++ zeros 13

theorem exBad_sized : Sized exBad := by simp [Sized, headerLen, exBad, leBytes, zeros]

/-- A client of it. -/
def exBadClient : Client := ⟨exParser true true 7400 exBad, none⟩

abbrev exBadCalls : List (Call Unit) := [.next, .next, .next, .next]

abbrev exBadHistory : History Unit := [(.next, .event (.startNode "A" 0)), (.next, .event (.startNode "B" 0)),
      (.next, .err ⟨.data (.nodeLengthMismatch 100 (some 68)), some ⟨68, 27, [(0, "A")], none⟩⟩),
      (.next, .err ⟨.op .alreadyAborted, some ⟨68, 27, [(0, "A")], none⟩⟩)]

theorem exBad_runs : Runs Zlib.stored exBadClient exBadHistory (exBadClient.after Zlib.stored exBadCalls) := by
  have := runs_history (Z := Zlib.stored) exBadClient exBadCalls (by decide +kernel)
  rw [history_of _ _ (exBadHistory.map Prod.snd) (by decide +kernel)] at this
  exact this

/-- No call of `skip_current_node`. -/
def Call.noSkip : Call α → Bool
  | .skip => false
  | _ => true

theorem noSkip_history (s : Client) (cs : List (Call α)) (h : cs.all Call.noSkip = true) : ∀ x ∈ s.history Z cs, x.1 ≠ .skip := by
  intro x hx hs
  unfold Client.history at hx
  split at hx
  · have := List.all_eq_true.mp h _ (List.of_mem_zip hx).1
    rw [hs] at this
    cases this
  · cases hx

/-! ## C24 No panics -/

/-- Every byte sequence, every history: if a call panics, then it is `skip_current_node` (see C29), or it is
`next_event` in a build with overflow checks on a file of version 7.5 or later, overflowing at the end of the
attributes. Loading attributes never panics. -/
theorem C24_no_panic {p : Parser} {bytes : Bytes} (hp : Opens p bytes) (hsz : Sized bytes) {h : History α} {s : Client}
    (hr : Runs Z ⟨p, none⟩ h s) {c : Call α} {x : Panic} (hx : (c, .panic x) ∈ h) :
    c = .skip ∨ (c = .next ∧ x = .attrEndOverflow ∧ p.checks = true ∧ ¬ p.version < 7500) := by
  obtain ⟨hi, hL⟩ := open_inv hp hsz
  obtain ⟨a, b, rfl⟩ := List.append_of_mem hx
  obtain ⟨t, t', h1, h2, h3, _, _⟩ := hr.at
  have hf := h1.frame hL hi h2
  generalize ho : Outcome.panic x = o at h3
  cases call_did hL (h1.inv hL hi h2) h3 with
  | nextPanic hx => cases ho; exact .inr ⟨rfl, hx.2.1, hf.2 ▸ hx.2.2.1, hf.1 ▸ hx.2.2.2⟩
  | skipPanic hx => exact .inl rfl
  | _ => cases ho

/-- In particular: without overflow checks no history without `skip_current_node` panics. -/
theorem C24_release {p : Parser} {bytes : Bytes} (hp : Opens p bytes) (hsz : Sized bytes) (hc : p.checks = false) {h : History α} {s : Client}
    (hr : Runs Z ⟨p, none⟩ h s) (hskip : ∀ x ∈ h, x.1 ≠ .skip) (c : Call α) (x : Panic) : (c, .panic x) ∉ h := by
  intro hx
  rcases C24_no_panic hp hsz hr hx with h1 | h1
  · exact hskip _ hx h1
  · rw [hc] at h1; cases h1.2.2.1

/-- Parsers made by `AnyParser` are parsers on the bytes after the header. -/
theorem C24_any_parser {checks seekable : Bool} {bytes : Bytes} {ending : Option IoErr} {cursor limit : Nat} {p : Parser}
    (hlen : bytes.length < 2 ^ 64) (h : anyParser checks seekable bytes ending cursor limit = .ok p) : Opens p (bytes.drop 27) ∧ p.checks = checks := by
  unfold anyParser at h
  cases hl : loadHeader ⟨bytes, ending, cursor, 0, seekable, limit⟩ with
  | mk x r =>
    rw [hl] at h
    cases x with
    | err e => cases h
    | panic x => cases h
    | ok v =>
      obtain ⟨a, b, c, d, tail, h1, h2, h3⟩ := (C01_header_ok_iff _ (by simpa using hlen) _ _).mp hl
      subst h3
      simp only [] at h1
      have ht : bytes.drop 27 = tail := by
        rw [h1]
        exact List.drop_left' (by rw [List.length_append, show signature.length = 23 by decide]; rfl)
      simp only [] at h
      split at h
      · cases h
      · split at h
        · rename_i q hq
          cases h
          rw [ht]
          refine ⟨⟨_, _, _, _, _, _, hq⟩, ?_⟩
          unfold Parser.create at hq
          split at hq
          · cases hq
          · cases hq; rfl
        · cases h

/-- A node header of version 7.5 whose attribute length overflows. -/
def exOverflow : Bytes := leBytes 8 100 ++ leBytes 8 1 ++ leBytes 8 (2 ^ 64 - 1) ++ [1, 65]

/-- The exception is real: with overflow checks this header makes `next_event` panic, and without it is accepted. -/
theorem C24_overflow_panic :
    Opens (exParser true true 7500 exOverflow) exOverflow ∧ Sized exOverflow ∧
    ((Client.mk (exParser true true 7500 exOverflow) none).call Zlib.stored (.next : Call Unit)).map Prod.fst = some (.panic .attrEndOverflow) ∧
    ((Client.mk (exParser false true 7500 exOverflow) none).call Zlib.stored (.next : Call Unit)).map Prod.fst = some (.event (.startNode "A" 1)) := by
  refine ⟨exParser_opens _ _ _ _ (by decide), by simp [Sized, exOverflow, headerLen], ?_, ?_⟩ <;> decide +kernel

example := C24_release (Z := Zlib.stored) (exParser_opens false true 7500 exOverflow (by decide)) (by simp [Sized, exOverflow, headerLen]) rfl
  (runs_history ⟨exParser false true 7500 exOverflow, none⟩ [.next, .load true directLoader, .next] (by decide +kernel)) (noSkip_history _ _ rfl)

/-! ## C25 Balanced events -/

/-- As long as no `next_event` or `load_next` has failed, `current_depth` is the number of nodes started, less the
number of nodes ended or skipped. -/
theorem C25_balanced {p : Parser} {bytes : Bytes} (hp : Opens p bytes) (hsz : Sized bytes) {h : History α} {s : Client}
    (hr : Runs Z ⟨p, none⟩ h s) (hn : h.calm) (hcl : h.clean) : s.parser.depth + h.ends + h.skips = h.starts := by
  obtain ⟨hi, hL⟩ := open_inv hp hsz
  have := (hr.depth hL hi hn).2 hcl
  simpa [Parser.depth, hp.state.2.1] using this

/-- In general it is that number, or, after a failure, at most one less. In particular at no time more nodes have been
ended than started. -/
theorem C25_depth {p : Parser} {bytes : Bytes} (hp : Opens p bytes) (hsz : Sized bytes) {h : History α} {s : Client}
    (hr : Runs Z ⟨p, none⟩ h s) (hn : h.calm) : s.parser.depth + h.ends + h.skips ≤ h.starts ∧ h.starts ≤ s.parser.depth + h.ends + h.skips + 1 := by
  obtain ⟨hi, hL⟩ := open_inv hp hsz
  have h1 := (hr.depth hL hi hn).1
  have h2 := hr.depth_ge hL hi hn
  simp only [Parser.depth, hp.state.2.1, List.length_nil, Nat.zero_add] at h1 h2
  exact ⟨h1, h2⟩

/-- When the end of the document is reported, every node has been ended or skipped, nothing has failed and the end
has not been reported before; no event follows. -/
theorem C25_end_of_file {p : Parser} {bytes : Bytes} (hp : Opens p bytes) (hsz : Sized bytes) {a b : History α} {s : Client} {c : Call α}
    {f : Except PErr Footer} (hr : Runs Z ⟨p, none⟩ (a ++ (c, .event (.endFbx f)) :: b) s) (hn : b.calm) :
    a.starts = a.ends + a.skips ∧ a.clean ∧ (∀ x ∈ a, x.2.isEndFbx = false) ∧ ∀ x ∈ b, x.2.isEvent = false := by
  obtain ⟨hi, hL⟩ := open_inv hp hsz
  obtain ⟨t, t', h1, h2, h3, h4, _⟩ := hr.at
  have ht := h1.inv hL hi h2
  have hd := call_did hL ht h3
  have ht' := hd.inv ht (fun x hx => by cases hx)
  cases hd with
  | event hrun he hi' ha =>
    obtain ⟨_, g1, g2⟩ := h1.running hL hi h2 hrun
    obtain ⟨k1, k2, _, _, _, k3⟩ := he.finished
    have hd := (h1.depth hL hi h2).2 g1
    simp [Parser.depth, hp.state.2.1, k1] at hd
    refine ⟨by omega, g1, g2, fun x hx => ?_⟩
    obtain ⟨c, o⟩ := x
    cases hc : c.reads with
    | true =>
      obtain ⟨e, rfl, _⟩ := h4.stuck hL ht' (by rw [k3]; simp) c o hx hc
      rfl
    | false =>
      obtain ⟨b1, b2, rfl⟩ := List.append_of_mem hx
      obtain ⟨u, u', j1, j2, j3, _, _⟩ := h4.at
      cases call_did hL (j1.inv hL ht' j2) j3 <;> first | rfl | cases hc

/-- `1 + 1` nodes are open, but after the failing call (a wrong end marker) the depth is 1: the equality in
`C25_balanced` needs its hypothesis. -/
theorem C25_depth_after_failure : ∃ (p : Parser) (bytes : Bytes) (h : History Unit) (s : Client), Opens p bytes ∧ Sized bytes ∧
    Runs Zlib.stored ⟨p, none⟩ h s ∧ h.calm ∧ h.starts = 2 ∧ h.ends = 0 ∧ h.skips = 0 ∧ s.parser.depth = 1 := by
  refine ⟨exParser true true 7400 exBad, exBad, _, _, exParser_opens _ _ _ _ (by decide), exBad_sized,
    runs_history _ [.next, .next, .next] (by decide +kernel), calm_of_all (by decide +kernel), ?_⟩
  decide +kernel

example := C25_balanced (exParser_opens true true 7400 exBody (by decide)) exBody_sized exRuns
  (calm_of_all (by decide +kernel)) (clean_of_all (by decide +kernel))

/-! ## C26 Failure and completion -/

/-- After the first failure of a `next_event` or `load_next`, all later ones fail with `AlreadyAborted` and the position
of that first failure. If only such calls follow, the parser does not change any more (so nothing is read). -/
theorem C26_failure_is_sticky {p : Parser} {bytes : Bytes} (hp : Opens p bytes) (hsz : Sized bytes) {a b : History α} {s : Client} {c : Call α}
    {e : PErr} (hr : Runs Z ⟨p, none⟩ (a ++ (c, .err e) :: b) s) (hc : c.reads = true) (ha : a.clean) (hf : ∀ x ∈ a, x.2.isEndFbx = false) :
    ∃ pos, e.pos = some pos ∧ (∀ c' o, (c', o) ∈ b → c'.reads = true → o = .err ⟨.op .alreadyAborted, some pos⟩) ∧
      ∃ t, Runs Z ⟨p, none⟩ (a ++ [(c, .err e)]) t ∧ ((∀ x ∈ b, x.1.reads = true) → s.parser = t.parser) := by
  obtain ⟨hi, hL⟩ := open_inv hp hsz
  obtain ⟨t, t', h1, h2, h3, h4, _⟩ := hr.at
  have ht := h1.inv hL hi h2
  have hd := call_did hL ht h3
  have ht' := hd.inv ht (fun x hx => by cases hx)
  have hrun := h1.still hL hi hp.state.1 h2 ha hf
  have key : ∃ pos, e.pos = some pos ∧ t'.parser.health = .aborted pos := by
    cases hd with
    | nextRefused hp hr ha => rcases hr with ⟨h, _⟩ | ⟨pos, h, _⟩ <;> rw [hrun] at h <;> cases h
    | nextFailed hrun hf hi hp he ha => exact ⟨_, he, by rw [hp]; rfl⟩
    | loadRefused ha ht hr => rcases hr with ⟨h, _⟩ | ⟨pos, h, _⟩ <;> rw [hrun] at h <;> cases h
    | loadFailed ha hp hrun hr hpos ht he => exact ⟨_, he, by rw [ht]; rfl⟩
    | skipFailed hst hm hi hge ht => cases hc
  obtain ⟨pos, k1, k2⟩ := key
  have hne : t'.parser.health ≠ .running := by rw [k2]; simp
  refine ⟨pos, k1, fun c' o hm hc' => ?_, t', h1.snoc h2 h3, fun hall => h4.stuck_state hL ht' hne hall⟩
  obtain ⟨e', rfl, hr⟩ := h4.stuck hL ht' hne c' o hm hc'
  rcases hr with ⟨h, _⟩ | ⟨pos', h, h'⟩
  · rw [k2] at h; cases h
  · rw [k2] at h; cases h; rw [h']

example := C26_failure_is_sticky (exParser_opens true true 7400 exBad (by decide)) exBad_sized
  (a := [(.next, .event (.startNode "A" 0)), (.next, .event (.startNode "B" 0))]) (b := [(.next, _)]) (c := .next) exBad_runs rfl
  (clean_of_all (by decide +kernel)) (by simp [Outcome.isEndFbx])

/-- After the end of the document all `next_event` and `load_next` calls fail with `AlreadyFinished`. -/
theorem C26_end_is_sticky {p : Parser} {bytes : Bytes} (hp : Opens p bytes) (hsz : Sized bytes) {a b : History α} {s : Client} {c : Call α}
    {f : Except PErr Footer} (hr : Runs Z ⟨p, none⟩ (a ++ (c, .event (.endFbx f)) :: b) s) :
    (∀ c' o, (c', o) ∈ b → c'.reads = true → o = .err ⟨.op .alreadyFinished, none⟩) ∧
      ∃ t, Runs Z ⟨p, none⟩ (a ++ [(c, .event (.endFbx f))]) t ∧ ((∀ x ∈ b, x.1.reads = true) → s.parser = t.parser) := by
  obtain ⟨hi, hL⟩ := open_inv hp hsz
  obtain ⟨t, t', h1, h2, h3, h4, _⟩ := hr.at
  have ht := h1.inv hL hi h2
  have hd := call_did hL ht h3
  have ht' := hd.inv ht (fun x hx => by cases hx)
  have k2 : t'.parser.health = .finished := by
    cases hd with
    | event hrun he hi' ha => exact he.finished.2.2.2.2.2
  have hne : t'.parser.health ≠ .running := by rw [k2]; simp
  refine ⟨fun c' o hm hc' => ?_, t', h1.snoc h2 h3, fun hall => h4.stuck_state hL ht' hne hall⟩
  obtain ⟨e', rfl, hr⟩ := h4.stuck hL ht' hne c' o hm hc'
  rcases hr with ⟨h, h'⟩ | ⟨pos', h, h'⟩
  · rw [h']; rfl
  · rw [k2] at h; cases h

/-- An empty document. -/
theorem exEmpty_runs : ∃ f, Runs Zlib.stored ⟨exParser true true 7400 (zeros 13), none⟩
    ([(.next, .event (.endFbx f)), (.next, .err ⟨.op .alreadyFinished, none⟩)] : History Unit)
    (Client.after Zlib.stored ⟨exParser true true 7400 (zeros 13), none⟩ ([.next, .next] : List (Call Unit))) := by
  refine ⟨.error (PErr.ofIo .unexpectedEof), ?_⟩
  have := runs_history (Z := Zlib.stored) ⟨exParser true true 7400 (zeros 13), none⟩ ([.next, .next] : List (Call Unit)) (by decide +kernel)
  rw [history_of _ _ [.event (.endFbx (.error (PErr.ofIo .unexpectedEof))), .err ⟨.op .alreadyFinished, none⟩] (by decide +kernel)] at this
  exact this

example : True := by
  obtain ⟨f, h⟩ := exEmpty_runs
  have := C26_end_is_sticky (exParser_opens true true 7400 (zeros 13) (by decide)) (by simp [Sized, headerLen]) (a := []) h
  have := C25_end_of_file (exParser_opens true true 7400 (zeros 13) (by decide)) (by simp [Sized, headerLen]) (a := []) h (calm_of_all (by decide))
  trivial

/-! ## C27 Termination -/

/-- The number of events is bounded by the number of bytes: a node takes at least 13 bytes (25 from version 7.5 on). -/
theorem C27_terminates {p : Parser} {bytes : Bytes} (hp : Opens p bytes) (hsz : Sized bytes) {h : History α} {s : Client}
    (hr : Runs Z ⟨p, none⟩ h s) (hn : h.calm) : h.events ≤ 2 * (bytes.length / (if p.version < 7500 then 13 else 25)) + 1 := by
  obtain ⟨hi, hL⟩ := open_inv hp hsz
  have h1 := hr.bytes hL hi hn
  have h2 := (hr.events_le hL hi hn).1
  have h3 := (C25_depth hp hsz hr hn).1
  have h4 : h.starts ≤ bytes.length / (if p.version < 7500 then 13 else 25) := by
    rw [Nat.le_div_iff_mul_le (by split <;> omega)]
    simp only [hp.state.2.2.2.2.2.2.1] at h1
    have : (if p.version < 7500 then 13 else 25) = 3 * headWidth p.version + 1 := by unfold headWidth; split <;> rfl
    rw [this, Nat.mul_comm]
    omega
  omega

/-- The example: 6 events, at most 45. -/
example := C27_terminates (exParser_opens true true 7400 exBody (by decide)) exBody_sized exRuns (calm_of_all (by decide +kernel))
example : (exClient.history Zlib.stored exCalls).events = 6 := by decide +kernel

/-! ## C31 Positions -/

/-- On a seekable source the state of the source is that after consuming some number of bytes from the start, and the
position the parser reports is 27 plus that number. -/
theorem C31_position {checks : Bool} {v : FbxVersion} {bytes : Bytes} {ending : Option IoErr} {cursor limit : Nat} {p : Parser}
    (hp : Parser.create checks v ⟨bytes, ending, cursor, headerLen, true, limit⟩ = .ok p) (hsz : Sized bytes) {h : History α} {s : Client}
    (hr : Runs Z ⟨p, none⟩ h s) (hn : h.calm) :
    ∃ k, s.parser.reader = ⟨bytes.drop k, ending, cursor + k, 27 + k, true, limit⟩ := by
  obtain ⟨hi, hL⟩ := open_inv ⟨_, _, _, _, _, _, hp⟩ hsz
  have hm := hr.moves hL hi hn
  have : p.reader = ⟨bytes, ending, cursor, headerLen, true, limit⟩ := by
    unfold Parser.create at hp
    split at hp
    · cases hp
    · cases hp; rfl
  rw [show (Client.mk p none).parser.reader = p.reader from rfl, this] at hm
  obtain ⟨k, hk⟩ := hm.seekable rfl
  exact ⟨k, hk⟩

example := C31_position (exParser_create true true 7400 exBody (by decide)) exBody_sized exRuns (calm_of_all (by decide +kernel))

/-- Here all 293 bytes have been consumed. -/
example : (exClient.after Zlib.stored exCalls).parser.reader.position = 27 + 293 := by decide +kernel

/-- Positions never decrease (on seekable and plain sources). -/
theorem C31_monotone {p : Parser} {bytes : Bytes} (hp : Opens p bytes) (hsz : Sized bytes) {a b : History α} {s t : Client}
    (h1 : Runs Z ⟨p, none⟩ a s) (ha : a.calm) (h2 : Runs Z s b t) (hb : b.calm) :
    s.parser.reader.position ≤ t.parser.reader.position := by
  obtain ⟨hi, hL⟩ := open_inv hp hsz
  exact (h2.moves hL (h1.inv hL hi ha) hb).pos_le

/-! ## C35 Attribute counting -/

/-- After a node start with `n` attributes and any loads: `total_count` is `n`; at most `n` values have been returned,
and, unless a load has failed, `rest_count` is `n` less their number. If `rest_count` is 0 (and the parser is still
running), `load_next` returns `None` and nothing changes. `n` is the number declared in a node header in the file,
which is followed by the node's name. -/
theorem C35_counts {p : Parser} {bytes : Bytes} (hp : Opens p bytes) (hsz : Sized bytes) {a b : History α} {s s1 t : Client} {name : String} {n : Nat}
    (h1 : Runs Z ⟨p, none⟩ a s) (ha : a.calm) (h2 : s.call Z (.next : Call α) = some (.event (.startNode name n), s1))
    (h3 : Runs Z s1 b t) (hb : b.calm) (hl : ∀ x ∈ b, x.1.isLoad = true) :
    (∃ at_, t.attrs = some at_ ∧ at_.total = n ∧ at_.rest + b.values ≤ n ∧ (b.clean → at_.rest + b.values = n) ∧
      (at_.rest = 0 → t.parser.health = .running → ∀ buffered (l : Loader α), t.call Z (.load buffered l) = some (.noValue, t))) ∧
    ∃ k, let w := headWidth p.version; let hd := headerAt w (bytes.drop k)
      hd.numAttrs = n ∧ stringOfUtf8 ((bytes.drop (k + (3 * w + 1))).take hd.nameLen) = some name ∧ k + (3 * w + 1) + hd.nameLen ≤ bytes.length := by
  obtain ⟨hi, hL⟩ := open_inv hp hsz
  have hsi := h1.inv hL hi ha
  have hd := call_did hL hsi h2
  have hs1 := hd.inv hsi (fun x hx => by cases hx)
  have hfr := h1.frame hL hi ha
  have hmv := h1.moves hL hi ha
  cases hd with
  | event hrun he hi' hat =>
    simp only [readerOf] at hat
    obtain ⟨at_, j1, j2, j3, j4⟩ := h3.loads hL hs1 hb hl hat
    refine ⟨⟨at_, j1, j2, j3, j4, fun h0 hrun' buffered l => ?_⟩, ?_⟩
    · have hle := ((h3.inv hL hs1 hb).attrs at_ j1).1
      have e1 : AP.load Z buffered l ⟨t.parser, at_⟩ = (.ok none, ⟨t.parser, at_⟩) := by
        have e2 : AP.par Parser.ensureContinuable ⟨t.parser, at_⟩ = (.ok (), ⟨t.parser, at_⟩) := by
          simp only [AP.par, M.zoom_apply, Parser.ensureContinuable, hrun']
        rw [AP.load, AP.withHealthCheck]
        refine (M.bind_val e2 _).trans ?_
        rw [M.get_bind]
        have e4 : (M.assert (decide (at_.rest ≤ at_.total)) .attrIndexUnderflow : M PErr AP Unit) ⟨t.parser, at_⟩ = (.ok (), ⟨t.parser, at_⟩) := by
          simp [M.assert, hle]; rfl
        refine (M.bind_val e4 _).trans ?_
        have e3 : AP.readNextType ⟨t.parser, at_⟩ = (.ok none, ⟨t.parser, at_⟩) := by
          rw [AP.readNextType, M.get_bind, if_pos h0]
          rfl
        simp only [AP.loadBody]
        rw [M.bind_val e3]
        rfl
      simp only [Client.call, j1, e1]
      rw [← j1]
    · obtain ⟨r, hd, ae, ou, tl, m1, m2, m3, m4, m5, m6, m7, _⟩ := he.started
      obtain ⟨k, j, hadv⟩ := hmv.trans m1
      have hr : r.rest = bytes.drop j := by rw [hadv.rest]; exact congrArg (List.drop j) hp.state.2.2.2.2.2.2.1
      rw [hfr.1, hr] at m3 m6 m7
      refine ⟨j, ?_⟩
      simp only [m3]
      refine ⟨m5, ?_, ?_⟩
      · rw [List.drop_drop] at m7; exact m7
      · rw [List.length_drop] at m6
        have := (headWidth_le p.version).2
        simp only [] at m6
        omega

/-- Two of the three attributes of the first node of the example are loaded. -/
example := C35_counts (Z := Zlib.stored) (exParser_opens true true 7400 exBody (by decide)) exBody_sized (a := []) .nil (calm_of_all rfl)
  (call_after exClient .next (.event (.startNode "A" 3)) (by decide +kernel))
  (runs_history (Client.after Zlib.stored exClient ([.next] : List (Call AttrValue))) [.load false directLoader, .load true directLoader] (by decide +kernel))
  (calm_of_all (by decide +kernel)) (by
    rw [history_of _ _ [.value (.i32 5), .value (.string "xy")] (by decide +kernel)]
    simp [Call.isLoad])

/-! ## C39 Node lengths -/

/-- Whenever `EndNode` is reported on a seekable source: the position is the end offset declared in the header of the
node that is closed. That header is the one read by the `next_event` call that started the node: it starts `k` bytes
after the file header, and the node's name ends where that call left the source. -/
theorem C39_end_offset {checks : Bool} {v : FbxVersion} {bytes : Bytes} {ending : Option IoErr} {cursor limit : Nat} {p : Parser}
    (hp : Parser.create checks v ⟨bytes, ending, cursor, headerLen, true, limit⟩ = .ok p) (hsz : Sized bytes)
    {a b : History α} {s s1 t u : Client} {name : String} {n : Nat}
    (h1 : Runs Z ⟨p, none⟩ a s) (ha : a.calm) (h2 : s.call Z (.next : Call α) = some (.event (.startNode name n), s1))
    (h3 : Runs Z s1 b t) (hb : b.calm) (hcl : b.clean) (hin : b.inner) (hbal : b.starts = b.ends + b.skips)
    (h4 : t.call Z (.next : Call α) = some (.event .endNode, u)) :
    ∃ k, let w := headWidth v; let hd := headerAt w (bytes.drop k)
      s.parser.reader.position ≤ 27 + k ∧ s1.parser.reader.position = 27 + k + (3 * w + 1) + hd.nameLen ∧
      stringOfUtf8 ((bytes.drop (k + (3 * w + 1))).take hd.nameLen) = some name ∧ hd.numAttrs = n ∧
      u.parser.reader.position = hd.endOffset := by
  obtain ⟨hi, hL⟩ := open_inv ⟨_, _, _, _, _, _, hp⟩ hsz
  have hsi := h1.inv hL hi ha
  have hd := call_did hL hsi h2
  have hs1 := hd.inv hsi (fun x hx => by cases hx)
  have hfr := h1.frame hL hi ha
  obtain ⟨k, hk⟩ := C31_position hp hsz h1 ha
  have hv : p.version = v := by
    unfold Parser.create at hp
    split at hp
    · cases hp
    · cases hp; rfl
  cases hd with
  | event hrun he hi' hat =>
    obtain ⟨r, hd, ae, ou, tl, m1, m2, m3, m4, m5, m6, m7, m8, m9, _⟩ := he.started
    obtain ⟨j, hj⟩ := m1.seekable (by rw [hk])
    obtain ⟨e1, e2, _⟩ := h3.closes hL hs1 m9 hb hcl hin hbal h4
    rw [hk] at hj
    subst hj
    rw [hfr.1] at m3 m6 m7 m8
    simp only [Reader.consume, List.drop_drop] at m3 m6 m7 m8
    refine ⟨k + j, ?_⟩
    rw [hv] at m3 m6 m7 m8
    simp only [m3]
    refine ⟨by rw [hk]; simp only []; omega, by rw [m8]; simp only []; omega, m7, m5, e2⟩

/-- The first node of the example, with its child skipped. -/
example := C39_end_offset (Z := Zlib.stored) (exParser_create true true 7400 exBody (by decide)) exBody_sized (a := []) .nil (calm_of_all rfl)
  (call_after exClient .next (.event (.startNode "A" 3)) (by decide +kernel))
  (runs_history (Client.after Zlib.stored exClient ([.next] : List (Call AttrValue))) [.load false directLoader, .next, .next] (by decide +kernel))
  (calm_of_all (by decide +kernel)) (clean_of_all (by decide +kernel)) (by
    rw [history_of _ _ [.value (.i32 5), .event (.startNode "B" 0), .event .endNode] (by decide +kernel)]
    intro a b h
    match a, h with
    | [], _ => exact Nat.le_refl _
    | [_], h => simp at h; obtain ⟨rfl, _⟩ := h; decide
    | [_, _], h => simp at h; obtain ⟨rfl, rfl, _⟩ := h; decide
    | [_, _, _], h => simp at h; obtain ⟨rfl, rfl, rfl, _⟩ := h; decide
    | _ :: _ :: _ :: _ :: _, h => simp at h) (by decide +kernel)
  (call_after _ .next (.event .endNode) (by decide +kernel))

/-- The other end markers are rejected: an explicit end marker at an offset that is not the declared end. (`q` is the
parser after skipping the unread attributes.) -/
theorem C39_marker_elsewhere {p q : Parser} {bytes : Bytes} {h : History α} {c : Client} (hp : Opens p bytes) (hsz : Sized bytes)
    (hr : Runs Z ⟨p, none⟩ h c) (hn : h.calm) (hrun : c.parser.health = .running) {n : Started} {outer : List Started} (hst : c.parser.started = n :: outer)
    (hq : skipUnreadAttributes c.parser = (.ok (), q)) {rest : Bytes} (hz : q.reader.rest = zeros (3 * headWidth p.version + 1) ++ rest)
    (hlt : q.reader.position < n.endOff) (hne : q.reader.position + (3 * headWidth p.version + 1) ≠ n.endOff) :
    ∃ pos d, c.call Z (.next : Call α) =
      some (.err ⟨.data (.nodeLengthMismatch n.endOff (some (q.reader.position + (3 * headWidth p.version + 1)))), some pos⟩, d) := by
  obtain ⟨hi, hL⟩ := open_inv hp hsz
  have hs := hr.inv hL hi hn
  have hv : c.parser.version = p.version := (hr.frame hL hi hn).1
  rw [← hv] at hz hne ⊢
  obtain ⟨q', h1⟩ := impl_marker hL hs.parser hrun (fun h => hs.last h hrun) hst hq hz hlt hne
  exact ⟨_, _, next_of_impl hL hs hrun h1⟩

example := C39_marker_elsewhere (Z := Zlib.stored) (q := (skipUnreadAttributes (exBadClient.after Zlib.stored ([.next, .next] : List (Call Unit))).parser).2)
  (exParser_opens true true 7400 exBad (by decide)) exBad_sized
  (runs_history exBadClient ([.next, .next] : List (Call Unit)) (by decide +kernel)) (calm_of_all (by decide +kernel)) (by decide +kernel)
  (n := ⟨41, 100, 0, 55, "B", 0⟩) (outer := [⟨27, 200, 0, 41, "A", 1⟩]) (by decide +kernel) (Prod.ext (by decide +kernel) rfl) (rest := []) (by decide +kernel)
  (by decide +kernel) (by decide +kernel)

/-- Reading beyond the declared end (or a declared end before the end of the attributes). -/
theorem C39_overrun {p q : Parser} {bytes : Bytes} {h : History α} {c : Client} (hp : Opens p bytes) (hsz : Sized bytes)
    (hr : Runs Z ⟨p, none⟩ h c) (hn : h.calm) (hrun : c.parser.health = .running) {n : Started} {outer : List Started} (hst : c.parser.started = n :: outer)
    (hq : skipUnreadAttributes c.parser = (.ok (), q)) (hlt : n.endOff < q.reader.position) :
    ∃ pos d, c.call Z (.next : Call α) = some (.err ⟨.data (.nodeLengthMismatch n.endOff none), some pos⟩, d) := by
  obtain ⟨hi, hL⟩ := open_inv hp hsz
  have hs := hr.inv hL hi hn
  exact ⟨_, _, next_of_impl hL hs hrun (impl_overrun hs.parser hrun (fun h => hs.last h hrun) hst hq hlt)⟩

/-- A node whose declared end lies before the end of its name. -/
example := C39_overrun (Z := Zlib.stored) (q := (skipUnreadAttributes ((Client.mk (exParser true true 7400 (leBytes 4 30 ++ zeros 8 ++ [1, 65])) none).after Zlib.stored ([.next] : List (Call Unit))).parser).2)
  (exParser_opens true true 7400 (leBytes 4 30 ++ zeros 8 ++ [1, 65]) (by decide)) (by simp [Sized, headerLen])
  (runs_history ⟨exParser true true 7400 (leBytes 4 30 ++ zeros 8 ++ [1, 65]), none⟩ ([.next] : List (Call Unit)) (by decide +kernel)) (calm_of_all (by decide +kernel)) (by decide +kernel)
  (n := ⟨27, 30, 0, 41, "A", 0⟩) (outer := []) (by decide +kernel) (Prod.ext (by decide +kernel) rfl) (by decide +kernel)

/-! ## C49 Positions of errors -/

/-- An error of `next_event` carries the byte position reached, no attribute index and the path of the nodes that are
open after the call (index among the siblings and name of each, from the outermost on). -/
theorem C49_event_errors {p : Parser} {bytes : Bytes} (hp : Opens p bytes) (hsz : Sized bytes) {a : History α} {t : Client} {e : PErr}
    (hr : Runs Z ⟨p, none⟩ (a ++ [(.next, .err e)]) t) (ha : a.clean) (hf : ∀ x ∈ a, x.2.isEndFbx = false) :
    ∃ pos, e.pos = some pos ∧ pos.bytePos = t.parser.reader.position ∧ pos.attrIdx = none ∧ pos.path = a.path.take t.parser.depth ∧
      a.path.length ≤ t.parser.depth + 1 := by
  obtain ⟨hi, hL⟩ := open_inv hp hsz
  obtain ⟨s, s', h1, h2, h3, h4, _⟩ := hr.at
  have hs' : s' = t := by
    generalize hb : ([] : History α) = b at h4
    cases h4 with
    | nil => rfl
    | snoc => simp at hb
  subst hs'
  have hs := h1.inv hL hi h2
  have hrun := h1.still hL hi hp.state.1 h2 ha hf
  obtain ⟨p1, p2⟩ := h1.paths hL hi ⟨hp.state.2.1, hp.state.2.2.1⟩ h2 ha
  have p3 := p2.path
  have p4 := p2.length
  cases call_did hL hs h3 with
  | nextRefused hp hr ha => rcases hr with ⟨h, _⟩ | ⟨pos, h, _⟩ <;> rw [hrun] at h <;> cases h
  | @nextFailed _ q hrun hfail hi hp he hat =>
    refine ⟨_, he, ?_, ?_, ?_⟩
    · rw [hp]; exact synPos_bytePos q
    · exact synPos_attrIdx q
    · rw [synPos_path, hp]
      show nodePath q.toplevel q.started = a.path.take q.started.length ∧ a.path.length ≤ q.started.length + 1
      rcases hfail with hq | ⟨p', n, outer, hq, hst, hq'⟩
      · rw [hq.toplevel, hq.started, p3]
        refine ⟨?_, ?_⟩
        · rw [← p4, List.take_of_length_le (by simp [History.path])]; rfl
        · simp [History.path, p4]
      · subst hq'
        rw [hst] at p2 p4
        cases hon : a.openNodes.1 with
        | nil => rw [hon] at p4; simp at p4
        | cons x xs =>
          rw [hon] at p2 p4
          obtain ⟨nm, i, k⟩ := x
          have h5 := p2.2.2.2.path
          simp only [List.length_cons, Nat.add_right_cancel_iff] at p4
          show nodePath p'.toplevel outer = _ ∧ _ ≤ outer.length + 1
          rw [hq.toplevel, h5]
          simp only [History.path, hon, List.map_cons, List.reverse_cons, ← p4]
          refine ⟨?_, by simp⟩
          rw [List.take_append_of_le_length (by simp), List.take_of_length_le (by simp)]

example := C49_event_errors (exParser_opens true true 7400 exBad (by decide)) exBad_sized
  (a := [(.next, .event (.startNode "A" 0)), (.next, .event (.startNode "B" 0))])
  (t := exBadClient.after Zlib.stored ([.next, .next, .next] : List (Call Unit))) (by
    have := runs_history (Z := Zlib.stored) exBadClient ([.next, .next, .next] : List (Call Unit)) (by decide +kernel)
    rw [history_of _ _ [.event (.startNode "A" 0), .event (.startNode "B" 0),
      .err ⟨.data (.nodeLengthMismatch 100 (some 68)), some ⟨68, 27, [(0, "A")], none⟩⟩] (by decide +kernel)] at this
    exact this) (clean_of_all (by decide +kernel)) (by simp [Outcome.isEndFbx])

/-- An error of `load_next` carries the byte position reached, the path of the open nodes, the index of the attribute
and the offset at which the attribute starts: for the first attribute the offset right after the node's name. -/
theorem C49_load_errors {p : Parser} {bytes : Bytes} (hp : Opens p bytes) (hsz : Sized bytes) {a b : History α} {s s1 t u : Client} {name : String} {n : Nat}
    (h1 : Runs Z ⟨p, none⟩ a s) (ha : a.calm) (h2 : s.call Z (.next : Call α) = some (.event (.startNode name n), s1))
    (h3 : Runs Z s1 b t) (hb : b.calm) (hcl : b.clean) (hl : ∀ x ∈ b, x.1.isLoad = true) {buffered : Bool} {l : Loader α} {e : PErr}
    (h4 : t.call Z (.load buffered l) = some (.err e, u)) :
    ∃ pos, e.pos = some pos ∧ pos.bytePos = u.parser.reader.position ∧ pos.attrIdx = some b.values ∧
      pos.path = (a ++ (.next, .event (.startNode name n)) :: b).path ∧ t.attrs.map Attrs.next = some pos.compPos ∧
      (b = [] → pos.compPos = s1.parser.reader.position) := by
  obtain ⟨hi, hL⟩ := open_inv hp hsz
  have hsi := h1.inv hL hi ha
  have hd := call_did hL hsi h2
  have hs1 := hd.inv hsi (fun x hx => by cases hx)
  have hti := h3.inv hL hs1 hb
  cases hd with
  | event hrun he hi' hat =>
    obtain ⟨_, hac, haf⟩ := h1.running hL hi ha hrun
    simp only [readerOf] at hat
    obtain ⟨at_, j1, j2, j3, j4⟩ := h3.loads hL hs1 hb hl hat
    have hj := j4 hcl
    have hrun1 : s1.parser.health = .running := by have := he.health; simpa [hrun] using this
    have hbf : ∀ x ∈ b, x.2.isEndFbx = false := by
      intro x hx
      obtain ⟨c, o⟩ := x
      have hlc := hl _ hx
      obtain ⟨b1, b2, rfl⟩ := List.append_of_mem hx
      obtain ⟨w, w', k1, k2, k3, _, _⟩ := h3.at
      cases call_did hL (k1.inv hL hs1 k2) k3 <;> first | rfl | cases hlc
    have hrunt := h3.still hL hs1 hrun1 hb hcl hbf
    have hall : Runs Z ⟨p, none⟩ (a ++ (.next, .event (.startNode name n)) :: b) t := by
      have := (h1.snoc ha h2).trans ?_ h3
      · simpa using this
      · exact calm_append.mpr ⟨ha, by simp [History.calm]⟩
    obtain ⟨p1, p2⟩ := hall.paths hL hi ⟨hp.state.2.1, hp.state.2.2.1⟩
      (calm_append.mpr ⟨ha, by intro c x hm; rcases List.mem_cons.mp hm with hm | hm; · cases hm
                               · exact hb c x hm⟩)
      (by
        intro x hx hr
        rcases List.mem_append.mp hx with hx | hx
        · exact hac x hx hr
        · rcases List.mem_cons.mp hx with rfl | hx
          · rfl
          · exact hcl x hx hr)
    have p3 := p2.path
    cases call_did hL hti h4 with
    | loadRefused ha ht hr => rcases hr with ⟨h, _⟩ | ⟨pos, h, _⟩ <;> rw [hrunt] at h <;> cases h
    | @loadFailed _ _ _ A C pos hA hP hrun' hr' hpos hu hee =>
      have hq := reads_quiet hr'
      rw [j1] at hA
      injection hA with hA
      refine ⟨pos, hee, ?_, ?_, ?_, ?_, ?_⟩
      · rw [hpos, hu]; exact synPos_bytePos _
      · rw [hpos, ← hA]; have j2' : at_.total = n := j2; have hj' : at_.rest + b.values = n := hj; show some (at_.total - at_.rest) = some b.values; congr 1; omega
      · rw [hpos]
        show C.parser.synPos.path = _
        rw [synPos_path, hq.started, hq.toplevel, ← hP, p3]
        rfl
      · rw [j1, hpos, hA]; rfl
      · intro hb0
        subst hb0
        have : s1 = t := by
          generalize hb : ([] : History α) = b at h3
          cases h3 with
          | nil => rfl
          | snoc => simp at hb
        subst this
        rw [hat] at j1
        injection j1 with j1
        rw [hpos, ← hA, ← j1]

/-- The second attribute of the first node of the example is not a boolean. -/
example := C49_load_errors (Z := Zlib.stored) (exParser_opens true true 7400 exBody (by decide)) exBody_sized (a := []) .nil (calm_of_all rfl)
  (call_after exClient .next (.event (.startNode "A" 3)) (by decide +kernel))
  (runs_history (Client.after Zlib.stored exClient ([.next] : List (Call AttrValue))) [.load false directLoader] (by decide +kernel))
  (calm_of_all (by decide +kernel)) (clean_of_all (by decide +kernel)) (by
    rw [history_of _ _ [.value (.i32 5)] (by decide +kernel)]
    simp [Call.isLoad])
  (call_after _ (.load true (Loader.default "nothing"))
    (.err ⟨.data (.unexpectedAttribute "nothing" "string data"), some ⟨51, 46, [(0, "A")], some 1⟩⟩) (by decide +kernel))

end Fbx
