import Verif.Proof.Unsteady
import Verif.Props.ParserHistory

/-! # C91 The parser does not rely on the source standing still

Before every call the source may have changed in any way (`Verif/Spec/Unsteady.lean`). -/

namespace Fbx
open Reader Parser Spec
variable {α : Type} {Z : Zlib}

theorem unsteady_start {p : Parser} {bytes : Bytes} {size : Nat} (hp : Opens p bytes) (hb : headerLen + bytes.length ≤ size)
    (hL : size + 2 ^ 32 ≤ 2 ^ 64) : CInv size ⟨p, none⟩ := by
  have hsz : Sized bytes := by simp only [Sized]; omega
  have h := (open_inv hp hsz).1
  refine ⟨⟨⟨h.parser.reader.1, ?_⟩, h.parser.top, h.parser.ends⟩, h.last, h.fin, h.attrs⟩
  rcases h.parser.reader.2 with h | h
  · exact .inl h
  · exact .inr (by omega)

/-! ## Examples -/

/-- Calls, each with what the device shows to it. -/
def Client.shown (Z : Zlib) (s : Client) : List (Showing × Call α) → Option (List (Outcome α) × Client)
  | [] => some ([], s)
  | (d, c) :: cs => match (s.facing d).call Z c with
    | none => none
    | some (o, t) => match t.shown Z cs with
      | none => none
      | some (os, u) => some (o :: os, u)

theorem unsteady_cons {size : Nat} {s t u : Client} {c : Call α} {o : Outcome α} {d : Showing} {h : History α}
    (hd : d.rest ≠ [] → s.parser.reader.position + d.rest.length ≤ size) (hc : (s.facing d).call Z c = some (o, t))
    (ho : ∀ x, o ≠ .panic x) (hr : Unsteady Z size t h u) : Unsteady Z size s ((c, o) :: h) u := by
  induction hr with
  | nil =>
    have h0 : History.calm ([] : History α) := fun _ _ h => by cases h
    exact Unsteady.snoc (h := []) (.nil) h0 hd hc
  | @snoc h t' u' c' o' d' hr hn hd' hc' ih =>
    rw [← List.cons_append]
    refine Unsteady.snoc ih ?_ hd' hc'
    intro c'' x hm
    rcases List.mem_cons.mp hm with hm | hm
    · cases hm; exact ho x rfl
    · exact hn c'' x hm

/-- Decides what `unsteady_shown` needs. -/
def fitting (Z : Zlib) (size : Nat) (s : Client) : List (Showing × Call α) → Bool
  | [] => true
  | (d, c) :: cs => (d.rest.isEmpty || decide (s.parser.reader.position + d.rest.length ≤ size)) &&
    match (s.facing d).call Z c with
    | none => false
    | some (o, t) => !o.isPanic && fitting Z size t cs

theorem unsteady_shown {size : Nat} {s : Client} {cs : List (Showing × Call α)} (hf : fitting Z size s cs = true) :
    ∃ os u, s.shown Z cs = some (os, u) ∧ Unsteady Z size s (List.zip (cs.map Prod.snd) os) u := by
  induction cs generalizing s with
  | nil => exact ⟨[], s, rfl, .nil⟩
  | cons x cs ih =>
    obtain ⟨d, c⟩ := x
    simp only [fitting, Bool.and_eq_true, Bool.or_eq_true, decide_eq_true_eq] at hf
    obtain ⟨h1, h2⟩ := hf
    cases hc : (s.facing d).call Z c with
    | none => rw [hc] at h2; cases h2
    | some ot =>
      obtain ⟨o, t⟩ := ot
      rw [hc] at h2
      simp only [Bool.and_eq_true, Bool.not_eq_true'] at h2
      obtain ⟨os, u, h3, h4⟩ := ih h2.2
      refine ⟨o :: os, u, ?_, ?_⟩
      · simp only [Client.shown, hc, h3]
      · simp only [List.map_cons, List.zip_cons_cons]
        refine unsteady_cons ?_ hc (fun x hx => ?_) h4
        · intro hne
          rcases h1 with h1 | h1
          · rw [List.isEmpty_iff] at h1; exact absurd h1 hne
          · exact h1
        · rw [hx] at h2; cases h2.1

/-- A node `A` with a child `B`, both without attributes. -/
def exNest : Bytes := leBytes 4 81 ++ leBytes 4 0 ++ leBytes 4 0 ++ [1, 65] ++ leBytes 4 68 ++ leBytes 4 0 ++ leBytes 4 0 ++ [1, 66] ++
  zeros 13 ++ zeros 13 ++ zeros 13

/-- A device that has read `k` bytes of them. -/
def exFacing (k : Nat) : Showing := ⟨exNest.drop k, none, 27 + k, 2 ^ 63 - 1⟩
/-- A device that fails. -/
def exDown : Showing := ⟨[], some (.other 5), 0, 0⟩
/-- A device with other bytes: a node `C`. -/
def exOther : Showing := ⟨leBytes 4 68 ++ leBytes 4 0 ++ leBytes 4 0 ++ [1, 67] ++ zeros 13, none, 0, 0⟩

/-- The file is replaced before the second call, and the device is broken before the fourth, but not any more before the fifth. -/
def exTroubled : List (Showing × Call Unit) := [(exFacing 0, .next), (exOther, .next), (⟨zeros 13, none, 0, 0⟩, .next), (exDown, .next), (exFacing 41, .next)]

/-- Where the parser gave up. -/
def exGaveUp : SynPos := ⟨68, 27, [(0, "A")], none⟩

theorem exTroubled_shown : ∃ u, (Client.mk (exParser true false 7400 exNest) none).shown Zlib.stored exTroubled =
      some ([.event (.startNode "A" 0), .event (.startNode "C" 0), .event .endNode,
        .err ⟨.io (.other 5), some exGaveUp⟩, .err ⟨.op .alreadyAborted, some exGaveUp⟩], u) ∧
    Unsteady Zlib.stored 1000 ⟨exParser true false 7400 exNest, none⟩ (List.zip (exTroubled.map Prod.snd) [.event (.startNode "A" 0), .event (.startNode "C" 0), .event .endNode,
        .err ⟨.io (.other 5), some exGaveUp⟩, .err ⟨.op .alreadyAborted, some exGaveUp⟩]) u := by
  obtain ⟨os, u, h1, h2⟩ := unsteady_shown (Z := Zlib.stored) (size := 1000) (s := ⟨exParser true false 7400 exNest, none⟩) (cs := exTroubled) (by decide +kernel)
  have h3 : ((Client.mk (exParser true false 7400 exNest) none).shown Zlib.stored exTroubled).map Prod.fst =
      some [.event (.startNode "A" 0), .event (.startNode "C" 0), .event .endNode,
        .err ⟨.io (.other 5), some exGaveUp⟩, .err ⟨.op .alreadyAborted, some exGaveUp⟩] := by decide +kernel
  rw [h1] at h3
  cases h3
  exact ⟨u, h1, h2⟩

/-! ## The theorems -/

/-- If a call panics, then it is `skip_current_node`, or it is `next_event` in a build with overflow checks on a file of
version 7.5 or later, overflowing at the end of the attributes: the same exceptions as for a steady source (C24). -/
theorem C91_no_panic {p : Parser} {bytes : Bytes} {size : Nat} (hp : Opens p bytes) (hb : headerLen + bytes.length ≤ size)
    (hL : size + 2 ^ 32 ≤ 2 ^ 64) {h : History α} {s : Client} (hr : Unsteady Z size ⟨p, none⟩ h s) {c : Call α} {x : Panic}
    (hx : (c, .panic x) ∈ h) : c = .skip ∨ (c = .next ∧ x = .attrEndOverflow ∧ p.checks = true ∧ ¬ p.version < 7500) := by
  have hi := unsteady_start hp hb hL
  obtain ⟨a, b, rfl⟩ := List.append_of_mem hx
  obtain ⟨t, t', d, h1, h2, h3, h4, _, _⟩ := hr.at
  have hf := h1.frame hL hi h2
  generalize ho : Outcome.panic x = o at h4
  cases call_did hL (facing_inv (h1.inv hL hi h2) h3) h4 with
  | nextPanic hx => cases ho; exact .inr ⟨rfl, hx.2.1, hf.2.1 ▸ hx.2.2.1, hf.1 ▸ hx.2.2.2⟩
  | skipPanic hx => exact .inl rfl
  | _ => cases ho

/-- `current_depth` is the number of nodes started, less the number of nodes ended or skipped; after a failure it may be
one less. -/
theorem C91_depth {p : Parser} {bytes : Bytes} {size : Nat} (hp : Opens p bytes) (hb : headerLen + bytes.length ≤ size)
    (hL : size + 2 ^ 32 ≤ 2 ^ 64) {h : History α} {s : Client} (hr : Unsteady Z size ⟨p, none⟩ h s) (hn : h.calm) :
    s.parser.depth + h.ends + h.skips ≤ h.starts ∧ h.starts ≤ s.parser.depth + h.ends + h.skips + 1 ∧
      (h.clean → s.parser.depth + h.ends + h.skips = h.starts) := by
  obtain ⟨d, h1, h2, h3, _⟩ := hr.depth hL (unsteady_start hp hb hL) hn
  simp only [show (Client.mk p none).parser.depth = 0 by simp [Parser.depth, hp.state.2.1], Nat.zero_add] at h1
  exact ⟨by omega, by omega, fun h => by have := h3 h; omega⟩

/-- As long as nothing has failed, `position()` reports the path of the open nodes that follows from the events, and never a
smaller offset than before. -/
theorem C91_position {p : Parser} {bytes : Bytes} {size : Nat} (hp : Opens p bytes) (hb : headerLen + bytes.length ≤ size)
    (hL : size + 2 ^ 32 ≤ 2 ^ 64) {a b : History α} {s t : Client} (h1 : Unsteady Z size ⟨p, none⟩ a s) (ha : a.calm)
    (h2 : Unsteady Z size s b t) (hb' : b.calm) :
    (a.clean → s.parser.synPos.path = a.path) ∧ s.parser.synPos.bytePos ≤ t.parser.synPos.bytePos := by
  have hi := unsteady_start hp hb hL
  refine ⟨fun hcl => ?_, ?_⟩
  · obtain ⟨_, h3⟩ := h1.paths hL hi ⟨hp.state.2.1, hp.state.2.2.1⟩ ha hcl
    rw [synPos_path, h3.path]
    rfl
  · rw [synPos_bytePos, synPos_bytePos]
    exact (h2.frame hL (h1.inv hL hi ha) hb').2.2

/-- After the first failure of a `next_event` or `load_next`, all later ones fail with `AlreadyAborted` and the position of
that first failure, even if the source has recovered or shows something else. If only such calls follow, nothing of the
parser changes any more. -/
theorem C91_failure_is_sticky {p : Parser} {bytes : Bytes} {size : Nat} (hp : Opens p bytes) (hb : headerLen + bytes.length ≤ size)
    (hL : size + 2 ^ 32 ≤ 2 ^ 64) {a b : History α} {s : Client} {c : Call α} {e : PErr}
    (hr : Unsteady Z size ⟨p, none⟩ (a ++ (c, .err e) :: b) s) (hc : c.reads = true) (ha : a.clean) (hf : ∀ x ∈ a, x.2.isEndFbx = false) :
    ∃ pos, e.pos = some pos ∧ (∀ c' o, (c', o) ∈ b → c'.reads = true → o = .err ⟨.op .alreadyAborted, some pos⟩) ∧
      ∃ t, Unsteady Z size ⟨p, none⟩ (a ++ [(c, .err e)]) t ∧ ((∀ x ∈ b, x.1.reads = true) →
        s.parser.synPos = t.parser.synPos ∧ s.parser.log = t.parser.log ∧ s.parser.started = t.parser.started) := by
  have hi := unsteady_start hp hb hL
  obtain ⟨t, t', d, h1, h2, h3, h4, h5, _⟩ := hr.at
  have ht := facing_inv (h1.inv hL hi h2) h3
  have hd := call_did hL ht h4
  have ht' := hd.inv ht (fun x hx => by cases hx)
  have hrun : t.parser.health = .running := (h1.running hL hi h2).mpr ⟨hp.state.1, ha, hf⟩
  have hrun' : (t.facing d).parser.health = .running := hrun
  have key : ∃ pos, e.pos = some pos ∧ t'.parser.health = .aborted pos := by
    cases hd with
    | nextRefused hp hr ha => rcases hr with ⟨h, _⟩ | ⟨pos, h, _⟩ <;> rw [hrun'] at h <;> cases h
    | nextFailed hrun hf hi hp he ha => exact ⟨_, he, by rw [hp]; rfl⟩
    | loadRefused ha ht hr => rcases hr with ⟨h, _⟩ | ⟨pos, h, _⟩ <;> rw [hrun'] at h <;> cases h
    | loadFailed ha hp hrun hr hpos ht he => exact ⟨_, he, by rw [ht]; rfl⟩
    | skipFailed hst hm hi hge ht => cases hc
  obtain ⟨pos, k1, k2⟩ := key
  obtain ⟨j1, j2, j3⟩ := h5.stuck hL ht' (by rw [k2]; simp)
  refine ⟨pos, k1, fun c' o hm hc' => ?_, t', h1.snoc h2 h3 h4, fun hall => ?_⟩
  · obtain ⟨e', rfl, hr⟩ := j1 c' o hm hc'
    rcases hr with ⟨h, _⟩ | ⟨pos', h, h'⟩
    · rw [k2] at h; cases h
    · rw [k2] at h; cases h; rw [h']
  · obtain ⟨r, e', c', l, hq⟩ := j3 hall
    rw [hq]
    refine ⟨?_, rfl, rfl⟩
    unfold synPos
    rfl

/-- The end of the document is final as well: nothing has failed before, all nodes have been ended or skipped, and all later
`next_event` and `load_next` calls fail with `AlreadyFinished`, also if the file grows. -/
theorem C91_end_is_sticky {p : Parser} {bytes : Bytes} {size : Nat} (hp : Opens p bytes) (hb : headerLen + bytes.length ≤ size)
    (hL : size + 2 ^ 32 ≤ 2 ^ 64) {a b : History α} {s : Client} {c : Call α} {f : Except PErr Footer}
    (hr : Unsteady Z size ⟨p, none⟩ (a ++ (c, .event (.endFbx f)) :: b) s) :
    a.clean ∧ a.starts = a.ends + a.skips ∧ ∀ c' o, (c', o) ∈ b → c'.reads = true → o = .err ⟨.op .alreadyFinished, none⟩ := by
  have hi := unsteady_start hp hb hL
  obtain ⟨t, t', d, h1, h2, h3, h4, h5, _⟩ := hr.at
  have ht := facing_inv (h1.inv hL hi h2) h3
  have hd := call_did hL ht h4
  have ht' := hd.inv ht (fun x hx => by cases hx)
  cases hd with
  | event hrun he hi' hat =>
    have hrun' : t.parser.health = .running := hrun
    obtain ⟨_, hcl, _⟩ := (h1.running hL hi h2).mp hrun'
    have hfin := he.finished
    have hdep := (C91_depth hp hb hL h1 h2).2.2 hcl
    have h0 : t.parser.depth = 0 := by
      have : t.parser.started = [] := hfin.1
      rw [Parser.depth, this]; rfl
    have k2 := hfin.2.2.2.2.2
    refine ⟨hcl, by omega, fun c' o hm hc' => ?_⟩
    obtain ⟨e', rfl, hr⟩ := (h5.stuck hL ht' (by rw [k2]; simp)).1 c' o hm hc'
    rcases hr with ⟨h, h'⟩ | ⟨pos', h, h'⟩
    · rw [h']; rfl
    · rw [k2] at h; cases h

/-- A failing `skip_current_node`, on the other hand, leaves the node but does not stop the parser. -/
theorem C91_failed_skip {p : Parser} {bytes : Bytes} {size : Nat} (hp : Opens p bytes) (hb : headerLen + bytes.length ≤ size)
    (hL : size + 2 ^ 32 ≤ 2 ^ 64) {a : History α} {s t : Client} {d : Showing} {e : PErr} (hr : Unsteady Z size ⟨p, none⟩ a s) (ha : a.calm)
    (hd : d.rest ≠ [] → s.parser.reader.position + d.rest.length ≤ size) (hc : (s.facing d).call Z (.skip : Call α) = some (.err e, t)) :
    t.parser.depth + 1 = s.parser.depth ∧ t.parser.health = s.parser.health ∧ t.parser.log = s.parser.log := by
  have hi := unsteady_start hp hb hL
  cases call_did hL (facing_inv (hr.inv hL hi ha) hd) hc with
  | skipFailed hst hm hi hge ht =>
    subst ht
    have hst' : s.parser.started = _ := hst
    refine ⟨?_, rfl, rfl⟩
    simp only [Parser.depth, hst', List.length_cons]

/-! ## What follows a failing skip -/

/-- The device fails while `A` is skipped, and recovers. -/
def exSkipFails : List (Showing × Call Unit) := [(exFacing 0, .next), (exDown, .skip), (exFacing 14, .next), (exFacing 28, .next), (exFacing 41, .next)]

/-- The error of `skip_current_node` is not sticky: when the client goes on after it, the child of the node that was to be
skipped is reported as a node of the top level, and the end of that node as the end of the document. No further call of
`next_event` fails. -/
theorem C91_skip_failure_goes_on : ∃ e u, Opens (exParser true false 7400 exNest) exNest ∧
    Unsteady Zlib.stored 1000 ⟨exParser true false 7400 exNest, none⟩
      [((.next : Call Unit), .event (.startNode "A" 0)), (.skip, .err (PErr.ofIo (.other 5))), (.next, .event (.startNode "B" 0)), (.next, .event .endNode),
        (.next, .event (.endFbx (.error e)))] u := by
  obtain ⟨os, u, h1, h2⟩ := unsteady_shown (Z := Zlib.stored) (size := 1000) (s := ⟨exParser true false 7400 exNest, none⟩) (cs := exSkipFails) (by decide +kernel)
  have h3 : ((Client.mk (exParser true false 7400 exNest) none).shown Zlib.stored exSkipFails).map Prod.fst =
      some [.event (.startNode "A" 0), .err (PErr.ofIo (.other 5)), .event (.startNode "B" 0), .event .endNode,
        .event (.endFbx (.error (PErr.ofIo .unexpectedEof)))] := by decide +kernel
  rw [h1] at h3
  cases h3
  exact ⟨_, u, exParser_opens _ _ _ _ (by decide), h2⟩

/-- A node `A` whose declared end is `2^63`, with a child `B`. -/
def exFarEnd : Bytes := leBytes 8 (2 ^ 63) ++ leBytes 8 0 ++ leBytes 8 0 ++ [1, 65] ++ leBytes 8 104 ++ leBytes 8 0 ++ leBytes 8 0 ++ [1, 66] ++ zeros 25 ++ zeros 25

/-- A parser on a file, which cannot be positioned beyond `2^63 - 1`. -/
def exFileParser : Parser := { exParser true true 7500 exFarEnd with reader := ⟨exFarEnd, none, headerLen, headerLen, true, 2 ^ 63 - 1⟩ }

/-- This needs no broken device: a declared end beyond the range of file offsets will do. -/
theorem C91_skip_failure_steady : Opens exFileParser exFarEnd ∧ Sized exFarEnd ∧ ∃ e u,
    Runs Zlib.stored ⟨exFileParser, none⟩ [((.next : Call Unit), .event (.startNode "A" 0)), (.skip, .err (PErr.ofIo .invalidSeek)),
      (.next, .event (.startNode "B" 0)), (.next, .event .endNode), (.next, .event (.endFbx (.error e)))] u := by
  refine ⟨⟨true, 7500, none, headerLen, true, 2 ^ 63 - 1, by simp [Parser.create, exFileParser, exParser]; decide⟩, by unfold Sized; decide +kernel, ?_⟩
  have h := runs_history (Z := Zlib.stored) ⟨exFileParser, none⟩ ([.next, .skip, .next, .next, .next] : List (Call Unit)) (by decide +kernel)
  rw [history_of _ _ [.event (.startNode "A" 0), .err (PErr.ofIo .invalidSeek), .event (.startNode "B" 0), .event .endNode,
    .event (.endFbx (.error (PErr.ofIo .unexpectedEof)))] (by decide +kernel)] at h
  exact ⟨_, _, h⟩

/-! ## Non-vacuity -/

example : True := by
  obtain ⟨u, _, h⟩ := exTroubled_shown
  have hp := exParser_opens true false 7400 exNest (by decide)
  have hb : headerLen + exNest.length ≤ 1000 := by decide +kernel
  have hL : 1000 + 2 ^ 32 ≤ 2 ^ 64 := by decide
  have h1 := C91_failure_is_sticky hp hb hL (a := [(.next, .event (.startNode "A" 0)), (.next, .event (.startNode "C" 0)), (.next, .event .endNode)])
    (b := [(.next, _)]) (c := .next) h rfl (clean_of_all (by decide +kernel)) (by simp [Outcome.isEndFbx])
  have h2 := C91_depth hp hb hL h (calm_of_all (by decide +kernel))
  have h3 := C91_position hp hb hL h (calm_of_all (by decide +kernel)) .nil (calm_of_all (by decide))
  trivial

example : True := by
  obtain ⟨e, u, hp, h⟩ := C91_skip_failure_goes_on
  have hb : headerLen + exNest.length ≤ 1000 := by decide +kernel
  have h1 := C91_end_is_sticky hp hb (by decide) (a := [(.next, .event (.startNode "A" 0)), (.skip, .err (PErr.ofIo (.other 5))), (.next, .event (.startNode "B" 0)),
    (.next, .event .endNode)]) (b := []) (c := .next) h
  trivial

example : True := by
  obtain ⟨e, u, hp, h⟩ := C91_skip_failure_goes_on
  have hb : headerLen + exNest.length ≤ 1000 := by decide +kernel
  obtain ⟨t, t', d, h1, h2, h3, h4, _⟩ := h.at (a := [(.next, .event (.startNode "A" 0))]) (c := .skip)
  have := C91_failed_skip hp hb (by decide) h1 h2 h3 h4
  trivial

/-- Skipping at the top level panics on any source. -/
example : True := by
  have hc : ((Client.mk (exParser true false 7400 exNest) none).facing exDown).call Zlib.stored (.skip : Call Unit) =
      some (.panic .skipRoot, _) := call_after _ _ _ (by decide +kernel)
  have h : Unsteady Zlib.stored 1000 _ ([] ++ [((.skip : Call Unit), .panic .skipRoot)]) _ := .snoc .nil (calm_of_all rfl) (by intro h; exact absurd rfl h) hc
  have := C91_no_panic (exParser_opens true false 7400 exNest (by decide)) (by decide +kernel) (by decide) h (c := .skip) (x := .skipRoot) (by simp)
  trivial

end Fbx
