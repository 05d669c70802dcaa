import Verif.Spec.ShortReads
import Verif.Proof.Chunked
import Verif.Proof.Sim

/-! # The parser on a device with short reads does what it does on the whole source -/

namespace Fbx
open Spec

/-- Code `q` on the device does what `m` does on the whole source: with enough fuel it ends, with the same result and, unless that is a
panic, in the same state. -/
def Tracks {ε σ α : Type} (rd : σ → Reader) (m : M ε σ α) (q : CM ε σ α) : Prop :=
  ∀ s i, (rd s).position < u64Size → ∃ f0 s' j, (∀ fuel, f0 ≤ fuel → q fuel (s, i) = some ((m s).1, (s', j))) ∧
    ((∀ p, (m s).1 ≠ .panic p) → s' = (m s).2 ∧ (rd s').position < u64Size)

namespace Tracks
variable {ε ε' σ τ α β : Type} {rd : σ → Reader}

/-- Code that leaves the reader alone. -/
theorem lift {m : M ε σ α} (h : ∀ s, (∀ p, (m s).1 ≠ .panic p) → (rd (m s).2).position = (rd s).position) : Tracks rd m (CM.lift m) :=
  fun s i hs => ⟨0, (m s).2, i, fun _ _ => rfl, fun hp => ⟨rfl, by rw [h s hp]; exact hs⟩⟩

theorem pure (a : α) : Tracks rd (Pure.pure a : M ε σ α) (Pure.pure a : CM ε σ α) :=
  fun s i hs => ⟨0, s, i, fun _ _ => rfl, fun _ => ⟨rfl, hs⟩⟩

theorem bind {m : M ε σ α} {q : CM ε σ α} {f : α → M ε σ β} {g : α → CM ε σ β} (h : Tracks rd m q) (hf : ∀ a, Tracks rd (f a) (g a)) :
    Tracks rd (m >>= f) (q >>= g) := by
  intro s i hs
  obtain ⟨f0, s', j, h1, h2⟩ := h s i hs
  rcases hm : m s with ⟨x, t⟩
  rw [hm] at h1 h2
  cases x with
  | ok a =>
    obtain ⟨rfl, ht⟩ := h2 (by simp)
    obtain ⟨f1, s'', j', h3, h4⟩ := hf a s' j ht
    refine ⟨max f0 f1, s'', j', fun fuel hfuel => ?_, ?_⟩
    · show CM.bind q g fuel (s, i) = _
      simp only [CM.bind, h1 fuel (by omega), h3 fuel (by omega), M.bind_apply, hm]
    · simpa only [M.bind_apply, hm] using h4
  | err e =>
    obtain ⟨rfl, ht⟩ := h2 (by simp)
    refine ⟨f0, s', j, fun fuel hfuel => ?_, ?_⟩
    · show CM.bind q g fuel (s, i) = _
      simp only [CM.bind, h1 fuel hfuel, M.bind_apply, hm]
    · simp only [M.bind_apply, hm]; exact fun _ => ⟨trivial, ht⟩
  | panic p =>
    refine ⟨f0, s', j, fun fuel hfuel => ?_, ?_⟩
    · show CM.bind q g fuel (s, i) = _
      simp only [CM.bind, h1 fuel hfuel, M.bind_apply, hm]
    · simp only [M.bind_apply, hm]; exact fun hp => absurd rfl (hp p)

theorem mapErr {m : M ε σ α} {q : CM ε σ α} (f : ε → ε') (h : Tracks rd m q) : Tracks rd (M.mapErr f m) (CM.mapErr f q) := by
  intro s i hs
  obtain ⟨f0, s', j, h1, h2⟩ := h s i hs
  rcases hm : m s with ⟨x, t⟩
  rw [hm] at h1 h2
  refine ⟨f0, s', j, fun fuel hfuel => ?_, ?_⟩
  · rw [CM.mapErr, h1 fuel hfuel, M.mapErr_apply, hm]; cases x <;> rfl
  · rw [M.mapErr_apply, hm]
    cases x with
    | ok a => exact fun _ => h2 (by simp)
    | err e => exact fun _ => h2 (by simp)
    | panic p => exact fun hp => absurd rfl (hp p)

theorem zoom {rt : τ → Reader} {m : M ε τ α} {q : CM ε τ α} {getter : σ → τ} {setter : τ → σ → σ} (hg : ∀ s, rt (getter s) = rd s)
    (hset : ∀ t s, rd (setter t s) = rt t) (h : Tracks rt m q) : Tracks rd (M.zoom getter setter m) (CM.zoom getter setter q) := by
  intro s i hs
  obtain ⟨f0, t', j, h1, h2⟩ := h (getter s) i (by rw [hg]; exact hs)
  refine ⟨f0, setter t' s, j, fun fuel hfuel => ?_, fun hp => ?_⟩
  · rw [CM.zoom, h1 fuel hfuel, M.zoom_apply]
  · rw [M.zoom_apply] at hp ⊢
    obtain ⟨rfl, h3⟩ := h2 hp
    exact ⟨rfl, by rw [hset]; exact h3⟩

theorem ite {c : Prop} [Decidable c] {m n : M ε σ α} {q r : CM ε σ α} (h1 : Tracks rd m q) (h2 : Tracks rd n r) :
    Tracks rd (if c then m else n) (if c then q else r) := by split <;> assumption

/-- A `match` on the result of a call. -/
theorem andThen {m : M ε σ α} {q : CM ε σ α} {n : M ε' σ β} {f : Res ε α → M ε' σ β} {g : Res ε α → CM ε' σ β} (h : Tracks rd m q)
    (hf : ∀ x, Tracks rd (f x) (g x))
    (hn : ∀ s, n s = match m s with | (.panic p, s') => (.panic p, s') | (x, s') => f x s') : Tracks rd n (CM.andThen q g) := by
  intro s i hs
  obtain ⟨f0, s', j, h1, h2⟩ := h s i hs
  have hns := hn s
  rcases hm : m s with ⟨x, t⟩
  rw [hm] at h1 h2 hns
  cases x with
  | panic p =>
    refine ⟨f0, s', j, fun fuel hfuel => ?_, ?_⟩
    · simp only [CM.andThen, h1 fuel hfuel, hns]
    · rw [hns]; exact fun hp => absurd rfl (hp p)
  | ok a =>
    obtain ⟨rfl, ht⟩ := h2 (by simp)
    obtain ⟨f1, s'', j', h3, h4⟩ := hf (.ok a) s' j ht
    refine ⟨max f0 f1, s'', j', fun fuel hfuel => ?_, ?_⟩
    · simp only [CM.andThen, h1 fuel (by omega), h3 fuel (by omega), hns]
    · rw [hns]; exact h4
  | err e =>
    obtain ⟨rfl, ht⟩ := h2 (by simp)
    obtain ⟨f1, s'', j', h3, h4⟩ := hf (.err e) s' j ht
    refine ⟨max f0 f1, s'', j', fun fuel hfuel => ?_, ?_⟩
    · simp only [CM.andThen, h1 fuel (by omega), h3 fuel (by omega), hns]
    · rw [hns]; exact h4

end Tracks

/-! ## `Reader` -/

namespace Device
variable {D : Device} {α ε : Type}

theorem same_fixed {β : Type} {loop : Nat → Option (Res IoErr β × Chunked)} {m : Res IoErr β × Reader}
    (hmono : ∀ fuel x, loop fuel = some x → ∀ fuel' ≥ fuel, loop fuel' = some x) (h : Same loop m) :
    ∃ f0 c, (∀ fuel, f0 ≤ fuel → loop fuel = some (m.1, c)) ∧ ((∀ x, m.1 ≠ .panic x) → c.reader = m.2) := by
  obtain ⟨f0, h⟩ := h
  obtain ⟨c, h1, h2⟩ := h f0 (Nat.le_refl _)
  exact ⟨f0, c, fun fuel hf => hmono _ _ h1 fuel hf, h2⟩

theorem readExact_position (n : Nat) (r : Reader) (hp : ∀ p, (Reader.readExact n r).1 ≠ .panic p) :
    (Reader.readExact n r).2.position < u64Size := by
  revert hp
  unfold Reader.readExact
  split
  · split
    · intro _; simpa [Reader.consume]
    · intro hp; exact absurd rfl (hp _)
  · split
    · intro _; simpa [Reader.consume]
    · intro hp; exact absurd rfl (hp _)

theorem readExact_follows (hf : Fair D.sched) (n : Nat) : Tracks id (Reader.readExact n) (readExact D n) := by
  intro r i hr
  have h := Chunked.readExact_same hf n [] r i hr
  rw [Chunked.prefixed_nil] at h
  obtain ⟨f0, c, h1, h2⟩ := same_fixed (fun _ _ h => Chunked.readExact_mono h) h
  refine ⟨f0, c.reader, c.calls, fun fuel hfuel => ?_, fun hp => ⟨h2 hp, ?_⟩⟩
  · simp only [readExact, h1 fuel hfuel, Option.map_some]
  · rw [h2 hp]; exact readExact_position n r hp

theorem skipSeekLoop_position : ∀ (fuel d : Nat) (r : Reader), r.position < u64Size → (∀ p, (Reader.skipSeekLoop fuel d r).1 ≠ .panic p) →
    (Reader.skipSeekLoop fuel d r).2.position < u64Size := by
  intro fuel
  induction fuel with
  | zero => intro d r h _; exact h
  | succ fuel ih =>
    intro d r h
    unfold Reader.skipSeekLoop
    dsimp only
    split
    · exact fun _ => h
    · split
      · split
        · rename_i h3
          exact ih _ _ h3
        · exact fun hp => absurd rfl (hp _)
      · exact fun _ => h

theorem skipPlain_position (d : Nat) (r : Reader) : (Reader.skipPlain d r).2.position = r.position := by
  unfold Reader.skipPlain
  split
  · rfl
  · split <;> rfl

theorem skipTo_follows (hf : Fair D.sched) (pos : Nat) : Tracks id (Reader.skipTo pos) (skipTo D pos) := by
  intro r i hr
  unfold skipTo Reader.skipTo
  by_cases h1 : pos < r.position
  · refine ⟨0, r, i, fun _ _ => ?_, ?_⟩
    · simp only [if_pos h1]
    · simp only [if_pos h1]; exact fun hp => absurd rfl (hp _)
  · simp only [if_neg h1, Reader.skipDistance]
    cases hs : r.seekable with
    | true =>
      refine ⟨0, (Reader.skipSeek (pos - r.position) r).2, i, fun _ _ => ?_, fun hp => ⟨rfl, ?_⟩⟩
      · simp only [if_true, CM.lift]
      · simp only [if_true] at hp
        exact skipSeekLoop_position _ _ _ hr hp
    | false =>
      obtain ⟨f0, c, h2, h3⟩ := same_fixed (fun _ _ h => Chunked.copyToSink_mono h) (Chunked.copyToSink_same hf D.copyBuf (pos - r.position) r i)
      simp only [Bool.false_eq_true, if_false]
      refine ⟨f0, c.reader, c.calls, fun fuel hfuel => ?_, fun hp => ⟨h3 hp, ?_⟩⟩
      · simp only [skipPlain, h2 fuel hfuel, Option.map_some]
      · rw [h3 hp]; show _ < _; rw [id, skipPlain_position]; exact hr

theorem readU8_follows (hf : Fair D.sched) : Tracks id Reader.readU8 (readU8 D) :=
  (readExact_follows hf 1).bind fun _ => .pure _

theorem readLe_follows (hf : Fair D.sched) (k : Nat) : Tracks id (Reader.readLe k) (readLe D k) :=
  (readExact_follows hf k).bind fun _ => .pure _

theorem loadHeader_follows (hf : Fair D.sched) : Tracks id Fbx.loadHeader (loadHeader D) :=
  ((readExact_follows hf 23).mapErr _).bind fun _ => .ite (.lift fun _ _ => rfl) (((readExact_follows hf 4).mapErr _).bind fun _ => .pure _)

/-! ## The parser -/

theorem io_follows {m : M IoErr Reader α} {q : CM IoErr Reader α} (h : Tracks id m q) : Tracks Parser.reader (Parser.io m) (io q) :=
  (h.zoom (fun _ => rfl) (fun _ _ => rfl)).mapErr _

theorem get_follows {σ : Type} {rd : σ → Reader} : Tracks rd (M.get : M ε σ σ) (CM.lift M.get) := .lift fun _ _ => rfl

theorem throw_follows {σ : Type} {rd : σ → Reader} (e : ε) : Tracks rd (M.throw e : M ε σ α) (CM.lift (M.throw e)) := .lift fun _ _ => rfl

theorem panic_follows {σ : Type} {rd : σ → Reader} (x : Panic) : Tracks rd (M.panic x : M ε σ α) (CM.lift (M.panic x)) := .lift fun _ _ => rfl

theorem assert_follows {σ : Type} {rd : σ → Reader} (b : Bool) (x : Panic) : Tracks rd (M.assert b x : M ε σ Unit) (CM.lift (M.assert b x)) :=
  .lift fun s _ => by cases b <;> rfl

theorem readNodeHeader_follows (hf : Fair D.sched) : Tracks Parser.reader Parser.readNodeHeader (readNodeHeader D) :=
  get_follows.bind fun _ => (io_follows (readLe_follows hf _)).bind fun _ => (io_follows (readLe_follows hf _)).bind fun _ =>
    (io_follows (readLe_follows hf _)).bind fun _ => (io_follows (readLe_follows hf _)).bind fun _ => .pure _

theorem skipUnreadAttributes_follows (hf : Fair D.sched) : Tracks Parser.reader Parser.skipUnreadAttributes (skipUnreadAttributes D) := by
  refine get_follows.bind fun p => ?_
  generalize p.started = l
  cases l
  · exact .pure _
  · exact .ite (io_follows (skipTo_follows hf _)) (.pure _)

/-- Code that does not change the reader. -/
def Still {ε σ α : Type} (rd : σ → Reader) (m : M ε σ α) : Prop := ∀ s, rd (m s).2 = rd s

namespace Still
variable {σ β : Type} {rd : σ → Reader}

theorem follows {m : M ε σ α} (h : Still rd m) : Tracks rd m (CM.lift m) := .lift fun s _ => by rw [h s]

theorem bind {m : M ε σ α} {f : α → M ε σ β} (h : Still rd m) (hf : ∀ a, Still rd (f a)) : Still rd (m >>= f) := by
  intro s
  have h1 := h s
  rcases hm : m s with ⟨_ | _ | _, t⟩ <;> rw [hm] at h1 <;> simp only [M.bind_apply, hm]
  · rw [hf]; exact h1
  · exact h1
  · exact h1

theorem pure (a : α) : Still rd (Pure.pure a : M ε σ α) := fun _ => rfl

theorem ite {c : Prop} [Decidable c] {m n : M ε σ α} (h1 : Still rd m) (h2 : Still rd n) : Still rd (if c then m else n) := by
  split <;> assumption

end Still

theorem position_still : Still Parser.reader Parser.position := fun p => by unfold Parser.position; split <;> rfl

theorem warn_still (w : Warning) (pos : SynPos) : Still Parser.reader (Parser.warn w pos) := fun p => by
  unfold Parser.warn
  dsimp only
  split
  · rfl
  · split <;> rfl

theorem get_still {σ : Type} {rd : σ → Reader} : Still rd (M.get : M ε σ σ) := fun _ => rfl
theorem throw_still {σ : Type} {rd : σ → Reader} (e : ε) : Still rd (M.throw e : M ε σ α) := fun _ => rfl

theorem modify_still {σ : Type} {rd : σ → Reader} {f : σ → σ} (h : ∀ s, rd (f s) = rd s) : Still rd (M.modify f : M ε σ Unit) := h
theorem assert_still {σ : Type} {rd : σ → Reader} (b : Bool) (x : Panic) : Still rd (M.assert b x : M ε σ Unit) := fun s => by cases b <;> rfl
theorem ofExcept_still {σ : Type} {rd : σ → Reader} (r : Except ε α) : Still rd (M.ofExcept r : M ε σ α) := fun s => by cases r <;> rfl

macro "still" : tactic =>
  `(tactic|
    repeat' first
      | exact position_still | exact warn_still _ _ | exact Still.pure _ | exact get_still
      | exact throw_still _ | exact assert_still _ _ | exact ofExcept_still _ | exact modify_still (fun _ => rfl) | refine Still.ite ?_ ?_
      | refine Still.bind ?_ (fun _ => ?_) | split)

theorem tryImplicitEnd_still : Still Parser.reader Parser.tryImplicitEnd := by
  unfold Parser.tryImplicitEnd
  dsimp only
  still

theorem explicitEnd_still : Still Parser.reader Parser.explicitEnd := by
  intro p
  unfold Parser.explicitEnd
  rw [M.bind_apply, M.get_apply]
  dsimp only
  generalize p.started = l
  cases l with
  | nil => rfl
  | cons n outer =>
    dsimp only
    rw [M.bind_apply, M.set_apply]
    exact (show Still Parser.reader _ by still) { p with started := outer }

theorem warnEmptyName_still (start : Nat) : Still Parser.reader (Parser.warnEmptyName start) := by
  unfold Parser.warnEmptyName
  dsimp only
  still

theorem addAttrEnd_still (a b : Nat) : Still Parser.reader (Parser.addAttrEnd a b) := fun p => by
  unfold Parser.addAttrEnd
  split
  · rfl
  · split <;> rfl

theorem pushNode_reader (n : Started) (p : Parser) : (Parser.pushNode n p).reader = p.reader := by
  unfold Parser.pushNode
  split <;> rfl

theorem startNode_eq (start : Nat) (h : NodeHeader) : Parser.startNode start h =
    ((if h.nameLen = 0 then Parser.warnEmptyName start else pure ()) >>= fun _ => Parser.io (Reader.readExact h.nameLen) >>= fun bs =>
      match stringOfUtf8 bs with
      | none => M.throw (PErr.ofData .invalidNodeNameEncoding)
      | some name => M.get >>= fun p => Parser.addAttrEnd p.reader.position h.bytelenAttrs >>= fun attrEnd => M.modify (Parser.pushNode
        { startOff := start, endOff := h.endOffset, attrCount := h.numAttrs, attrEnd, name, kids := 0 }) >>= fun _ => pure .startNode) := by
  unfold Parser.startNode
  split <;> rfl

theorem startNode_follows (hf : Fair D.sched) (start : Nat) (h : NodeHeader) : Tracks Parser.reader (Parser.startNode start h) (startNode D start h) := by
  rw [startNode_eq]
  refine (Still.follows (Still.ite (warnEmptyName_still start) (.pure _))).bind fun _ => ?_
  refine (io_follows (readExact_follows hf _)).bind fun bs => ?_
  generalize stringOfUtf8 bs = o
  cases o with
  | none => exact throw_follows _
  | some name =>
    exact get_follows.bind fun p => (addAttrEnd_still _ _).follows.bind fun e => (modify_still (pushNode_reader _)).follows.bind fun _ => .pure _

theorem nextEventImpl_follows (hf : Fair D.sched) : Tracks Parser.reader Parser.nextEventImpl (nextEventImpl D) := by
  refine get_follows.bind fun p => (assert_follows _ _).bind fun _ => (assert_follows _ _).bind fun _ =>
    (skipUnreadAttributes_follows hf).bind fun _ => get_follows.bind fun p' => tryImplicitEnd_still.follows.bind fun ended => .ite (.pure _) ?_
  exact (readNodeHeader_follows hf).bind fun h => .ite explicitEnd_still.follows (startNode_follows hf _ _)

theorem warnIf_still (c : Bool) (w : Warning) (pos : SynPos) : Still Parser.reader (Parser.warnIf c w pos) := by
  unfold Parser.warnIf
  still

theorem readFooter_follows (hf : Fair D.sched) : Tracks Parser.reader Parser.readFooter (readFooter D) := by
  refine get_follows.bind fun p => (io_follows (readExact_follows hf _)).bind fun u => get_follows.bind fun p' =>
    (warnIf_still _ _ _).follows.bind fun _ => (io_follows (readExact_follows hf _)).bind fun buf => ?_
  dsimp only
  generalize List.findIdx? _ (buf.drop 128) = o
  cases o with
  | none => exact throw_follows _
  | some i =>
    refine (assert_follows _ _).bind fun _ => (assert_follows _ _).bind fun _ => .ite (throw_follows _) (.ite (throw_follows _) ?_)
    refine get_follows.bind fun p'' => .ite (throw_follows _) (.ite (throw_follows _) ?_)
    exact (io_follows (readExact_follows hf _)).bind fun more => .ite (throw_follows _) ((warnIf_still _ _ _).follows.bind fun _ => .pure _)

theorem makeEvent_still {k : EvKind} (h : k ≠ .endFbx) : Still Parser.reader (Parser.makeEvent k) := fun p => by
  unfold Parser.makeEvent
  cases k with
  | startNode => dsimp only; split <;> rfl
  | endNode => rfl
  | endFbx => exact absurd rfl h

/-- What is made of the result of reading the footer. -/
def footerEvent : Res PErr Footer → M PErr Parser Event
  | .ok f => Pure.pure (.endFbx (.ok f))
  | .err e => Pure.pure (.endFbx (.error e))
  | .panic x => M.panic x

theorem makeEvent_follows (hf : Fair D.sched) (k : EvKind) : Tracks Parser.reader (Parser.makeEvent k) (makeEvent D k) := by
  cases k with
  | startNode => exact (makeEvent_still (by simp)).follows
  | endNode => exact (makeEvent_still (by simp)).follows
  | endFbx =>
    refine (readFooter_follows hf).andThen (f := footerEvent) (fun x => ?_) (fun p => ?_)
    · cases x with
      | ok f => exact .pure _
      | err e => exact .pure _
      | panic x => exact panic_follows _
    · unfold Parser.makeEvent
      rcases Parser.readFooter p with ⟨_ | _ | _, _⟩ <;> rfl

theorem failed_still (e : PErr) : Still Parser.reader (failed e) := fun p => by
  have := position_still p
  unfold failed
  rcases h : Parser.position p with ⟨_ | _ | _, q⟩ <;> rw [h] at this <;> exact this

theorem settle_still (d : Nat) (k : EvKind) : Still Parser.reader (settle d k) := fun p => by
  unfold settle
  dsimp only
  split <;> split <;> rfl

/-- What is made of the result of `next_event_impl`. -/
def impled (D : Nat) : Res PErr EvKind → M PErr Parser Event
  | .ok k => settle D k >>= fun _ => Parser.makeEvent k
  | .err e => failed e
  | .panic x => M.panic x

theorem nextEvent_follows (hf : Fair D.sched) : Tracks Parser.reader Parser.nextEvent (nextEvent D) := by
  refine get_follows.bind fun p0 => (Still.follows (fun p => ?_)).bind fun _ => ?_
  · unfold Parser.ensureContinuable
    split <;> rfl
  · refine (nextEventImpl_follows hf).andThen (f := impled p0.depth) (fun x => ?_) (fun p => ?_)
    · cases x with
      | ok k => exact (settle_still _ _).follows.bind fun _ => makeEvent_follows hf k
      | err e => exact (failed_still e).follows
      | panic x => exact panic_follows _
    · dsimp only
      rcases Parser.nextEventImpl p with ⟨k | e | x, q⟩
      · dsimp only [impled]
        rw [M.bind_apply]
        unfold settle
        dsimp only
        by_cases hk : k = .endFbx <;> simp only [hk, if_true, if_false]
        · cases Parser.depthOk .endFbx p0.depth ({ q with health := .finished, last := some .endFbx } : Parser).depth <;> rfl
        · cases Parser.depthOk k p0.depth ({ q with last := some k } : Parser).depth <;> rfl
      · rfl
      · rfl

theorem skipCurrentNode_follows (hf : Fair D.sched) : Tracks Parser.reader Parser.skipCurrentNode (skipCurrentNode D) := by
  intro p i hp
  unfold Parser.skipCurrentNode skipCurrentNode
  cases hl : p.started with
  | nil =>
    refine ⟨0, p, i, fun fuel _ => ?_, ?_⟩
    · show CM.bind _ _ fuel (p, i) = _
      simp only [CM.bind, CM.lift, M.get_apply, M.bind_apply, hl, M.panic_apply]
    · simp only [M.bind_apply, M.get_apply, hl, M.panic_apply]
      exact fun h => absurd rfl (h _)
  | cons n outer =>
    obtain ⟨f0, s', j, h1, h2⟩ := io_follows (skipTo_follows hf n.endOff) { p with started := outer, last := some .endNode } i hp
    refine ⟨f0, s', j, fun fuel hfuel => ?_, ?_⟩
    · show CM.bind _ _ fuel (p, i) = _
      simp only [CM.bind, CM.lift, M.get_apply, M.bind_apply, hl, M.set_apply]
      show CM.bind _ _ fuel (p, i) = _
      simp only [CM.bind, CM.lift, M.set_apply]
      exact h1 fuel hfuel
    · simp only [M.bind_apply, M.get_apply, hl, M.set_apply]
      exact h2

/-! ## Attributes -/

/-- The reader of an attribute reader. -/
def AP.rd (a : AP) : Reader := a.parser.reader

theorem par_follows {m : M PErr Parser α} {q : CM PErr Parser α} (h : Tracks Parser.reader m q) : Tracks AP.rd (AP.par m) (par q) :=
  h.zoom (fun _ => rfl) (fun _ _ => rfl)

theorem aio_follows {m : M IoErr Reader α} {q : CM IoErr Reader α} (h : Tracks id m q) : Tracks AP.rd (AP.io m) (aio q) :=
  par_follows (io_follows h)

theorem readNextType_eq : AP.readNextType = (M.get >>= fun a => if a.attrs.rest = 0 then pure none else
    (if a.parser.reader.position < a.attrs.next then AP.io (Reader.skipTo a.attrs.next) else pure ()) >>= fun _ => AP.io Reader.readU8 >>= fun code =>
      match AttrType.fromTypeCode code with
      | none => M.throw (PErr.ofData (.invalidAttrTypeCode code))
      | some t => M.modify (fun a => { a with attrs := { a.attrs with rest := a.attrs.rest - 1 } }) >>= fun _ => pure (some t)) := by
  unfold AP.readNextType
  congr 1
  funext a
  split
  · rfl
  · split <;> rfl

/-- The type code has been read. -/
theorem typeRead_follows (code : Byte) : Tracks AP.rd
    (match AttrType.fromTypeCode code with
      | none => M.throw (PErr.ofData (.invalidAttrTypeCode code))
      | some t => M.modify (fun a => { a with attrs := { a.attrs with rest := a.attrs.rest - 1 } }) >>= fun _ => pure (some t))
    (match AttrType.fromTypeCode code with
      | none => CM.lift (M.throw (PErr.ofData (.invalidAttrTypeCode code)))
      | some t => CM.lift (M.modify (fun a => { a with attrs := { a.attrs with rest := a.attrs.rest - 1 } })) >>= fun _ => pure (some t)) := by
  generalize AttrType.fromTypeCode code = o
  cases o with
  | none => exact throw_follows _
  | some t => refine Tracks.bind (Still.follows (modify_still ?_)) fun _ => .pure _; intro a; rfl

theorem readNextType_follows (hf : Fair D.sched) : Tracks AP.rd AP.readNextType (readNextType D) := by
  rw [readNextType_eq]
  unfold readNextType
  refine get_follows.bind fun a => .ite (.pure _) ?_
  by_cases h : a.parser.reader.position < a.attrs.next
  · simp only [if_pos h]
    exact (aio_follows (skipTo_follows hf _)).bind fun _ => (aio_follows (readU8_follows hf)).bind fun code => typeRead_follows code
  · simp only [if_neg h]
    rw [M.pure_bind']
    exact (aio_follows (readU8_follows hf)).bind fun code => typeRead_follows code

theorem readArrHeader_follows (hf : Fair D.sched) : Tracks AP.rd AP.readArrHeader (readArrHeader D) := by
  refine (aio_follows (readLe_follows hf _)).bind fun count => (aio_follows (readLe_follows hf _)).bind fun raw => ?_
  generalize ArrEnc.fromU32 raw = o
  cases o with
  | none => exact throw_follows _
  | some enc => exact (aio_follows (readLe_follows hf _)).bind fun _ => .pure _

theorem decCreate_follows (hf : Fair D.sched) (Z : Zlib) (enc : ArrEnc) : Tracks id (Dec.create Z enc) (decCreate D Z enc) := by
  cases enc with
  | direct => exact .pure _
  | zlib =>
    refine ((readU8_follows hf).mapErr _).bind fun a => ((readU8_follows hf).mapErr _).bind fun b => ?_
    generalize Z.header a b = o
    cases o with
    | none => exact throw_follows _
    | some s => exact .pure _

theorem zRead_follows (hf : Fair D.sched) (Z : Zlib) : ∀ (k n : Nat) (acc : Bytes) (F : Nat) (s : Z.S) (r : Reader) (i : Nat), n + r.rest.length = k → k < F →
    r.position < u64Size → ∃ f0 s' r' j, (∀ fuel, f0 ≤ fuel → zRead D Z fuel n acc ((s, r), i) = some ((Dec.zRead Z F n acc (s, r)).1, ((s', r'), j))) ∧
      ((∀ p, (Dec.zRead Z F n acc (s, r)).1 ≠ .panic p) → (s', r') = (Dec.zRead Z F n acc (s, r)).2 ∧ r'.position < u64Size) := by
  intro k
  induction k using Nat.strongRecOn with
  | ind k ih =>
    intro n acc F s r i hk hF hr
    obtain ⟨F, rfl⟩ : ∃ F', F = F' + 1 := ⟨F - 1, by omega⟩
    by_cases hn : n = 0
    · refine ⟨1, s, r, i, fun fuel hfuel => ?_, ?_⟩
      · obtain ⟨f, rfl⟩ : ∃ f, fuel = f + 1 := ⟨fuel - 1, by omega⟩
        simp only [zRead, Dec.zRead, if_pos hn]
      · simp only [Dec.zRead, if_pos hn]; exact fun _ => ⟨trivial, hr⟩
    · cases hst : Z.step s with
      | eof =>
        refine ⟨1, s, r, i, fun fuel hfuel => ?_, ?_⟩
        · obtain ⟨f, rfl⟩ : ∃ f, fuel = f + 1 := ⟨fuel - 1, by omega⟩
          simp only [zRead, Dec.zRead, if_neg hn, hst]
        · simp only [Dec.zRead, if_neg hn, hst]; exact fun _ => ⟨trivial, hr⟩
      | fail =>
        refine ⟨1, s, r, i, fun fuel hfuel => ?_, ?_⟩
        · obtain ⟨f, rfl⟩ : ∃ f, fuel = f + 1 := ⟨fuel - 1, by omega⟩
          simp only [zRead, Dec.zRead, if_neg hn, hst]
        · simp only [Dec.zRead, if_neg hn, hst]; exact fun _ => ⟨trivial, hr⟩
      | emit b s' =>
        obtain ⟨f0, s'', r', j, h1, h2⟩ := ih (n - 1 + r.rest.length) (by omega) (n - 1) (acc ++ [b]) F s' r i rfl (by omega) hr
        refine ⟨f0 + 1, s'', r', j, fun fuel hfuel => ?_, ?_⟩
        · obtain ⟨f, rfl⟩ : ∃ f, fuel = f + 1 := ⟨fuel - 1, by omega⟩
          simp only [zRead, Dec.zRead, if_neg hn, hst]
          exact h1 f (by omega)
        · simp only [Dec.zRead, if_neg hn, hst]; exact h2
      | need step =>
        obtain ⟨f0, r', j, h1, h2⟩ := readU8_follows hf r i hr
        rcases hu : Reader.readU8 r with ⟨b | e | p, r1⟩ <;> rw [hu] at h1 h2
        · obtain ⟨rfl, hr'⟩ := h2 (by simp)
          have hlen : r'.rest.length < r.rest.length := by
            have := readU8_len hu
            omega
          obtain ⟨f1, s'', r'', j', h3, h4⟩ := ih (n + r'.rest.length) (by omega) n acc F (step b) r' j rfl (by omega) hr'
          refine ⟨max f0 f1 + 1, s'', r'', j', fun fuel hfuel => ?_, ?_⟩
          · obtain ⟨f, rfl⟩ : ∃ f, fuel = f + 1 := ⟨fuel - 1, by omega⟩
            simp only [zRead, Dec.zRead, if_neg hn, hst, h1 f (by omega), hu]
            exact h3 f (by omega)
          · simp only [Dec.zRead, if_neg hn, hst, hu]; exact h4
        · obtain ⟨rfl, hr'⟩ := h2 (by simp)
          refine ⟨f0 + 1, s, r', j, fun fuel hfuel => ?_, ?_⟩
          · obtain ⟨f, rfl⟩ : ∃ f, fuel = f + 1 := ⟨fuel - 1, by omega⟩
            simp only [zRead, Dec.zRead, if_neg hn, hst, h1 f (by omega), hu]
          · simp only [Dec.zRead, if_neg hn, hst, hu]; exact fun _ => ⟨trivial, hr'⟩
        · refine ⟨f0 + 1, s, r', j, fun fuel hfuel => ?_, ?_⟩
          · obtain ⟨f, rfl⟩ : ∃ f, fuel = f + 1 := ⟨fuel - 1, by omega⟩
            simp only [zRead, Dec.zRead, if_neg hn, hst, h1 f (by omega), hu]
          · simp only [Dec.zRead, if_neg hn, hst, hu]; exact fun h => absurd rfl (h _)

theorem decExact_follows (hf : Fair D.sched) {Z : Zlib} (n : Nat) : Tracks Prod.snd (Dec.readExact (Z := Z) n) (decExact D n) := by
  rintro ⟨d, r⟩ i hr
  cases d with
  | direct =>
    obtain ⟨f0, r', j, h1, h2⟩ := readExact_follows hf n r i hr
    refine ⟨f0, (.direct, r'), j, fun fuel hfuel => ?_, fun hp => ?_⟩
    · simp only [decExact, h1 fuel hfuel, Dec.readExact]
    · obtain ⟨rfl, h3⟩ := h2 hp
      exact ⟨rfl, h3⟩
  | zlib z =>
    obtain ⟨f0, z', r', j, h1, h2⟩ := zRead_follows hf Z _ n [] (n + r.rest.length + 1) z r i rfl (by omega) hr
    refine ⟨f0, (.zlib z', r'), j, fun fuel hfuel => ?_, fun hp => ?_⟩
    · simp only [decExact, h1 fuel hfuel, Dec.readExact]
    · obtain ⟨h3, h4⟩ := h2 hp
      refine ⟨?_, h4⟩
      simp only [Dec.readExact, ← h3]

theorem elemNext_follows (hf : Fair D.sched) {Z : Zlib} {e : Type} (t : ElemTy e) :
    Tracks Prod.snd (ElemIter.next (Z := Z) t) (elemNext D t) := by
  rintro ⟨it, r⟩ i hr
  by_cases h0 : it.rest = 0
  · refine ⟨0, (it, r), i, fun fuel _ => ?_, fun _ => ⟨?_, hr⟩⟩ <;> simp only [elemNext, ElemIter.next, if_pos h0]
  · obtain ⟨f0, ⟨d', r'⟩, j, h1, h2⟩ := decExact_follows hf (Z := Z) t.size (it.dec, r) i hr
    rcases hd : Dec.readExact t.size (it.dec, r) with ⟨bs | x | x, d1, r1⟩ <;> rw [hd] at h1 h2
    · obtain ⟨h3, h4⟩ := h2 (by simp)
      cases h3
      refine ⟨f0, _, j, fun fuel hfuel => ?_, fun _ => ⟨rfl, ?_⟩⟩
      · simp only [elemNext, ElemIter.next, if_neg h0, h1 fuel hfuel, hd]
      · simp only [ElemIter.next, if_neg h0, hd]; exact h4
    · obtain ⟨h3, h4⟩ := h2 (by simp)
      cases h3
      refine ⟨f0, _, j, fun fuel hfuel => ?_, fun _ => ⟨rfl, ?_⟩⟩
      · simp only [elemNext, ElemIter.next, if_neg h0, h1 fuel hfuel, hd]
      · simp only [ElemIter.next, if_neg h0, hd]; exact h4
    · refine ⟨f0, ({ it with dec := d' }, r'), j, fun fuel hfuel => ?_, ?_⟩
      · simp only [elemNext, ElemIter.next, if_neg h0, h1 fuel hfuel, hd]
      · simp only [ElemIter.next, if_neg h0, hd]; exact fun h => absurd rfl (h _)

theorem elemRun_follows (hf : Fair D.sched) {Z : Zlib} {e : Type} (t : ElemTy e) (c : SeqCons e α) :
    Tracks Prod.snd (ElemIter.run (Z := Z) t c) (elemRun D t c) := by
  induction c with
  | done r => exact (ofExcept_still r).follows
  | pull k ih => exact (elemNext_follows hf t).bind fun x => ih x

theorem readAll_position {limit : Nat} {r : Reader} (hp : ∀ p, (Chunked.readAll limit r).1 ≠ .panic p) :
    (Chunked.readAll limit r).2.position < u64Size := by
  revert hp
  unfold Chunked.readAll
  split
  · split
    · intro _; simpa [Reader.consume]
    · intro hp; exact absurd rfl (hp _)
  · split
    · intro _; simpa [Reader.consume]
    · intro hp; exact absurd rfl (hp _)

theorem special_follows (hf : Fair D.sched) (len : Nat) (c : Special α) :
    Tracks id (fun r => (((c.cons len).run (len, r)).1, ((c.cons len).run (len, r)).2.2)) (special D len c) := by
  intro r i hr
  cases c with
  | done x =>
    refine ⟨0, r, i, fun fuel _ => ?_, fun _ => ⟨?_, hr⟩⟩
    · cases x <;> rfl
    · cases x <;> rfl
  | toEnd fin =>
    have h := Chunked.readToEnd_same hf D.bufs len [] r i hr
    rw [Chunked.prefixed_nil] at h
    obtain ⟨f0, c, h1, h2⟩ := same_fixed (fun _ _ h => Chunked.readToEnd_mono h) h
    obtain ⟨k1, k2⟩ := readToEnd_run len fin (len + 1) len [] r (by omega) (Nat.le_refl _) hr
    rw [Chunked.prefixed_nil] at k1
    refine ⟨f0, c.reader, c.calls, fun fuel hfuel => ?_, fun hp => ?_⟩
    · simp only [special, h1 fuel hfuel, Special.cons, k1]
      rcases (Chunked.readAll len r).1 with bs | e | x
      · simp only [finished]; cases fin bs <;> rfl
      · rfl
      · rfl
    · have hp' : ∀ p, (Chunked.readAll len r).1 ≠ .panic p := by
        intro p hx
        refine hp p ?_
        simp only [Special.cons, k1, hx]
        rfl
      refine ⟨?_, ?_⟩
      · rw [h2 hp']; exact (k2 hp').symm
      · rw [h2 hp']
        exact readAll_position hp'

theorem runSeq_follows (hf : Fair D.sched) {e : Type} {Z : Zlib} (t : ElemTy e) (c : SeqCons e α) (d : Dec Z) (count : Nat) :
    Tracks AP.rd (AP.runSeq t c d count) (runSeq D t c d count) := by
  intro a i ha
  obtain ⟨f0, ⟨it, r⟩, j, h1, h2⟩ := elemRun_follows hf t c ((⟨d, count, false, false⟩ : ElemIter Z), a.parser.reader) i ha
  rcases hd : ElemIter.run t c ((⟨d, count, false, false⟩ : ElemIter Z), a.parser.reader) with ⟨x | x | x, it1, r1⟩ <;> rw [hd] at h1 h2
  · obtain ⟨h3, h4⟩ := h2 (by simp)
    cases h3
    refine ⟨f0, _, j, fun fuel hfuel => ?_, fun _ => ⟨rfl, ?_⟩⟩
    · simp only [runSeq, AP.runSeq, h1 fuel hfuel, hd]
    · simp only [AP.runSeq, hd]; exact h4
  · obtain ⟨h3, h4⟩ := h2 (by simp)
    cases h3
    refine ⟨f0, _, j, fun fuel hfuel => ?_, fun _ => ⟨rfl, ?_⟩⟩
    · simp only [runSeq, AP.runSeq, h1 fuel hfuel, hd]
    · simp only [AP.runSeq, hd]; exact h4
  · refine ⟨f0, { a with parser := { a.parser with reader := r } }, j, fun fuel hfuel => ?_, ?_⟩
    · simp only [runSeq, AP.runSeq, h1 fuel hfuel, hd]
    · simp only [AP.runSeq, hd]; exact fun h => absurd rfl (h _)

theorem updateNext_still (n : Nat) : Still AP.rd (AP.updateNext n) := fun a => by
  unfold AP.updateNext
  dsimp only
  split <;> rfl

theorem par_still {m : M PErr Parser α} (h : Still Parser.reader m) : Still AP.rd (AP.par m) := fun a => by
  unfold AP.par
  rw [M.zoom_apply]
  exact h a.parser

theorem aposition_still (start idx : Nat) : Still AP.rd (AP.position start idx) :=
  (par_still position_still).bind fun _ => .pure _

/-- The warning about odd booleans. -/
def oddWarning (odd : Bool) (start idx : Nat) : M PErr AP Unit :=
  if odd then AP.position start idx >>= fun pos => AP.par (Parser.warn .incorrectBool pos) else pure ()

theorem oddWarning_still (odd : Bool) (start idx : Nat) : Still AP.rd (oddWarning odd start idx) :=
  .ite ((aposition_still _ _).bind fun _ => par_still (warn_still _ _)) (.pure _)

theorem loadSeq_eq {e : Type} (Z : Zlib) (t : ElemTy e) (c : Nat → SeqCons e α) (start idx : Nat) : AP.loadSeq Z t c start idx =
    (AP.readArrHeader >>= fun h => AP.updateNext h.bytelen >>= fun _ =>
      AP.par (M.zoom Parser.reader (fun r p => { p with reader := r }) (Dec.create Z h.enc)) >>= fun d =>
      AP.runSeq t (c h.count) d h.count >>= fun x => oddWarning x.2.2 start idx >>= fun _ =>
        if x.2.1 then M.throw (PErr.ofData .nodeAttributeError) else pure x.1) := by
  unfold AP.loadSeq oddWarning
  congr 1; funext h
  congr 1; funext _
  congr 1; funext d
  congr 1; funext x
  obtain ⟨v, b, o⟩ := x
  cases o
  · rfl
  · simp only [if_true, M.bind_assoc']

theorem loadSeq_follows (hf : Fair D.sched) {e : Type} (Z : Zlib) (t : ElemTy e) (c : Nat → SeqCons e α) (start idx : Nat) :
    Tracks AP.rd (AP.loadSeq Z t c start idx) (loadSeq D Z t c start idx) := by
  rw [loadSeq_eq]
  unfold loadSeq
  refine (readArrHeader_follows hf).bind fun h => (updateNext_still _).follows.bind fun _ =>
    (par_follows (Tracks.zoom (rt := id) (fun _ => rfl) (fun _ _ => rfl) (decCreate_follows hf Z h.enc))).bind fun d =>
    (runSeq_follows hf t _ d _).bind fun x => ((oddWarning_still _ _ _).follows (rd := AP.rd)).bind fun _ => Still.follows ?_
  exact .ite (throw_still _) (.pure _)

theorem loadSpecial_eq (c : Nat → Special α) : AP.loadSpecial (fun n => (c n).cons n) =
    (AP.io (Reader.readLe 4) >>= fun len => AP.updateNext len >>= fun _ =>
      AP.par (M.zoom Parser.reader (fun r p => { p with reader := r })
        (fun r => ((((c len).cons len).run (len, r)).1, (((c len).cons len).run (len, r)).2.2)))) := rfl

theorem loadSpecial_follows (hf : Fair D.sched) (c : Nat → Special α) :
    Tracks AP.rd (AP.loadSpecial (fun n => (c n).cons n)) (loadSpecial D c) := by
  rw [loadSpecial_eq]
  exact (aio_follows (readLe_follows hf _)).bind fun len => (updateNext_still _).follows.bind fun _ =>
    par_follows (Tracks.zoom (rt := id) (fun _ => rfl) (fun _ _ => rfl) (special_follows hf len (c len)))

theorem loadPrim_follows (hf : Fair D.sched) (w : Nat) (f : BitVec (8 * w) → Except PErr α) : Tracks AP.rd (AP.loadPrim w f) (loadPrim D w f) :=
  (aio_follows (readLe_follows hf _)).bind fun _ => (updateNext_still _).follows.bind fun _ => (ofExcept_still _).follows

theorem loadBool_eq (f : Bool → Except PErr α) (start idx : Nat) : AP.loadBool f start idx =
    (AP.io Reader.readU8 >>= fun raw => AP.updateNext 0 >>= fun _ => oddWarning (oddBool raw) start idx >>= fun _ =>
      M.ofExcept (f (boolOfByte raw))) := by
  unfold AP.loadBool oddWarning
  congr 1; funext raw
  congr 1; funext _
  cases oddBool raw
  · rfl
  · simp only [if_true, M.bind_assoc']

theorem loadBool_follows (hf : Fair D.sched) (f : Bool → Except PErr α) (start idx : Nat) :
    Tracks AP.rd (AP.loadBool f start idx) (loadBool D f start idx) := by
  rw [loadBool_eq]
  exact (aio_follows (readU8_follows hf)).bind fun _ => (updateNext_still _).follows.bind fun _ =>
    ((oddWarning_still _ _ _).follows (rd := AP.rd)).bind fun _ => (ofExcept_still _).follows

theorem loadImpl_follows (hf : Fair D.sched) (Z : Zlib) (buffered : Bool) (t : AttrType) (l : WLoader α) (start idx : Nat) :
    Tracks AP.rd (AP.loadImpl Z buffered t l.loader start idx) (loadImpl D Z buffered t l start idx) := by
  cases t with
  | bool => exact loadBool_follows hf _ _ _
  | i16 => exact loadPrim_follows hf _ _
  | i32 => exact loadPrim_follows hf _ _
  | i64 => exact loadPrim_follows hf _ _
  | f32 => exact loadPrim_follows hf _ _
  | f64 => exact loadPrim_follows hf _ _
  | arrBool => exact loadSeq_follows hf _ _ _ _ _
  | arrI32 => exact loadSeq_follows hf _ _ _ _ _
  | arrI64 => exact loadSeq_follows hf _ _ _ _ _
  | arrF32 => exact loadSeq_follows hf _ _ _ _ _
  | arrF64 => exact loadSeq_follows hf _ _ _ _ _
  | binary => cases buffered <;> exact loadSpecial_follows hf _
  | string => cases buffered <;> exact loadSpecial_follows hf _

theorem loadBody_follows (hf : Fair D.sched) (Z : Zlib) (buffered : Bool) (l : WLoader α) (start idx : Nat) :
    Tracks AP.rd (AP.loadBody Z buffered l.loader start idx) (loadBody D Z buffered l start idx) := by
  refine (readNextType_follows hf).bind fun o => ?_
  cases o with
  | none => exact .pure _
  | some t => exact (loadImpl_follows hf Z buffered t l start idx).bind fun v => .pure _

theorem loadFailed_still (start idx : Nat) (e : PErr) : Still AP.rd (loadFailed start idx e : M PErr AP α) := fun a => by
  have := aposition_still start idx a
  unfold loadFailed
  revert this
  rcases AP.position start idx a with ⟨x | x | x, b⟩ <;> exact id

theorem load_follows (hf : Fair D.sched) (Z : Zlib) (buffered : Bool) (l : WLoader α) :
    Tracks AP.rd (AP.load Z buffered l.loader) (load D Z buffered l) := by
  refine Tracks.bind (par_still ?_).follows fun _ => get_follows.bind fun a => (assert_still _ _).follows.bind fun _ => ?_
  · intro p
    unfold Parser.ensureContinuable
    split <;> rfl
  · refine (loadBody_follows hf Z buffered l a.attrs.next (a.attrs.total - a.attrs.rest)).andThen
      (f := fun | .ok v => pure v | .err e => loadFailed a.attrs.next (a.attrs.total - a.attrs.rest) e | .panic x => M.panic x) ?_ ?_
    · intro x
      cases x with
      | ok v => exact .pure _
      | err e => exact (loadFailed_still _ _ e).follows
      | panic x => exact panic_follows _
    · intro b
      rcases AP.loadBody Z buffered l.loader a.attrs.next (a.attrs.total - a.attrs.rest) b with ⟨x | x | x, b'⟩ <;> rfl

/-! ## Trees -/

theorem direct_loader : direct.loader = directLoader := rfl

theorem collectAttrs_follows (hf : Fair D.sched) (Z : Zlib) : ∀ (n : Nat) (acc : List AttrValue),
    Tracks AP.rd (Load.collectAttrs Z n acc) (collectAttrs D Z n acc)
  | 0, acc => .pure _
  | n + 1, acc => by
    refine Tracks.bind (direct_loader ▸ load_follows hf Z false direct) fun o => ?_
    cases o with
    | none => exact .pure _
    | some v => exact collectAttrs_follows hf Z n (v :: acc)

/-- The reader of a tree loader. -/
def ldRd (s : Load.St) : Reader := s.parser.reader

theorem addNode_follows (hf : Fair D.sched) (Z : Zlib) (parent : Nat) (name : String) :
    Tracks ldRd (Load.addNode Z parent name) (addNode D Z parent name) := by
  intro s i hs
  unfold Load.addNode addNode
  dsimp only
  cases ho : AP.ofParser s.parser with
  | panic p => exact ⟨0, s, i, fun _ _ => rfl, fun h => absurd rfl (h p)⟩
  | err e => exact ⟨0, s, i, fun _ _ => rfl, fun _ => ⟨rfl, hs⟩⟩
  | ok ap =>
    have hr : ap.parser = s.parser := by
      revert ho
      unfold AP.ofParser
      split
      · intro h; cases h
      · intro h; cases h; rfl
    obtain ⟨f0, a', j, h1, h2⟩ := collectAttrs_follows hf Z (ap.attrs.rest + 1) [] ap i (by unfold AP.rd; rw [hr]; exact hs)
    rcases hd : Load.collectAttrs Z (ap.attrs.rest + 1) [] ap with ⟨x | x | x, a1⟩ <;> rw [hd] at h1 h2
    · obtain ⟨rfl, h4⟩ := h2 (by simp)
      simp only [hd]
      rcases ha : Tree.appendRaw (Tree.newNode ⟨s.tree.nodes, s.tree.size, (Tree.intern s.tree.names name).2, s.tree.root⟩ (Tree.intern s.tree.names name).1 x).1 parent
        (Tree.newNode ⟨s.tree.nodes, s.tree.size, (Tree.intern s.tree.names name).2, s.tree.root⟩ (Tree.intern s.tree.names name).1 x).2 with ⟨y | y | y, t⟩
      · exact ⟨f0, _, j, fun fuel hfuel => by simp only [h1 fuel hfuel, ha], fun _ => ⟨rfl, h4⟩⟩
      · exact nomatch y
      · exact ⟨f0, _, j, fun fuel hfuel => by simp only [h1 fuel hfuel, ha]; rfl, fun h => absurd rfl (h _)⟩
    · obtain ⟨rfl, h4⟩ := h2 (by simp)
      simp only [hd]
      exact ⟨f0, _, j, fun fuel hfuel => by simp only [h1 fuel hfuel], fun _ => ⟨rfl, h4⟩⟩
    · simp only [hd]
      exact ⟨f0, { s with parser := a'.parser }, j, fun fuel hfuel => by simp only [h1 fuel hfuel], fun h => absurd rfl (h _)⟩

theorem loop_follows (hf : Fair D.sched) (Z : Zlib) : ∀ (n : Nat) (s : Load.St) (i : Nat), (ldRd s).position < u64Size →
    (Load.loop Z n s).1 ≠ .panic .fuel → ∃ f0 s' j, (∀ fuel, f0 ≤ fuel → loop D Z fuel (s, i) = some ((Load.loop Z n s).1, (s', j))) ∧
      ((∀ p, (Load.loop Z n s).1 ≠ .panic p) → s' = (Load.loop Z n s).2 ∧ (ldRd s').position < u64Size)
  | 0, s, i, _, hn => absurd rfl hn
  | n + 1, s, i, hs, hn => by
    revert hn
    cases hst : s.stack with
    | nil =>
      intro _
      refine ⟨1, s, i, fun fuel hfuel => ?_, ?_⟩
      · obtain ⟨f, rfl⟩ : ∃ f, fuel = f + 1 := ⟨fuel - 1, by omega⟩
        simp only [loop, Load.loop, hst]
      · simp only [Load.loop, hst]; exact fun h => absurd rfl (h _)
    | cons top below =>
      obtain ⟨f0, p', j, h1, h2⟩ := nextEvent_follows hf s.parser i hs
      rcases hd : Parser.nextEvent s.parser with ⟨ev | x | x, p1⟩ <;> rw [hd] at h1 h2
      · obtain ⟨rfl, h4⟩ := h2 (by simp)
        cases ev with
        | startNode name cnt =>
          obtain ⟨f1, s2, j2, k1, k2⟩ := addNode_follows hf Z top name ⟨p', s.tree, top :: below⟩ j h4
          rcases ha : Load.addNode Z top name ⟨p', s.tree, top :: below⟩ with ⟨id | x | x, s3⟩ <;> rw [ha] at k1 k2
          · obtain ⟨rfl, k4⟩ := k2 (by simp)
            simp only [Load.loop, hst, hd, ha]
            intro hn
            obtain ⟨f2, s4, j4, m1, m2⟩ := loop_follows hf Z n { s2 with stack := id :: s2.stack } j2 k4 hn
            refine ⟨max f0 (max f1 f2) + 1, s4, j4, fun fuel hfuel => ?_, m2⟩
            obtain ⟨f, rfl⟩ : ∃ f, fuel = f + 1 := ⟨fuel - 1, by omega⟩
            simp only [loop, hst, h1 f (by omega), k1 f (by omega)]
            exact m1 f (by omega)
          · obtain ⟨rfl, k4⟩ := k2 (by simp)
            simp only [Load.loop, hst, hd, ha]
            refine fun _ => ⟨max f0 f1 + 1, s2, j2, fun fuel hfuel => ?_, fun _ => ⟨rfl, k4⟩⟩
            obtain ⟨f, rfl⟩ : ∃ f, fuel = f + 1 := ⟨fuel - 1, by omega⟩
            simp only [loop, hst, h1 f (by omega), k1 f (by omega)]
          · simp only [Load.loop, hst, hd, ha]
            refine fun _ => ⟨max f0 f1 + 1, s2, j2, fun fuel hfuel => ?_, fun h => absurd rfl (h _)⟩
            obtain ⟨f, rfl⟩ : ∃ f, fuel = f + 1 := ⟨fuel - 1, by omega⟩
            simp only [loop, hst, h1 f (by omega), k1 f (by omega)]
        | endNode =>
          simp only [Load.loop, hst, hd]
          intro hn
          obtain ⟨f2, s4, j4, m1, m2⟩ := loop_follows hf Z n { s with parser := p', stack := below } j h4 hn
          refine ⟨max f0 f2 + 1, s4, j4, fun fuel hfuel => ?_, m2⟩
          obtain ⟨f, rfl⟩ : ∃ f, fuel = f + 1 := ⟨fuel - 1, by omega⟩
          simp only [loop, hst, h1 f (by omega)]
          exact m1 f (by omega)
        | endFbx footer =>
          by_cases hb : below = []
          · simp only [Load.loop, hst, hd, if_pos hb]
            refine fun _ => ⟨f0 + 1, _, j, fun fuel hfuel => ?_, fun _ => ⟨rfl, h4⟩⟩
            obtain ⟨f, rfl⟩ : ∃ f, fuel = f + 1 := ⟨fuel - 1, by omega⟩
            simp only [loop, hst, h1 f (by omega), if_pos hb]
          · simp only [Load.loop, hst, hd, if_neg hb]
            refine fun _ => ⟨f0 + 1, { s with parser := p', stack := below }, j, fun fuel hfuel => ?_, fun h => absurd rfl (h _)⟩
            obtain ⟨f, rfl⟩ : ∃ f, fuel = f + 1 := ⟨fuel - 1, by omega⟩
            simp only [loop, hst, h1 f (by omega), if_neg hb]
      · obtain ⟨rfl, h4⟩ := h2 (by simp)
        simp only [Load.loop, hst, hd]
        refine fun _ => ⟨f0 + 1, _, j, fun fuel hfuel => ?_, fun _ => ⟨rfl, h4⟩⟩
        obtain ⟨f, rfl⟩ : ∃ f, fuel = f + 1 := ⟨fuel - 1, by omega⟩
        simp only [loop, hst, h1 f (by omega)]
      · simp only [Load.loop, hst, hd]
        refine fun _ => ⟨f0 + 1, { s with parser := p', stack := top :: below }, j, fun fuel hfuel => ?_, fun h => absurd rfl (h _)⟩
        obtain ⟨f, rfl⟩ : ∃ f, fuel = f + 1 := ⟨fuel - 1, by omega⟩
        simp only [loop, hst, h1 f (by omega)]

theorem loadTree_follows (hf : Fair D.sched) (Z : Zlib) (p : Parser) (i : Nat) (hp : p.reader.position < u64Size)
    (hn : (Load.load Z p).1 ≠ .panic .fuel) : ∃ f0 p' j, ∀ fuel, f0 ≤ fuel → loadTree D Z fuel (p, i) = some ((Load.load Z p).1, (p', j)) := by
  revert hn
  unfold Load.load loadTree
  by_cases hu : p.isUsed = true
  · simp only [if_pos hu]
    exact fun _ => ⟨0, p, i, fun _ _ => rfl⟩
  · simp only [if_neg hu]
    intro hn
    obtain ⟨x, hx⟩ : ∃ x, Load.loop Z (2 * p.reader.rest.length + 2) ⟨p, Tree.empty, [0]⟩ = x := ⟨_, rfl⟩
    have hl := loop_follows hf Z (2 * p.reader.rest.length + 2) ⟨p, Tree.empty, [0]⟩ i hp
    rw [hx] at hn hl
    rcases x with ⟨x | x | x, s⟩
    · obtain ⟨f0, s', j, h1, h2⟩ := hl (by simp)
      obtain ⟨rfl, _⟩ := h2 (by simp)
      exact ⟨f0, s'.parser, j, fun fuel hfuel => by rw [h1 fuel hfuel, hx]⟩
    · obtain ⟨f0, s', j, h1, _⟩ := hl (by simp)
      exact ⟨f0, s'.parser, j, fun fuel hfuel => by rw [h1 fuel hfuel, hx]⟩
    · obtain ⟨f0, s', j, h1, _⟩ := hl (fun h => hn (by cases h; rfl))
      exact ⟨f0, s'.parser, j, fun fuel hfuel => by rw [h1 fuel hfuel, hx]⟩

/-! ## Files -/

theorem anyParser_follows (hf : Fair D.sched) (checks seekable : Bool) (bytes : Bytes) (ending : Option IoErr) (cursor limit : Nat) :
    ∃ f0 i, ∀ fuel, f0 ≤ fuel → anyParser D fuel checks seekable bytes ending cursor limit =
      some (opened i (Fbx.anyParser checks seekable bytes ending cursor limit)) := by
  obtain ⟨f0, r, i, h1, h2⟩ := loadHeader_follows hf
    { rest := bytes, ending := ending, cursor := cursor, position := 0, seekable := seekable, seekLimit := limit } 0 (show 0 < u64Size by decide)
  refine ⟨f0, i, fun fuel hfuel => ?_⟩
  unfold anyParser Fbx.anyParser
  rw [h1 fuel hfuel]
  clear h1
  revert h2
  rcases Fbx.loadHeader { rest := bytes, ending := ending, cursor := cursor, position := 0, seekable := seekable, seekLimit := limit } with ⟨v | e | x, r'⟩
  · intro h2
    obtain ⟨rfl, _⟩ := h2 (by simp)
    dsimp only
    cases ParserVersion.fromFbxVersion v with
    | none => rfl
    | some k =>
      cases k
      dsimp only
      cases Parser.create checks v { r with position := headerLen } <;> rfl
  · exact fun _ => rfl
  · exact fun _ => rfl

theorem anyParser_position {checks seekable : Bool} {bytes : Bytes} {ending : Option IoErr} {cursor limit : Nat} {p : Parser}
    (h : Fbx.anyParser checks seekable bytes ending cursor limit = .ok p) : p.reader.position < u64Size := by
  revert h
  unfold Fbx.anyParser
  split
  · intro h; cases h
  · intro h; cases h
  · split
    · intro h; cases h
    · unfold Parser.create
      split
      · rename_i heq
        split at heq
        · cases heq
        · cases heq
          intro h; cases h
          exact (by decide : headerLen < u64Size)
      · intro h; cases h

theorem anyTree_follows (hf : Fair D.sched) (Z : Zlib) (checks seekable : Bool) (bytes : Bytes) (ending : Option IoErr) (cursor limit : Nat)
    (hn : Fbx.anyTree Z checks seekable bytes ending cursor limit ≠ .panic .fuel) :
    ∃ f0, ∀ fuel, f0 ≤ fuel → anyTree D fuel Z checks seekable bytes ending cursor limit =
      some (Fbx.anyTree Z checks seekable bytes ending cursor limit) := by
  obtain ⟨f0, i, h1⟩ := anyParser_follows hf checks seekable bytes ending cursor limit
  revert hn
  unfold anyTree Fbx.anyTree
  cases ho : Fbx.anyParser checks seekable bytes ending cursor limit with
  | err e => exact fun _ => ⟨f0, fun fuel hfuel => by rw [h1 fuel hfuel, ho]; rfl⟩
  | panic e => exact fun _ => ⟨f0, fun fuel hfuel => by rw [h1 fuel hfuel, ho]; rfl⟩
  | ok p =>
    intro hn
    have hpos : p.reader.position < u64Size := anyParser_position ho
    obtain ⟨f1, p', j, h2⟩ := loadTree_follows hf Z (p.setHandler (fun _ _ _ => none)) i hpos (by
      intro hx
      simp only [hx] at hn
      exact hn rfl)
    refine ⟨max f0 f1, fun fuel hfuel => ?_⟩
    rw [h1 fuel (by omega), ho]
    simp only [opened, h2 fuel (by omega)]
    rcases (Load.load Z (p.setHandler (fun _ _ _ => none))).1 with x | x | x <;> rfl

/-! ## Clients -/

theorem callOn_follows (hf : Fair D.sched) (Z : Zlib) (c : WCall α) (s : Client) (i : Nat) (hs : s.parser.reader.position < u64Size) :
    (s.call Z c.call = none ∧ ∀ fuel, callOn D Z fuel (s, i) c = some none) ∨
    ∃ o t f0 t' j, s.call Z c.call = some (o, t) ∧ (∀ fuel, f0 ≤ fuel → callOn D Z fuel (s, i) c = some (some (o, (t', j)))) ∧
      ((∀ x, o ≠ .panic x) → t' = t ∧ t'.parser.reader.position < u64Size) := by
  cases c with
  | next =>
    right
    obtain ⟨f0, p', j, h1, h2⟩ := nextEvent_follows hf s.parser i hs
    simp only [callOn, WCall.call, Client.call]
    rcases hd : Parser.nextEvent s.parser with ⟨x | x | x, p1⟩ <;> rw [hd] at h1 h2
    · obtain ⟨rfl, h4⟩ := h2 (by simp)
      exact ⟨_, _, f0, _, j, rfl, fun fuel hfuel => by rw [h1 fuel hfuel]; cases x <;> rfl, fun _ => ⟨rfl, h4⟩⟩
    · obtain ⟨rfl, h4⟩ := h2 (by simp)
      exact ⟨_, _, f0, _, j, rfl, fun fuel hfuel => by rw [h1 fuel hfuel], fun _ => ⟨rfl, h4⟩⟩
    · exact ⟨_, _, f0, _, j, rfl, fun fuel hfuel => by rw [h1 fuel hfuel], fun h => absurd rfl (h _)⟩
  | load b l =>
    simp only [callOn, WCall.call, Client.call]
    cases ha : s.attrs with
    | none => exact .inl ⟨rfl, fun _ => rfl⟩
    | some at_ =>
      right
      dsimp only
      obtain ⟨f0, a', j, h1, h2⟩ := load_follows hf Z b l ⟨s.parser, at_⟩ i hs
      rcases hd : AP.load Z b l.loader ⟨s.parser, at_⟩ with ⟨x | x | x, p1⟩ <;> rw [hd] at h1 h2
      · obtain ⟨rfl, h4⟩ := h2 (by simp)
        cases x <;> exact ⟨_, _, f0, _, j, rfl, fun fuel hfuel => by rw [h1 fuel hfuel], fun _ => ⟨rfl, h4⟩⟩
      · obtain ⟨rfl, h4⟩ := h2 (by simp)
        exact ⟨_, _, f0, _, j, rfl, fun fuel hfuel => by rw [h1 fuel hfuel], fun _ => ⟨rfl, h4⟩⟩
      · exact ⟨_, _, f0, _, j, rfl, fun fuel hfuel => by rw [h1 fuel hfuel], fun h => absurd rfl (h _)⟩
  | skip =>
    right
    obtain ⟨f0, p', j, h1, h2⟩ := skipCurrentNode_follows hf s.parser i hs
    simp only [callOn, WCall.call, Client.call]
    rcases hd : Parser.skipCurrentNode s.parser with ⟨x | x | x, p1⟩ <;> rw [hd] at h1 h2
    · obtain ⟨rfl, h4⟩ := h2 (by simp)
      exact ⟨_, _, f0, _, j, rfl, fun fuel hfuel => by rw [h1 fuel hfuel], fun _ => ⟨rfl, h4⟩⟩
    · obtain ⟨rfl, h4⟩ := h2 (by simp)
      exact ⟨_, _, f0, _, j, rfl, fun fuel hfuel => by rw [h1 fuel hfuel], fun _ => ⟨rfl, h4⟩⟩
    · exact ⟨_, _, f0, _, j, rfl, fun fuel hfuel => by rw [h1 fuel hfuel], fun h => absurd rfl (h _)⟩
  | setHandler h => exact .inr ⟨_, _, 0, _, i, rfl, fun _ _ => rfl, fun _ => ⟨rfl, hs⟩⟩

theorem observe_follows (hf : Fair D.sched) (Z : Zlib) : ∀ (cs : List (WCall α)) (s : Client) (i : Nat), s.parser.reader.position < u64Size →
    SameCalls D Z s i cs
  | [], s, i, _ => ⟨0, s, fun _ _ => rfl, fun _ => rfl⟩
  | c :: cs, s, i, hs => by
    rcases callOn_follows hf Z c s i hs with ⟨h1, h2⟩ | ⟨o, t, f0, t', j, h1, h2, h3⟩
    · refine ⟨0, s, fun fuel _ => ?_, fun _ => ?_⟩
      · simp only [observeOn, h2, observe, List.map_cons, h1]
      · simp only [observe, List.map_cons, h1]
    · by_cases ho : ∃ x, o = .panic x
      · obtain ⟨x, rfl⟩ := ho
        refine ⟨f0, t', fun fuel hfuel => ?_, fun h => ?_⟩
        · simp only [observeOn, h2 fuel hfuel, observe, List.map_cons, h1]
        · simp only [observe, List.map_cons, h1] at h
          exact absurd (List.mem_singleton.2 rfl) (h x)
      · obtain ⟨rfl, h4⟩ := h3 fun x hx => ho ⟨x, hx⟩
        obtain ⟨f1, u, h5, h6⟩ := observe_follows hf Z cs t' j h4
        have e : observe Z s ((c :: cs).map WCall.call) = (o :: (observe Z t' (cs.map WCall.call)).1, (observe Z t' (cs.map WCall.call)).2) := by
          simp only [observe, List.map_cons, h1]
          cases o with
          | panic x => exact absurd ⟨x, rfl⟩ ho
          | _ => rfl
        refine ⟨max f0 f1, u, fun fuel hfuel => ?_, fun h => ?_⟩
        · rw [e]
          have h7 := h5 fuel (by omega)
          simp only [observeOn, h2 fuel (by omega)]
          cases o with
          | panic x => exact absurd ⟨x, rfl⟩ ho
          | _ => simp only [h7, Option.map_some]
        · rw [e] at h ⊢
          exact h6 fun x hx => h x (List.mem_cons_of_mem _ hx)

end Device
end Fbx
