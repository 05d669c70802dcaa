import Verif.Proof.ParserInv

/-! # What the public calls of the parser do on arbitrary inputs -/

namespace Fbx
open Reader

namespace Parser

/-- Reading the footer only moves the source and raises warnings. -/
theorem wp_readFooter {L : Nat} (hL : L < 2 ^ 64) {p : Parser} (hp : RInv L p.reader) :
    M.wp readFooter (fun _ q => Quiet p q ∧ RInv L q.reader) (fun _ q => Quiet p q ∧ RInv L q.reader) (fun _ _ => False) p := by
  have hio : ∀ (n : Nat) (q : Parser) (P : Bytes → Parser → Prop), Quiet p q → RInv L q.reader →
      (∀ s x, x.length = n → Quiet p s → RInv L s.reader → P x s) →
      M.wp (io (readExact n)) P (fun _ q => Quiet p q ∧ RInv L q.reader) (fun _ _ => False) q := by
    intro n q P h1 h2 hP
    refine wp_io (wp_readExact hL h2 n (fun hl hi _ => ?_) (fun _ hi => ⟨h1.trans (.move (.consume _ _)), hi⟩))
    exact hP _ _ (by simp; omega) (h1.trans (.move (.consume _ _))) hi
  have hwarn : ∀ (c : Bool) w pos (q : Parser) (P : Unit → Parser → Prop), Quiet p q → RInv L q.reader →
      (∀ s, Quiet p s → RInv L s.reader → P () s) →
      M.wp (warnIf c w pos) P (fun _ q => Quiet p q ∧ RInv L q.reader) (fun _ _ => False) q := by
    intro c w pos q P h1 h2 hP
    cases c
    · exact hP q h1 h2
    · simp only [warnIf, if_true]
      exact wp_warn (hP _ (h1.trans (.warned _ _)) h2) (fun _ => ⟨h1.trans (.warned _ _), h2⟩)
  simp only [readFooter, M.wp_bind, M.wp_get]
  apply hio _ _ _ (.refl p) hp
  intro q1 u1 _ h1 i1
  simp only [M.wp_bind, M.wp_get]
  apply hwarn _ _ _ _ _ h1 i1
  intro q2 h2 i2
  simp only [M.wp_bind]
  apply hio 144 q2 _ h2 i2
  intro q3 buf hbuf h3 i3
  cases hi : (buf.drop 128).findIdx? (fun x => decide (x ≠ 0)) with
  | none => simp only [hi, M.wp_throw]; exact ⟨h3, i3⟩
  | some i =>
    have hi16 : i < 16 := by
      have := (List.findIdx?_eq_some_iff_findIdx_eq.mp hi).1
      simpa [hbuf] using this
    simp only [hi, M.wp_bind, M.wp_assert]
    simp only [M.wp_ite, M.wp_throw, M.wp_bind, M.wp_get]
    rw [if_pos (by simp; omega), if_pos (by simp; omega)]
    split
    · exact ⟨h3, i3⟩
    split
    · exact ⟨h3, i3⟩
    split
    · exact ⟨h3, i3⟩
    split
    · exact ⟨h3, i3⟩
    apply hio _ _ _ h3 i3
    intro q4 more _ h4 i4
    simp only [M.wp_ite, M.wp_throw, M.wp_bind]
    split
    · exact ⟨h4, i4⟩
    apply hwarn _ _ _ _ _ h4 i4
    intro s hs is
    exact ⟨hs, is⟩

/-- The effect of a call that returned an event. -/
inductive Emits (p q : Parser) : Event → Prop where
  | start {q' : Parser} {n : Started} {outer : List Started} (hs : Steps p q' .startNode) (hst : q'.started = n :: outer)
      (hq : q = { q' with last := some .startNode }) : Emits p q (.startNode n.name n.attrCount)
  | endNode {q' : Parser} (hs : Steps p q' .endNode) (hq : q = { q' with last := some .endNode }) : Emits p q .endNode
  | endFbx {q' : Parser} {f : Except PErr Footer} (hs : Steps p q' .endFbx)
      (hq : Quiet { q' with health := .finished, last := some .endFbx } q) : Emits p q (.endFbx f)

/-- A call on a parser that is not running any more is refused. -/
def Refused (p : Parser) (e : PErr) : Prop :=
  (p.health = .finished ∧ e = PErr.ofOp .alreadyFinished) ∨ ∃ pos, p.health = .aborted pos ∧ e = ⟨.op .alreadyAborted, some pos⟩

theorem Steps.inv {L : Nat} {p q : Parser} {k : EvKind} (h : Steps p q k) (hp : PInv L p) (hr : RInv L q.reader) : PInv L q := by
  cases h with
  | @start r h name p' attrEnd hsk hh hne hlen hname hp' hrd hae hq =>
    have hw := headWidth_le p.version
    have h2 : PInv L p' := by
      refine hp'.inv hp ?_
      have : q.reader = p'.reader := by rw [hq]; unfold pushNode; split <;> rfl
      rw [← this]; exact hr
    have h3 : h.endOffset < 2 ^ 64 := by
      rw [← hh]; exact fromLe_take_lt _ _ hw.1
    have h3' : h.numAttrs < 2 ^ 64 := by
      rw [← hh]; exact fromLe_take_lt _ _ hw.1
    have h4 : attrEnd < 2 ^ 64 := by rw [hae]; exact Nat.mod_lt _ (by decide)
    subst hq
    obtain ⟨v, he, st, la, tl, rd, hd, lg, ch⟩ := p'
    cases st with
    | nil =>
      refine ⟨hr, fun _ => by simp [pushNode], ?_⟩
      intro n hn
      simp only [pushNode, List.mem_cons, List.not_mem_nil, or_false] at hn
      subst hn
      exact ⟨h3, h4, h3'⟩
    | cons m outer =>
      refine ⟨hr, fun _ => h2.top (by simp), ?_⟩
      intro n hn
      simp only [pushNode, List.mem_cons] at hn
      rcases hn with rfl | rfl | hn
      · exact ⟨h3, h4, h3'⟩
      · exact h2.ends m (by simp)
      · exact h2.ends n (by simp [hn])
  | @implicit r n outer p' hsk hst hp' hrd hend hq =>
    subst hq
    have h2 : PInv L p' := hp'.inv hp hr
    have h5 := hp'.started
    rw [hst] at h5
    exact ⟨hr, fun _ => h2.top (by rw [h5]; simp), fun m hm => h2.ends m (by rw [h5]; simp [hm])⟩
  | @explicit r n outer p' hsk hst hh hlen hp' hrd hend hq =>
    subst hq
    have h2 : PInv L p' := hp'.inv hp hr
    have h5 := hp'.started
    rw [hst] at h5
    exact ⟨hr, fun _ => h2.top (by rw [h5]; simp), fun m hm => h2.ends m (by rw [h5]; simp [hm])⟩
  | endFbx hst hh hlen hq =>
    subst hq
    exact ⟨hr, hp.top, hp.ends⟩

theorem Failed.inv {L : Nat} {p q : Parser} (h : Failed p q) (hp : PInv L p) (hr : RInv L q.reader) : PInv L q := by
  rcases h with h | ⟨p', n, outer, h, hst, rfl⟩
  · exact h.inv hp hr
  · have h2 : PInv L p' := h.inv hp hr
    have h5 := h.started
    rw [hst] at h5
    exact ⟨hr, fun _ => h2.top (by rw [h5]; simp), fun m hm => h2.ends m (by rw [h5]; simp [hm])⟩

theorem Steps.depth {p q : Parser} {k : EvKind} (h : Steps p q k) : depthOk k p.depth q.depth = true := by
  cases h with
  | @start r h name p' attrEnd hsk hh hne hlen hname hp' hrd hae hq =>
    subst hq
    have := hp'.started
    simp only [depthOk, Parser.depth, ← this]
    unfold pushNode
    cases p'.started <;> simp
  | @implicit r n outer p' hsk hst hp' hrd hend hq => subst hq; simp [depthOk, Parser.depth, hst]
  | @explicit r n outer p' hsk hst hh hlen hp' hrd hend hq => subst hq; simp [depthOk, Parser.depth, hst]
  | endFbx hst hh hlen hq => subst hq; simp [depthOk, Parser.depth, hst]

/-- `next_event` on arbitrary input. -/
theorem wp_nextEvent {L : Nat} (hL : L + 2 ^ 32 ≤ 2 ^ 64) {p : Parser} (hp : PInv L p) (hlast : p.last = some .endFbx → p.health ≠ .running) :
    M.wp nextEvent (fun ev q => p.health = .running ∧ Emits p q ev ∧ RInv L q.reader)
      (fun e q => (q = p ∧ Refused p e) ∨
        (p.health = .running ∧ ∃ q', Failed p q' ∧ RInv L q'.reader ∧ q = q'.setAborted q'.synPos ∧ e.pos = some q'.synPos))
      (fun x _ => p.health = .running ∧ x = .attrEndOverflow ∧ p.checks = true ∧ ¬ p.version < 7500) p := by
  unfold nextEvent
  rw [M.wp_bind, M.wp_get]
  refine (M.wp_bind _ _ _ _ _ _).mpr ?_
  simp only [M.wp]
  cases hh : p.health with
  | finished =>
    simp only [ensureContinuable, hh]
    exact .inl ⟨trivial, .inl ⟨hh, rfl⟩⟩
  | aborted pos =>
    simp only [ensureContinuable, hh]
    exact .inl ⟨trivial, .inr ⟨pos, hh, rfl⟩⟩
  | running =>
    simp only [ensureContinuable, hh]
    have := wp_nextEventImpl hL hp hh (fun h => hlast h hh)
    simp only [M.wp] at this
    rcases hx : nextEventImpl p with ⟨x, q⟩
    rw [hx] at this
    cases x with
    | panic x => exact ⟨trivial, this⟩
    | err e =>
      simp only at this ⊢
      have hq := this.1.inv hp this.2
      simp only [position]
      rw [if_neg (fun h => hq.top h.1 h.2)]
      exact .inr ⟨trivial, q, this.1, this.2, rfl, rfl⟩
    | ok k =>
      obtain ⟨h1, h2⟩ := this
      have hd := h1.depth
      have hd' : depthOk k p.depth (if k = .endFbx then { q with health := Health.finished } else q).depth = true := by
        split
        · exact hd
        · exact hd
      have hd'' : ∀ l, ({ (if k = .endFbx then { q with health := Health.finished } else q) with last := l } : Parser).depth =
        (if k = .endFbx then { q with health := Health.finished } else q).depth := fun _ => rfl
      simp only [hd'', hd', if_true]
      cases k with
      | startNode =>
        have hne : q.started ≠ [] := by
          intro h0
          simp [depthOk, Parser.depth, h0] at hd
        obtain ⟨n, outer, hst⟩ := List.exists_cons_of_ne_nil hne
        simp only [makeEvent, reduceCtorEq, if_false, hst]
        exact ⟨trivial, .start h1 hst (by rw [hst]), h2⟩
      | endNode => exact ⟨trivial, .endNode h1 rfl, h2⟩
      | endFbx =>
        simp only [makeEvent, if_true]
        have hf := wp_readFooter (L := L) (by omega) (p := { q with health := .finished, last := some .endFbx }) h2
        simp only [M.wp] at hf
        rcases hy : readFooter { q with health := .finished, last := some .endFbx } with ⟨y, s⟩
        rw [hy] at hf
        cases y with
        | ok f => exact ⟨trivial, .endFbx h1 hf.1, hf.2⟩
        | err e => exact ⟨trivial, .endFbx h1 hf.1, hf.2⟩
        | panic x => exact hf.elim

end Parser

/-! ## Attributes -/

namespace AP
open Parser

/-- State of an attribute reader: bounded offsets. -/
structure AInv (L : Nat) (a : AP) : Prop where
  parser : PInv L a.parser
  rest : a.attrs.rest ≤ a.attrs.total
  next : a.attrs.next < 2 ^ 64

/-- Only the source, the warnings and the offset of the next attribute have changed. -/
def Reads (L : Nat) (a b : AP) : Prop :=
  Quiet a.parser b.parser ∧ b.attrs.total = a.attrs.total ∧ b.attrs.rest = a.attrs.rest ∧ RInv L b.parser.reader ∧ b.attrs.next < 2 ^ 64

theorem Reads.refl {L : Nat} {a : AP} (h : AInv L a) : Reads L a a := ⟨.refl _, rfl, rfl, h.parser.reader, h.next⟩
theorem Reads.trans {L : Nat} {a b c : AP} (h : Reads L a b) (g : Reads L b c) : Reads L a c :=
  ⟨h.1.trans g.1, g.2.1.trans h.2.1, g.2.2.1.trans h.2.2.1, g.2.2.2⟩
theorem Reads.inv {L : Nat} {a b : AP} (h : Reads L a b) (ha : AInv L a) : AInv L b :=
  ⟨h.1.inv ha.parser h.2.2.2.1, by rw [h.2.1, h.2.2.1]; exact ha.rest, h.2.2.2.2⟩

theorem Reads.io {L : Nat} {a : AP} (h : AInv L a) {r : Reader} (hm : Moves a.parser.reader r) (hr : RInv L r) :
    Reads L a { a with parser := { a.parser with reader := r } } := ⟨.move hm, rfl, rfl, hr, h.next⟩

theorem wp_apio {α : Type} {m : M IoErr Reader α} {a : AP} {P E X}
    (h : M.wp m (fun v r => P v { a with parser := { a.parser with reader := r } })
      (fun e r => E (PErr.ofIo e) { a with parser := { a.parser with reader := r } })
      (fun x r => X x { a with parser := { a.parser with reader := r } }) a.parser.reader) :
    M.wp (AP.io m) P E X a := by
  simp only [AP.io, AP.par, M.wp_zoom]
  exact wp_io h

theorem wp_updateNext {L : Nat} {a : AP} (h : AInv L a) (n : Nat) (hn : a.parser.reader.position + n < 2 ^ 64) {P E X}
    (hP : ∀ b, Reads L a b → b.parser = a.parser → b.attrs.next = a.parser.reader.position + n → P () b) : M.wp (updateNext n) P E X a := by
  have hu : u64Size = 2 ^ 64 := rfl
  simp only [M.wp, updateNext, hu]
  rw [if_pos hn]
  exact hP _ ⟨.refl _, rfl, rfl, h.parser.reader, hn⟩ rfl rfl

theorem wp_apwarn {L : Nat} {a0 a : AP} (h : AInv L a) (h0 : Reads L a0 a) (start idx : Nat) {P : Unit → AP → Prop} {X}
    (hP : ∀ b, Reads L a0 b → AInv L b → P () b) :
    M.wp (do let pos ← position start idx; par (Parser.warn .incorrectBool pos)) P (fun _ b => Reads L a0 b) X a := by
  simp only [AP.position, M.wp_bind, par, M.wp_zoom, M.wp_pure]
  refine wp_position h.parser.top ?_
  have hr : ∀ l, Reads L a { a with parser := { a.parser with log := l :: a.parser.log } } :=
    fun l => ⟨.warned _ _, rfl, rfl, h.parser.reader, h.next⟩
  exact wp_warn (hP _ (h0.trans (hr _)) ((hr _).inv h)) (fun e => h0.trans (hr _))

variable {L : Nat} (hL : L + 2 ^ 32 ≤ 2 ^ 64)
include hL

theorem wp_loadPrim {α : Type} {a : AP} (h : AInv L a) (w : Nat) (f : BitVec (8 * w) → Except PErr α) :
    M.wp (loadPrim w f) (fun _ b => Reads L a b) (fun _ b => Reads L a b) (fun _ _ => False) a := by
  simp only [loadPrim, M.wp_bind]
  refine wp_apio (wp_readLe (by omega) h.parser.reader w (fun _ hi _ => ?_) (fun _ hi => .io h (.consume _ _) hi))
  have h1 := Reads.io h (Moves.consume _ w) hi
  rw [M.wp_bind]
  refine wp_updateNext (h1.inv h) 0 (by have := hi.1; simpa using this) (fun b hb _ _ => ?_)
  rw [M.wp_ofExcept]
  split <;> exact h1.trans hb

theorem wp_loadBool {α : Type} {a : AP} (h : AInv L a) (f : Bool → Except PErr α) (start idx : Nat) :
    M.wp (loadBool f start idx) (fun _ b => Reads L a b) (fun _ b => Reads L a b) (fun _ _ => False) a := by
  simp only [loadBool]
  rw [M.wp_bind]
  refine wp_apio (wp_readU8 (by omega) h.parser.reader (fun _ hi _ => ?_) (fun _ hi => .io h (.consume _ _) hi))
  have h1 := Reads.io h (Moves.consume _ 1) hi
  rw [M.wp_bind]
  refine wp_updateNext (h1.inv h) 0 (by have := hi.1; simpa using this) (fun b hb _ _ => ?_)
  have fin : ∀ x : Except PErr α, ∀ c, Reads L a c → M.wp (M.ofExcept x) (fun _ b => Reads L a b) (fun _ b => Reads L a b) (fun _ _ => False) c := by
    intro x c hc
    rw [M.wp_ofExcept]
    split <;> exact hc
  rw [M.wp_ite]
  split
  · have := wp_apwarn (hb.inv (h1.inv h)) (h1.trans hb) start idx (P := fun _ c => Reads L a c) (X := fun _ _ => False) (fun c hc _ => hc)
    rw [M.wp_bind] at this ⊢
    refine M.wp_mono this (fun pos c hc => ?_) (fun _ _ h => h) (fun _ _ h => h)
    rw [M.wp_bind]
    exact M.wp_mono hc (fun _ d hd => fin _ _ hd) (fun _ _ h => h) (fun _ _ h => h)
  · exact fin _ _ (h1.trans hb)

theorem wp_loadSpecial {α : Type} {a : AP} (h : AInv L a) (c : Nat → ReadCons α) :
    M.wp (loadSpecial c) (fun _ b => Reads L a b) (fun _ b => Reads L a b) (fun _ _ => False) a := by
  simp only [loadSpecial]
  rw [M.wp_bind]
  refine wp_apio (wp_readLe (by omega) h.parser.reader 4 (fun hl hi hp => ?_) (fun _ hi => .io h (.consume _ _) hi))
  have h1 := Reads.io h (Moves.consume _ 4) hi
  have hlt := fromLe_lt (List.take 4 a.parser.reader.rest)
  rw [List.length_take, Nat.min_eq_left hl, show (256 : Nat) ^ 4 = 2 ^ 32 from rfl] at hlt
  have := hp (by omega)
  refine (M.wp_bind _ _ _ _ _ _).mpr ?_
  refine wp_updateNext (h1.inv h) _ (by simp; omega) (fun b hb hb' _ => ?_)
  have h2 := h1.trans hb
  have hr := ReadCons.wp_run (by omega) (c (fromLe (List.take 4 a.parser.reader.rest))) (fromLe (List.take 4 a.parser.reader.rest)) b.parser.reader h2.2.2.2.1
  simp only [M.wp] at hr ⊢
  rcases hx : (c (fromLe (List.take 4 a.parser.reader.rest))).run (fromLe (List.take 4 a.parser.reader.rest), b.parser.reader) with ⟨x, lim, r⟩
  rw [hx] at hr
  have h3 := fun hm hi => h2.trans (Reads.io (h2.inv h) (r := r) hm hi)
  cases x with
  | ok v => exact h3 hr.1 hr.2
  | err v => exact h3 hr.1 hr.2
  | panic v => exact hr

theorem wp_readArrHeader {a : AP} (h : AInv L a) {P : ArrHeader → AP → Prop}
    (hP : ∀ hd b, Reads L a b → hd.bytelen < 2 ^ 32 → b.parser.reader.position ≤ L → P hd b) :
    M.wp readArrHeader P (fun _ b => Reads L a b) (fun _ _ => False) a := by
  simp only [readArrHeader]
  rw [M.wp_bind]
  refine wp_apio (wp_readLe (by omega) h.parser.reader 4 (fun _ hi _ => ?_) (fun _ hi => .io h (.consume _ _) hi))
  have h1 := Reads.io h (Moves.consume _ 4) hi
  rw [M.wp_bind]
  refine wp_apio (wp_readLe (by omega) (h1.inv h).parser.reader 4 (fun _ hi2 _ => ?_) (fun _ hi => h1.trans (.io (h1.inv h) (.consume _ _) hi)))
  have h2 := h1.trans (Reads.io (h1.inv h) (Moves.consume _ 4) hi2)
  cases he : ArrEnc.fromU32 (fromLe (List.take 4 ({ a with parser := { a.parser with reader := a.parser.reader.consume 4 } } : AP).parser.reader.rest)) with
  | none => exact h2
  | some enc =>
    simp only []
    rw [M.wp_bind]
    refine wp_apio (wp_readLe (by omega) (h2.inv h).parser.reader 4 (fun hl hi3 hp => ?_) (fun _ hi => h2.trans (.io (h2.inv h) (.consume _ _) hi)))
    have h3 := h2.trans (Reads.io (h2.inv h) (Moves.consume _ 4) hi3)
    refine hP _ _ h3 ?_ (hp (by omega))
    refine Nat.lt_of_lt_of_le (fromLe_lt _) ?_
    rw [List.length_take, Nat.min_eq_left hl]
    decide

theorem wp_runSeq {e α : Type} {Z : Zlib} {a : AP} (h : AInv L a) (t : ElemTy e) (c : SeqCons e α) (d : Dec Z) (n : Nat) :
    M.wp (runSeq t c d n) (fun _ b => Reads L a b) (fun _ b => Reads L a b) (fun _ _ => False) a := by
  have hr := ElemIter.wp_run (by omega) t c ⟨d, n, false, false⟩ a.parser.reader h.parser.reader
  simp only [M.wp, runSeq] at hr ⊢
  rcases hx : ElemIter.run t c (⟨d, n, false, false⟩, a.parser.reader) with ⟨x, it, r⟩
  rw [hx] at hr
  cases x with
  | ok v => exact .io h hr.1 hr.2
  | err v => exact .io h hr.1 hr.2
  | panic v => exact hr

theorem wp_loadSeq {e α : Type} {Z : Zlib} {a : AP} (h : AInv L a) (t : ElemTy e) (c : Nat → SeqCons e α) (start idx : Nat) :
    M.wp (loadSeq Z t c start idx) (fun _ b => Reads L a b) (fun _ b => Reads L a b) (fun _ _ => False) a := by
  simp only [loadSeq]
  rw [M.wp_bind]
  refine wp_readArrHeader hL h (fun hd b hb hlt hpos => ?_)
  rw [M.wp_bind]
  refine wp_updateNext (hb.inv h) _ (by omega) (fun b' hb' _ _ => ?_)
  have h1 := hb.trans hb'
  rw [M.wp_bind]
  simp only [par, M.wp_zoom]
  refine M.wp_mono (Dec.wp_create (by omega) hd.enc b'.parser.reader h1.2.2.2.1) (fun d r hr => ?_)
    (fun _ r hr => h1.trans (.io (h1.inv h) hr.1 hr.2)) (fun _ _ h => h)
  have h2 := h1.trans (Reads.io (h1.inv h) hr.1 hr.2)
  rw [M.wp_bind]
  refine M.wp_mono (wp_runSeq hL (h2.inv h) t (c hd.count) d hd.count) (fun v b3 h3 => ?_) (fun _ _ hh => h2.trans hh) (fun _ _ h => h)
  have h4 := h2.trans h3
  obtain ⟨v, he, od⟩ := v
  have fin : ∀ b : AP, Reads L a b → M.wp (if he then M.throw (PErr.ofData .nodeAttributeError) else pure v : M PErr AP α)
      (fun _ b => Reads L a b) (fun _ b => Reads L a b) (fun _ _ => False) b := by
    intro b hb
    cases he <;> exact hb
  simp only [M.wp_ite]
  split
  · have := wp_apwarn (h4.inv h) h4 start idx (P := fun _ c => Reads L a c) (X := fun _ _ => False) (fun c hc _ => hc)
    rw [M.wp_bind] at this ⊢
    refine M.wp_mono this (fun pos c hc => ?_) (fun _ _ h => h) (fun _ _ h => h)
    rw [M.wp_bind]
    exact M.wp_mono hc (fun _ d hd => fin _ hd) (fun _ _ h => h) (fun _ _ h => h)
  · have := fin _ h4
    rw [M.wp_ite] at this
    exact this

theorem wp_loadImpl {α : Type} {Z : Zlib} {a : AP} (h : AInv L a) (b : Bool) (t : AttrType) (l : Loader α) (start idx : Nat) :
    M.wp (loadImpl Z b t l start idx) (fun _ b => Reads L a b) (fun _ b => Reads L a b) (fun _ _ => False) a := by
  cases t <;> simp only [loadImpl]
  all_goals first
    | exact wp_loadBool hL h _ _ _
    | exact wp_loadPrim hL h _ _
    | exact wp_loadSeq hL h _ _ _ _
    | exact wp_loadSpecial hL h _

/-- One attribute was consumed. -/
def Reads1 (L : Nat) (a b : AP) : Prop :=
  Quiet a.parser b.parser ∧ b.attrs.total = a.attrs.total ∧ b.attrs.rest + 1 = a.attrs.rest ∧ RInv L b.parser.reader ∧ b.attrs.next < 2 ^ 64

/-- The rest of the attribute's type code after the skip. -/
theorem wp_readCode {a : AP} (h : AInv L a) (b : AP) (hb : Reads L a b) (hne : a.attrs.rest ≠ 0) : M.wp (do
      let code ← AP.io Reader.readU8
      match AttrType.fromTypeCode code with
      | none => M.throw (PErr.ofData (.invalidAttrTypeCode code))
      | some t => do
        M.modify (fun a => { a with attrs := { a.attrs with rest := a.attrs.rest - 1 } })
        pure (some t)) (fun t b => match t with | none => a.attrs.rest = 0 ∧ b = a | some _ => Reads1 L a b)
      (fun _ b => Reads L a b) (fun _ _ => False) b := by
  rw [M.wp_bind]
  refine wp_apio (wp_readU8 (by omega) (hb.inv h).parser.reader (fun _ hi _ => ?_) (fun _ hi => hb.trans (.io (hb.inv h) (.consume _ _) hi)))
  have h1 := hb.trans (Reads.io (hb.inv h) (Moves.consume _ 1) hi)
  split
  · exact h1
  · simp only [M.wp_bind, M.wp_modify, M.wp_pure]
    refine ⟨h1.1, h1.2.1, ?_, h1.2.2.2⟩
    have := hb.2.2.1
    simp only []
    omega

theorem wp_readNextType {a : AP} (h : AInv L a) :
    M.wp readNextType (fun t b => match t with | none => a.attrs.rest = 0 ∧ b = a | some _ => Reads1 L a b)
      (fun _ b => Reads L a b) (fun _ _ => False) a := by
  have hio := wp_readCode hL h
  simp only [readNextType, M.wp_bind, M.wp_get]
  rw [M.wp_ite]
  split
  · rename_i h0
    exact ⟨h0, rfl⟩
  · rename_i h0
    simp only [M.wp_ite]
    split
    · rename_i hlt
      rw [M.wp_bind]
      refine wp_apio (wp_skipTo h.parser.reader _ (Nat.le_of_lt hlt) h.next (fun r hm hi _ _ => ?_) (fun e r hm hi => .io h hm hi))
      exact hio _ (.io h hm hi) h0
    · exact hio a (.refl h) h0

/-- `load_next` and `load_next_buffered` on arbitrary input, with arbitrary loaders. -/
theorem wp_load {α : Type} {Z : Zlib} {a : AP} (h : AInv L a) (b : Bool) (l : Loader α) :
    M.wp (load Z b l)
      (fun v c => a.parser.health = .running ∧ match v with | none => a.attrs.rest = 0 ∧ c = a | some _ => Reads1 L a c)
      (fun e c => (c = a ∧ Refused a.parser e) ∨ (a.parser.health = .running ∧ ∃ c', (Reads L a c' ∨ Reads1 L a c') ∧
        ∃ pos, pos = { c'.parser.synPos with compPos := a.attrs.next, attrIdx := some (a.attrs.total - a.attrs.rest) } ∧
          c = { c' with parser := c'.parser.setAborted pos } ∧ e.pos = some pos))
      (fun _ _ => False) a := by
  simp only [load, withHealthCheck]
  rw [M.wp_bind, par, M.wp_zoom]
  simp only [M.wp_bind, M.wp_get]
  simp only [M.wp]
  cases hh : a.parser.health with
  | finished =>
    simp only [ensureContinuable, hh]
    exact .inl ⟨trivial, .inl ⟨hh, rfl⟩⟩
  | aborted pos =>
    simp only [ensureContinuable, hh]
    exact .inl ⟨trivial, .inr ⟨pos, hh, rfl⟩⟩
  | running =>
    simp only [ensureContinuable, hh]
    refine (M.wp_bind _ _ _ _ _ _).mpr ?_
    rw [M.wp_assert, if_pos (by simpa using h.rest)]
    have key : M.wp (loadBody Z b l a.attrs.next (a.attrs.total - a.attrs.rest))
        (fun v c => match v with | none => a.attrs.rest = 0 ∧ c = a | some _ => Reads1 L a c)
        (fun _ c => Reads L a c ∨ Reads1 L a c) (fun _ _ => False) a := by
      simp only [loadBody, M.wp_bind]
      refine M.wp_mono (wp_readNextType hL h) (fun t b1 hb => ?_) (fun _ _ h => .inl h) (fun _ _ h => h)
      cases t with
      | none => exact hb
      | some t =>
        simp only at hb
        obtain ⟨q1, q2, q3, q4, q5⟩ := hb
        have hi : AInv L b1 := ⟨q1.inv h.parser q4, by have := h.rest; omega, q5⟩
        simp only [M.wp_bind, M.wp_pure]
        refine M.wp_mono (wp_loadImpl hL hi b t l _ _) (fun v c hc => ?_) (fun _ c hc => .inr ?_) (fun _ _ h => h)
        · obtain ⟨g1, g2, g3, g4, g5⟩ := hc
          exact ⟨q1.trans g1, by omega, by omega, g4, g5⟩
        · obtain ⟨g1, g2, g3, g4, g5⟩ := hc
          exact ⟨q1.trans g1, by omega, by omega, g4, g5⟩
    simp only [M.wp] at key
    rcases hx : loadBody Z b l a.attrs.next (a.attrs.total - a.attrs.rest) a with ⟨x, c⟩
    rw [hx] at key
    have hx' : loadBody Z b l a.attrs.next (a.attrs.total - a.attrs.rest) ⟨a.parser, a.attrs⟩ = (x, c) := hx
    simp only [M.wp, hx']
    cases x with
    | ok v => exact ⟨trivial, key⟩
    | panic x => exact key
    | err e =>
      simp only at key ⊢
      have hc : c.parser.started ≠ [] → c.parser.toplevel ≠ 0 := by
        have : Quiet a.parser c.parser := by
          rcases key with k | k <;> exact k.1
        rw [this.started, this.toplevel]
        exact h.parser.top
      simp only [AP.position, M.bind_apply, par, M.zoom_apply, Parser.position]
      rw [if_neg (fun h => hc h.1 h.2)]
      exact .inr ⟨trivial, c, key, _, rfl, rfl, rfl⟩

end AP
end Fbx
