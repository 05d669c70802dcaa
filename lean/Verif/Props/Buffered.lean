import Verif.Proof.BufferedCall
import Verif.Proof.Confined
import Verif.Props.Standing

/-! # C84 Loaders which use the stream as a `BufRead`, on any device

The device, which has a buffer, delivers pieces of any size and fails now and then, is modelled in
`Verif/Model/Buffered.lean`; what a loader may be shown is said in `Verif/Spec/Buffered.lean`. -/

namespace Fbx
open Reader Parser Spec
variable {α : Type} {Z : Zlib}

/-- **C84** (the stream). A program which keeps the rule of `consume` gets `limit` bytes of any device, in any state: what it is shown by
`read` and `fill_buf` is what comes next of the first `limit` bytes to come; it answers, without a panic; and afterwards the source and
the position are behind what it has taken, by `read` and `consume`. -/
theorem C84_shown {c : BufCons α} (hc : Polite 0 c) (d : Dev) (hb : d.buffered ≤ d.reader.rest.length) {limit : Nat}
    (hx : d.reader.position + limit < u64Size) :
    ∃ taken r d', c.run (limit, d) = ((match r with | .ok v => .ok v | .error e => .err e), (limit - taken.length, d')) ∧
      d'.reader.rest = d.reader.rest.drop taken.length ∧ d'.reader.position = d.reader.position + taken.length ∧
      d'.reader.cursor = d.reader.cursor + taken.length ∧ taken.length ≤ limit ∧
      Served (fun e => ∃ i, d.plan i = .fail e) (if d.reader.rest.length < limit then d.reader.ending else none) c
        (d.reader.rest.take limit) taken r := by
  obtain ⟨taken, r, d', h1, h2, h3, h4⟩ := BufCons.served (faults := fun e => ∃ i, d.plan i = .fail e) c hc (Nat.zero_le limit) (Nat.zero_le _) hb hx
    (fun i e he => ⟨i, he⟩) rfl
  refine ⟨taken, r, d', ?_, by rw [h2]; rfl, by rw [h2]; rfl, by rw [h2]; rfl, h3, h4⟩
  rw [h1]
  cases r <;> rfl

/-- **C84** (what is taken). What a program can take is the beginning of the data. -/
theorem C84_taken {faults : IoErr → Prop} {final : Option IoErr} {c : BufCons α} {data taken : Bytes} {r : Except PErr α}
    (h : Served faults final c data taken r) : taken = data.take taken.length := by
  induction h with
  | done => rfl
  | read _ _ _ ih => rw [List.length_append, List.take_length_add_append, ← ih]
  | readErr _ _ _ ih => exact ih
  | fill _ _ ih => exact ih
  | fillErr _ _ ih => exact ih
  | consume _ ih => rw [List.length_append, List.take_length_add_append, ← ih]

/-- **C84** (nothing new). Whatever the device does, the program does what some program which only uses `read`, on a source which delivers all
that is asked for, would do: the same answer, and the source in the same state. -/
theorem C84_reads {c : BufCons α} (hc : Polite 0 c) (d : Dev) (hb : d.buffered ≤ d.reader.rest.length) (limit : Nat) :
    ∃ c' : ReadCons α, (c'.run (limit, d.reader)).1 = (c.run (limit, d)).1 ∧ (c'.run (limit, d.reader)).2.2 = (c.run (limit, d)).2.2.reader := by
  obtain ⟨c', h⟩ := BufCons.as_reads c hc (Nat.zero_le limit) (Nat.zero_le _) hb
  exact ⟨c', by rw [h], by rw [h]⟩

/-- **C84** (histories). A history of a client whose loaders use `BufRead`s, on a device which does what it likes at each load, is a history
with loaders which only read, on a source which delivers all that is asked for: so what is said about histories (C24, C25, C26, C27, C31, C35,
C39, C49, C68, C73, C75, C81, C83) is true of it as well. -/
theorem C84_history {s t : Client} {h : List (BufCall α × Outcome α)} (hr : BufRuns Z s h t) (hp : ∀ x ∈ h, BufCall.Polite x.1) :
    ∃ h' : History α, Runs Z s h' t ∧ BufCall.AlikeAll h h' := hr.alike hp

/-- **C84** (attributes). A string or binary data in front of the reader, in any state a client can reach: `load_next_buffered` lets the
loader have what is there of the declared `n` bytes, on any device, and answers what the loader answers. -/
theorem C84_attribute {p : Parser} {bytes : Bytes} (hp : Opens p bytes) (hsz : Sized bytes) {h : List (BufCall α × Outcome α)} {s : Client}
    (hr : BufRuns Z ⟨p, none⟩ h s) (hpol : ∀ x ∈ h, BufCall.Polite x.1) (hn : ∀ c x, (c, .panic x) ∉ h)
    {a : Attrs} (ha : s.attrs = some a) (hrest : a.rest ≠ 0) (hrun : s.parser.health = .running) (hat : a.next = s.parser.reader.position)
    {c : UInt8} {n : Nat} (hlt : n < 2 ^ 32) {data : Bytes} (hb : s.parser.reader.rest = c :: (le 4 n ++ data))
    (w : Setting) {l : BufLoader α} {k : BufCons α} (hc : c = 82 ∧ k = l.binary n ∨ c = 83 ∧ k = l.string n) (hk : Polite 0 k) :
    ∃ taken r o t, s.callBuf Z (.load w l) = some (o, t) ∧
      Served (fun e => ∃ i, w.plan i = .fail e) (if data.length < n then s.parser.reader.ending else none) k (data.take n) taken r ∧
      (match r with
        | .ok v => o = .value v
        | .error e => ∃ pos, o = .err ⟨e.kind, some pos⟩) ∧
      t.parser.reader.rest = data.drop taken.length ∧ t.parser.reader.position = s.parser.reader.position + 5 + taken.length := by
  obtain ⟨hi, hL⟩ := open_inv hp hsz
  obtain ⟨h', hr', hal⟩ := hr.alike hpol
  have hinv := hr'.inv hL hi (fun c x hm => by
    obtain ⟨c0, h0⟩ := hal.panic hm
    exact hn c0 x h0)
  obtain ⟨h1, h2, n0, outer, h3, -⟩ := hinv.attrs a ha
  have hrv := hinv.parser.reader
  have hroom : s.parser.reader.position + s.parser.reader.rest.length ≤ headerLen + bytes.length := by
    rcases hrv.2 with ⟨-, h0⟩ | h0
    · rw [hb] at h0; cases h0
    · exact h0
  have h4 : (le 4 n).length = 4 := by simp [le]
  have hdrop : ∀ j, (s.parser.reader.consume (5 + j)).rest = data.drop j := by
    intro j
    rw [consume_rest, hb, ← List.drop_drop]
    show List.drop j (List.drop 4 (le 4 n ++ data)) = _
    have : List.drop 4 (le 4 n ++ data) = data := by
      rw [List.drop_append_of_le_length (by omega), List.drop_of_length_le (l := le 4 n) (by omega)]
      rfl
    rw [this]
  have hbody : ∃ taken r, AP.loadBodyBuf Z w l a.next (a.total - a.rest) ⟨s.parser, a⟩ = ((match r with | .ok v => .ok (some v) | .error e => .err e),
        ⟨{ s.parser with reader := s.parser.reader.consume (5 + taken.length) }, ⟨a.total, a.rest - 1, a.next + 5 + n⟩⟩) ∧
      Served (fun e => ∃ i, w.plan i = .fail e) (if data.length < n then s.parser.reader.ending else none) k (data.take n) taken r := by
    rcases hc with ⟨rfl, rfl⟩ | ⟨rfl, rfl⟩
    · exact AP.loadBodyBuf_special (a := ⟨s.parser, a⟩) hrest hat (by show _ < 2 ^ 64; simp only; omega) (by simp only; omega) hb hlt
        (show AttrType.fromTypeCode 82 = some .binary by decide) (fun _ _ => rfl) hk a.next (a.total - a.rest)
    · exact AP.loadBodyBuf_special (a := ⟨s.parser, a⟩) hrest hat (by show _ < 2 ^ 64; simp only; omega) (by simp only; omega) hb hlt
        (show AttrType.fromTypeCode 83 = some .string by decide) (fun _ _ => rfl) hk a.next (a.total - a.rest)
  obtain ⟨taken, r, hbody, hs⟩ := hbody
  have htop := hinv.parser.top
  refine ⟨taken, r, ?_⟩
  simp only [Client.callBuf, ha]
  rw [AP.loadBuf_eq]
  simp only [hrun, if_pos h1, hbody]
  cases r with
  | ok v => exact ⟨_, _, rfl, hs, rfl, hdrop _, by simp only [consume_position, Nat.add_assoc]⟩
  | error e =>
    simp only
    rw [AP.position_eq, if_neg (by
      simp only
      intro h0
      exact htop h0.1 h0.2)]
    exact ⟨_, _, rfl, hs, ⟨_, rfl⟩, hdrop _, by simp only [setAborted, consume_position, Nat.add_assoc]⟩

/-- **C84** (any loader). Even a loader which does not keep the rule stays within the bytes of its attribute: whatever it does, on any device, it comes to an
end without a panic, and neither the source nor the tracked position goes beyond the first `limit` bytes to come. -/
theorem C84_confined (c : BufCons α) : ∀ (limit : Nat) (d : Dev), d.reader.position + limit < u64Size →
    (∀ x, (c.run (limit, d)).1 ≠ .panic x) ∧ ∃ moved taken, moved ≤ limit ∧ taken ≤ moved ∧
      (c.run (limit, d)).2.2.reader.position = d.reader.position + moved ∧ (c.run (limit, d)).2.2.reader.cursor = d.reader.cursor + taken ∧
      (c.run (limit, d)).2.2.reader.rest = d.reader.rest.drop taken := by
  have main : ∀ (c : BufCons α) (limit : Nat) (d : Dev), d.reader.position + limit < u64Size →
      (∀ x, (c.run (limit, d)).1 ≠ .panic x) ∧ Confined limit d (c.run (limit, d)).2.1 (c.run (limit, d)).2.2 := by
    intro c
    induction c with
    | done r => exact fun limit d _ => ⟨(fun x => by cases r <;> exact fun h => by cases h), (by cases r <;> exact .refl _ _)⟩
    | read n k ih =>
      intro limit d hx
      obtain ⟨h1, h2⟩ := Dev.takeRead_confined n limit d hx
      simp only [BufCons.run]
      split
      · rename_i bs s' heq
        rw [heq] at h2
        exact ⟨(ih _ _ _ (h2.room hx)).1, h2.trans (ih _ _ _ (h2.room hx)).2⟩
      · rename_i bs s' heq
        rw [heq] at h2
        exact ⟨(ih _ _ _ (h2.room hx)).1, h2.trans (ih _ _ _ (h2.room hx)).2⟩
      · rename_i x s' heq
        rw [heq] at h1
        exact absurd rfl (h1 x)
    | fill k ih =>
      intro limit d hx
      have h2 := Dev.takeFill_confined limit d
      exact ⟨(ih _ _ _ (h2.room hx)).1, h2.trans (ih _ _ _ (h2.room hx)).2⟩
    | consume n k ih =>
      intro limit d hx
      obtain ⟨s, h1, h2⟩ := Dev.takeConsume_confined n limit d hx
      simp only [BufCons.run, h1]
      exact ⟨(ih _ _ (h2.room hx)).1, h2.trans (ih _ _ (h2.room hx)).2⟩
  intro limit d hx
  obtain ⟨h1, m, t, h2, h3, h4, h5, h6⟩ := main c limit d hx
  exact ⟨h1, m, t, by omega, h3, h4, h5, h6⟩

/-! ## A loader which takes everything -/

/-- The usual loop over a `BufRead`: look at what is there, consume all of it, until nothing is there. -/
def slurp (f : Bytes → Except PErr α) : Nat → Bytes → BufCons α
  | 0, acc => .done (f acc)
  | fuel + 1, acc => .fill fun
    | .error e => .done (.error (PErr.ofIo e))
    | .ok [] => .done (f acc)
    | .ok (b :: bs) => .consume (b :: bs).length (slurp f fuel (acc ++ b :: bs))

theorem slurp_polite (f : Bytes → Except PErr α) (fuel : Nat) : ∀ acc seen, Polite seen (slurp f fuel acc) := by
  induction fuel with
  | zero => intro _ _; trivial
  | succ fuel ih =>
    intro acc seen
    refine ⟨fun _ => trivial, fun bs => ?_⟩
    cases bs with
    | nil => trivial
    | cons b bs => exact ⟨Nat.le_refl _, ih _ _⟩

theorem consume_served {faults : IoErr → Prop} {final : Option IoErr} {n : Nat} {k : BufCons α} {data taken : Bytes} {r : Except PErr α}
    (h : Served faults final (.consume n k) data taken r) :
    ∃ bs left t, bs.length = n ∧ data = bs ++ left ∧ taken = bs ++ t ∧ Served faults final k left t r := by
  generalize hc : BufCons.consume n k = c at h
  cases h with
  | consume h1 =>
    cases hc
    exact ⟨_, _, _, rfl, rfl, rfl, h1⟩
  | _ => cases hc

theorem slurp_served {f : Bytes → Except PErr α} (fuel : Nat) {acc data taken : Bytes} {r : Except PErr α} {final : Option IoErr}
    (hf : data.length < fuel) (h : Served (fun _ => False) final (slurp f fuel acc) data taken r) :
    taken = data ∧ r = final.elim (f (acc ++ data)) (fun e => .error (PErr.ofIo e)) := by
  induction fuel generalizing acc data taken with
  | zero => omega
  | succ fuel ih =>
    cases h with
    | @fill _ bs more _ _ h0 h1 =>
      cases bs with
      | nil =>
        obtain ⟨rfl, rfl⟩ := h0 rfl
        cases h1
        simp
      | cons b bs =>
        simp only at h1
        obtain ⟨bs', left, t, h2, h3, rfl, h4⟩ := consume_served h1
        have hbs : bs' = b :: bs ∧ left = more := by
          have := congrArg (List.take bs'.length) h3
          rw [List.take_left' h2.symm, List.take_left' rfl] at this
          refine ⟨this.symm, ?_⟩
          rw [← this] at h3
          exact (List.append_cancel_left h3).symm
        obtain ⟨rfl, rfl⟩ := hbs
        obtain ⟨rfl, rfl⟩ := ih (by simp only [List.cons_append, List.length_cons, List.length_append] at hf; omega) h4
        exact ⟨rfl, by simp⟩
    | fillErr h0 h1 =>
      rcases h0 with h0 | ⟨rfl, rfl⟩
      · exact h0.elim
      · cases h1
        exact ⟨rfl, rfl⟩

/-- **C84** (the usual loop). However the device cuts the data into pieces, the usual loop gets all of the bytes, and nothing else; if
the source ends too early, it gets what is there, or the error of the source. -/
theorem C84_slurp (f : Bytes → Except PErr α) (d : Dev) (hb : d.buffered ≤ d.reader.rest.length) (hd : ∀ i e, d.plan i ≠ .fail e) {limit : Nat}
    (hx : d.reader.position + limit < u64Size) :
    ((slurp f (limit + 1) []).run (limit, d)).1 = (match if d.reader.rest.length < limit then d.reader.ending else none with
      | none => (match f (d.reader.rest.take limit) with | .ok v => .ok v | .error e => .err e)
      | some e => .err (PErr.ofIo e)) ∧
    ((slurp f (limit + 1) []).run (limit, d)).2.2.reader.rest = d.reader.rest.drop limit := by
  obtain ⟨taken, r, d', h1, h2, -, -, -, h3⟩ := C84_shown (slurp_polite f (limit + 1) [] 0) d hb hx
  have hF : (fun e => ∃ i, d.plan i = .fail e) = fun _ => False := by
    funext e
    exact propext ⟨fun ⟨i, hi⟩ => hd i e hi, False.elim⟩
  rw [hF] at h3
  obtain ⟨rfl, rfl⟩ := slurp_served (limit + 1) (by rw [List.length_take]; omega) h3
  rw [h1]
  refine ⟨?_, ?_⟩
  · simp only [List.nil_append]
    generalize (if d.reader.rest.length < limit then d.reader.ending else none) = final
    cases final <;> rfl
  · simp only [h2, List.length_take]
    by_cases hl : limit ≤ d.reader.rest.length
    · rw [Nat.min_eq_left hl]
    · rw [Nat.min_eq_right (by omega), List.drop_length, List.drop_of_length_le (by omega)]

/-! ## Examples -/

/-- A device with six bytes, of which two are in the buffer, followed by pieces of one and of many bytes. -/
def exDev : Dev := ⟨⟨[1, 2, 3, 4, 5, 6], none, 40, 40, false, 2 ^ 64⟩, 2, fun i => if i = 0 then .piece 0 else .piece 9⟩

/-- The loop over the first five bytes; a `fill_buf` after a `read` shows what is left of the buffer. -/
example : exDev.buffered ≤ exDev.reader.rest.length ∧ exDev.reader.position + 5 < u64Size ∧
    ((slurp (fun bs => .ok bs) 6 []).run (5, exDev)).1 = .ok [1, 2, 3, 4, 5] ∧
    ((slurp (fun bs => .ok bs) 6 []).run (5, exDev)).2.2.reader.position = 45 ∧
    ((BufCons.read 1 (fun _ => .fill (fun x => .done (.ok x)))).run (5, exDev)).1 = .ok (.ok [2]) := by
  decide +kernel

example : ∀ i e, exDev.plan i ≠ .fail e := by
  intro i e
  simp only [exDev]
  split <;> simp

/-- A device which fails once, and a loader which tries again. -/
def exFlaky : Dev := { exDev with buffered := 0, plan := fun i => if i = 0 then .fail (.other 4) else .piece 3 }

example : ((BufCons.fill (fun
      | .error _ => .fill (fun
        | .ok bs => .consume (bs.length - 1) (.done (.ok bs))
        | .error e => .done (.error (PErr.ofIo e)))
      | .ok bs => .done (.ok bs))).run (3, exFlaky)).1 = .ok [1, 2, 3] ∧
    (BufCons.run (α := Unit) (.fill (fun | .error e => .done (.error (PErr.ofIo e)) | .ok _ => .done (.ok ()))) (3, exFlaky)).1 =
      .err (PErr.ofIo (.other 4)) := by
  decide +kernel

/-- The loader for binary data in a client: it looks at the data and consumes one byte of it. -/
def exPeek : BufLoader Nat :=
  { base := { bool := fun _ => .ok 0, i16 := fun _ => .ok 0, i32 := fun _ => .ok 0, i64 := fun _ => .ok 0, f32 := fun _ => .ok 0, f64 := fun _ => .ok 0
              seqBool := fun _ => .done (.ok 0), seqI32 := fun _ => .done (.ok 0), seqI64 := fun _ => .done (.ok 0), seqF32 := fun _ => .done (.ok 0)
              seqF64 := fun _ => .done (.ok 0), binary := fun _ => .done (.ok 0), string := fun _ => .done (.ok 0)
              binaryBuf := fun _ => .done (.ok 0), stringBuf := fun _ => .done (.ok 0) }
    binary := fun _ => .done (.ok 0)
    string := fun n => .fill (fun
      | .ok (b :: bs) => .consume 1 (.done (.ok (n * 100 + bs.length * 10 + b.toNat)))
      | _ => .done (.ok 0)) }

theorem exPeek_polite : BufCall.Polite (.load w exPeek) := by
  refine ⟨fun _ => trivial, fun n => ⟨fun _ => trivial, fun bs => ?_⟩⟩
  cases bs with
  | nil => trivial
  | cons b bs => exact ⟨by simp, trivial⟩

/-- A node with a string of three bytes: with two of them shown, the loader sees the first and one more; the parser goes on after it. -/
def exLook : Bytes := [49, 0, 0, 0, 1, 0, 0, 0, 8, 0, 0, 0, 1, 65, 83, 3, 0, 0, 0, 7, 8, 9]

example : (match (⟨exParser true false 7400 exLook, none⟩ : Client).callBuf Zlib.stored (.plain .next : BufCall Nat) with
    | some (_, s) => (match s.callBuf Zlib.stored (.load ⟨0, fun _ => .piece 1⟩ exPeek) with
      | some (.value v, t) => some (v, t.parser.reader.position, t.parser.reader.rest)
      | _ => none)
    | none => none) = some (317, 47, [8, 9]) := by decide +kernel

/-! ## The rule is needed -/

/-- Consumes three bytes after two were shown. -/
def exGreedy : BufCons Unit := .fill (fun _ => .consume 3 (.done (.ok ())))

/-- **C84** (the rule is needed). A loader which consumes more than it was shown makes the tracked position differ from that of the source
(here behind an `io::BufReader`, which drops what is in its buffer only). -/
theorem C84_rule_needed : ¬ Polite 0 exGreedy ∧ (exGreedy.run (5, exDev)).1 = .ok () ∧ (exGreedy.run (5, exDev)).2.2.reader.position = 43 ∧
    (exGreedy.run (5, exDev)).2.2.reader.cursor = 42 := by
  refine ⟨fun h => ?_, by decide +kernel, by decide +kernel, by decide +kernel⟩
  have := (h.2 []).1
  simp at this

/-- Such a loader stays within its five bytes; here it tries to consume more than these. -/
example := C84_confined exGreedy 5 exDev (by decide)
example : ((BufCons.fill (fun _ => .consume 100 (.done (.ok ())))).run (5, exDev)).2.2.reader.position = 45 := by decide +kernel

end Fbx
