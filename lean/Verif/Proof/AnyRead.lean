import Verif.Spec.AnyRead
import Verif.Proof.ShortReads

/-! # The parser on a source of any type does what it does on the whole source -/

namespace Fbx
open Spec

/-- The reader of the model and the source stand for the same bytes. -/
structure Agrees {ρ : Type} (I : ρ → Prop) (tape : ρ → Tape) (r : Reader) (x : ρ) : Prop where
  inv : I x
  pos : r.position < u64Size
  rest : r.rest = (tape x).rest
  ending : r.ending = (tape x).ending
  cursor : r.cursor = (tape x).pos
  limit : r.seekLimit = (tape x).limit

namespace Agrees
variable {ρ : Type} {I : ρ → Prop} {tape : ρ → Tape} {r : Reader} {x y : ρ}

theorem of_tape (h : Agrees I tape r x) (hy : I y) (ht : tape y = tape x) : Agrees I tape r y :=
  ⟨hy, h.pos, by rw [ht]; exact h.rest, by rw [ht]; exact h.ending, by rw [ht]; exact h.cursor, by rw [ht]; exact h.limit⟩

theorem moved (h : Agrees I tape r x) {k : Nat} (hy : I y) (ht : tape y = { tape x with pos := (tape x).pos + k }) (hp : r.position + k < u64Size) :
    Agrees I tape (r.consume k) y :=
  ⟨hy, hp, by rw [ht]; simp [Reader.consume, h.rest, Tape.rest], by rw [ht]; exact h.ending, by rw [ht]; simp [Reader.consume, h.cursor],
    by rw [ht]; exact h.limit⟩

theorem movedInner (h : Agrees I tape r x) {k : Nat} (hy : I y) (ht : tape y = { tape x with pos := (tape x).pos + k }) :
    Agrees I tape (r.consumeInner k) y :=
  ⟨hy, h.pos, by rw [ht]; simp [Reader.consumeInner, h.rest, Tape.rest], by rw [ht]; exact h.ending, by rw [ht]; simp [Reader.consumeInner, h.cursor],
    by rw [ht]; exact h.limit⟩

end Agrees

/-- Code `q` on the source does what `m` does on the whole source: with enough fuel it ends, with the same result and, unless that is a
panic, in the same state. -/
def Heeds {ρ ε σ α : Type} (I : ρ → Prop) (tape : ρ → Tape) (rd : σ → Reader) (m : M ε σ α) (q : SM ρ ε σ α) : Prop :=
  ∀ s i, Agrees I tape (rd s) i → ∃ f0 s' j, (∀ fuel, f0 ≤ fuel → q fuel (s, i) = some ((m s).1, (s', j))) ∧
    ((∀ p, (m s).1 ≠ .panic p) → s' = (m s).2 ∧ Agrees I tape (rd s') j)

/-! ## The loops over reads -/

namespace Source
variable {ρ α ε : Type} {D : Source ρ} {I : ρ → Prop} {tape : ρ → Tape}

/-- What a loop does: from some fuel on, the result of `m` and, unless that is a panic, its state. -/
def Ends (I : ρ → Prop) (tape : ρ → Tape) {β : Type} (loop : Nat → Option (Res IoErr β × (Reader × ρ))) (m : Res IoErr β × Reader) : Prop :=
  ∃ f0 r' j, (∀ fuel, f0 ≤ fuel → loop fuel = some (m.1, (r', j))) ∧ ((∀ p, m.1 ≠ .panic p) → r' = m.2 ∧ Agrees I tape r' j)

/-- A step of a loop. -/
theorem Ends.step {β : Type} {loop loop' : Nat → Option (Res IoErr β × (Reader × ρ))} {m m' : Res IoErr β × Reader}
    (h : Ends I tape loop' m') (hl : ∀ fuel, loop (fuel + 1) = loop' fuel) (h1 : m'.1 = m.1) (h2 : (∀ p, m.1 ≠ .panic p) → m'.2 = m.2) :
    Ends I tape loop m := by
  obtain ⟨f0, r', j, k1, k2⟩ := h
  refine ⟨f0 + 1, r', j, fun fuel hfuel => ?_, fun hp => ?_⟩
  · obtain ⟨f, rfl⟩ : ∃ f, fuel = f + 1 := ⟨fuel - 1, by omega⟩
    rw [hl, k1 f (by omega), h1]
  · obtain ⟨rfl, k4⟩ := k2 (by rw [h1]; exact hp)
    exact ⟨h2 hp, k4⟩

theorem Ends.last {β : Type} {loop : Nat → Option (Res IoErr β × (Reader × ρ))} {m : Res IoErr β × Reader} (r' : Reader) (j : ρ)
    (hl : ∀ fuel, loop (fuel + 1) = some (m.1, (r', j))) (h : (∀ p, m.1 ≠ .panic p) → r' = m.2 ∧ Agrees I tape r' j) : Ends I tape loop m :=
  ⟨1, r', j, fun fuel hfuel => by obtain ⟨f, rfl⟩ : ∃ f, fuel = f + 1 := ⟨fuel - 1, by omega⟩; exact hl f, h⟩

/-- Reading `j` bytes before the others. -/
theorem readExact_step {n j : Nat} {r : Reader} {acc : Bytes} (hj : j ≤ n) (j3 : j ≤ r.rest.length) :
    (Chunked.prefixed (acc ++ r.rest.take j) (Reader.readExact (n - j) (r.consume j))).1 = (Chunked.prefixed acc (Reader.readExact n r)).1 ∧
      ((∀ x, (Reader.readExact n r).1 ≠ .panic x) → (Reader.readExact (n - j) (r.consume j)).2 = (Reader.readExact n r).2) := by
  unfold Chunked.prefixed
  have e1 : (r.consume j).rest.length = r.rest.length - j := by simp [Reader.consume]
  have e2 : (r.consume j).position = r.position + j := rfl
  have e3 : (r.consume j).ending = r.ending := rfl
  by_cases hln : n ≤ r.rest.length
  · have : n - j ≤ r.rest.length - j := by omega
    by_cases hov : r.position + n < u64Size
    · have hov' : r.position + j + (n - j) < u64Size := by omega
      simp only [Reader.readExact, e1, e2, hln, this, hov, hov', if_true, Chunked.consume_consume, show j + (n - j) = n by omega, and_true, implies_true]
      simp only [Reader.consume, List.append_assoc]
      rw [← List.take_add, show j + (n - j) = n by omega]
    · have hov' : ¬ r.position + j + (n - j) < u64Size := by omega
      simp [Reader.readExact, e1, e2, hln, this, hov, hov']
  · have : ¬ n - j ≤ r.rest.length - j := by omega
    have hq : r.position + j + (r.rest.length - j) = r.position + r.rest.length := by omega
    simp only [Reader.readExact, e1, e2, e3, hln, this, hq, if_false, Chunked.consume_consume, show j + (r.rest.length - j) = r.rest.length by omega]
    by_cases hov : r.position + r.rest.length < u64Size
    · simp [hov]
    · simp [hov]

theorem consume_all {r : Reader} (h : r.rest = []) : r.consume r.rest.length = r := by
  simp [h, Reader.consume]; cases r; simp_all

theorem consumeInner_all {r : Reader} (h : r.rest = []) : r.consumeInner r.rest.length = r := by
  simp [h, Reader.consumeInner]; cases r; simp_all

theorem exactLoop_ends (hf : Delivers D I tape) (n : Nat) : ∀ (acc : Bytes) (r : Reader) (x : ρ), Agrees I tape r x →
    Ends I tape (fun fuel => exactLoop D fuel n acc (r, x)) (Chunked.prefixed acc (Reader.readExact n r)) := by
  induction n using Nat.strongRecOn with
  | ind n ihn =>
    intro acc r x hx
    by_cases hn : n = 0
    · subst hn
      have h0 := hx.pos
      refine .last r x (fun fuel => ?_) fun _ => ⟨?_, hx⟩
      · simp [exactLoop, Reader.readExact, h0, Chunked.prefixed]
      · simp [Reader.readExact, h0, Reader.consume, Chunked.prefixed]
    · have hacc := hf.calm x hx.inv
      induction hacc with
      | intro x _ ihx =>
        rcases hr : D.read n x with ⟨_ | _ | bs, x'⟩
        · obtain ⟨h1, h2⟩ := hf.interrupted _ _ _ hx.inv hr
          refine (ihx x' ⟨n, hr⟩ (hx.of_tape h1 h2)).step (fun fuel => ?_) rfl fun _ => rfl
          simp only [exactLoop, if_neg hn, readOnce, hr]
        · obtain ⟨h1, h2, h3, h4⟩ := hf.fails _ _ _ _ hx.inv hr
          have hr0 : r.rest = [] := by rw [hx.rest, h3]
          have hle : ¬ n ≤ r.rest.length := by rw [hr0]; simpa using hn
          have hz' : r.position + r.rest.length < u64Size := by simpa [hr0] using hx.pos
          refine .last r x' (fun fuel => ?_) fun _ => ⟨?_, hx.of_tape h1 h2⟩
          · simp only [exactLoop, if_neg hn, readOnce, hr, Reader.readExact, hle, hz', if_true, if_false, Chunked.prefixed, hx.ending, h4, Option.getD]
          · simp only [Reader.readExact, hle, hz', if_true, if_false, Chunked.prefixed, consume_all hr0]
        · obtain ⟨h1, h2, h3, h4, h5⟩ := hf.bytes _ _ _ _ hx.inv hr
          rw [← hx.rest] at h4 h5
          rw [← hx.ending] at h5
          have hl := h4.length_le
          have hb : bs = r.rest.take bs.length := List.prefix_iff_eq_take.1 h4
          by_cases h0 : bs = []
          · obtain ⟨hr0, he⟩ := (h5 h0).resolve_left hn
            have hle : ¬ n ≤ r.rest.length := by rw [hr0]; simpa using hn
            have hz' : r.position + r.rest.length < u64Size := by simpa [hr0] using hx.pos
            have hc : r.consume 0 = r := by have := consume_all hr0; rw [hr0] at this; exact this
            subst h0
            refine .last r x' (fun fuel => ?_) fun _ => ⟨?_, ?_⟩
            · have := hx.pos
              simp only [exactLoop, if_neg hn, readOnce, hr, Reader.readExact, hle, hz', if_true, if_false, Chunked.prefixed, he, Option.getD,
                List.length_nil, Nat.add_zero, this, hc]
            · simp only [Reader.readExact, hle, hz', if_true, if_false, Chunked.prefixed, consume_all hr0]
            · exact hx.of_tape h1 (by rw [h2]; rfl)
          · by_cases ho : r.position + bs.length < u64Size
            · have key := readExact_step (acc := acc) h3 hl
              rw [← hb] at key
              have hpos : 0 < bs.length := List.length_pos_iff.mpr h0
              refine (ihn (n - bs.length) (by omega) (acc ++ bs) (r.consume bs.length) x' (hx.moved h1 h2 ho)).step (fun fuel => ?_) key.1
                fun hp => key.2 (Chunked.prefixed_panic hp)
              simp only [exactLoop, if_neg hn, readOnce, hr, if_pos ho]
              cases bs with
              | nil => exact absurd rfl h0
              | cons b bs => rfl
            · have hpan : Reader.readExact n r = (.panic .positionOverflow, r) := by
                by_cases hln : n ≤ r.rest.length
                · simp [Reader.readExact, hln, show ¬ r.position + n < u64Size by omega]
                · simp [Reader.readExact, hln, show ¬ r.position + r.rest.length < u64Size by omega]
              rw [hpan]
              refine .last r x' (fun fuel => ?_) fun hp => absurd rfl (hp _)
              simp only [exactLoop, if_neg hn, readOnce, hr, if_neg ho, Chunked.prefixed]

theorem endLoop_ends (hf : Delivers D I tape) (n : Nat) : ∀ (acc : Bytes) (r : Reader) (x : ρ), Agrees I tape r x →
    Ends I tape (fun fuel => endLoop D fuel n acc (r, x)) (Chunked.prefixed acc (Chunked.readAll n r)) := by
  induction n using Nat.strongRecOn with
  | ind n ihn =>
    intro acc r x hx
    by_cases hn : n = 0
    · subst hn
      rw [Chunked.readAll_zero hx.pos]
      exact .last r x (fun fuel => by simp [endLoop, Chunked.prefixed]) fun _ => ⟨rfl, hx⟩
    · have hacc := hf.calm x hx.inv
      induction hacc with
      | intro x _ ihx =>
        have hm : min (D.bufs x + 1) n ≠ 0 := by omega
        rcases hr : D.read (min (D.bufs x + 1) n) x with ⟨_ | _ | bs, x'⟩
        · obtain ⟨h1, h2⟩ := hf.interrupted _ _ _ hx.inv hr
          refine (ihx x' ⟨_, hr⟩ (hx.of_tape h1 h2)).step (fun fuel => ?_) rfl fun _ => rfl
          simp only [endLoop, if_neg hn, readOnce, hr]
        · obtain ⟨h1, h2, h3, h4⟩ := hf.fails _ _ _ _ hx.inv hr
          have hr0 : r.rest = [] := by rw [hx.rest, h3]
          have hle : ¬ n ≤ r.rest.length := by rw [hr0]; simpa using hn
          have hz' : r.position + r.rest.length < u64Size := by simpa [hr0] using hx.pos
          refine .last r x' (fun fuel => ?_) fun _ => ⟨?_, hx.of_tape h1 h2⟩
          · simp only [endLoop, if_neg hn, readOnce, hr, Chunked.readAll, hle, hz', if_true, if_false, Chunked.prefixed, hx.ending, h4]
          · simp only [Chunked.readAll, hle, hz', if_true, if_false, Chunked.prefixed, consume_all hr0]
        · obtain ⟨h1, h2, h3, h4, h5⟩ := hf.bytes _ _ _ _ hx.inv hr
          rw [← hx.rest] at h4 h5
          rw [← hx.ending] at h5
          have hl := h4.length_le
          have hb : bs = r.rest.take bs.length := List.prefix_iff_eq_take.1 h4
          by_cases h0 : bs = []
          · obtain ⟨hr0, he⟩ := (h5 h0).resolve_left hm
            have hle : ¬ n ≤ r.rest.length := by rw [hr0]; simpa using hn
            have hz' : r.position + r.rest.length < u64Size := by simpa [hr0] using hx.pos
            have hc : r.consume 0 = r := by have := consume_all hr0; rw [hr0] at this; exact this
            subst h0
            refine .last r x' (fun fuel => ?_) fun _ => ⟨?_, ?_⟩
            · have := hx.pos
              simp only [endLoop, if_neg hn, readOnce, hr, Chunked.readAll, hle, hz', if_true, if_false, Chunked.prefixed, he,
                List.length_nil, Nat.add_zero, this, hc, hr0, List.append_nil, Nat.le_zero_eq, hn]
            · simp only [Chunked.readAll, hle, hz', if_true, if_false, Chunked.prefixed, consume_all hr0]
            · exact hx.of_tape h1 (by rw [h2]; rfl)
          · by_cases ho : r.position + bs.length < u64Size
            · have key := Chunked.readAll_step (n := n) (acc := acc) (by omega) hl ho
              rw [← hb] at key
              have hpos : 0 < bs.length := List.length_pos_iff.mpr h0
              refine (ihn (n - bs.length) (by omega) (acc ++ bs) (r.consume bs.length) x' (hx.moved h1 h2 ho)).step (fun fuel => ?_) key.1
                fun hp => key.2 (Chunked.prefixed_panic hp)
              simp only [endLoop, if_neg hn, readOnce, hr, if_pos ho]
              cases bs with
              | nil => exact absurd rfl h0
              | cons b bs => rfl
            · have hpan : Chunked.readAll n r = (.panic .positionOverflow, r) := by
                by_cases hln : n ≤ r.rest.length
                · simp [Chunked.readAll, hln, show ¬ r.position + n < u64Size by omega]
                · simp [Chunked.readAll, hln, show ¬ r.position + r.rest.length < u64Size by omega]
              rw [hpan]
              refine .last r x' (fun fuel => ?_) fun hp => absurd rfl (hp _)
              simp only [endLoop, if_neg hn, readOnce, hr, if_neg ho, Chunked.prefixed]

theorem copyLoop_ends (hf : Delivers D I tape) (n : Nat) : ∀ (r : Reader) (x : ρ), Agrees I tape r x →
    Ends I tape (fun fuel => copyLoop D fuel n (r, x)) (Reader.skipPlain n r) := by
  induction n using Nat.strongRecOn with
  | ind n ihn =>
    intro r x hx
    by_cases hn : n = 0
    · subst hn
      refine .last r x (fun fuel => ?_) fun _ => ⟨?_, hx⟩
      · simp [copyLoop, Reader.skipPlain]
      · simp [Reader.skipPlain, Reader.consumeInner]
    · have hacc := hf.calm x hx.inv
      induction hacc with
      | intro x _ ihx =>
        have hm : min (D.copyBuf + 1) n ≠ 0 := by omega
        rcases hr : D.read (min (D.copyBuf + 1) n) x with ⟨_ | _ | bs, x'⟩
        · obtain ⟨h1, h2⟩ := hf.interrupted _ _ _ hx.inv hr
          refine (ihx x' ⟨_, hr⟩ (hx.of_tape h1 h2)).step (fun fuel => ?_) rfl fun _ => rfl
          simp only [copyLoop, if_neg hn, hr]
        · obtain ⟨h1, h2, h3, h4⟩ := hf.fails _ _ _ _ hx.inv hr
          have hr0 : r.rest = [] := by rw [hx.rest, h3]
          have hle : ¬ n ≤ r.rest.length := by rw [hr0]; simpa using hn
          rw [← hx.ending] at h4
          refine .last r x' (fun fuel => ?_) fun _ => ⟨?_, hx.of_tape h1 h2⟩
          · simp only [copyLoop, if_neg hn, hr, Reader.skipPlain, hle, if_false, h4]
          · simp only [Reader.skipPlain, hle, if_false, h4, consumeInner_all hr0]
        · obtain ⟨h1, h2, h3, h4, h5⟩ := hf.bytes _ _ _ _ hx.inv hr
          rw [← hx.rest] at h4 h5
          rw [← hx.ending] at h5
          have hl := h4.length_le
          by_cases h0 : bs = []
          · obtain ⟨hr0, he⟩ := (h5 h0).resolve_left hm
            have hle : ¬ n ≤ r.rest.length := by rw [hr0]; simpa using hn
            subst h0
            refine .last r x' (fun fuel => ?_) fun _ => ⟨?_, ?_⟩
            · simp only [copyLoop, if_neg hn, hr, Reader.skipPlain, hle, if_false, he]
            · simp only [Reader.skipPlain, hle, if_false, he, consumeInner_all hr0]
            · exact hx.of_tape h1 (by rw [h2]; rfl)
          · have hpos : 0 < bs.length := List.length_pos_iff.mpr h0
            have key : Reader.skipPlain (n - bs.length) (r.consumeInner bs.length) = Reader.skipPlain n r := by
              generalize bs.length = j at *
              have e1 : (r.consumeInner j).rest.length = r.rest.length - j := by simp [Reader.consumeInner]
              have e3 : (r.consumeInner j).ending = r.ending := rfl
              by_cases hln : n ≤ r.rest.length
              · simp only [Reader.skipPlain, e1, hln, show n - j ≤ r.rest.length - j by omega, if_true, Chunked.consumeInner_consumeInner,
                  show j + (n - j) = n by omega]
              · simp only [Reader.skipPlain, e1, e3, hln, show ¬ n - j ≤ r.rest.length - j by omega, if_false, Chunked.consumeInner_consumeInner,
                  show j + (r.rest.length - j) = r.rest.length by omega]
            refine (ihn (n - bs.length) (by omega) (r.consumeInner bs.length) x' (hx.movedInner h1 h2)).step (fun fuel => ?_) (by rw [key])
              fun hp => by rw [key]
            simp only [copyLoop, if_neg hn, hr]
            cases bs with
            | nil => exact absurd rfl h0
            | cons b bs => rfl

theorem seekLoop_spec (hf : Delivers D I tape) : ∀ (parts d : Nat) (r : Reader) (x : ρ), Agrees I tape r x →
    ∃ r' j, seekLoop D parts d (r, x) = ((Reader.skipSeekLoop parts d r).1, (r', j)) ∧
      ((∀ p, (Reader.skipSeekLoop parts d r).1 ≠ .panic p) → r' = (Reader.skipSeekLoop parts d r).2 ∧ Agrees I tape r' j)
  | 0, d, r, x, hx => ⟨r, x, rfl, fun _ => ⟨rfl, hx⟩⟩
  | parts + 1, d, r, x, hx => by
    unfold seekLoop Reader.skipSeekLoop
    dsimp only
    by_cases hd : d = 0
    · simp only [if_pos hd]; exact ⟨r, x, rfl, fun _ => ⟨rfl, hx⟩⟩
    · simp only [if_neg hd]
      generalize hk : min d i64Max = k
      rcases hs : D.seek (k : Int) x with ⟨e | _, x'⟩
      · obtain ⟨h1, h2, h3, h4⟩ := hf.refuses _ _ _ _ hx.inv hs
        have : ¬ r.cursor + k ≤ r.seekLimit := by rw [hx.cursor, hx.limit]; omega
        simp only [if_neg this, h3]
        exact ⟨r, x', rfl, fun _ => ⟨rfl, hx.of_tape h1 h2⟩⟩
      · obtain ⟨h1, h2, h3, h4⟩ := hf.seeks _ _ _ hx.inv hs
        have : r.cursor + k ≤ r.seekLimit := by rw [hx.cursor, hx.limit]; omega
        have ht : tape x' = { tape x with pos := (tape x).pos + k } := by
          rw [h4]; congr 1
        simp only [if_pos this]
        by_cases hp : r.position + k < u64Size
        · simp only [if_pos hp]
          exact seekLoop_spec hf parts _ _ _ (hx.moved h1 ht hp)
        · simp only [if_neg hp]
          exact ⟨_, _, rfl, fun h => absurd rfl (h _)⟩

end Source

namespace Heeds
variable {ρ ε ε' σ τ α β : Type} {rd : σ → Reader} {I : ρ → Prop} {tape : ρ → Tape}

/-- Code that leaves the reader alone. -/
theorem lift {m : M ε σ α} (h : ∀ s, (∀ p, (m s).1 ≠ .panic p) → rd (m s).2 = rd s) : Heeds I tape rd m (SM.lift m) :=
  fun s i hs => ⟨0, (m s).2, i, fun _ _ => rfl, fun hp => ⟨rfl, by rw [h s hp]; exact hs⟩⟩

theorem pure (a : α) : Heeds I tape rd (Pure.pure a : M ε σ α) (Pure.pure a : SM ρ ε σ α) :=
  fun s i hs => ⟨0, s, i, fun _ _ => rfl, fun _ => ⟨rfl, hs⟩⟩

theorem bind {m : M ε σ α} {q : SM ρ ε σ α} {f : α → M ε σ β} {g : α → SM ρ ε σ β} (h : Heeds I tape rd m q) (hf : ∀ a, Heeds I tape rd (f a) (g a)) :
    Heeds I tape rd (m >>= f) (q >>= g) := by
  intro s i hs
  obtain ⟨f0, s', j, h1, h2⟩ := h s i hs
  rcases hm : m s with ⟨x, t⟩
  rw [hm] at h1 h2
  cases x with
  | ok a =>
    obtain ⟨rfl, ht⟩ := h2 (by simp)
    obtain ⟨f1, s'', j', h3, h4⟩ := hf a s' j ht
    refine ⟨max f0 f1, s'', j', fun fuel hfuel => ?_, ?_⟩
    · show SM.bind q g fuel (s, i) = _
      simp only [SM.bind, h1 fuel (by omega), h3 fuel (by omega), M.bind_apply, hm]
    · simpa only [M.bind_apply, hm] using h4
  | err e =>
    obtain ⟨rfl, ht⟩ := h2 (by simp)
    refine ⟨f0, s', j, fun fuel hfuel => ?_, ?_⟩
    · show SM.bind q g fuel (s, i) = _
      simp only [SM.bind, h1 fuel hfuel, M.bind_apply, hm]
    · simp only [M.bind_apply, hm]; exact fun _ => ⟨trivial, ht⟩
  | panic p =>
    refine ⟨f0, s', j, fun fuel hfuel => ?_, ?_⟩
    · show SM.bind q g fuel (s, i) = _
      simp only [SM.bind, h1 fuel hfuel, M.bind_apply, hm]
    · simp only [M.bind_apply, hm]; exact fun hp => absurd rfl (hp p)

theorem mapErr {m : M ε σ α} {q : SM ρ ε σ α} (f : ε → ε') (h : Heeds I tape rd m q) : Heeds I tape rd (M.mapErr f m) (SM.mapErr f q) := by
  intro s i hs
  obtain ⟨f0, s', j, h1, h2⟩ := h s i hs
  rcases hm : m s with ⟨x, t⟩
  rw [hm] at h1 h2
  refine ⟨f0, s', j, fun fuel hfuel => ?_, ?_⟩
  · rw [SM.mapErr, h1 fuel hfuel, M.mapErr_apply, hm]; cases x <;> rfl
  · rw [M.mapErr_apply, hm]
    cases x with
    | ok a => exact fun _ => h2 (by simp)
    | err e => exact fun _ => h2 (by simp)
    | panic p => exact fun hp => absurd rfl (hp p)

theorem zoom {rt : τ → Reader} {m : M ε τ α} {q : SM ρ ε τ α} {getter : σ → τ} {setter : τ → σ → σ} (hg : ∀ s, rt (getter s) = rd s)
    (hset : ∀ t s, rd (setter t s) = rt t) (h : Heeds I tape rt m q) : Heeds I tape rd (M.zoom getter setter m) (SM.zoom getter setter q) := by
  intro s i hs
  obtain ⟨f0, t', j, h1, h2⟩ := h (getter s) i (by rw [hg]; exact hs)
  refine ⟨f0, setter t' s, j, fun fuel hfuel => ?_, fun hp => ?_⟩
  · rw [SM.zoom, h1 fuel hfuel, M.zoom_apply]
  · rw [M.zoom_apply] at hp ⊢
    obtain ⟨rfl, h3⟩ := h2 hp
    exact ⟨rfl, by rw [hset]; exact h3⟩

theorem ite {c : Prop} [Decidable c] {m n : M ε σ α} {q r : SM ρ ε σ α} (h1 : Heeds I tape rd m q) (h2 : Heeds I tape rd n r) :
    Heeds I tape rd (if c then m else n) (if c then q else r) := by split <;> assumption

/-- A `match` on the result of a call. -/
theorem andThen {m : M ε σ α} {q : SM ρ ε σ α} {n : M ε' σ β} {f : Res ε α → M ε' σ β} {g : Res ε α → SM ρ ε' σ β} (h : Heeds I tape rd m q)
    (hf : ∀ x, Heeds I tape rd (f x) (g x))
    (hn : ∀ s, n s = match m s with | (.panic p, s') => (.panic p, s') | (x, s') => f x s') : Heeds I tape rd n (SM.andThen q g) := by
  intro s i hs
  obtain ⟨f0, s', j, h1, h2⟩ := h s i hs
  have hns := hn s
  rcases hm : m s with ⟨x, t⟩
  rw [hm] at h1 h2 hns
  cases x with
  | panic p =>
    refine ⟨f0, s', j, fun fuel hfuel => ?_, ?_⟩
    · simp only [SM.andThen, h1 fuel hfuel, hns]
    · rw [hns]; exact fun hp => absurd rfl (hp p)
  | ok a =>
    obtain ⟨rfl, ht⟩ := h2 (by simp)
    obtain ⟨f1, s'', j', h3, h4⟩ := hf (.ok a) s' j ht
    refine ⟨max f0 f1, s'', j', fun fuel hfuel => ?_, ?_⟩
    · simp only [SM.andThen, h1 fuel (by omega), h3 fuel (by omega), hns]
    · rw [hns]; exact h4
  | err e =>
    obtain ⟨rfl, ht⟩ := h2 (by simp)
    obtain ⟨f1, s'', j', h3, h4⟩ := hf (.err e) s' j ht
    refine ⟨max f0 f1, s'', j', fun fuel hfuel => ?_, ?_⟩
    · simp only [SM.andThen, h1 fuel (by omega), h3 fuel (by omega), hns]
    · rw [hns]; exact h4

end Heeds

namespace Source
open Device
variable {ρ α ε : Type} {D : Source ρ} {I : ρ → Prop} {tape : ρ → Tape}

theorem readExact_follows (hf : Delivers D I tape) (n : Nat) : Heeds I tape id (Reader.readExact n) (readExact D n) := by
  intro r i hr
  have h := exactLoop_ends hf n [] r i hr
  rw [Chunked.prefixed_nil] at h
  exact h

theorem skipTo_follows (hf : Delivers D I tape) (pos : Nat) : Heeds I tape id (Reader.skipTo pos) (skipTo D pos) := by
  intro r i hr
  unfold skipTo Reader.skipTo
  by_cases h1 : pos < r.position
  · refine ⟨0, r, i, fun _ _ => ?_, ?_⟩
    · simp only [if_pos h1]
    · simp only [if_pos h1]; exact fun hp => absurd rfl (hp _)
  · simp only [if_neg h1, Reader.skipDistance]
    cases hs : r.seekable with
    | true =>
      obtain ⟨r', j, h2, h3⟩ := seekLoop_spec hf ((pos - r.position) / i64Max + 1) (pos - r.position) r i hr
      refine ⟨0, r', j, fun _ _ => ?_, h3⟩
      simp only [if_true, skipSeek, h2]
      rfl
    | false =>
      obtain ⟨f0, r', j, h2, h3⟩ := copyLoop_ends hf (pos - r.position) r i hr
      refine ⟨f0, r', j, fun fuel hfuel => ?_, h3⟩
      simp only [Bool.false_eq_true, if_false, skipPlain]
      exact h2 fuel hfuel

/-- Code that leaves the reader alone. -/
theorem _root_.Fbx.Device.Still.heeds {σ : Type} {rd : σ → Reader} {m : M ε σ α} (h : Still rd m) : Heeds I tape rd m (SM.lift m) := .lift fun s _ => h s

theorem readU8_follows (hf : Delivers D I tape) : Heeds I tape id Reader.readU8 (readU8 D) :=
  (readExact_follows hf 1).bind fun _ => .pure _

theorem readLe_follows (hf : Delivers D I tape) (k : Nat) : Heeds I tape id (Reader.readLe k) (readLe D k) :=
  (readExact_follows hf k).bind fun _ => .pure _

theorem loadHeader_follows (hf : Delivers D I tape) : Heeds I tape id Fbx.loadHeader (loadHeader D) :=
  ((readExact_follows hf 23).mapErr _).bind fun _ => .ite (.lift fun _ _ => rfl) (((readExact_follows hf 4).mapErr _).bind fun _ => .pure _)

/-! ## The parser -/

theorem io_follows {m : M IoErr Reader α} {q : SM ρ IoErr Reader α} (h : Heeds I tape id m q) : Heeds I tape Parser.reader (Parser.io m) (io q) :=
  (h.zoom (fun _ => rfl) (fun _ _ => rfl)).mapErr _

theorem get_follows {σ : Type} {rd : σ → Reader} : Heeds I tape rd (M.get : M ε σ σ) (SM.lift M.get) := .lift fun _ _ => rfl

theorem throw_follows {σ : Type} {rd : σ → Reader} (e : ε) : Heeds I tape rd (M.throw e : M ε σ α) (SM.lift (M.throw e)) := .lift fun _ _ => rfl

theorem panic_follows {σ : Type} {rd : σ → Reader} (x : Panic) : Heeds I tape rd (M.panic x : M ε σ α) (SM.lift (M.panic x)) := .lift fun _ _ => rfl

theorem assert_follows {σ : Type} {rd : σ → Reader} (b : Bool) (x : Panic) : Heeds I tape rd (M.assert b x : M ε σ Unit) (SM.lift (M.assert b x)) :=
  .lift fun s _ => by cases b <;> rfl

theorem readNodeHeader_follows (hf : Delivers D I tape) : Heeds I tape Parser.reader Parser.readNodeHeader (readNodeHeader D) :=
  get_follows.bind fun _ => (io_follows (readLe_follows hf _)).bind fun _ => (io_follows (readLe_follows hf _)).bind fun _ =>
    (io_follows (readLe_follows hf _)).bind fun _ => (io_follows (readLe_follows hf _)).bind fun _ => .pure _

theorem skipUnreadAttributes_follows (hf : Delivers D I tape) : Heeds I tape Parser.reader Parser.skipUnreadAttributes (skipUnreadAttributes D) := by
  refine get_follows.bind fun p => ?_
  generalize p.started = l
  cases l
  · exact .pure _
  · exact .ite (io_follows (skipTo_follows hf _)) (.pure _)

theorem follows {m : M ε σ α} (h : Still rd m) : Heeds I tape rd m (SM.lift m) := .lift fun s _ => by rw [h s]

theorem startNode_follows (hf : Delivers D I tape) (start : Nat) (h : NodeHeader) : Heeds I tape Parser.reader (Parser.startNode start h) (startNode D start h) := by
  rw [startNode_eq]
  refine (Still.heeds (Still.ite (warnEmptyName_still start) (.pure _))).bind fun _ => ?_
  refine (io_follows (readExact_follows hf _)).bind fun bs => ?_
  generalize stringOfUtf8 bs = o
  cases o with
  | none => exact throw_follows _
  | some name =>
    exact get_follows.bind fun p => (addAttrEnd_still _ _).heeds.bind fun e => (modify_still (pushNode_reader _)).heeds.bind fun _ => .pure _

theorem nextEventImpl_follows (hf : Delivers D I tape) : Heeds I tape Parser.reader Parser.nextEventImpl (nextEventImpl D) := by
  refine get_follows.bind fun p => (assert_follows _ _).bind fun _ => (assert_follows _ _).bind fun _ =>
    (skipUnreadAttributes_follows hf).bind fun _ => get_follows.bind fun p' => tryImplicitEnd_still.heeds.bind fun ended => .ite (.pure _) ?_
  exact (readNodeHeader_follows hf).bind fun h => .ite explicitEnd_still.heeds (startNode_follows hf _ _)

theorem readFooter_follows (hf : Delivers D I tape) : Heeds I tape Parser.reader Parser.readFooter (readFooter D) := by
  refine get_follows.bind fun p => (io_follows (readExact_follows hf _)).bind fun u => get_follows.bind fun p' =>
    (warnIf_still _ _ _).heeds.bind fun _ => (io_follows (readExact_follows hf _)).bind fun buf => ?_
  dsimp only
  generalize List.findIdx? _ (buf.drop 128) = o
  cases o with
  | none => exact throw_follows _
  | some i =>
    refine (assert_follows _ _).bind fun _ => (assert_follows _ _).bind fun _ => .ite (throw_follows _) (.ite (throw_follows _) ?_)
    refine get_follows.bind fun p'' => .ite (throw_follows _) (.ite (throw_follows _) ?_)
    exact (io_follows (readExact_follows hf _)).bind fun more => .ite (throw_follows _) ((warnIf_still _ _ _).heeds.bind fun _ => .pure _)

theorem makeEvent_follows (hf : Delivers D I tape) (k : EvKind) : Heeds I tape Parser.reader (Parser.makeEvent k) (makeEvent D k) := by
  cases k with
  | startNode => exact (makeEvent_still (by simp)).heeds
  | endNode => exact (makeEvent_still (by simp)).heeds
  | endFbx =>
    refine (readFooter_follows hf).andThen (f := footerEvent) (fun x => ?_) (fun p => ?_)
    · cases x with
      | ok f => exact .pure _
      | err e => exact .pure _
      | panic x => exact panic_follows _
    · unfold Parser.makeEvent
      rcases Parser.readFooter p with ⟨_ | _ | _, _⟩ <;> rfl

theorem nextEvent_follows (hf : Delivers D I tape) : Heeds I tape Parser.reader Parser.nextEvent (nextEvent D) := by
  refine get_follows.bind fun p0 => (Still.heeds (fun p => ?_)).bind fun _ => ?_
  · unfold Parser.ensureContinuable
    split <;> rfl
  · refine (nextEventImpl_follows hf).andThen (f := impled p0.depth) (fun x => ?_) (fun p => ?_)
    · cases x with
      | ok k => exact (settle_still _ _).heeds.bind fun _ => makeEvent_follows hf k
      | err e => exact (failed_still e).heeds
      | panic x => exact panic_follows _
    · dsimp only
      rcases Parser.nextEventImpl p with ⟨k | e | x, q⟩
      · dsimp only [impled]
        rw [M.bind_apply]
        unfold settle
        dsimp only
        by_cases hk : k = .endFbx <;> simp only [hk, if_true, if_false]
        · cases Parser.depthOk .endFbx p0.depth ({ q with health := .finished, last := some .endFbx } : Parser).depth <;> rfl
        · cases Parser.depthOk k p0.depth ({ q with last := some k } : Parser).depth <;> rfl
      · rfl
      · rfl

theorem skipCurrentNode_follows (hf : Delivers D I tape) : Heeds I tape Parser.reader Parser.skipCurrentNode (skipCurrentNode D) := by
  intro p i hp
  unfold Parser.skipCurrentNode skipCurrentNode
  cases hl : p.started with
  | nil =>
    refine ⟨0, p, i, fun fuel _ => ?_, ?_⟩
    · show SM.bind _ _ fuel (p, i) = _
      simp only [SM.bind, SM.lift, M.get_apply, M.bind_apply, hl, M.panic_apply]
    · simp only [M.bind_apply, M.get_apply, hl, M.panic_apply]
      exact fun h => absurd rfl (h _)
  | cons n outer =>
    obtain ⟨f0, s', j, h1, h2⟩ := io_follows (skipTo_follows hf n.endOff) { p with started := outer, last := some .endNode } i hp
    refine ⟨f0, s', j, fun fuel hfuel => ?_, ?_⟩
    · show SM.bind _ _ fuel (p, i) = _
      simp only [SM.bind, SM.lift, M.get_apply, M.bind_apply, hl, M.set_apply]
      show SM.bind _ _ fuel (p, i) = _
      simp only [SM.bind, SM.lift, M.set_apply]
      exact h1 fuel hfuel
    · simp only [M.bind_apply, M.get_apply, hl, M.set_apply]
      exact h2

/-! ## Attributes -/

theorem par_follows {m : M PErr Parser α} {q : SM ρ PErr Parser α} (h : Heeds I tape Parser.reader m q) : Heeds I tape AP.rd (AP.par m) (par q) :=
  h.zoom (fun _ => rfl) (fun _ _ => rfl)

theorem aio_follows {m : M IoErr Reader α} {q : SM ρ IoErr Reader α} (h : Heeds I tape id m q) : Heeds I tape AP.rd (AP.io m) (aio q) :=
  par_follows (io_follows h)

/-- The type code has been read. -/
theorem typeRead_follows (code : Byte) : Heeds I tape AP.rd
    (match AttrType.fromTypeCode code with
      | none => M.throw (PErr.ofData (.invalidAttrTypeCode code))
      | some t => M.modify (fun a => { a with attrs := { a.attrs with rest := a.attrs.rest - 1 } }) >>= fun _ => pure (some t))
    (match AttrType.fromTypeCode code with
      | none => SM.lift (M.throw (PErr.ofData (.invalidAttrTypeCode code)))
      | some t => SM.lift (M.modify (fun a => { a with attrs := { a.attrs with rest := a.attrs.rest - 1 } })) >>= fun _ => pure (some t)) := by
  generalize AttrType.fromTypeCode code = o
  cases o with
  | none => exact throw_follows _
  | some t => refine Heeds.bind (Still.heeds (modify_still ?_)) fun _ => .pure _; intro a; rfl

theorem readNextType_follows (hf : Delivers D I tape) : Heeds I tape AP.rd AP.readNextType (readNextType D) := by
  rw [readNextType_eq]
  unfold readNextType
  refine get_follows.bind fun a => .ite (.pure _) ?_
  by_cases h : a.parser.reader.position < a.attrs.next
  · simp only [if_pos h]
    exact (aio_follows (skipTo_follows hf _)).bind fun _ => (aio_follows (readU8_follows hf)).bind fun code => typeRead_follows code
  · simp only [if_neg h]
    rw [M.pure_bind']
    exact (aio_follows (readU8_follows hf)).bind fun code => typeRead_follows code

theorem readArrHeader_follows (hf : Delivers D I tape) : Heeds I tape AP.rd AP.readArrHeader (readArrHeader D) := by
  refine (aio_follows (readLe_follows hf _)).bind fun count => (aio_follows (readLe_follows hf _)).bind fun raw => ?_
  generalize ArrEnc.fromU32 raw = o
  cases o with
  | none => exact throw_follows _
  | some enc => exact (aio_follows (readLe_follows hf _)).bind fun _ => .pure _

theorem decCreate_follows (hf : Delivers D I tape) (Z : Zlib) (enc : ArrEnc) : Heeds I tape id (Dec.create Z enc) (decCreate D Z enc) := by
  cases enc with
  | direct => exact .pure _
  | zlib =>
    refine ((readU8_follows hf).mapErr _).bind fun a => ((readU8_follows hf).mapErr _).bind fun b => ?_
    generalize Z.header a b = o
    cases o with
    | none => exact throw_follows _
    | some s => exact .pure _

theorem zRead_follows (hf : Delivers D I tape) (Z : Zlib) : ∀ (k n : Nat) (acc : Bytes) (F : Nat) (s : Z.S) (r : Reader) (i : ρ), n + r.rest.length = k → k < F →
    Agrees I tape r i → ∃ f0 s' r' j, (∀ fuel, f0 ≤ fuel → zRead D Z fuel n acc ((s, r), i) = some ((Dec.zRead Z F n acc (s, r)).1, ((s', r'), j))) ∧
      ((∀ p, (Dec.zRead Z F n acc (s, r)).1 ≠ .panic p) → (s', r') = (Dec.zRead Z F n acc (s, r)).2 ∧ Agrees I tape r' j) := by
  intro k
  induction k using Nat.strongRecOn with
  | ind k ih =>
    intro n acc F s r i hk hF hr
    obtain ⟨F, rfl⟩ : ∃ F', F = F' + 1 := ⟨F - 1, by omega⟩
    by_cases hn : n = 0
    · refine ⟨1, s, r, i, fun fuel hfuel => ?_, ?_⟩
      · obtain ⟨f, rfl⟩ : ∃ f, fuel = f + 1 := ⟨fuel - 1, by omega⟩
        simp only [zRead, Dec.zRead, if_pos hn]
      · simp only [Dec.zRead, if_pos hn]; exact fun _ => ⟨trivial, hr⟩
    · cases hst : Z.step s with
      | eof =>
        refine ⟨1, s, r, i, fun fuel hfuel => ?_, ?_⟩
        · obtain ⟨f, rfl⟩ : ∃ f, fuel = f + 1 := ⟨fuel - 1, by omega⟩
          simp only [zRead, Dec.zRead, if_neg hn, hst]
        · simp only [Dec.zRead, if_neg hn, hst]; exact fun _ => ⟨trivial, hr⟩
      | fail =>
        refine ⟨1, s, r, i, fun fuel hfuel => ?_, ?_⟩
        · obtain ⟨f, rfl⟩ : ∃ f, fuel = f + 1 := ⟨fuel - 1, by omega⟩
          simp only [zRead, Dec.zRead, if_neg hn, hst]
        · simp only [Dec.zRead, if_neg hn, hst]; exact fun _ => ⟨trivial, hr⟩
      | emit b s' =>
        obtain ⟨f0, s'', r', j, h1, h2⟩ := ih (n - 1 + r.rest.length) (by omega) (n - 1) (acc ++ [b]) F s' r i rfl (by omega) hr
        refine ⟨f0 + 1, s'', r', j, fun fuel hfuel => ?_, ?_⟩
        · obtain ⟨f, rfl⟩ : ∃ f, fuel = f + 1 := ⟨fuel - 1, by omega⟩
          simp only [zRead, Dec.zRead, if_neg hn, hst]
          exact h1 f (by omega)
        · simp only [Dec.zRead, if_neg hn, hst]; exact h2
      | need step =>
        obtain ⟨f0, r', j, h1, h2⟩ := readU8_follows hf r i hr
        rcases hu : Reader.readU8 r with ⟨b | e | p, r1⟩ <;> rw [hu] at h1 h2
        · obtain ⟨rfl, hr'⟩ := h2 (by simp)
          have hlen : r'.rest.length < r.rest.length := by
            have := readU8_len hu
            omega
          obtain ⟨f1, s'', r'', j', h3, h4⟩ := ih (n + r'.rest.length) (by omega) n acc F (step b) r' j rfl (by omega) hr'
          refine ⟨max f0 f1 + 1, s'', r'', j', fun fuel hfuel => ?_, ?_⟩
          · obtain ⟨f, rfl⟩ : ∃ f, fuel = f + 1 := ⟨fuel - 1, by omega⟩
            simp only [zRead, Dec.zRead, if_neg hn, hst, h1 f (by omega), hu]
            exact h3 f (by omega)
          · simp only [Dec.zRead, if_neg hn, hst, hu]; exact h4
        · obtain ⟨rfl, hr'⟩ := h2 (by simp)
          refine ⟨f0 + 1, s, r', j, fun fuel hfuel => ?_, ?_⟩
          · obtain ⟨f, rfl⟩ : ∃ f, fuel = f + 1 := ⟨fuel - 1, by omega⟩
            simp only [zRead, Dec.zRead, if_neg hn, hst, h1 f (by omega), hu]
          · simp only [Dec.zRead, if_neg hn, hst, hu]; exact fun _ => ⟨trivial, hr'⟩
        · refine ⟨f0 + 1, s, r', j, fun fuel hfuel => ?_, ?_⟩
          · obtain ⟨f, rfl⟩ : ∃ f, fuel = f + 1 := ⟨fuel - 1, by omega⟩
            simp only [zRead, Dec.zRead, if_neg hn, hst, h1 f (by omega), hu]
          · simp only [Dec.zRead, if_neg hn, hst, hu]; exact fun h => absurd rfl (h _)

theorem decExact_follows (hf : Delivers D I tape) {Z : Zlib} (n : Nat) : Heeds I tape Prod.snd (Dec.readExact (Z := Z) n) (decExact D n) := by
  rintro ⟨d, r⟩ i hr
  cases d with
  | direct =>
    obtain ⟨f0, r', j, h1, h2⟩ := readExact_follows hf n r i hr
    refine ⟨f0, (.direct, r'), j, fun fuel hfuel => ?_, fun hp => ?_⟩
    · simp only [decExact, h1 fuel hfuel, Dec.readExact]
    · obtain ⟨rfl, h3⟩ := h2 hp
      exact ⟨rfl, h3⟩
  | zlib z =>
    obtain ⟨f0, z', r', j, h1, h2⟩ := zRead_follows hf Z _ n [] (n + r.rest.length + 1) z r i rfl (by omega) hr
    refine ⟨f0, (.zlib z', r'), j, fun fuel hfuel => ?_, fun hp => ?_⟩
    · simp only [decExact, h1 fuel hfuel, Dec.readExact]
    · obtain ⟨h3, h4⟩ := h2 hp
      refine ⟨?_, h4⟩
      simp only [Dec.readExact, ← h3]

theorem elemNext_follows (hf : Delivers D I tape) {Z : Zlib} {e : Type} (t : ElemTy e) :
    Heeds I tape Prod.snd (ElemIter.next (Z := Z) t) (elemNext D t) := by
  rintro ⟨it, r⟩ i hr
  by_cases h0 : it.rest = 0
  · refine ⟨0, (it, r), i, fun fuel _ => ?_, fun _ => ⟨?_, hr⟩⟩ <;> simp only [elemNext, ElemIter.next, if_pos h0]
  · obtain ⟨f0, ⟨d', r'⟩, j, h1, h2⟩ := decExact_follows hf (Z := Z) t.size (it.dec, r) i hr
    rcases hd : Dec.readExact t.size (it.dec, r) with ⟨bs | x | x, d1, r1⟩ <;> rw [hd] at h1 h2
    · obtain ⟨h3, h4⟩ := h2 (by simp)
      cases h3
      refine ⟨f0, _, j, fun fuel hfuel => ?_, fun _ => ⟨rfl, ?_⟩⟩
      · simp only [elemNext, ElemIter.next, if_neg h0, h1 fuel hfuel, hd]
      · simp only [ElemIter.next, if_neg h0, hd]; exact h4
    · obtain ⟨h3, h4⟩ := h2 (by simp)
      cases h3
      refine ⟨f0, _, j, fun fuel hfuel => ?_, fun _ => ⟨rfl, ?_⟩⟩
      · simp only [elemNext, ElemIter.next, if_neg h0, h1 fuel hfuel, hd]
      · simp only [ElemIter.next, if_neg h0, hd]; exact h4
    · refine ⟨f0, ({ it with dec := d' }, r'), j, fun fuel hfuel => ?_, ?_⟩
      · simp only [elemNext, ElemIter.next, if_neg h0, h1 fuel hfuel, hd]
      · simp only [ElemIter.next, if_neg h0, hd]; exact fun h => absurd rfl (h _)

theorem elemRun_follows (hf : Delivers D I tape) {Z : Zlib} {e : Type} (t : ElemTy e) (c : SeqCons e α) :
    Heeds I tape Prod.snd (ElemIter.run (Z := Z) t c) (elemRun D t c) := by
  induction c with
  | done r => exact (ofExcept_still r).heeds
  | pull k ih => exact (elemNext_follows hf t).bind fun x => ih x

theorem special_follows (hf : Delivers D I tape) (len : Nat) (c : Special α) :
    Heeds I tape id (fun r => (((c.cons len).run (len, r)).1, ((c.cons len).run (len, r)).2.2)) (special D len c) := by
  intro r i hr
  cases c with
  | done x =>
    refine ⟨0, r, i, fun fuel _ => ?_, fun _ => ⟨?_, hr⟩⟩
    · cases x <;> rfl
    · cases x <;> rfl
  | toEnd fin =>
    have h := endLoop_ends hf len [] r i hr
    rw [Chunked.prefixed_nil] at h
    obtain ⟨f0, r', j, h1, h2⟩ := h
    obtain ⟨k1, k2⟩ := readToEnd_run len fin (len + 1) len [] r (by omega) (Nat.le_refl _) hr.pos
    rw [Chunked.prefixed_nil] at k1
    refine ⟨f0, r', j, fun fuel hfuel => ?_, fun hp => ?_⟩
    · simp only [special, h1 fuel hfuel, Special.cons, k1]
      rcases (Chunked.readAll len r).1 with bs | e | x
      · simp only [finished]; cases fin bs <;> rfl
      · rfl
      · rfl
    · have hp' : ∀ p, (Chunked.readAll len r).1 ≠ .panic p := by
        intro p hx
        refine hp p ?_
        simp only [Special.cons, k1, hx]
        rfl
      obtain ⟨h3, h4⟩ := h2 hp'
      exact ⟨h3.trans (k2 hp').symm, h4⟩

theorem runSeq_follows (hf : Delivers D I tape) {e : Type} {Z : Zlib} (t : ElemTy e) (c : SeqCons e α) (d : Dec Z) (count : Nat) :
    Heeds I tape AP.rd (AP.runSeq t c d count) (runSeq D t c d count) := by
  intro a i ha
  obtain ⟨f0, ⟨it, r⟩, j, h1, h2⟩ := elemRun_follows hf t c ((⟨d, count, false, false⟩ : ElemIter Z), a.parser.reader) i ha
  rcases hd : ElemIter.run t c ((⟨d, count, false, false⟩ : ElemIter Z), a.parser.reader) with ⟨x | x | x, it1, r1⟩ <;> rw [hd] at h1 h2
  · obtain ⟨h3, h4⟩ := h2 (by simp)
    cases h3
    refine ⟨f0, _, j, fun fuel hfuel => ?_, fun _ => ⟨rfl, ?_⟩⟩
    · simp only [runSeq, AP.runSeq, h1 fuel hfuel, hd]
    · simp only [AP.runSeq, hd]; exact h4
  · obtain ⟨h3, h4⟩ := h2 (by simp)
    cases h3
    refine ⟨f0, _, j, fun fuel hfuel => ?_, fun _ => ⟨rfl, ?_⟩⟩
    · simp only [runSeq, AP.runSeq, h1 fuel hfuel, hd]
    · simp only [AP.runSeq, hd]; exact h4
  · refine ⟨f0, { a with parser := { a.parser with reader := r } }, j, fun fuel hfuel => ?_, ?_⟩
    · simp only [runSeq, AP.runSeq, h1 fuel hfuel, hd]
    · simp only [AP.runSeq, hd]; exact fun h => absurd rfl (h _)

theorem loadSeq_follows (hf : Delivers D I tape) {e : Type} (Z : Zlib) (t : ElemTy e) (c : Nat → SeqCons e α) (start idx : Nat) :
    Heeds I tape AP.rd (AP.loadSeq Z t c start idx) (loadSeq D Z t c start idx) := by
  rw [loadSeq_eq]
  unfold loadSeq
  refine (readArrHeader_follows hf).bind fun h => (updateNext_still _).heeds.bind fun _ =>
    (par_follows (Heeds.zoom (rt := id) (fun _ => rfl) (fun _ _ => rfl) (decCreate_follows hf Z h.enc))).bind fun d =>
    (runSeq_follows hf t _ d _).bind fun x => ((oddWarning_still _ _ _).heeds (rd := AP.rd)).bind fun _ => Still.heeds ?_
  exact .ite (throw_still _) (.pure _)

theorem loadSpecial_follows (hf : Delivers D I tape) (c : Nat → Special α) :
    Heeds I tape AP.rd (AP.loadSpecial (fun n => (c n).cons n)) (loadSpecial D c) := by
  rw [loadSpecial_eq]
  exact (aio_follows (readLe_follows hf _)).bind fun len => (updateNext_still _).heeds.bind fun _ =>
    par_follows (Heeds.zoom (rt := id) (fun _ => rfl) (fun _ _ => rfl) (special_follows hf len (c len)))

theorem loadPrim_follows (hf : Delivers D I tape) (w : Nat) (f : BitVec (8 * w) → Except PErr α) : Heeds I tape AP.rd (AP.loadPrim w f) (loadPrim D w f) :=
  (aio_follows (readLe_follows hf _)).bind fun _ => (updateNext_still _).heeds.bind fun _ => (ofExcept_still _).heeds

theorem loadBool_follows (hf : Delivers D I tape) (f : Bool → Except PErr α) (start idx : Nat) :
    Heeds I tape AP.rd (AP.loadBool f start idx) (loadBool D f start idx) := by
  rw [loadBool_eq]
  exact (aio_follows (readU8_follows hf)).bind fun _ => (updateNext_still _).heeds.bind fun _ =>
    ((oddWarning_still _ _ _).heeds (rd := AP.rd)).bind fun _ => (ofExcept_still _).heeds

theorem loadImpl_follows (hf : Delivers D I tape) (Z : Zlib) (buffered : Bool) (t : AttrType) (l : WLoader α) (start idx : Nat) :
    Heeds I tape AP.rd (AP.loadImpl Z buffered t l.loader start idx) (loadImpl D Z buffered t l start idx) := by
  cases t with
  | bool => exact loadBool_follows hf _ _ _
  | i16 => exact loadPrim_follows hf _ _
  | i32 => exact loadPrim_follows hf _ _
  | i64 => exact loadPrim_follows hf _ _
  | f32 => exact loadPrim_follows hf _ _
  | f64 => exact loadPrim_follows hf _ _
  | arrBool => exact loadSeq_follows hf _ _ _ _ _
  | arrI32 => exact loadSeq_follows hf _ _ _ _ _
  | arrI64 => exact loadSeq_follows hf _ _ _ _ _
  | arrF32 => exact loadSeq_follows hf _ _ _ _ _
  | arrF64 => exact loadSeq_follows hf _ _ _ _ _
  | binary => cases buffered <;> exact loadSpecial_follows hf _
  | string => cases buffered <;> exact loadSpecial_follows hf _

theorem loadBody_follows (hf : Delivers D I tape) (Z : Zlib) (buffered : Bool) (l : WLoader α) (start idx : Nat) :
    Heeds I tape AP.rd (AP.loadBody Z buffered l.loader start idx) (loadBody D Z buffered l start idx) := by
  refine (readNextType_follows hf).bind fun o => ?_
  cases o with
  | none => exact .pure _
  | some t => exact (loadImpl_follows hf Z buffered t l start idx).bind fun v => .pure _

theorem load_follows (hf : Delivers D I tape) (Z : Zlib) (buffered : Bool) (l : WLoader α) :
    Heeds I tape AP.rd (AP.load Z buffered l.loader) (load D Z buffered l) := by
  refine Heeds.bind (par_still ?_).heeds fun _ => get_follows.bind fun a => (assert_still _ _).heeds.bind fun _ => ?_
  · intro p
    unfold Parser.ensureContinuable
    split <;> rfl
  · refine (loadBody_follows hf Z buffered l a.attrs.next (a.attrs.total - a.attrs.rest)).andThen
      (f := fun | .ok v => pure v | .err e => loadFailed a.attrs.next (a.attrs.total - a.attrs.rest) e | .panic x => M.panic x) ?_ ?_
    · intro x
      cases x with
      | ok v => exact .pure _
      | err e => exact (loadFailed_still _ _ e).heeds
      | panic x => exact panic_follows _
    · intro b
      rcases AP.loadBody Z buffered l.loader a.attrs.next (a.attrs.total - a.attrs.rest) b with ⟨x | x | x, b'⟩ <;> rfl

/-! ## Trees -/

theorem collectAttrs_follows (hf : Delivers D I tape) (Z : Zlib) : ∀ (n : Nat) (acc : List AttrValue),
    Heeds I tape AP.rd (Load.collectAttrs Z n acc) (collectAttrs D Z n acc)
  | 0, acc => .pure _
  | n + 1, acc => by
    refine Heeds.bind (direct_loader ▸ load_follows hf Z false direct) fun o => ?_
    cases o with
    | none => exact .pure _
    | some v => exact collectAttrs_follows hf Z n (v :: acc)

theorem addNode_follows (hf : Delivers D I tape) (Z : Zlib) (parent : Nat) (name : String) :
    Heeds I tape ldRd (Load.addNode Z parent name) (addNode D Z parent name) := by
  intro s i hs
  unfold Load.addNode addNode
  dsimp only
  cases ho : AP.ofParser s.parser with
  | panic p => exact ⟨0, s, i, fun _ _ => rfl, fun h => absurd rfl (h p)⟩
  | err e => exact ⟨0, s, i, fun _ _ => rfl, fun _ => ⟨rfl, hs⟩⟩
  | ok ap =>
    have hr : ap.parser = s.parser := by
      revert ho
      unfold AP.ofParser
      split
      · intro h; cases h
      · intro h; cases h; rfl
    obtain ⟨f0, a', j, h1, h2⟩ := collectAttrs_follows hf Z (ap.attrs.rest + 1) [] ap i (by unfold AP.rd; rw [hr]; exact hs)
    rcases hd : Load.collectAttrs Z (ap.attrs.rest + 1) [] ap with ⟨x | x | x, a1⟩ <;> rw [hd] at h1 h2
    · obtain ⟨rfl, h4⟩ := h2 (by simp)
      simp only [hd]
      rcases ha : Tree.appendRaw (Tree.newNode ⟨s.tree.nodes, s.tree.size, (Tree.intern s.tree.names name).2, s.tree.root⟩ (Tree.intern s.tree.names name).1 x).1 parent
        (Tree.newNode ⟨s.tree.nodes, s.tree.size, (Tree.intern s.tree.names name).2, s.tree.root⟩ (Tree.intern s.tree.names name).1 x).2 with ⟨y | y | y, t⟩
      · exact ⟨f0, _, j, fun fuel hfuel => by simp only [h1 fuel hfuel, ha], fun _ => ⟨rfl, h4⟩⟩
      · exact nomatch y
      · exact ⟨f0, _, j, fun fuel hfuel => by simp only [h1 fuel hfuel, ha]; rfl, fun h => absurd rfl (h _)⟩
    · obtain ⟨rfl, h4⟩ := h2 (by simp)
      simp only [hd]
      exact ⟨f0, _, j, fun fuel hfuel => by simp only [h1 fuel hfuel], fun _ => ⟨rfl, h4⟩⟩
    · simp only [hd]
      exact ⟨f0, { s with parser := a'.parser }, j, fun fuel hfuel => by simp only [h1 fuel hfuel], fun h => absurd rfl (h _)⟩

theorem loop_follows (hf : Delivers D I tape) (Z : Zlib) : ∀ (n : Nat) (s : Load.St) (i : ρ), Agrees I tape (ldRd s) i →
    (Load.loop Z n s).1 ≠ .panic .fuel → ∃ f0 s' j, (∀ fuel, f0 ≤ fuel → loop D Z fuel (s, i) = some ((Load.loop Z n s).1, (s', j))) ∧
      ((∀ p, (Load.loop Z n s).1 ≠ .panic p) → s' = (Load.loop Z n s).2 ∧ Agrees I tape (ldRd s') j)
  | 0, s, i, _, hn => absurd rfl hn
  | n + 1, s, i, hs, hn => by
    revert hn
    cases hst : s.stack with
    | nil =>
      intro _
      refine ⟨1, s, i, fun fuel hfuel => ?_, ?_⟩
      · obtain ⟨f, rfl⟩ : ∃ f, fuel = f + 1 := ⟨fuel - 1, by omega⟩
        simp only [loop, Load.loop, hst]
      · simp only [Load.loop, hst]; exact fun h => absurd rfl (h _)
    | cons top below =>
      obtain ⟨f0, p', j, h1, h2⟩ := nextEvent_follows hf s.parser i hs
      rcases hd : Parser.nextEvent s.parser with ⟨ev | x | x, p1⟩ <;> rw [hd] at h1 h2
      · obtain ⟨rfl, h4⟩ := h2 (by simp)
        cases ev with
        | startNode name cnt =>
          obtain ⟨f1, s2, j2, k1, k2⟩ := addNode_follows hf Z top name ⟨p', s.tree, top :: below⟩ j h4
          rcases ha : Load.addNode Z top name ⟨p', s.tree, top :: below⟩ with ⟨id | x | x, s3⟩ <;> rw [ha] at k1 k2
          · obtain ⟨rfl, k4⟩ := k2 (by simp)
            simp only [Load.loop, hst, hd, ha]
            intro hn
            obtain ⟨f2, s4, j4, m1, m2⟩ := loop_follows hf Z n { s2 with stack := id :: s2.stack } j2 k4 hn
            refine ⟨max f0 (max f1 f2) + 1, s4, j4, fun fuel hfuel => ?_, m2⟩
            obtain ⟨f, rfl⟩ : ∃ f, fuel = f + 1 := ⟨fuel - 1, by omega⟩
            simp only [loop, hst, h1 f (by omega), k1 f (by omega)]
            exact m1 f (by omega)
          · obtain ⟨rfl, k4⟩ := k2 (by simp)
            simp only [Load.loop, hst, hd, ha]
            refine fun _ => ⟨max f0 f1 + 1, s2, j2, fun fuel hfuel => ?_, fun _ => ⟨rfl, k4⟩⟩
            obtain ⟨f, rfl⟩ : ∃ f, fuel = f + 1 := ⟨fuel - 1, by omega⟩
            simp only [loop, hst, h1 f (by omega), k1 f (by omega)]
          · simp only [Load.loop, hst, hd, ha]
            refine fun _ => ⟨max f0 f1 + 1, s2, j2, fun fuel hfuel => ?_, fun h => absurd rfl (h _)⟩
            obtain ⟨f, rfl⟩ : ∃ f, fuel = f + 1 := ⟨fuel - 1, by omega⟩
            simp only [loop, hst, h1 f (by omega), k1 f (by omega)]
        | endNode =>
          simp only [Load.loop, hst, hd]
          intro hn
          obtain ⟨f2, s4, j4, m1, m2⟩ := loop_follows hf Z n { s with parser := p', stack := below } j h4 hn
          refine ⟨max f0 f2 + 1, s4, j4, fun fuel hfuel => ?_, m2⟩
          obtain ⟨f, rfl⟩ : ∃ f, fuel = f + 1 := ⟨fuel - 1, by omega⟩
          simp only [loop, hst, h1 f (by omega)]
          exact m1 f (by omega)
        | endFbx footer =>
          by_cases hb : below = []
          · simp only [Load.loop, hst, hd, if_pos hb]
            refine fun _ => ⟨f0 + 1, _, j, fun fuel hfuel => ?_, fun _ => ⟨rfl, h4⟩⟩
            obtain ⟨f, rfl⟩ : ∃ f, fuel = f + 1 := ⟨fuel - 1, by omega⟩
            simp only [loop, hst, h1 f (by omega), if_pos hb]
          · simp only [Load.loop, hst, hd, if_neg hb]
            refine fun _ => ⟨f0 + 1, { s with parser := p', stack := below }, j, fun fuel hfuel => ?_, fun h => absurd rfl (h _)⟩
            obtain ⟨f, rfl⟩ : ∃ f, fuel = f + 1 := ⟨fuel - 1, by omega⟩
            simp only [loop, hst, h1 f (by omega), if_neg hb]
      · obtain ⟨rfl, h4⟩ := h2 (by simp)
        simp only [Load.loop, hst, hd]
        refine fun _ => ⟨f0 + 1, _, j, fun fuel hfuel => ?_, fun _ => ⟨rfl, h4⟩⟩
        obtain ⟨f, rfl⟩ : ∃ f, fuel = f + 1 := ⟨fuel - 1, by omega⟩
        simp only [loop, hst, h1 f (by omega)]
      · simp only [Load.loop, hst, hd]
        refine fun _ => ⟨f0 + 1, { s with parser := p', stack := top :: below }, j, fun fuel hfuel => ?_, fun h => absurd rfl (h _)⟩
        obtain ⟨f, rfl⟩ : ∃ f, fuel = f + 1 := ⟨fuel - 1, by omega⟩
        simp only [loop, hst, h1 f (by omega)]

theorem loadTree_follows (hf : Delivers D I tape) (Z : Zlib) (p : Parser) (i : ρ) (hp : Agrees I tape p.reader i)
    (hn : (Load.load Z p).1 ≠ .panic .fuel) : ∃ f0 p' j, ∀ fuel, f0 ≤ fuel → loadTree D Z fuel (p, i) = some ((Load.load Z p).1, (p', j)) := by
  revert hn
  unfold Load.load loadTree
  by_cases hu : p.isUsed = true
  · simp only [if_pos hu]
    exact fun _ => ⟨0, p, i, fun _ _ => rfl⟩
  · simp only [if_neg hu]
    intro hn
    obtain ⟨x, hx⟩ : ∃ x, Load.loop Z (2 * p.reader.rest.length + 2) ⟨p, Tree.empty, [0]⟩ = x := ⟨_, rfl⟩
    have hl := loop_follows hf Z (2 * p.reader.rest.length + 2) ⟨p, Tree.empty, [0]⟩ i hp
    rw [hx] at hn hl
    rcases x with ⟨x | x | x, s⟩
    · obtain ⟨f0, s', j, h1, h2⟩ := hl (by simp)
      obtain ⟨rfl, _⟩ := h2 (by simp)
      exact ⟨f0, s'.parser, j, fun fuel hfuel => by rw [h1 fuel hfuel, hx]⟩
    · obtain ⟨f0, s', j, h1, _⟩ := hl (by simp)
      exact ⟨f0, s'.parser, j, fun fuel hfuel => by rw [h1 fuel hfuel, hx]⟩
    · obtain ⟨f0, s', j, h1, _⟩ := hl (fun h => hn (by cases h; rfl))
      exact ⟨f0, s'.parser, j, fun fuel hfuel => by rw [h1 fuel hfuel, hx]⟩

/-! ## Files -/

theorem anyParser_follows (hf : Delivers D I tape) (checks seekable : Bool) (x : ρ) (hx : I x) :
    ∃ f0 i, (∀ fuel, f0 ≤ fuel → anyParser D fuel checks seekable (tape x).rest (tape x).ending (tape x).pos (tape x).limit x =
      some (openedAt i (Fbx.anyParser checks seekable (tape x).rest (tape x).ending (tape x).pos (tape x).limit))) ∧
      ∀ p, Fbx.anyParser checks seekable (tape x).rest (tape x).ending (tape x).pos (tape x).limit = .ok p → Agrees I tape p.reader i := by
  obtain ⟨f0, r, i, h1, h2⟩ := loadHeader_follows hf
    { rest := (tape x).rest, ending := (tape x).ending, cursor := (tape x).pos, position := 0, seekable := seekable, seekLimit := (tape x).limit } x
    ⟨hx, show 0 < u64Size by decide, rfl, rfl, rfl, rfl⟩
  refine ⟨f0, i, fun fuel hfuel => ?_, ?_⟩
  · unfold anyParser Fbx.anyParser
    rw [h1 fuel hfuel]
    clear h1
    revert h2
    rcases Fbx.loadHeader { rest := (tape x).rest, ending := (tape x).ending, cursor := (tape x).pos, position := 0, seekable := seekable, seekLimit := (tape x).limit } with ⟨v | e | x, r'⟩
    · intro h2
      obtain ⟨rfl, _⟩ := h2 (by simp)
      dsimp only
      cases ParserVersion.fromFbxVersion v with
      | none => rfl
      | some k =>
        cases k
        dsimp only
        cases Parser.create checks v { r with position := headerLen } <;> rfl
    · exact fun _ => rfl
    · exact fun _ => rfl
  · unfold Fbx.anyParser
    clear h1
    revert h2
    rcases Fbx.loadHeader { rest := (tape x).rest, ending := (tape x).ending, cursor := (tape x).pos, position := 0, seekable := seekable, seekLimit := (tape x).limit } with ⟨v | e | x, r'⟩
    · intro h2 p
      obtain ⟨rfl, h3⟩ := h2 (by simp)
      dsimp only
      cases ParserVersion.fromFbxVersion v with
      | none => intro h; cases h
      | some k =>
        cases k
        dsimp only
        unfold Parser.create
        split
        · rename_i heq
          split at heq
          · cases heq
          · cases heq
            intro h; cases h
            exact ⟨h3.inv, (by decide : headerLen < u64Size), h3.rest, h3.ending, h3.cursor, h3.limit⟩
        · intro h; cases h
    · intro _ p h; cases h
    · intro _ p h; cases h

theorem anyTree_follows (hf : Delivers D I tape) (Z : Zlib) (checks seekable : Bool) (x : ρ) (hx : I x)
    (hn : Fbx.anyTree Z checks seekable (tape x).rest (tape x).ending (tape x).pos (tape x).limit ≠ .panic .fuel) :
    ∃ f0, ∀ fuel, f0 ≤ fuel → anyTree D fuel Z checks seekable (tape x).rest (tape x).ending (tape x).pos (tape x).limit x =
      some (Fbx.anyTree Z checks seekable (tape x).rest (tape x).ending (tape x).pos (tape x).limit) := by
  obtain ⟨f0, i, h1, h3⟩ := anyParser_follows hf checks seekable x hx
  revert hn
  unfold anyTree Fbx.anyTree
  cases ho : Fbx.anyParser checks seekable (tape x).rest (tape x).ending (tape x).pos (tape x).limit with
  | err e => exact fun _ => ⟨f0, fun fuel hfuel => by rw [h1 fuel hfuel, ho]; rfl⟩
  | panic e => exact fun _ => ⟨f0, fun fuel hfuel => by rw [h1 fuel hfuel, ho]; rfl⟩
  | ok p =>
    intro hn
    obtain ⟨f1, p', j, h2⟩ := loadTree_follows hf Z (p.setHandler (fun _ _ _ => none)) i (h3 p ho) (by
      intro hx
      simp only [hx] at hn
      exact hn rfl)
    refine ⟨max f0 f1, fun fuel hfuel => ?_⟩
    rw [h1 fuel (by omega), ho]
    simp only [openedAt, h2 fuel (by omega)]
    rcases (Load.load Z (p.setHandler (fun _ _ _ => none))).1 with x | x | x <;> rfl

/-! ## Clients -/

theorem callFrom_follows (hf : Delivers D I tape) (Z : Zlib) (c : WCall α) (s : Client) (i : ρ) (hs : Agrees I tape s.parser.reader i) :
    (s.call Z c.call = none ∧ ∀ fuel, callFrom D Z fuel (s, i) c = some none) ∨
    ∃ o t f0 t' j, s.call Z c.call = some (o, t) ∧ (∀ fuel, f0 ≤ fuel → callFrom D Z fuel (s, i) c = some (some (o, (t', j)))) ∧
      ((∀ x, o ≠ .panic x) → t' = t ∧ Agrees I tape t'.parser.reader j) := by
  cases c with
  | next =>
    right
    obtain ⟨f0, p', j, h1, h2⟩ := nextEvent_follows hf s.parser i hs
    simp only [callFrom, WCall.call, Client.call]
    rcases hd : Parser.nextEvent s.parser with ⟨x | x | x, p1⟩ <;> rw [hd] at h1 h2
    · obtain ⟨rfl, h4⟩ := h2 (by simp)
      exact ⟨_, _, f0, _, j, rfl, fun fuel hfuel => by rw [h1 fuel hfuel]; cases x <;> rfl, fun _ => ⟨rfl, h4⟩⟩
    · obtain ⟨rfl, h4⟩ := h2 (by simp)
      exact ⟨_, _, f0, _, j, rfl, fun fuel hfuel => by rw [h1 fuel hfuel], fun _ => ⟨rfl, h4⟩⟩
    · exact ⟨_, _, f0, _, j, rfl, fun fuel hfuel => by rw [h1 fuel hfuel], fun h => absurd rfl (h _)⟩
  | load b l =>
    simp only [callFrom, WCall.call, Client.call]
    cases ha : s.attrs with
    | none => exact .inl ⟨rfl, fun _ => rfl⟩
    | some at_ =>
      right
      dsimp only
      obtain ⟨f0, a', j, h1, h2⟩ := load_follows hf Z b l ⟨s.parser, at_⟩ i hs
      rcases hd : AP.load Z b l.loader ⟨s.parser, at_⟩ with ⟨x | x | x, p1⟩ <;> rw [hd] at h1 h2
      · obtain ⟨rfl, h4⟩ := h2 (by simp)
        cases x <;> exact ⟨_, _, f0, _, j, rfl, fun fuel hfuel => by rw [h1 fuel hfuel], fun _ => ⟨rfl, h4⟩⟩
      · obtain ⟨rfl, h4⟩ := h2 (by simp)
        exact ⟨_, _, f0, _, j, rfl, fun fuel hfuel => by rw [h1 fuel hfuel], fun _ => ⟨rfl, h4⟩⟩
      · exact ⟨_, _, f0, _, j, rfl, fun fuel hfuel => by rw [h1 fuel hfuel], fun h => absurd rfl (h _)⟩
  | skip =>
    right
    obtain ⟨f0, p', j, h1, h2⟩ := skipCurrentNode_follows hf s.parser i hs
    simp only [callFrom, WCall.call, Client.call]
    rcases hd : Parser.skipCurrentNode s.parser with ⟨x | x | x, p1⟩ <;> rw [hd] at h1 h2
    · obtain ⟨rfl, h4⟩ := h2 (by simp)
      exact ⟨_, _, f0, _, j, rfl, fun fuel hfuel => by rw [h1 fuel hfuel], fun _ => ⟨rfl, h4⟩⟩
    · obtain ⟨rfl, h4⟩ := h2 (by simp)
      exact ⟨_, _, f0, _, j, rfl, fun fuel hfuel => by rw [h1 fuel hfuel], fun _ => ⟨rfl, h4⟩⟩
    · exact ⟨_, _, f0, _, j, rfl, fun fuel hfuel => by rw [h1 fuel hfuel], fun h => absurd rfl (h _)⟩
  | setHandler h => exact .inr ⟨_, _, 0, _, i, rfl, fun _ _ => rfl, fun _ => ⟨rfl, hs⟩⟩

theorem observe_follows (hf : Delivers D I tape) (Z : Zlib) : ∀ (cs : List (WCall α)) (s : Client) (i : ρ), Agrees I tape s.parser.reader i →
    SameFrom D Z s i cs
  | [], s, i, _ => ⟨0, s, fun _ _ => rfl, fun _ => rfl⟩
  | c :: cs, s, i, hs => by
    rcases callFrom_follows hf Z c s i hs with ⟨h1, h2⟩ | ⟨o, t, f0, t', j, h1, h2, h3⟩
    · refine ⟨0, s, fun fuel _ => ?_, fun _ => ?_⟩
      · simp only [observeFrom, h2, observe, List.map_cons, h1]
      · simp only [observe, List.map_cons, h1]
    · by_cases ho : ∃ x, o = .panic x
      · obtain ⟨x, rfl⟩ := ho
        refine ⟨f0, t', fun fuel hfuel => ?_, fun h => ?_⟩
        · simp only [observeFrom, h2 fuel hfuel, observe, List.map_cons, h1]
        · simp only [observe, List.map_cons, h1] at h
          exact absurd (List.mem_singleton.2 rfl) (h x)
      · obtain ⟨rfl, h4⟩ := h3 fun x hx => ho ⟨x, hx⟩
        obtain ⟨f1, u, h5, h6⟩ := observe_follows hf Z cs t' j h4
        have e : observe Z s ((c :: cs).map WCall.call) = (o :: (observe Z t' (cs.map WCall.call)).1, (observe Z t' (cs.map WCall.call)).2) := by
          simp only [observe, List.map_cons, h1]
          cases o with
          | panic x => exact absurd ⟨x, rfl⟩ ho
          | _ => rfl
        refine ⟨max f0 f1, u, fun fuel hfuel => ?_, fun h => ?_⟩
        · rw [e]
          have h7 := h5 fuel (by omega)
          simp only [observeFrom, h2 fuel (by omega)]
          cases o with
          | panic x => exact absurd ⟨x, rfl⟩ ho
          | _ => simp only [h7, Option.map_some]
        · rw [e] at h ⊢
          exact h6 fun x hx => h x (List.mem_cons_of_mem _ hx)

end Source

/-! ## A file -/

theorem Disk.delivers {plan : Schedule} (hf : Fair plan) (bufs : Disk → Nat) (copyBuf : Nat) :
    Delivers (Disk.source bufs copyBuf) (fun d => d.plan = plan) diskTape where
  interrupted n x x' hx h := by
    simp only [Disk.source, Disk.read] at h
    split at h
    · cases h; exact ⟨hx, rfl⟩
    · split at h <;> cases h
  bytes n x x' bs hx h := by
    simp only [Disk.source, Disk.read] at h
    split at h
    · cases h
    · rename_i k _
      split at h
      · rename_i hc
        cases he : x.ending <;> rw [he] at h <;> cases h
        exact ⟨hx, by simp [diskTape, he], Nat.zero_le _, List.nil_prefix, fun _ => .inr ⟨hc.2, he⟩⟩
      · rename_i hc
        cases h
        refine ⟨hx, rfl, ?_, List.take_prefix _ _, fun h0 => ?_⟩
        · simp only [List.length_take]; omega
        · by_cases hn : n = 0
          · exact .inl hn
          · exfalso
            refine hc ⟨hn, ?_⟩
            have := congrArg List.length h0
            simp only [List.length_take, List.length_nil] at this
            exact List.length_eq_zero_iff.1 (by omega)
  fails n x x' e hx h := by
    simp only [Disk.source, Disk.read] at h
    split at h
    · cases h
    · split at h
      · rename_i hc
        cases he : x.ending <;> rw [he] at h <;> cases h
        exact ⟨hx, by simp [diskTape, he], hc.2, he⟩
      · cases h
  calm x hx := by
    have key : ∀ i, ∀ y : Disk, y.plan = plan → y.calls = i → Acc (fun y z => ∃ n, (Disk.source bufs copyBuf).read n z = (none, y)) y := by
      refine hf.ind ?_ ?_
      · intro i hi ih y hy hc
        refine ⟨y, fun z ⟨n, hz⟩ => ?_⟩
        simp only [Disk.source, Disk.read, hy, hc, hi] at hz
        cases hz
        exact ih _ rfl rfl
      · intro i k hi y hy hc
        refine ⟨y, fun z ⟨n, hz⟩ => ?_⟩
        simp only [Disk.source, Disk.read, hy, hc, hi] at hz
        split at hz <;> cases hz
    exact key _ x hx rfl
  seeks d x x' hx h := by
    simp only [Disk.source, Disk.seek] at h
    split at h
    · rename_i hc; cases h; exact ⟨hx, hc.1, hc.2, rfl⟩
    · cases h
  refuses d x x' e hx h := by
    simp only [Disk.source, Disk.seek] at h
    split at h
    · cases h
    · rename_i hc; cases h; exact ⟨hx, rfl, rfl, hc⟩

/-! ## `BufReader` -/

theorem Source.bufReader_delivers {ρ : Type} {S : Source ρ} {I : ρ → Prop} {tape : ρ → Tape} (hf : Delivers S I tape) (cap : Nat) :
    Delivers (S.bufReader cap) (bufHolds I tape) (bufTape tape) where
  interrupted n b b' hb h := by
    obtain ⟨x, held⟩ := b
    simp only [Source.bufReader, Source.bufRead] at h
    split at h
    · cases h
    · rename_i h0
      obtain rfl : held = [] := by simpa using h0
      split at h
      · rcases hr : S.read n x with ⟨o, x'⟩
        rw [hr] at h
        cases h
        obtain ⟨h1, h2⟩ := hf.interrupted _ _ _ hb.1 hr
        exact ⟨⟨h1, Nat.zero_le _, List.nil_prefix⟩, by simp [bufTape, h2]⟩
      · split at h
        · cases h
        · cases h
        · rename_i hr
          cases h
          obtain ⟨h1, h2⟩ := hf.interrupted _ _ _ hb.1 hr
          exact ⟨⟨h1, Nat.zero_le _, List.nil_prefix⟩, by simp [bufTape, h2]⟩
  bytes n b b' bs hb h := by
    obtain ⟨x, held⟩ := b
    obtain ⟨hi, hl, hp⟩ := hb
    simp only at hi hl hp
    simp only [Source.bufReader, Source.bufRead] at h
    split at h
    · rename_i h0
      cases h
      have hlen : 0 < held.length := List.length_pos_iff.2 h0
      refine ⟨⟨hi, ?_, ?_⟩, ?_, ?_, ?_, ?_⟩
      · simp only [List.length_drop]; omega
      · simp only [List.length_drop]
        obtain ⟨t, ht⟩ := hp
        by_cases hn : n ≤ held.length
        · refine ⟨t, ?_⟩
          rw [show (tape x).pos - (held.length - n) = (tape x).pos - held.length + n by omega, ← List.drop_drop, ← ht, List.drop_append_of_le_length hn]
        · rw [List.drop_eq_nil_of_le (by omega)]; exact List.nil_prefix
      · simp only [bufTape, List.length_drop, List.length_take]
        congr 1; omega
      · simp only [List.length_take]; omega
      · exact (List.take_prefix _ _).trans hp
      · intro h1
        have := congrArg List.length h1
        simp only [List.length_take, List.length_nil] at this
        exact .inl (by omega)
    · rename_i h0
      obtain rfl : held = [] := by simpa using h0
      split at h
      · rcases hr : S.read n x with ⟨o, x'⟩
        rw [hr] at h
        cases h
        obtain ⟨h1, h2, h3, h4, h5⟩ := hf.bytes _ _ _ _ hi hr
        exact ⟨⟨h1, Nat.zero_le _, List.nil_prefix⟩, by simp [bufTape, h2], h3, h4, h5⟩
      · rename_i hc
        split at h
        · rename_i got x' hr
          cases h
          obtain ⟨h1, h2, h3, h4, h5⟩ := hf.bytes _ _ _ _ hi hr
          refine ⟨⟨h1, ?_, ?_⟩, ?_, ?_, ?_, ?_⟩
          · rw [h2]; simp only [List.length_drop]; omega
          · rw [h2]
            simp only [List.length_drop]
            obtain ⟨t, ht⟩ := h4
            by_cases hn : n ≤ got.length
            · refine ⟨t, ?_⟩
              rw [show (tape x).pos + got.length - (got.length - n) = (tape x).pos + n by omega, ← List.drop_drop]
              show _ = List.drop n (tape x).rest
              rw [← ht, List.drop_append_of_le_length hn]
            · rw [List.drop_eq_nil_of_le (by omega)]; exact List.nil_prefix
          · simp only [bufTape, h2, List.length_drop, List.length_take, List.length_nil]
            congr 1; omega
          · simp only [List.length_take]; omega
          · exact (List.take_prefix _ _).trans h4
          · intro h6
            have := congrArg List.length h6
            simp only [List.length_take, List.length_nil] at this
            by_cases hn : n = 0
            · exact .inl hn
            · have : got = [] := List.length_eq_zero_iff.1 (by omega)
              exact .inr ((h5 this).resolve_left (by omega))
        · cases h
        · cases h
  fails n b b' e hb h := by
    obtain ⟨x, held⟩ := b
    simp only [Source.bufReader, Source.bufRead] at h
    split at h
    · cases h
    · rename_i h0
      obtain rfl : held = [] := by simpa using h0
      split at h
      · rcases hr : S.read n x with ⟨o, x'⟩
        rw [hr] at h
        cases h
        obtain ⟨h1, h2, h3, h4⟩ := hf.fails _ _ _ _ hb.1 hr
        exact ⟨⟨h1, Nat.zero_le _, List.nil_prefix⟩, by simp [bufTape, h2], h3, h4⟩
      · split at h
        · cases h
        · rename_i hr
          cases h
          obtain ⟨h1, h2, h3, h4⟩ := hf.fails _ _ _ _ hb.1 hr
          exact ⟨⟨h1, Nat.zero_le _, List.nil_prefix⟩, by simp [bufTape, h2], h3, h4⟩
        · cases h
  calm b hb := by
    obtain ⟨x, held⟩ := b
    have ha := hf.calm x hb.1
    clear hb
    induction ha generalizing held with
    | intro x _ ih =>
      refine ⟨_, fun y ⟨n, hy⟩ => ?_⟩
      simp only [Source.bufReader, Source.bufRead] at hy
      split at hy
      · cases hy
      · split at hy
        · rcases hr : S.read n x with ⟨o, x'⟩
          rw [hr] at hy
          cases hy
          exact ih x' ⟨n, hr⟩ _
        · split at hy
          · cases hy
          · cases hy
          · rename_i hr
            cases hy
            exact ih _ ⟨cap, hr⟩ _
  seeks d b b' hb h := by
    obtain ⟨x, held⟩ := b
    obtain ⟨hi, hl, hp⟩ := hb
    simp only at hi hl hp
    simp only [Source.bufReader, Source.bufSeek] at h
    split at h
    · rename_i hs
      cases h
      obtain ⟨h1, h2, h3, h4⟩ := hf.seeks _ _ _ hi hs
      refine ⟨⟨h1, Nat.zero_le _, List.nil_prefix⟩, ?_, ?_, ?_⟩
      · simp only [bufTape]; omega
      · simp only [bufTape]; omega
      · simp only [bufTape, h4, List.length_nil]
        congr 1; omega
    · cases h
  refuses d b b' e hb h := by
    obtain ⟨x, held⟩ := b
    obtain ⟨hi, hl, hp⟩ := hb
    simp only at hi hl hp
    simp only [Source.bufReader, Source.bufSeek] at h
    split at h
    · cases h
    · rename_i hs
      cases h
      obtain ⟨h1, h2, h3, h4⟩ := hf.refuses _ _ _ _ hi hs
      refine ⟨⟨h1, by rw [h2]; exact hl, by rw [h2]; exact hp⟩, by simp [bufTape, h2], h3, ?_⟩
      simp only [bufTape]; omega

end Fbx
