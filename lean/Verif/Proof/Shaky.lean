import Verif.Spec.Shaky
import Verif.Proof.AnyRead

/-! # The parser on a source that fails at any time -/

namespace Fbx
open Spec

/-- What a failure of the source makes of a result: an error. -/
def errs {ε α : Type} (_ : Res ε α) (x : Res ε α) : Prop := ∃ e, x = .err e

/-- Code `q` on the source ends, and does what `m` does on the whole source, or has a result as `W` tells, in a state that satisfies `F`. -/
def Shaken {ρ ε σ α : Type} (I : ρ → Prop) (tape : ρ → Tape) (F : σ → Prop) (rd : σ → Reader) (W : Res ε α → Res ε α → Prop) (m : M ε σ α) (q : SM ρ ε σ α) :
    Prop :=
  ∀ s i, F s → Agrees I tape (rd s) i → ∃ f0 x s' j, (∀ fuel, f0 ≤ fuel → q fuel (s, i) = some (x, (s', j))) ∧
    ((x = (m s).1 ∧ ((∀ p, (m s).1 ≠ .panic p) → s' = (m s).2 ∧ F s' ∧ Agrees I tape (rd s') j)) ∨ (W (m s).1 x ∧ F s'))

namespace Source
namespace Shakes
variable {ρ α ε : Type} {D : Source ρ} {I : ρ → Prop} {tape : ρ → Tape}

/-- What a loop does: from some fuel on, the result of `m` and, unless that is a panic, its state; or an error. -/
def Ends (I : ρ → Prop) (tape : ρ → Tape) {β : Type} (loop : Nat → Option (Res IoErr β × (Reader × ρ))) (m : Res IoErr β × Reader) : Prop :=
  ∃ f0 x r' j, (∀ fuel, f0 ≤ fuel → loop fuel = some (x, (r', j))) ∧
    ((x = m.1 ∧ ((∀ p, m.1 ≠ .panic p) → r' = m.2 ∧ Agrees I tape r' j)) ∨ ∃ e, x = .err e)

/-- A step of a loop. -/
theorem Ends.step {β : Type} {loop loop' : Nat → Option (Res IoErr β × (Reader × ρ))} {m m' : Res IoErr β × Reader}
    (h : Ends I tape loop' m') (hl : ∀ fuel, loop (fuel + 1) = loop' fuel) (h1 : m'.1 = m.1) (h2 : (∀ p, m.1 ≠ .panic p) → m'.2 = m.2) :
    Ends I tape loop m := by
  obtain ⟨f0, x, r', j, k1, k2⟩ := h
  refine ⟨f0 + 1, x, r', j, fun fuel hfuel => ?_, ?_⟩
  · obtain ⟨f, rfl⟩ : ∃ f, fuel = f + 1 := ⟨fuel - 1, by omega⟩
    rw [hl, k1 f (by omega)]
  · rcases k2 with ⟨rfl, k2⟩ | k2
    · refine .inl ⟨h1, fun hp => ?_⟩
      obtain ⟨rfl, k4⟩ := k2 (by rw [h1]; exact hp)
      exact ⟨h2 hp, k4⟩
    · exact .inr k2

theorem Ends.last {β : Type} {loop : Nat → Option (Res IoErr β × (Reader × ρ))} {m : Res IoErr β × Reader} (r' : Reader) (j : ρ)
    (hl : ∀ fuel, loop (fuel + 1) = some (m.1, (r', j))) (h : (∀ p, m.1 ≠ .panic p) → r' = m.2 ∧ Agrees I tape r' j) : Ends I tape loop m :=
  ⟨1, _, r', j, fun fuel hfuel => by obtain ⟨f, rfl⟩ : ∃ f, fuel = f + 1 := ⟨fuel - 1, by omega⟩; exact hl f, .inl ⟨rfl, h⟩⟩

theorem Ends.fail {β : Type} {loop : Nat → Option (Res IoErr β × (Reader × ρ))} {m : Res IoErr β × Reader} (r' : Reader) (j : ρ) (e : IoErr)
    (hl : ∀ fuel, loop (fuel + 1) = some (.err e, (r', j))) : Ends I tape loop m :=
  ⟨1, _, r', j, fun fuel hfuel => by obtain ⟨f, rfl⟩ : ∃ f, fuel = f + 1 := ⟨fuel - 1, by omega⟩; exact hl f, .inr ⟨e, rfl⟩⟩

theorem exactLoop_ends (hf : Shaky D I tape) (n : Nat) : ∀ (acc : Bytes) (r : Reader) (x : ρ), Agrees I tape r x →
    Ends I tape (fun fuel => exactLoop D fuel n acc (r, x)) (Chunked.prefixed acc (Reader.readExact n r)) := by
  induction n using Nat.strongRecOn with
  | ind n ihn =>
    intro acc r x hx
    by_cases hn : n = 0
    · subst hn
      have h0 := hx.pos
      refine .last r x (fun fuel => ?_) fun _ => ⟨?_, hx⟩
      · simp [exactLoop, Reader.readExact, h0, Chunked.prefixed]
      · simp [Reader.readExact, h0, Reader.consume, Chunked.prefixed]
    · have hacc := hf.calm x hx.inv
      induction hacc with
      | intro x _ ihx =>
        rcases hr : D.read n x with ⟨_ | _ | bs, x'⟩
        · obtain ⟨h1, h2⟩ := hf.interrupted _ _ _ hx.inv hr
          refine (ihx x' ⟨n, hr⟩ (hx.of_tape h1 h2)).step (fun fuel => ?_) rfl fun _ => rfl
          simp only [exactLoop, if_neg hn, readOnce, hr]
        · rename_i e
          exact .fail r x' e fun fuel => by simp only [exactLoop, if_neg hn, readOnce, hr]
        · obtain ⟨h1, h2, h3, h4, h5⟩ := hf.bytes _ _ _ _ hx.inv hr
          rw [← hx.rest] at h4 h5
          rw [← hx.ending] at h5
          have hl := h4.length_le
          have hb : bs = r.rest.take bs.length := List.prefix_iff_eq_take.1 h4
          by_cases h0 : bs = []
          · obtain ⟨hr0, he⟩ := (h5 h0).resolve_left hn
            have hle : ¬ n ≤ r.rest.length := by rw [hr0]; simpa using hn
            have hz' : r.position + r.rest.length < u64Size := by simpa [hr0] using hx.pos
            have hc : r.consume 0 = r := by have := consume_all hr0; rw [hr0] at this; exact this
            subst h0
            refine .last r x' (fun fuel => ?_) fun _ => ⟨?_, ?_⟩
            · have := hx.pos
              simp only [exactLoop, if_neg hn, readOnce, hr, Reader.readExact, hle, hz', if_true, if_false, Chunked.prefixed, he, Option.getD,
                List.length_nil, Nat.add_zero, this, hc]
            · simp only [Reader.readExact, hle, hz', if_true, if_false, Chunked.prefixed, consume_all hr0]
            · exact hx.of_tape h1 (by rw [h2]; rfl)
          · by_cases ho : r.position + bs.length < u64Size
            · have key := readExact_step (acc := acc) h3 hl
              rw [← hb] at key
              have hpos : 0 < bs.length := List.length_pos_iff.mpr h0
              refine (ihn (n - bs.length) (by omega) (acc ++ bs) (r.consume bs.length) x' (hx.moved h1 h2 ho)).step (fun fuel => ?_) key.1
                fun hp => key.2 (Chunked.prefixed_panic hp)
              simp only [exactLoop, if_neg hn, readOnce, hr, if_pos ho]
              cases bs with
              | nil => exact absurd rfl h0
              | cons b bs => rfl
            · have hpan : Reader.readExact n r = (.panic .positionOverflow, r) := by
                by_cases hln : n ≤ r.rest.length
                · simp [Reader.readExact, hln, show ¬ r.position + n < u64Size by omega]
                · simp [Reader.readExact, hln, show ¬ r.position + r.rest.length < u64Size by omega]
              rw [hpan]
              refine .last r x' (fun fuel => ?_) fun hp => absurd rfl (hp _)
              simp only [exactLoop, if_neg hn, readOnce, hr, if_neg ho, Chunked.prefixed]

theorem endLoop_ends (hf : Shaky D I tape) (n : Nat) : ∀ (acc : Bytes) (r : Reader) (x : ρ), Agrees I tape r x →
    Ends I tape (fun fuel => endLoop D fuel n acc (r, x)) (Chunked.prefixed acc (Chunked.readAll n r)) := by
  induction n using Nat.strongRecOn with
  | ind n ihn =>
    intro acc r x hx
    by_cases hn : n = 0
    · subst hn
      rw [Chunked.readAll_zero hx.pos]
      exact .last r x (fun fuel => by simp [endLoop, Chunked.prefixed]) fun _ => ⟨rfl, hx⟩
    · have hacc := hf.calm x hx.inv
      induction hacc with
      | intro x _ ihx =>
        have hm : min (D.bufs x + 1) n ≠ 0 := by omega
        rcases hr : D.read (min (D.bufs x + 1) n) x with ⟨_ | _ | bs, x'⟩
        · obtain ⟨h1, h2⟩ := hf.interrupted _ _ _ hx.inv hr
          refine (ihx x' ⟨_, hr⟩ (hx.of_tape h1 h2)).step (fun fuel => ?_) rfl fun _ => rfl
          simp only [endLoop, if_neg hn, readOnce, hr]
        · rename_i e
          exact .fail r x' e fun fuel => by simp only [endLoop, if_neg hn, readOnce, hr]
        · obtain ⟨h1, h2, h3, h4, h5⟩ := hf.bytes _ _ _ _ hx.inv hr
          rw [← hx.rest] at h4 h5
          rw [← hx.ending] at h5
          have hl := h4.length_le
          have hb : bs = r.rest.take bs.length := List.prefix_iff_eq_take.1 h4
          by_cases h0 : bs = []
          · obtain ⟨hr0, he⟩ := (h5 h0).resolve_left hm
            have hle : ¬ n ≤ r.rest.length := by rw [hr0]; simpa using hn
            have hz' : r.position + r.rest.length < u64Size := by simpa [hr0] using hx.pos
            have hc : r.consume 0 = r := by have := consume_all hr0; rw [hr0] at this; exact this
            subst h0
            refine .last r x' (fun fuel => ?_) fun _ => ⟨?_, ?_⟩
            · have := hx.pos
              simp only [endLoop, if_neg hn, readOnce, hr, Chunked.readAll, hle, hz', if_true, if_false, Chunked.prefixed, he,
                List.length_nil, Nat.add_zero, this, hc, hr0, List.append_nil, Nat.le_zero_eq, hn]
            · simp only [Chunked.readAll, hle, hz', if_true, if_false, Chunked.prefixed, consume_all hr0]
            · exact hx.of_tape h1 (by rw [h2]; rfl)
          · by_cases ho : r.position + bs.length < u64Size
            · have key := Chunked.readAll_step (n := n) (acc := acc) (by omega) hl ho
              rw [← hb] at key
              have hpos : 0 < bs.length := List.length_pos_iff.mpr h0
              refine (ihn (n - bs.length) (by omega) (acc ++ bs) (r.consume bs.length) x' (hx.moved h1 h2 ho)).step (fun fuel => ?_) key.1
                fun hp => key.2 (Chunked.prefixed_panic hp)
              simp only [endLoop, if_neg hn, readOnce, hr, if_pos ho]
              cases bs with
              | nil => exact absurd rfl h0
              | cons b bs => rfl
            · have hpan : Chunked.readAll n r = (.panic .positionOverflow, r) := by
                by_cases hln : n ≤ r.rest.length
                · simp [Chunked.readAll, hln, show ¬ r.position + n < u64Size by omega]
                · simp [Chunked.readAll, hln, show ¬ r.position + r.rest.length < u64Size by omega]
              rw [hpan]
              refine .last r x' (fun fuel => ?_) fun hp => absurd rfl (hp _)
              simp only [endLoop, if_neg hn, readOnce, hr, if_neg ho, Chunked.prefixed]

theorem copyLoop_ends (hf : Shaky D I tape) (n : Nat) : ∀ (r : Reader) (x : ρ), Agrees I tape r x →
    Ends I tape (fun fuel => copyLoop D fuel n (r, x)) (Reader.skipPlain n r) := by
  induction n using Nat.strongRecOn with
  | ind n ihn =>
    intro r x hx
    by_cases hn : n = 0
    · subst hn
      refine .last r x (fun fuel => ?_) fun _ => ⟨?_, hx⟩
      · simp [copyLoop, Reader.skipPlain]
      · simp [Reader.skipPlain, Reader.consumeInner]
    · have hacc := hf.calm x hx.inv
      induction hacc with
      | intro x _ ihx =>
        have hm : min (D.copyBuf + 1) n ≠ 0 := by omega
        rcases hr : D.read (min (D.copyBuf + 1) n) x with ⟨_ | _ | bs, x'⟩
        · obtain ⟨h1, h2⟩ := hf.interrupted _ _ _ hx.inv hr
          refine (ihx x' ⟨_, hr⟩ (hx.of_tape h1 h2)).step (fun fuel => ?_) rfl fun _ => rfl
          simp only [copyLoop, if_neg hn, hr]
        · rename_i e
          exact .fail r x' e fun fuel => by simp only [copyLoop, if_neg hn, hr]
        · obtain ⟨h1, h2, h3, h4, h5⟩ := hf.bytes _ _ _ _ hx.inv hr
          rw [← hx.rest] at h4 h5
          rw [← hx.ending] at h5
          have hl := h4.length_le
          by_cases h0 : bs = []
          · obtain ⟨hr0, he⟩ := (h5 h0).resolve_left hm
            have hle : ¬ n ≤ r.rest.length := by rw [hr0]; simpa using hn
            subst h0
            refine .last r x' (fun fuel => ?_) fun _ => ⟨?_, ?_⟩
            · simp only [copyLoop, if_neg hn, hr, Reader.skipPlain, hle, if_false, he]
            · simp only [Reader.skipPlain, hle, if_false, he, consumeInner_all hr0]
            · exact hx.of_tape h1 (by rw [h2]; rfl)
          · have hpos : 0 < bs.length := List.length_pos_iff.mpr h0
            have key : Reader.skipPlain (n - bs.length) (r.consumeInner bs.length) = Reader.skipPlain n r := by
              generalize bs.length = j at *
              have e1 : (r.consumeInner j).rest.length = r.rest.length - j := by simp [Reader.consumeInner]
              have e3 : (r.consumeInner j).ending = r.ending := rfl
              by_cases hln : n ≤ r.rest.length
              · simp only [Reader.skipPlain, e1, hln, show n - j ≤ r.rest.length - j by omega, if_true, Chunked.consumeInner_consumeInner,
                  show j + (n - j) = n by omega]
              · simp only [Reader.skipPlain, e1, e3, hln, show ¬ n - j ≤ r.rest.length - j by omega, if_false, Chunked.consumeInner_consumeInner,
                  show j + (r.rest.length - j) = r.rest.length by omega]
            refine (ihn (n - bs.length) (by omega) (r.consumeInner bs.length) x' (hx.movedInner h1 h2)).step (fun fuel => ?_) (by rw [key])
              fun hp => by rw [key]
            simp only [copyLoop, if_neg hn, hr]
            cases bs with
            | nil => exact absurd rfl h0
            | cons b bs => rfl

theorem seekLoop_spec (hf : Shaky D I tape) : ∀ (parts d : Nat) (r : Reader) (x : ρ), Agrees I tape r x →
    ∃ y r' j, seekLoop D parts d (r, x) = (y, (r', j)) ∧
      ((y = (Reader.skipSeekLoop parts d r).1 ∧
        ((∀ p, (Reader.skipSeekLoop parts d r).1 ≠ .panic p) → r' = (Reader.skipSeekLoop parts d r).2 ∧ Agrees I tape r' j)) ∨ ∃ e, y = .err e)
  | 0, d, r, x, hx => ⟨_, r, x, rfl, .inl ⟨rfl, fun _ => ⟨rfl, hx⟩⟩⟩
  | parts + 1, d, r, x, hx => by
    unfold seekLoop Reader.skipSeekLoop
    dsimp only
    by_cases hd : d = 0
    · simp only [if_pos hd]; exact ⟨_, r, x, rfl, .inl ⟨rfl, fun _ => ⟨rfl, hx⟩⟩⟩
    · simp only [if_neg hd]
      generalize hk : min d i64Max = k
      rcases hs : D.seek (k : Int) x with ⟨e | _, x'⟩
      · exact ⟨_, r, x', rfl, .inr ⟨e, rfl⟩⟩
      · obtain ⟨h1, h2, h3, h4⟩ := hf.seeks _ _ _ hx.inv hs
        have : r.cursor + k ≤ r.seekLimit := by rw [hx.cursor, hx.limit]; omega
        have ht : tape x' = { tape x with pos := (tape x).pos + k } := by
          rw [h4]; congr 1
        simp only [if_pos this]
        by_cases hp : r.position + k < u64Size
        · simp only [if_pos hp]
          exact seekLoop_spec hf parts _ _ _ (hx.moved h1 ht hp)
        · simp only [if_neg hp]
          exact ⟨_, _, _, rfl, .inl ⟨rfl, fun h => absurd rfl (h _)⟩⟩

end Shakes
end Source

namespace Shaken
variable {ρ ε ε' σ τ α β : Type} {F : σ → Prop} {rd : σ → Reader} {I : ρ → Prop} {tape : ρ → Tape} {W : Res ε α → Res ε α → Prop} {W' : Res ε β → Res ε β → Prop}
  {V : Res ε' β → Res ε' β → Prop}

/-- Code that leaves the reader alone. -/
theorem lift {m : M ε σ α} (h : ∀ s, F s → (∀ p, (m s).1 ≠ .panic p) → rd (m s).2 = rd s ∧ F (m s).2) : Shaken I tape F rd W m (SM.lift m) :=
  fun s i hF hs => ⟨0, _, (m s).2, i, fun _ _ => rfl, .inl ⟨rfl, fun hp => ⟨rfl, (h s hF hp).2, by rw [(h s hF hp).1]; exact hs⟩⟩⟩

theorem pure (a : α) : Shaken I tape F rd W (Pure.pure a : M ε σ α) (Pure.pure a : SM ρ ε σ α) :=
  fun s i hF hs => ⟨0, _, s, i, fun _ _ => rfl, .inl ⟨rfl, fun _ => ⟨rfl, hF, hs⟩⟩⟩

theorem bindW {m : M ε σ α} {q : SM ρ ε σ α} {f : α → M ε σ β} {g : α → SM ρ ε σ β} (hW : ∀ y e, W' y (.err e)) (h : Shaken I tape F rd errs m q)
    (hf : ∀ a, Shaken I tape F rd W' (f a) (g a)) : Shaken I tape F rd W' (m >>= f) (q >>= g) := by
  intro s i hF hs
  obtain ⟨f0, x, s', j, h1, h2⟩ := h s i hF hs
  rcases h2 with ⟨rfl, h2⟩ | ⟨⟨e, rfl⟩, h2⟩
  · rcases hm : m s with ⟨x, t⟩
    rw [hm] at h1 h2
    cases x with
    | ok a =>
      obtain ⟨rfl, hF', ht⟩ := h2 (by simp)
      obtain ⟨f1, x, s'', j', h3, h4⟩ := hf a s' j hF' ht
      refine ⟨max f0 f1, x, s'', j', fun fuel hfuel => ?_, ?_⟩
      · show SM.bind q g fuel (s, i) = _
        simp only [SM.bind, h1 fuel (by omega), h3 fuel (by omega)]
      · simpa only [M.bind_apply, hm] using h4
    | err e =>
      obtain ⟨rfl, hF', ht⟩ := h2 (by simp)
      refine ⟨f0, .err e, s', j, fun fuel hfuel => ?_, .inl ?_⟩
      · show SM.bind q g fuel (s, i) = _
        simp only [SM.bind, h1 fuel hfuel]
      · simp only [M.bind_apply, hm]; exact ⟨trivial, fun _ => ⟨trivial, hF', ht⟩⟩
    | panic p =>
      refine ⟨f0, .panic p, s', j, fun fuel hfuel => ?_, .inl ?_⟩
      · show SM.bind q g fuel (s, i) = _
        simp only [SM.bind, h1 fuel hfuel]
      · simp only [M.bind_apply, hm]; exact ⟨trivial, fun hp => absurd rfl (hp p)⟩
  · refine ⟨f0, .err e, s', j, fun fuel hfuel => ?_, .inr ⟨hW _ _, h2⟩⟩
    show SM.bind q g fuel (s, i) = _
    simp only [SM.bind, h1 fuel hfuel]

theorem bind {m : M ε σ α} {q : SM ρ ε σ α} {f : α → M ε σ β} {g : α → SM ρ ε σ β} (h : Shaken I tape F rd errs m q)
    (hf : ∀ a, Shaken I tape F rd errs (f a) (g a)) : Shaken I tape F rd errs (m >>= f) (q >>= g) := bindW (fun _ e => ⟨e, rfl⟩) h hf

theorem mapErr {m : M ε σ α} {q : SM ρ ε σ α} (f : ε → ε') (h : Shaken I tape F rd errs m q) :
    Shaken I tape F rd errs (M.mapErr f m) (SM.mapErr f q) := by
  intro s i hF hs
  obtain ⟨f0, x, s', j, h1, h2⟩ := h s i hF hs
  rcases h2 with ⟨rfl, h2⟩ | ⟨⟨e, rfl⟩, h2⟩
  · rcases hm : m s with ⟨x, t⟩
    rw [hm] at h1 h2
    refine ⟨f0, (M.mapErr f m s).1, s', j, fun fuel hfuel => ?_, .inl ⟨rfl, ?_⟩⟩
    · rw [SM.mapErr, h1 fuel hfuel, M.mapErr_apply, hm]; cases x <;> rfl
    · rw [M.mapErr_apply, hm]
      cases x with
      | ok a => exact fun _ => h2 (by simp)
      | err e => exact fun _ => h2 (by simp)
      | panic p => exact fun hp => absurd rfl (hp p)
  · exact ⟨f0, .err (f e), s', j, fun fuel hfuel => by rw [SM.mapErr, h1 fuel hfuel], .inr ⟨⟨_, rfl⟩, h2⟩⟩

theorem zoom {G : τ → Prop} {rt : τ → Reader} {m : M ε τ α} {q : SM ρ ε τ α} {getter : σ → τ} {setter : τ → σ → σ} (hg : ∀ s, rt (getter s) = rd s)
    (hset : ∀ t s, rd (setter t s) = rt t) (hG : ∀ s, F s → G (getter s)) (hF : ∀ t s, F s → G t → F (setter t s)) (h : Shaken I tape G rt W m q) :
    Shaken I tape F rd W (M.zoom getter setter m) (SM.zoom getter setter q) := by
  intro s i hFs hs
  obtain ⟨f0, x, t', j, h1, h2⟩ := h (getter s) i (hG s hFs) (by rw [hg]; exact hs)
  refine ⟨f0, x, setter t' s, j, fun fuel hfuel => ?_, ?_⟩
  · rw [SM.zoom, h1 fuel hfuel]
  · rw [M.zoom_apply]
    rcases h2 with ⟨rfl, h2⟩ | ⟨h2, h3⟩
    · refine .inl ⟨rfl, fun hp => ?_⟩
      obtain ⟨rfl, h3, h4⟩ := h2 hp
      exact ⟨rfl, hF _ _ hFs h3, by rw [hset]; exact h4⟩
    · exact .inr ⟨h2, hF _ _ hFs h3⟩

theorem ite {c : Prop} [Decidable c] {m n : M ε σ α} {q r : SM ρ ε σ α} (h1 : Shaken I tape F rd W m q) (h2 : Shaken I tape F rd W n r) :
    Shaken I tape F rd W (if c then m else n) (if c then q else r) := by split <;> assumption

/-- A `match` on the result of a call, if a failure leads to what `V` tells. -/
theorem andThen {m : M ε σ α} {q : SM ρ ε σ α} {n : M ε' σ β} {f : Res ε α → M ε' σ β} {g : Res ε α → SM ρ ε' σ β} (h : Shaken I tape F rd errs m q)
    (hf : ∀ x, Shaken I tape F rd V (f x) (g x)) (hn : ∀ s, n s = match m s with | (.panic p, s') => (.panic p, s') | (x, s') => f x s')
    (he : ∀ e s0 s i, F s → ∃ x s', (∀ fuel, g (.err e) fuel (s, i) = some (x, (s', i))) ∧ V (n s0).1 x ∧ F s') : Shaken I tape F rd V n (SM.andThen q g) := by
  intro s i hF hs
  obtain ⟨f0, x, s', j, h1, h2⟩ := h s i hF hs
  have hns := hn s
  rcases h2 with ⟨rfl, h2⟩ | ⟨⟨e, rfl⟩, h2⟩
  · rcases hm : m s with ⟨x, t⟩
    rw [hm] at h1 h2 hns
    cases x with
    | panic p =>
      refine ⟨f0, .panic p, s', j, fun fuel hfuel => ?_, .inl ?_⟩
      · simp only [SM.andThen, h1 fuel hfuel]
      · rw [hns]; exact ⟨rfl, fun hp => absurd rfl (hp p)⟩
    | ok a =>
      obtain ⟨rfl, hF', ht⟩ := h2 (by simp)
      obtain ⟨f1, x, s'', j', h3, h4⟩ := hf (.ok a) s' j hF' ht
      refine ⟨max f0 f1, x, s'', j', fun fuel hfuel => ?_, ?_⟩
      · simp only [SM.andThen, h1 fuel (by omega), h3 fuel (by omega)]
      · rw [hns]; exact h4
    | err e =>
      obtain ⟨rfl, hF', ht⟩ := h2 (by simp)
      obtain ⟨f1, x, s'', j', h3, h4⟩ := hf (.err e) s' j hF' ht
      refine ⟨max f0 f1, x, s'', j', fun fuel hfuel => ?_, ?_⟩
      · simp only [SM.andThen, h1 fuel (by omega), h3 fuel (by omega)]
      · rw [hns]; exact h4
  · obtain ⟨x, s'', h3, h4⟩ := he e s s' j h2
    exact ⟨f0, x, s'', j, fun fuel hfuel => by simp only [SM.andThen, h1 fuel hfuel, h3], .inr h4⟩

end Shaken

namespace Source
namespace Shakes
open Device
variable {ρ α ε : Type} {D : Source ρ} {I : ρ → Prop} {tape : ρ → Tape}

/-- No condition. -/
def any {σ : Type} (_ : σ) : Prop := True

/-- Positions can be told. -/
def sited (p : Parser) : Prop := p.started = [] ∨ p.toplevel ≠ 0

/-- Code that keeps a condition. -/
def Keeps {ε σ α : Type} (F : σ → Prop) (m : M ε σ α) : Prop := ∀ s, F s → F (m s).2

namespace Keeps
variable {σ β : Type} {F : σ → Prop}

theorem bind {m : M ε σ α} {f : α → M ε σ β} (h : Keeps F m) (hf : ∀ a, Keeps F (f a)) : Keeps F (m >>= f) := by
  intro s hs
  have := h s hs
  rw [M.bind_apply]
  rcases hm : m s with ⟨x | x | x, t⟩ <;> rw [hm] at this
  · exact hf x t this
  · exact this
  · exact this

theorem pure (a : α) : Keeps F (Pure.pure a : M ε σ α) := fun _ h => h

theorem ite {c : Prop} [Decidable c] {m n : M ε σ α} (h1 : Keeps F m) (h2 : Keeps F n) : Keeps F (if c then m else n) := by split <;> assumption

end Keeps

/-- Code that leaves the reader alone, and keeps a condition. -/
theorem lifts {σ : Type} {F : σ → Prop} {rd : σ → Reader} {W : Res ε α → Res ε α → Prop} {m : M ε σ α} (h : Still rd m) (hk : Keeps F m) :
    Shaken I tape F rd W m (SM.lift m) := .lift fun s hs _ => ⟨h s, hk s hs⟩

theorem readExact_follows (hf : Shaky D I tape) (n : Nat) : Shaken I tape any id errs (Reader.readExact n) (readExact D n) := by
  intro r i _ hr
  have h := exactLoop_ends hf n [] r i hr
  rw [Chunked.prefixed_nil] at h
  obtain ⟨f0, x, r', j, h1, h2⟩ := h
  refine ⟨f0, x, r', j, h1, ?_⟩
  rcases h2 with ⟨h2, h3⟩ | h2
  · exact .inl ⟨h2, fun hp => ⟨(h3 hp).1, trivial, (h3 hp).2⟩⟩
  · exact .inr ⟨h2, trivial⟩

theorem skipTo_follows (hf : Shaky D I tape) (pos : Nat) : Shaken I tape any id errs (Reader.skipTo pos) (skipTo D pos) := by
  intro r i _ hr
  unfold skipTo Reader.skipTo
  by_cases h1 : pos < r.position
  · refine ⟨0, .panic .skipBackward, r, i, fun _ _ => ?_, .inl ?_⟩
    · simp only [if_pos h1]
    · simp only [if_pos h1]; exact ⟨trivial, fun hp => absurd rfl (hp _)⟩
  · simp only [if_neg h1, Reader.skipDistance]
    cases hs : r.seekable with
    | true =>
      obtain ⟨y, r', j, h2, h3⟩ := seekLoop_spec hf ((pos - r.position) / i64Max + 1) (pos - r.position) r i hr
      refine ⟨0, y, r', j, fun _ _ => ?_, ?_⟩
      · simp only [if_true, skipSeek, h2]
      · rcases h3 with ⟨h3, h4⟩ | h3
        · exact .inl ⟨h3, fun hp => ⟨(h4 hp).1, trivial, (h4 hp).2⟩⟩
        · exact .inr ⟨h3, trivial⟩
    | false =>
      obtain ⟨f0, y, r', j, h2, h3⟩ := copyLoop_ends hf (pos - r.position) r i hr
      refine ⟨f0, y, r', j, fun fuel hfuel => ?_, ?_⟩
      · simp only [Bool.false_eq_true, if_false, skipPlain]
        exact h2 fuel hfuel
      · rcases h3 with ⟨h3, h4⟩ | h3
        · exact .inl ⟨h3, fun hp => ⟨(h4 hp).1, trivial, (h4 hp).2⟩⟩
        · exact .inr ⟨h3, trivial⟩

theorem readU8_follows (hf : Shaky D I tape) : Shaken I tape any id errs Reader.readU8 (readU8 D) :=
  (readExact_follows hf 1).bind fun _ => .pure _

theorem readLe_follows (hf : Shaky D I tape) (k : Nat) : Shaken I tape any id errs (Reader.readLe k) (readLe D k) :=
  (readExact_follows hf k).bind fun _ => .pure _

theorem loadHeader_follows (hf : Shaky D I tape) : Shaken I tape any id errs Fbx.loadHeader (loadHeader D) :=
  ((readExact_follows hf 23).mapErr _).bind fun _ => .ite (.lift fun _ _ _ => ⟨rfl, trivial⟩) (((readExact_follows hf 4).mapErr _).bind fun _ => .pure _)

/-! ## The parser -/

theorem io_follows {m : M IoErr Reader α} {q : SM ρ IoErr Reader α} (h : Shaken I tape any id errs m q) :
    Shaken I tape sited Parser.reader errs (Parser.io m) (io q) :=
  (Shaken.zoom (getter := Parser.reader) (setter := fun r p => { p with reader := r }) (fun _ => rfl) (fun _ _ => rfl) (fun _ _ => trivial)
    (fun _ _ h _ => h) h).mapErr _

section
variable {σ : Type} {F : σ → Prop} {rd : σ → Reader} 

theorem get_follows {W : Res ε σ → Res ε σ → Prop} : Shaken I tape F rd W (M.get : M ε σ σ) (SM.lift M.get) := .lift fun _ h _ => ⟨rfl, h⟩

theorem throw_follows {W : Res ε α → Res ε α → Prop} (e : ε) : Shaken I tape F rd W (M.throw e : M ε σ α) (SM.lift (M.throw e)) := .lift fun _ h _ => ⟨rfl, h⟩

theorem panic_follows {W : Res ε α → Res ε α → Prop} (x : Panic) : Shaken I tape F rd W (M.panic x : M ε σ α) (SM.lift (M.panic x)) := .lift fun _ h _ => ⟨rfl, h⟩

theorem assert_follows {W : Res ε Unit → Res ε Unit → Prop} (b : Bool) (x : Panic) :
    Shaken I tape F rd W (M.assert b x : M ε σ Unit) (SM.lift (M.assert b x)) :=
  .lift fun s h _ => by cases b <;> exact ⟨rfl, h⟩

theorem get_keeps : Keeps F (M.get : M ε σ σ) := fun _ h => h
theorem throw_keeps (e : ε) : Keeps F (M.throw e : M ε σ α) := fun _ h => h
theorem ofExcept_keeps (r : Except ε α) : Keeps F (M.ofExcept r : M ε σ α) := fun s h => by cases r <;> exact h

end

theorem position_keeps : Keeps sited Parser.position := fun p h => by unfold Parser.position; split <;> exact h

theorem warn_keeps (w : Warning) (pos : SynPos) : Keeps sited (Parser.warn w pos) := fun p h => by
  unfold Parser.warn
  dsimp only
  split
  · exact h
  · split <;> exact h

theorem warnIf_keeps (c : Bool) (w : Warning) (pos : SynPos) : Keeps sited (Parser.warnIf c w pos) := .ite (warn_keeps _ _) (.pure _)

theorem pop_sited {p : Parser} {n : Started} {outer : List Started} (h : sited p) (hs : p.started = n :: outer) : p.toplevel ≠ 0 :=
  h.resolve_left (by rw [hs]; simp)

/-- Removing the innermost node. -/
theorem pop_keeps {l : List Started} : Keeps (fun p : Parser => p.toplevel ≠ 0) (M.modify (fun p => { p with started := l }) : M PErr Parser Unit) :=
  fun _ h => h

theorem tryImplicitEnd_keeps : Keeps sited Parser.tryImplicitEnd := by
  intro p hp
  unfold Parser.tryImplicitEnd
  rw [M.bind_apply, M.get_apply]
  dsimp only
  cases hs : p.started with
  | nil => exact hp
  | cons n outer =>
    dsimp only
    split
    · exact hp
    · split
      · have ht := pop_sited hp hs
        have hpop : Keeps (fun p : Parser => p.toplevel ≠ 0) (M.modify (fun p => { p with started := outer }) >>= fun _ => pure true : M PErr Parser Bool) :=
          pop_keeps.bind fun _ => .pure _
        have hpos : Keeps (fun p : Parser => p.toplevel ≠ 0) Parser.position := fun p h => by unfold Parser.position; split <;> exact h
        have hwarn : ∀ w pos, Keeps (fun p : Parser => p.toplevel ≠ 0) (Parser.warn w pos) := fun w pos p h => by
          unfold Parser.warn
          dsimp only
          split
          · exact h
          · split <;> exact h
        split
        · exact .inr ((hpos.bind fun _ => (hwarn _ _).bind fun _ => hpop) p ht)
        · exact .inr (hpop p ht)
      · exact hp

theorem explicitEnd_keeps : Keeps sited Parser.explicitEnd := by
  intro p hp
  unfold Parser.explicitEnd
  rw [M.bind_apply, M.get_apply]
  dsimp only
  cases hs : p.started with
  | nil => exact hp
  | cons n outer =>
    dsimp only
    have ht := pop_sited hp hs
    rw [M.bind_apply, M.set_apply]
    dsimp only
    have h1 : sited { p with started := outer } := .inr ht
    split
    · exact h1
    · split
      · exact (position_keeps.bind fun _ => (warn_keeps _ _).bind fun _ => .pure _) _ h1
      · exact h1

theorem warnEmptyName_keeps (start : Nat) : Keeps sited (Parser.warnEmptyName start) :=
  position_keeps.bind fun _ => get_keeps.bind fun _ => warn_keeps _ _

theorem addAttrEnd_keeps (a b : Nat) : Keeps sited (Parser.addAttrEnd a b) := fun p h => by
  unfold Parser.addAttrEnd
  split
  · exact h
  · split <;> exact h

theorem pushNode_keeps (n : Started) : Keeps sited (M.modify (Parser.pushNode n) : M PErr Parser Unit) := fun p h => by
  show sited (Parser.pushNode n p)
  unfold Parser.pushNode
  split
  · exact .inr (Nat.succ_ne_zero _)
  · rename_i hs; exact .inr (pop_sited (p := p) h hs)

theorem readNodeHeader_follows (hf : Shaky D I tape) : Shaken I tape sited Parser.reader errs Parser.readNodeHeader (readNodeHeader D) :=
  get_follows.bind fun _ => (io_follows (readLe_follows hf _)).bind fun _ => (io_follows (readLe_follows hf _)).bind fun _ =>
    (io_follows (readLe_follows hf _)).bind fun _ => (io_follows (readLe_follows hf _)).bind fun _ => .pure _

theorem skipUnreadAttributes_follows (hf : Shaky D I tape) : Shaken I tape sited Parser.reader errs Parser.skipUnreadAttributes (skipUnreadAttributes D) := by
  refine get_follows.bind fun p => ?_
  generalize p.started = l
  cases l
  · exact .pure _
  · exact .ite (io_follows (skipTo_follows hf _)) (.pure _)

theorem startNode_follows (hf : Shaky D I tape) (start : Nat) (h : NodeHeader) :
    Shaken I tape sited Parser.reader errs (Parser.startNode start h) (startNode D start h) := by
  rw [startNode_eq]
  refine (lifts (Still.ite (warnEmptyName_still start) (.pure _)) (.ite (warnEmptyName_keeps start) (.pure _))).bind fun _ => ?_
  refine (io_follows (readExact_follows hf _)).bind fun bs => ?_
  generalize stringOfUtf8 bs = o
  cases o with
  | none => exact throw_follows _
  | some name =>
    exact get_follows.bind fun p => (lifts (addAttrEnd_still _ _) (addAttrEnd_keeps _ _)).bind fun e =>
      (lifts (modify_still (pushNode_reader _)) (pushNode_keeps _)).bind fun _ => .pure _

theorem nextEventImpl_follows (hf : Shaky D I tape) : Shaken I tape sited Parser.reader errs Parser.nextEventImpl (nextEventImpl D) := by
  refine get_follows.bind fun p => (assert_follows _ _).bind fun _ => (assert_follows _ _).bind fun _ =>
    (skipUnreadAttributes_follows hf).bind fun _ => get_follows.bind fun p' => (lifts tryImplicitEnd_still tryImplicitEnd_keeps).bind fun ended => .ite (.pure _) ?_
  exact (readNodeHeader_follows hf).bind fun h => .ite (lifts explicitEnd_still explicitEnd_keeps) (startNode_follows hf _ _)

theorem readFooter_follows (hf : Shaky D I tape) : Shaken I tape sited Parser.reader errs Parser.readFooter (readFooter D) := by
  refine get_follows.bind fun p => (io_follows (readExact_follows hf _)).bind fun u => get_follows.bind fun p' =>
    (lifts (warnIf_still _ _ _) (warnIf_keeps _ _ _)).bind fun _ => (io_follows (readExact_follows hf _)).bind fun buf => ?_
  dsimp only
  generalize List.findIdx? _ (buf.drop 128) = o
  cases o with
  | none => exact throw_follows _
  | some i =>
    refine (assert_follows _ _).bind fun _ => (assert_follows _ _).bind fun _ => .ite (throw_follows _) (.ite (throw_follows _) ?_)
    refine get_follows.bind fun p'' => .ite (throw_follows _) (.ite (throw_follows _) ?_)
    exact (io_follows (readExact_follows hf _)).bind fun more => .ite (throw_follows _) ((lifts (warnIf_still _ _ _) (warnIf_keeps _ _ _)).bind fun _ => .pure _)

/-- Code that does not overflow at the end of the attributes. -/
def Mild {ε σ α : Type} (m : M ε σ α) : Prop := ∀ s x, (m s).1 = .panic x → x ≠ .attrEndOverflow

namespace Mild
variable {σ β : Type}

theorem bind {m : M ε σ α} {f : α → M ε σ β} (h : Mild m) (hf : ∀ a, Mild (f a)) : Mild (m >>= f) := by
  intro s x
  rw [M.bind_apply]
  rcases hm : m s with ⟨y | y | y, s'⟩
  · exact hf y s' x
  · intro hx; cases hx
  · intro hx; cases hx; exact h s x (by rw [hm])

theorem pure (a : α) : Mild (Pure.pure a : M ε σ α) := fun _ _ h => by cases h
theorem throw (e : ε) : Mild (M.throw e : M ε σ α) := fun _ _ h => by cases h
theorem get : Mild (M.get : M ε σ σ) := fun _ _ h => by cases h
theorem ite {c : Prop} [Decidable c] {m n : M ε σ α} (h1 : Mild m) (h2 : Mild n) : Mild (if c then m else n) := by split <;> assumption

theorem assert (b : Bool) (p : Panic) (h : p ≠ .attrEndOverflow) : Mild (M.assert b p : M ε σ Unit) := by
  intro s x
  unfold M.assert
  split
  · intro hx; cases hx
  · intro hx; cases hx; exact h

theorem readExact (n : Nat) : Mild (Parser.io (Reader.readExact n)) := by
  intro p x
  unfold Parser.io
  rw [M.mapErr_apply, M.zoom_apply]
  have key : ∀ y r, Reader.readExact n p.reader = (.panic y, r) → y ≠ .attrEndOverflow := by
    intro y r
    unfold Reader.readExact
    split <;> split <;> intro hx <;> cases hx <;> simp
  rcases hr : Reader.readExact n p.reader with ⟨y | y | y, r⟩
  · intro hx; cases hx
  · intro hx; cases hx
  · intro hx; cases hx; exact key _ _ hr

theorem warnIf (c : Bool) (w : Warning) (pos : SynPos) : Mild (Parser.warnIf c w pos) := by
  intro p x
  unfold Parser.warnIf
  split
  · unfold Parser.warn
    dsimp only
    split
    · intro hx; cases hx
    · split <;> intro hx <;> cases hx
  · intro hx; cases hx

theorem readFooter : Mild Parser.readFooter := by
  refine get.bind fun p => (readExact _).bind fun u => get.bind fun p' => (warnIf _ _ _).bind fun _ => (readExact _).bind fun buf => ?_
  dsimp only
  generalize List.findIdx? _ (buf.drop 128) = o
  cases o with
  | none => exact throw _
  | some i =>
    refine (assert _ _ (by simp)).bind fun _ => (assert _ _ (by simp)).bind fun _ => .ite (throw _) (.ite (throw _) ?_)
    refine get.bind fun p'' => .ite (throw _) (.ite (throw _) ?_)
    exact (readExact _).bind fun more => .ite (throw _) ((warnIf _ _ _).bind fun _ => .pure _)

end Mild

/-- What a failure of the source makes of an event: an error, or the end of the document without a footer. -/
def unfooted (y x : Res PErr Event) : Prop :=
  (∃ e, x = .err e) ∨ ∃ e, x = .ok (.endFbx (.error e)) ∧ ((∃ f, y = .ok (.endFbx f)) ∨ ∃ p, y = .panic p ∧ p ≠ .attrEndOverflow)

theorem makeEvent_follows (hf : Shaky D I tape) (k : EvKind) : Shaken I tape sited Parser.reader unfooted (Parser.makeEvent k) (makeEvent D k) := by
  cases k with
  | startNode => exact lifts (makeEvent_still (by simp)) (fun p h => by unfold Parser.makeEvent; dsimp only; split <;> exact h)
  | endNode => exact lifts (makeEvent_still (by simp)) (fun p h => h)
  | endFbx =>
    have key : ∀ p, Parser.makeEvent .endFbx p = match Parser.readFooter p with | (.panic q, s') => (.panic q, s') | (x, s') => footerEvent x s' := by
      intro p
      unfold Parser.makeEvent
      rcases Parser.readFooter p with ⟨_ | _ | _, _⟩ <;> rfl
    refine (readFooter_follows hf).andThen (f := footerEvent) (fun x => ?_) (fun p => ?_) (fun e p0 p i h => ?_)
    · cases x with
      | ok f => exact .pure _
      | err e => exact .pure _
      | panic x => exact panic_follows _
    · rw [key]
      rcases Parser.readFooter p with ⟨_ | _ | _, _⟩ <;> rfl
    · refine ⟨_, p, fun _ => rfl, .inr ⟨e, rfl, ?_⟩, h⟩
      rw [key]
      have hm := Mild.readFooter p0
      rcases hr : Parser.readFooter p0 with ⟨x | x | x, _⟩
      · exact .inl ⟨_, rfl⟩
      · exact .inl ⟨_, rfl⟩
      · exact .inr ⟨_, rfl, hm x (by rw [hr])⟩

theorem position_sited {p : Parser} (h : sited p) : Parser.position p = (.ok p.synPos, p) := by
  unfold Parser.position
  rw [if_neg]
  rintro ⟨h1, h2⟩
  rcases h with h | h
  · exact h1 h
  · exact h h2

theorem failed_keeps (e : PErr) : Keeps sited (failed e) := fun p h => by
  unfold failed
  rw [position_sited h]
  exact h

theorem settle_keeps (d : Nat) (k : EvKind) : Keeps sited (settle d k) := fun p h => by
  unfold settle
  dsimp only
  by_cases hk : k = .endFbx
  · simp only [if_pos hk]; split <;> exact h
  · simp only [if_neg hk]; split <;> exact h

theorem nextEvent_follows (hf : Shaky D I tape) : Shaken I tape sited Parser.reader unfooted Parser.nextEvent (nextEvent D) := by
  have hW : ∀ (y : Res PErr Event) e, unfooted y (.err e) := fun _ e => .inl ⟨e, rfl⟩
  refine get_follows.bindW hW fun p0 => Shaken.bindW hW (lifts (fun p => ?_) (fun p h => ?_)) fun _ => ?_
  · unfold Parser.ensureContinuable
    split <;> rfl
  · unfold Parser.ensureContinuable
    split <;> exact h
  · refine (nextEventImpl_follows hf).andThen (f := impled p0.depth) (fun x => ?_) (fun p => ?_) (fun e _ p i h => ?_)
    · cases x with
      | ok k => exact Shaken.bindW hW (lifts (settle_still _ _) (settle_keeps _ _)) fun _ => makeEvent_follows hf k
      | err e => exact lifts (failed_still e) (failed_keeps e)
      | panic x => exact panic_follows _
    · dsimp only
      rcases Parser.nextEventImpl p with ⟨k | e | x, q⟩
      · dsimp only [impled]
        rw [M.bind_apply]
        unfold settle
        dsimp only
        by_cases hk : k = .endFbx <;> simp only [hk, if_true, if_false]
        · cases Parser.depthOk .endFbx p0.depth ({ q with health := .finished, last := some .endFbx } : Parser).depth <;> rfl
        · cases Parser.depthOk k p0.depth ({ q with last := some k } : Parser).depth <;> rfl
      · rfl
      · rfl
    · refine ⟨(failed e p).1, (failed e p).2, fun _ => rfl, .inl ?_, failed_keeps e p h⟩
      unfold failed
      rw [position_sited h]
      exact ⟨_, rfl⟩

/-! ## Attributes -/

/-- Positions can be told. -/
def asited (a : AP) : Prop := sited a.parser

theorem par_follows {W : Res PErr α → Res PErr α → Prop} {m : M PErr Parser α} {q : SM ρ PErr Parser α} (h : Shaken I tape sited Parser.reader W m q) :
    Shaken I tape asited AP.rd W (AP.par m) (par q) :=
  h.zoom (fun _ => rfl) (fun _ _ => rfl) (fun _ h => h) (fun _ _ _ h => h)

theorem aio_follows {m : M IoErr Reader α} {q : SM ρ IoErr Reader α} (h : Shaken I tape any id errs m q) :
    Shaken I tape asited AP.rd errs (AP.io m) (aio q) :=
  par_follows (io_follows h)

theorem updateNext_keeps (n : Nat) : Keeps asited (AP.updateNext n) := fun a h => by
  unfold AP.updateNext
  dsimp only
  split <;> exact h

theorem par_keeps {m : M PErr Parser α} (h : Keeps sited m) : Keeps asited (AP.par m) := fun a ha => by
  unfold AP.par
  rw [M.zoom_apply]
  exact h _ ha

theorem aposition_keeps (start idx : Nat) : Keeps asited (AP.position start idx) := (par_keeps position_keeps).bind fun _ => .pure _

theorem oddWarning_keeps (odd : Bool) (start idx : Nat) : Keeps asited (oddWarning odd start idx) :=
  .ite ((aposition_keeps _ _).bind fun _ => par_keeps (warn_keeps _ _)) (.pure _)

/-- The type code has been read. -/
theorem typeRead_follows (code : Byte) : Shaken I tape asited AP.rd errs
    (match AttrType.fromTypeCode code with
      | none => M.throw (PErr.ofData (.invalidAttrTypeCode code))
      | some t => M.modify (fun a => { a with attrs := { a.attrs with rest := a.attrs.rest - 1 } }) >>= fun _ => pure (some t))
    (match AttrType.fromTypeCode code with
      | none => SM.lift (M.throw (PErr.ofData (.invalidAttrTypeCode code)))
      | some t => SM.lift (M.modify (fun a => { a with attrs := { a.attrs with rest := a.attrs.rest - 1 } })) >>= fun _ => pure (some t)) := by
  generalize AttrType.fromTypeCode code = o
  cases o with
  | none => exact throw_follows _
  | some t => refine Shaken.bind (.lift fun a h _ => ⟨rfl, h⟩) fun _ => .pure _

theorem readNextType_follows (hf : Shaky D I tape) : Shaken I tape asited AP.rd errs AP.readNextType (readNextType D) := by
  rw [readNextType_eq]
  unfold readNextType
  refine get_follows.bind fun a => .ite (.pure _) ?_
  by_cases h : a.parser.reader.position < a.attrs.next
  · simp only [if_pos h]
    exact (aio_follows (skipTo_follows hf _)).bind fun _ => (aio_follows (readU8_follows hf)).bind fun code => typeRead_follows code
  · simp only [if_neg h]
    rw [M.pure_bind']
    exact (aio_follows (readU8_follows hf)).bind fun code => typeRead_follows code

theorem readArrHeader_follows (hf : Shaky D I tape) : Shaken I tape asited AP.rd errs AP.readArrHeader (readArrHeader D) := by
  refine (aio_follows (readLe_follows hf _)).bind fun count => (aio_follows (readLe_follows hf _)).bind fun raw => ?_
  generalize ArrEnc.fromU32 raw = o
  cases o with
  | none => exact throw_follows _
  | some enc => exact (aio_follows (readLe_follows hf _)).bind fun _ => .pure _

theorem decCreate_follows (hf : Shaky D I tape) (Z : Zlib) (enc : ArrEnc) : Shaken I tape any id errs (Dec.create Z enc) (decCreate D Z enc) := by
  cases enc with
  | direct => exact .pure _
  | zlib =>
    refine ((readU8_follows hf).mapErr _).bind fun a => ((readU8_follows hf).mapErr _).bind fun b => ?_
    generalize Z.header a b = o
    cases o with
    | none => exact throw_follows _
    | some s => exact .pure _

theorem zRead_follows (hf : Shaky D I tape) (Z : Zlib) : ∀ (k n : Nat) (acc : Bytes) (F : Nat) (s : Z.S) (r : Reader) (i : ρ), n + r.rest.length = k → k < F →
    Agrees I tape r i → ∃ f0 x s' r' j, (∀ fuel, f0 ≤ fuel → zRead D Z fuel n acc ((s, r), i) = some (x, ((s', r'), j))) ∧
      ((x = (Dec.zRead Z F n acc (s, r)).1 ∧ ((∀ p, (Dec.zRead Z F n acc (s, r)).1 ≠ .panic p) → (s', r') = (Dec.zRead Z F n acc (s, r)).2 ∧ Agrees I tape r' j)) ∨
        ∃ e, x = .err e) := by
  intro k
  induction k using Nat.strongRecOn with
  | ind k ih =>
    intro n acc F s r i hk hF hr
    obtain ⟨F, rfl⟩ : ∃ F', F = F' + 1 := ⟨F - 1, by omega⟩
    by_cases hn : n = 0
    · refine ⟨1, .ok acc, s, r, i, fun fuel hfuel => ?_, .inl ?_⟩
      · obtain ⟨f, rfl⟩ : ∃ f, fuel = f + 1 := ⟨fuel - 1, by omega⟩
        simp only [zRead, if_pos hn]
      · simp only [Dec.zRead, if_pos hn]; exact ⟨trivial, fun _ => ⟨trivial, hr⟩⟩
    · cases hst : Z.step s with
      | eof =>
        refine ⟨1, .err .unexpectedEof, s, r, i, fun fuel hfuel => ?_, .inr ⟨_, rfl⟩⟩
        obtain ⟨f, rfl⟩ : ∃ f, fuel = f + 1 := ⟨fuel - 1, by omega⟩
        simp only [zRead, if_neg hn, hst]
      | fail =>
        refine ⟨1, .err .badCompression, s, r, i, fun fuel hfuel => ?_, .inr ⟨_, rfl⟩⟩
        obtain ⟨f, rfl⟩ : ∃ f, fuel = f + 1 := ⟨fuel - 1, by omega⟩
        simp only [zRead, if_neg hn, hst]
      | emit b s' =>
        obtain ⟨f0, x, s'', r', j, h1, h2⟩ := ih (n - 1 + r.rest.length) (by omega) (n - 1) (acc ++ [b]) F s' r i rfl (by omega) hr
        refine ⟨f0 + 1, x, s'', r', j, fun fuel hfuel => ?_, ?_⟩
        · obtain ⟨f, rfl⟩ : ∃ f, fuel = f + 1 := ⟨fuel - 1, by omega⟩
          simp only [zRead, if_neg hn, hst]
          exact h1 f (by omega)
        · simp only [Dec.zRead, if_neg hn, hst]; exact h2
      | need step =>
        obtain ⟨f0, x, r', j, h1, h2⟩ := readU8_follows hf r i trivial hr
        rcases h2 with ⟨rfl, h2⟩ | ⟨⟨e, rfl⟩, _⟩
        · rcases hu : Reader.readU8 r with ⟨b | e | p, r1⟩ <;> rw [hu] at h1 h2
          · obtain ⟨rfl, _, hr'⟩ := h2 (by simp)
            have hlen : r'.rest.length < r.rest.length := by
              have := readU8_len hu
              omega
            obtain ⟨f1, x, s'', r'', j', h3, h4⟩ := ih (n + r'.rest.length) (by omega) n acc F (step b) r' j rfl (by omega) hr'
            refine ⟨max f0 f1 + 1, x, s'', r'', j', fun fuel hfuel => ?_, ?_⟩
            · obtain ⟨f, rfl⟩ : ∃ f, fuel = f + 1 := ⟨fuel - 1, by omega⟩
              simp only [zRead, if_neg hn, hst, h1 f (by omega)]
              exact h3 f (by omega)
            · simp only [Dec.zRead, if_neg hn, hst, hu]; exact h4
          · refine ⟨f0 + 1, .err e, s, r', j, fun fuel hfuel => ?_, .inr ⟨_, rfl⟩⟩
            obtain ⟨f, rfl⟩ : ∃ f, fuel = f + 1 := ⟨fuel - 1, by omega⟩
            simp only [zRead, if_neg hn, hst, h1 f (by omega)]
          · refine ⟨f0 + 1, .panic p, s, r', j, fun fuel hfuel => ?_, .inl ?_⟩
            · obtain ⟨f, rfl⟩ : ∃ f, fuel = f + 1 := ⟨fuel - 1, by omega⟩
              simp only [zRead, if_neg hn, hst, h1 f (by omega)]
            · simp only [Dec.zRead, if_neg hn, hst, hu]; exact ⟨trivial, fun h => absurd rfl (h _)⟩
        · refine ⟨f0 + 1, .err e, s, r', j, fun fuel hfuel => ?_, .inr ⟨_, rfl⟩⟩
          obtain ⟨f, rfl⟩ : ∃ f, fuel = f + 1 := ⟨fuel - 1, by omega⟩
          simp only [zRead, if_neg hn, hst, h1 f (by omega)]

theorem decExact_follows (hf : Shaky D I tape) {Z : Zlib} (n : Nat) : Shaken I tape any Prod.snd errs (Dec.readExact (Z := Z) n) (decExact D n) := by
  rintro ⟨d, r⟩ i _ hr
  cases d with
  | direct =>
    obtain ⟨f0, x, r', j, h1, h2⟩ := readExact_follows hf n r i trivial hr
    refine ⟨f0, x, (.direct, r'), j, fun fuel hfuel => ?_, ?_⟩
    · simp only [decExact, h1 fuel hfuel]
    · rcases h2 with ⟨h2, h3⟩ | ⟨h2, _⟩
      · refine .inl ⟨h2, fun hp => ?_⟩
        obtain ⟨rfl, _, h4⟩ := h3 hp
        exact ⟨rfl, trivial, h4⟩
      · exact .inr ⟨h2, trivial⟩
  | zlib z =>
    obtain ⟨f0, x, z', r', j, h1, h2⟩ := zRead_follows hf Z _ n [] (n + r.rest.length + 1) z r i rfl (by omega) hr
    refine ⟨f0, x, (.zlib z', r'), j, fun fuel hfuel => ?_, ?_⟩
    · simp only [decExact, h1 fuel hfuel]
    · rcases h2 with ⟨h2, h3⟩ | h2
      · refine .inl ⟨h2, fun hp => ?_⟩
        obtain ⟨h4, h5⟩ := h3 hp
        refine ⟨?_, trivial, h5⟩
        simp only [Dec.readExact, ← h4]
      · exact .inr ⟨h2, trivial⟩

/-- A failure of the source is the error of an element. -/
def broken {e : Type} (_ x : Res PErr (Option (Except PErr e))) : Prop := ∃ err, x = .ok (some (.error err))

theorem elemNext_follows (hf : Shaky D I tape) {Z : Zlib} {e : Type} (t : ElemTy e) :
    Shaken I tape any Prod.snd broken (ElemIter.next (Z := Z) t) (elemNext D t) := by
  rintro ⟨it, r⟩ i _ hr
  by_cases h0 : it.rest = 0
  · refine ⟨0, .ok none, (it, r), i, fun fuel _ => ?_, .inl ⟨?_, fun _ => ⟨?_, trivial, hr⟩⟩⟩
    · simp only [elemNext, if_pos h0]
    · simp only [ElemIter.next, if_pos h0]
    · simp only [ElemIter.next, if_pos h0]
  · obtain ⟨f0, y, ⟨d', r'⟩, j, h1, h2⟩ := decExact_follows hf (Z := Z) t.size (it.dec, r) i trivial hr
    rcases h2 with ⟨rfl, h2⟩ | ⟨⟨y, rfl⟩, _⟩
    · rcases hd : Dec.readExact t.size (it.dec, r) with ⟨bs | x | x, d1, r1⟩ <;> rw [hd] at h1 h2
      · obtain ⟨h3, _, h4⟩ := h2 (by simp)
        cases h3
        refine ⟨f0, _, _, j, fun fuel hfuel => by simp only [elemNext, if_neg h0, h1 fuel hfuel]; rfl, .inl ?_⟩
        simp only [ElemIter.next, if_neg h0, hd]; exact ⟨trivial, fun _ => ⟨trivial, trivial, h4⟩⟩
      · obtain ⟨h3, _, h4⟩ := h2 (by simp)
        cases h3
        refine ⟨f0, _, _, j, fun fuel hfuel => by simp only [elemNext, if_neg h0, h1 fuel hfuel]; rfl, .inl ?_⟩
        simp only [ElemIter.next, if_neg h0, hd]; exact ⟨trivial, fun _ => ⟨trivial, trivial, h4⟩⟩
      · refine ⟨f0, .panic x, ({ it with dec := d' }, r'), j, fun fuel hfuel => by simp only [elemNext, if_neg h0, h1 fuel hfuel], .inl ?_⟩
        simp only [ElemIter.next, if_neg h0, hd]; exact ⟨trivial, fun h => absurd rfl (h _)⟩
    · exact ⟨f0, .ok (some (.error (PErr.ofIo y))), ({ it with dec := d', hasError := true }, r'), j,
        fun fuel hfuel => by simp only [elemNext, if_neg h0, h1 fuel hfuel], .inr ⟨⟨_, rfl⟩, trivial⟩⟩

theorem elemRun_follows (hf : Shaky D I tape) {Z : Zlib} {e : Type} (t : ElemTy e) (c : SeqCons e α) (hc : Honest c) :
    Shaken I tape any Prod.snd errs (ElemIter.run (Z := Z) t c) (elemRun D t c) := by
  induction c with
  | done r => exact lifts (ofExcept_still r) (ofExcept_keeps r)
  | pull k ih =>
    intro s i hF hs
    obtain ⟨f0, x, s', j, h1, h2⟩ := elemNext_follows hf t s i hF hs
    rcases h2 with ⟨rfl, h2⟩ | ⟨⟨y, rfl⟩, _⟩
    · show ∃ f0 x s' j, (∀ fuel, f0 ≤ fuel → SM.bind (elemNext D t) (fun x => elemRun D t (k x)) fuel (s, i) = some (x, (s', j))) ∧
        ((x = ((ElemIter.next t >>= fun x => ElemIter.run t (k x)) s).1 ∧ ((∀ p, ((ElemIter.next t >>= fun x => ElemIter.run t (k x)) s).1 ≠ .panic p) →
          s' = ((ElemIter.next t >>= fun x => ElemIter.run t (k x)) s).2 ∧ any s' ∧ Agrees I tape s'.2 j)) ∨ (errs _ x ∧ any s'))
      rw [M.bind_apply]
      rcases hd : ElemIter.next (Z := Z) t s with ⟨x | x | x, s1⟩ <;> rw [hd] at h1 h2
      · obtain ⟨rfl, _, h4⟩ := h2 (by simp)
        obtain ⟨f1, y, s2, j2, h5, h6⟩ := ih x (hc.2 x) s' j trivial h4
        exact ⟨max f0 f1, y, s2, j2, fun fuel hfuel => by simp only [SM.bind, h1 fuel (by omega), h5 fuel (by omega)], h6⟩
      · exact ⟨f0, .err x, s', j, fun fuel hfuel => by simp only [SM.bind, h1 fuel (by omega)], .inr ⟨⟨x, rfl⟩, trivial⟩⟩
      · exact ⟨f0, .panic x, s', j, fun fuel hfuel => by simp only [SM.bind, h1 fuel (by omega)], .inl ⟨rfl, fun h => absurd rfl (h _)⟩⟩
    · obtain ⟨y', hy⟩ := hc.1 y
      refine ⟨f0, .err y', s', j, fun fuel hfuel => ?_, .inr ⟨⟨_, rfl⟩, trivial⟩⟩
      show SM.bind (elemNext D t) (fun x => elemRun D t (k x)) fuel (s, i) = _
      simp only [SM.bind, h1 fuel hfuel, hy]
      rfl

theorem special_follows (hf : Shaky D I tape) (len : Nat) (c : Special α) :
    Shaken I tape any id errs (fun r => (((c.cons len).run (len, r)).1, ((c.cons len).run (len, r)).2.2)) (special D len c) := by
  intro r i _ hr
  cases c with
  | done x => cases x <;> exact ⟨0, _, r, i, fun fuel _ => rfl, .inl ⟨rfl, fun _ => ⟨rfl, trivial, hr⟩⟩⟩
  | toEnd fin =>
    have h := endLoop_ends hf len [] r i hr
    rw [Chunked.prefixed_nil] at h
    obtain ⟨f0, y, r', j, h1, h2⟩ := h
    obtain ⟨k1, k2⟩ := readToEnd_run len fin (len + 1) len [] r (by omega) (Nat.le_refl _) hr.pos
    rw [Chunked.prefixed_nil] at k1
    rcases h2 with ⟨rfl, h2⟩ | ⟨e, rfl⟩
    · refine ⟨f0, (((Special.toEnd fin).cons len).run (len, r)).1, r', j, fun fuel hfuel => ?_, .inl ⟨rfl, fun hp => ?_⟩⟩
      · simp only [special, h1 fuel hfuel, Special.cons, k1]
        rcases (Chunked.readAll len r).1 with bs | e | x
        · simp only [finished]; cases fin bs <;> rfl
        · rfl
        · rfl
      · have hp' : ∀ p, (Chunked.readAll len r).1 ≠ .panic p := by
          intro p hx
          refine hp p ?_
          simp only [Special.cons, k1, hx]
          rfl
        obtain ⟨h3, h4⟩ := h2 hp'
        exact ⟨h3.trans (k2 hp').symm, trivial, h4⟩
    · exact ⟨f0, .err (PErr.ofIo e), r', j, fun fuel hfuel => by simp only [special, h1 fuel hfuel], .inr ⟨⟨_, rfl⟩, trivial⟩⟩

theorem runSeq_follows (hf : Shaky D I tape) {e : Type} {Z : Zlib} (t : ElemTy e) (c : SeqCons e α) (hc : Honest c) (d : Dec Z) (count : Nat) :
    Shaken I tape asited AP.rd errs (AP.runSeq t c d count) (runSeq D t c d count) := by
  intro a i hF ha
  obtain ⟨f0, y, ⟨it, r⟩, j, h1, h2⟩ := elemRun_follows hf t c hc ((⟨d, count, false, false⟩ : ElemIter Z), a.parser.reader) i trivial ha
  rcases h2 with ⟨rfl, h2⟩ | ⟨⟨y, rfl⟩, _⟩
  · rcases hd : ElemIter.run t c ((⟨d, count, false, false⟩ : ElemIter Z), a.parser.reader) with ⟨x | x | x, it1, r1⟩ <;> rw [hd] at h1 h2
    · obtain ⟨h3, _, h4⟩ := h2 (by simp)
      cases h3
      refine ⟨f0, _, _, j, fun fuel hfuel => by simp only [runSeq, h1 fuel hfuel]; rfl, .inl ?_⟩
      simp only [AP.runSeq, hd]; exact ⟨trivial, fun _ => ⟨trivial, hF, h4⟩⟩
    · obtain ⟨h3, _, h4⟩ := h2 (by simp)
      cases h3
      refine ⟨f0, _, _, j, fun fuel hfuel => by simp only [runSeq, h1 fuel hfuel]; rfl, .inl ?_⟩
      simp only [AP.runSeq, hd]; exact ⟨trivial, fun _ => ⟨trivial, hF, h4⟩⟩
    · refine ⟨f0, .panic x, { a with parser := { a.parser with reader := r } }, j, fun fuel hfuel => by simp only [runSeq, h1 fuel hfuel], .inl ?_⟩
      simp only [AP.runSeq, hd]; exact ⟨trivial, fun h => absurd rfl (h _)⟩
  · exact ⟨f0, .err y, { a with parser := { a.parser with reader := r } }, j, fun fuel hfuel => by simp only [runSeq, h1 fuel hfuel], .inr ⟨⟨_, rfl⟩, hF⟩⟩

theorem parIn_follows {m : M PErr Reader α} {q : SM ρ PErr Reader α} (h : Shaken I tape any id errs m q) :
    Shaken I tape asited AP.rd errs (AP.par (M.zoom Parser.reader (fun r p => { p with reader := r }) m))
      (par (SM.zoom Parser.reader (fun r p => { p with reader := r }) q)) :=
  par_follows (Shaken.zoom (getter := Parser.reader) (setter := fun r p => { p with reader := r }) (fun _ => rfl) (fun _ _ => rfl) (fun _ _ => trivial)
    (fun _ _ h _ => h) h)

theorem loadSeq_follows (hf : Shaky D I tape) {e : Type} (Z : Zlib) (t : ElemTy e) (c : Nat → SeqCons e α) (hc : ∀ n, Honest (c n)) (start idx : Nat) :
    Shaken I tape asited AP.rd errs (AP.loadSeq Z t c start idx) (loadSeq D Z t c start idx) := by
  rw [loadSeq_eq]
  unfold loadSeq
  refine (readArrHeader_follows hf).bind fun h => (lifts (updateNext_still _) (updateNext_keeps _)).bind fun _ =>
    (parIn_follows (decCreate_follows hf Z h.enc)).bind fun d =>
    (runSeq_follows hf t _ (hc _) d _).bind fun x => Shaken.bind (lifts (oddWarning_still _ _ _) (oddWarning_keeps _ _ _)) fun _ => lifts ?_ ?_
  · exact .ite (throw_still _) (.pure _)
  · exact .ite (throw_keeps _) (.pure _)

theorem loadSpecial_follows (hf : Shaky D I tape) (c : Nat → Special α) :
    Shaken I tape asited AP.rd errs (AP.loadSpecial (fun n => (c n).cons n)) (loadSpecial D c) := by
  rw [loadSpecial_eq]
  exact (aio_follows (readLe_follows hf _)).bind fun len => (lifts (updateNext_still _) (updateNext_keeps _)).bind fun _ =>
    parIn_follows (special_follows hf len (c len))

theorem loadPrim_follows (hf : Shaky D I tape) (w : Nat) (f : BitVec (8 * w) → Except PErr α) :
    Shaken I tape asited AP.rd errs (AP.loadPrim w f) (loadPrim D w f) :=
  (aio_follows (readLe_follows hf _)).bind fun _ => (lifts (updateNext_still _) (updateNext_keeps _)).bind fun _ =>
    lifts (ofExcept_still _) (ofExcept_keeps _)

theorem loadBool_follows (hf : Shaky D I tape) (f : Bool → Except PErr α) (start idx : Nat) :
    Shaken I tape asited AP.rd errs (AP.loadBool f start idx) (loadBool D f start idx) := by
  rw [loadBool_eq]
  exact (aio_follows (readU8_follows hf)).bind fun _ => (lifts (updateNext_still _) (updateNext_keeps _)).bind fun _ =>
    Shaken.bind (lifts (oddWarning_still _ _ _) (oddWarning_keeps _ _ _)) fun _ => lifts (ofExcept_still _) (ofExcept_keeps _)

theorem loadImpl_follows (hf : Shaky D I tape) (Z : Zlib) (buffered : Bool) (t : AttrType) (l : WLoader α) (hl : Truthful l) (start idx : Nat) :
    Shaken I tape asited AP.rd errs (AP.loadImpl Z buffered t l.loader start idx) (loadImpl D Z buffered t l start idx) := by
  cases t with
  | bool => exact loadBool_follows hf _ _ _
  | i16 => exact loadPrim_follows hf _ _
  | i32 => exact loadPrim_follows hf _ _
  | i64 => exact loadPrim_follows hf _ _
  | f32 => exact loadPrim_follows hf _ _
  | f64 => exact loadPrim_follows hf _ _
  | arrBool => exact loadSeq_follows hf _ _ _ hl.1 _ _
  | arrI32 => exact loadSeq_follows hf _ _ _ hl.2.1 _ _
  | arrI64 => exact loadSeq_follows hf _ _ _ hl.2.2.1 _ _
  | arrF32 => exact loadSeq_follows hf _ _ _ hl.2.2.2.1 _ _
  | arrF64 => exact loadSeq_follows hf _ _ _ hl.2.2.2.2 _ _
  | binary => cases buffered <;> exact loadSpecial_follows hf _
  | string => cases buffered <;> exact loadSpecial_follows hf _

theorem loadBody_follows (hf : Shaky D I tape) (Z : Zlib) (buffered : Bool) (l : WLoader α) (hl : Truthful l) (start idx : Nat) :
    Shaken I tape asited AP.rd errs (AP.loadBody Z buffered l.loader start idx) (loadBody D Z buffered l start idx) := by
  refine (readNextType_follows hf).bind fun o => ?_
  cases o with
  | none => exact .pure _
  | some t => exact (loadImpl_follows hf Z buffered t l hl start idx).bind fun v => .pure _

theorem aposition_sited {a : AP} (h : asited a) (start idx : Nat) : ∃ pos, AP.position start idx a = (.ok pos, a) := by
  refine ⟨{ a.parser.synPos with compPos := start, attrIdx := some idx }, ?_⟩
  unfold AP.position AP.par
  rw [M.bind_apply, M.zoom_apply, position_sited h]
  rfl

theorem loadFailed_spec {a : AP} (h : asited a) (start idx : Nat) (e : PErr) :
    ∃ e' pos, (loadFailed start idx e : M PErr AP α) a = (.err e', { a with parser := a.parser.setAborted pos }) := by
  obtain ⟨pos, hp⟩ := aposition_sited h start idx
  unfold loadFailed
  rw [hp]
  exact ⟨_, _, rfl⟩

theorem load_follows (hf : Shaky D I tape) (Z : Zlib) (buffered : Bool) (l : WLoader α) (hl : Truthful l) :
    Shaken I tape asited AP.rd errs (AP.load Z buffered l.loader) (load D Z buffered l) := by
  refine Shaken.bind (lifts (par_still ?_) (par_keeps ?_)) fun _ => get_follows.bind fun a => (assert_follows _ _).bind fun _ => ?_
  · intro p
    unfold Parser.ensureContinuable
    split <;> rfl
  · intro p h
    unfold Parser.ensureContinuable
    split <;> exact h
  · refine (loadBody_follows hf Z buffered l hl a.attrs.next (a.attrs.total - a.attrs.rest)).andThen
      (f := fun | .ok v => pure v | .err e => loadFailed a.attrs.next (a.attrs.total - a.attrs.rest) e | .panic x => M.panic x) ?_ ?_ ?_
    · intro x
      cases x with
      | ok v => exact .pure _
      | err e =>
        refine lifts (loadFailed_still _ _ e) fun b hb => ?_
        obtain ⟨e', pos, h⟩ := loadFailed_spec (α := Option α) hb a.attrs.next (a.attrs.total - a.attrs.rest) e
        show asited ((loadFailed a.attrs.next (a.attrs.total - a.attrs.rest) e : M PErr AP (Option α)) b).2
        rw [h]
        exact hb
      | panic x => exact panic_follows _
    · intro b
      rcases AP.loadBody Z buffered l.loader a.attrs.next (a.attrs.total - a.attrs.rest) b with ⟨x | x | x, b'⟩ <;> rfl
    · intro e _ b i hb
      obtain ⟨e', pos, h⟩ := loadFailed_spec (α := Option α) hb a.attrs.next (a.attrs.total - a.attrs.rest) e
      exact ⟨.err e', { b with parser := b.parser.setAborted pos }, fun _ => by simp only [SM.lift, h], ⟨_, rfl⟩, hb⟩

/-! ## Trees -/

theorem collectSeq_honest {e : Type} (fin : List e → α) : ∀ (n : Nat) (acc : List e), Honest (collectSeq fin n acc)
  | 0, _ => trivial
  | n + 1, acc => ⟨fun x => ⟨x, rfl⟩, fun x => match x with
    | none => trivial
    | some (.ok y) => collectSeq_honest fin n (y :: acc)
    | some (.error _) => trivial⟩

theorem direct_truthful : Truthful direct :=
  ⟨fun _ => collectSeq_honest _ _ _, fun _ => collectSeq_honest _ _ _, fun _ => collectSeq_honest _ _ _, fun _ => collectSeq_honest _ _ _,
    fun _ => collectSeq_honest _ _ _⟩

theorem collectAttrs_follows (hf : Shaky D I tape) (Z : Zlib) : ∀ (n : Nat) (acc : List AttrValue),
    Shaken I tape asited AP.rd errs (Load.collectAttrs Z n acc) (collectAttrs D Z n acc)
  | 0, acc => .pure _
  | n + 1, acc => by
    refine Shaken.bind (direct_loader ▸ load_follows hf Z false direct direct_truthful) fun o => ?_
    cases o with
    | none => exact .pure _
    | some v => exact collectAttrs_follows hf Z n (v :: acc)

/-- Positions can be told. -/
def lsited (s : Load.St) : Prop := sited s.parser

theorem addNode_follows (hf : Shaky D I tape) (Z : Zlib) (parent : Nat) (name : String) :
    Shaken I tape lsited ldRd errs (Load.addNode Z parent name) (addNode D Z parent name) := by
  intro s i hF hs
  unfold Load.addNode addNode
  dsimp only
  cases ho : AP.ofParser s.parser with
  | panic p => exact ⟨0, _, s, i, fun _ _ => rfl, .inl ⟨rfl, fun h => absurd rfl (h p)⟩⟩
  | err e => exact ⟨0, _, s, i, fun _ _ => rfl, .inl ⟨rfl, fun _ => ⟨rfl, hF, hs⟩⟩⟩
  | ok ap =>
    have hr : ap.parser = s.parser := by
      revert ho
      unfold AP.ofParser
      split
      · intro h; cases h
      · intro h; cases h; rfl
    obtain ⟨f0, y, a', j, h1, h2⟩ := collectAttrs_follows hf Z (ap.attrs.rest + 1) [] ap i (by unfold asited; rw [hr]; exact hF)
      (by unfold AP.rd; rw [hr]; exact hs)
    rcases h2 with ⟨rfl, h2⟩ | ⟨⟨y, rfl⟩, h2⟩
    · rcases hd : Load.collectAttrs Z (ap.attrs.rest + 1) [] ap with ⟨x | x | x, a1⟩ <;> rw [hd] at h1 h2
      · obtain ⟨rfl, h3, h4⟩ := h2 (by simp)
        simp only [hd]
        rcases ha : Tree.appendRaw (Tree.newNode ⟨s.tree.nodes, s.tree.size, (Tree.intern s.tree.names name).2, s.tree.root⟩ (Tree.intern s.tree.names name).1 x).1 parent
          (Tree.newNode ⟨s.tree.nodes, s.tree.size, (Tree.intern s.tree.names name).2, s.tree.root⟩ (Tree.intern s.tree.names name).1 x).2 with ⟨y | y | y, t⟩
        · exact ⟨f0, _, _, j, fun fuel hfuel => by simp only [h1 fuel hfuel, ha], .inl ⟨rfl, fun _ => ⟨rfl, h3, h4⟩⟩⟩
        · exact nomatch y
        · exact ⟨f0, _, _, j, fun fuel hfuel => by simp only [h1 fuel hfuel, ha]; rfl, .inl ⟨rfl, fun h => absurd rfl (h _)⟩⟩
      · obtain ⟨rfl, h3, h4⟩ := h2 (by simp)
        simp only [hd]
        exact ⟨f0, _, _, j, fun fuel hfuel => by simp only [h1 fuel hfuel], .inl ⟨rfl, fun _ => ⟨rfl, h3, h4⟩⟩⟩
      · simp only [hd]
        exact ⟨f0, _, { s with parser := a'.parser }, j, fun fuel hfuel => by simp only [h1 fuel hfuel], .inl ⟨rfl, fun h => absurd rfl (h _)⟩⟩
    · exact ⟨f0, .err (.parser y), { s with parser := a'.parser }, j, fun fuel hfuel => by simp only [h1 fuel hfuel], .inr ⟨⟨_, rfl⟩, h2⟩⟩

/-- What becomes of loading a tree. -/
def Fares (y : Res LoadError (Except PErr Footer)) (t : Tree) (x : Res LoadError (Except PErr Footer)) (t' : Tree) : Prop :=
  (x = y ∧ t' = t) ∨ (∃ e, x = .err e) ∨ (∃ e f, x = .ok (.error e) ∧ y = .ok f ∧ t' = t) ∨ ∃ p, x = .panic p ∧ y = .panic p

theorem loop_follows (hf : Shaky D I tape) (Z : Zlib) : ∀ (n : Nat) (s : Load.St) (i : ρ), lsited s → Agrees I tape (ldRd s) i →
    (∀ p, (Load.loop Z n s).1 = .panic p → p = .attrEndOverflow) → ∃ f0 x s' j, (∀ fuel, f0 ≤ fuel → loop D Z fuel (s, i) = some (x, (s', j))) ∧
      Fares (Load.loop Z n s).1 (Load.loop Z n s).2.tree x s'.tree
  | 0, s, i, _, _, hn => by cases hn _ rfl
  | n + 1, s, i, hF, hs, hn => by
    revert hn
    cases hst : s.stack with
    | nil =>
      simp only [Load.loop, hst]
      exact fun h => by cases h _ rfl
    | cons top below =>
      obtain ⟨f0, y, p', j, h1, h2⟩ := nextEvent_follows hf s.parser i hF hs
      rcases h2 with ⟨rfl, h2⟩ | ⟨⟨y, rfl⟩ | ⟨e, rfl, he⟩, h2⟩
      · rcases hd : Parser.nextEvent s.parser with ⟨ev | x | x, p1⟩ <;> rw [hd] at h1 h2
        · obtain ⟨rfl, h3, h4⟩ := h2 (by simp)
          cases ev with
          | startNode name cnt =>
            obtain ⟨f1, y, s2, j2, k1, k2⟩ := addNode_follows hf Z top name ⟨p', s.tree, top :: below⟩ j h3 h4
            rcases k2 with ⟨rfl, k2⟩ | ⟨⟨y, rfl⟩, k2⟩
            · rcases ha : Load.addNode Z top name ⟨p', s.tree, top :: below⟩ with ⟨id | x | x, s3⟩ <;> rw [ha] at k1 k2
              · obtain ⟨rfl, k3, k4⟩ := k2 (by simp)
                simp only [Load.loop, hst, hd, ha]
                intro hn
                obtain ⟨f2, x, s4, j4, m1, m2⟩ := loop_follows hf Z n { s2 with stack := id :: s2.stack } j2 k3 k4 hn
                refine ⟨max f0 (max f1 f2) + 1, x, s4, j4, fun fuel hfuel => ?_, m2⟩
                obtain ⟨f, rfl⟩ : ∃ f, fuel = f + 1 := ⟨fuel - 1, by omega⟩
                simp only [loop, hst, h1 f (by omega), k1 f (by omega)]
                exact m1 f (by omega)
              · refine fun _ => ⟨max f0 f1 + 1, .err x, s2, j2, fun fuel hfuel => ?_, .inr (.inl ⟨_, rfl⟩)⟩
                obtain ⟨f, rfl⟩ : ∃ f, fuel = f + 1 := ⟨fuel - 1, by omega⟩
                simp only [loop, hst, h1 f (by omega), k1 f (by omega)]
              · simp only [Load.loop, hst, hd, ha]
                refine fun _ => ⟨max f0 f1 + 1, .panic x, s2, j2, fun fuel hfuel => ?_, .inr (.inr (.inr ⟨_, rfl, rfl⟩))⟩
                obtain ⟨f, rfl⟩ : ∃ f, fuel = f + 1 := ⟨fuel - 1, by omega⟩
                simp only [loop, hst, h1 f (by omega), k1 f (by omega)]
            · refine fun _ => ⟨max f0 f1 + 1, .err y, s2, j2, fun fuel hfuel => ?_, .inr (.inl ⟨_, rfl⟩)⟩
              obtain ⟨f, rfl⟩ : ∃ f, fuel = f + 1 := ⟨fuel - 1, by omega⟩
              simp only [loop, hst, h1 f (by omega), k1 f (by omega)]
          | endNode =>
            simp only [Load.loop, hst, hd]
            intro hn
            obtain ⟨f2, x, s4, j4, m1, m2⟩ := loop_follows hf Z n { s with parser := p', stack := below } j h3 h4 hn
            refine ⟨max f0 f2 + 1, x, s4, j4, fun fuel hfuel => ?_, m2⟩
            obtain ⟨f, rfl⟩ : ∃ f, fuel = f + 1 := ⟨fuel - 1, by omega⟩
            simp only [loop, hst, h1 f (by omega)]
            exact m1 f (by omega)
          | endFbx footer =>
            by_cases hb : below = []
            · simp only [Load.loop, hst, hd, if_pos hb]
              refine fun _ => ⟨f0 + 1, .ok footer, { s with parser := p', stack := below }, j, fun fuel hfuel => ?_, .inl ⟨rfl, rfl⟩⟩
              obtain ⟨f, rfl⟩ : ∃ f, fuel = f + 1 := ⟨fuel - 1, by omega⟩
              simp only [loop, hst, h1 f (by omega), if_pos hb]
            · simp only [Load.loop, hst, hd, if_neg hb]
              exact fun h => by cases h _ rfl
        · refine fun _ => ⟨f0 + 1, .err (.parser x), { s with parser := p', stack := top :: below }, j, fun fuel hfuel => ?_, .inr (.inl ⟨_, rfl⟩)⟩
          obtain ⟨f, rfl⟩ : ∃ f, fuel = f + 1 := ⟨fuel - 1, by omega⟩
          simp only [loop, hst, h1 f (by omega)]
        · simp only [Load.loop, hst, hd]
          refine fun _ => ⟨f0 + 1, .panic x, { s with parser := p', stack := top :: below }, j, fun fuel hfuel => ?_, .inr (.inr (.inr ⟨_, rfl, rfl⟩))⟩
          obtain ⟨f, rfl⟩ : ∃ f, fuel = f + 1 := ⟨fuel - 1, by omega⟩
          simp only [loop, hst, h1 f (by omega)]
      · refine fun _ => ⟨f0 + 1, .err (.parser y), { s with parser := p', stack := top :: below }, j, fun fuel hfuel => ?_, .inr (.inl ⟨_, rfl⟩)⟩
        obtain ⟨f, rfl⟩ : ∃ f, fuel = f + 1 := ⟨fuel - 1, by omega⟩
        simp only [loop, hst, h1 f (by omega)]
      · rcases hd : Parser.nextEvent s.parser with ⟨ev, p1⟩
        rw [hd] at he
        rcases he with ⟨footer, rfl⟩ | ⟨p, rfl, hp⟩
        · by_cases hb : below = []
          · simp only [Load.loop, hst, hd, if_pos hb]
            refine fun _ => ⟨f0 + 1, .ok (.error e), { s with parser := p', stack := below }, j, fun fuel hfuel => ?_, .inr (.inr (.inl ⟨e, footer, rfl, rfl, rfl⟩))⟩
            obtain ⟨f, rfl⟩ : ∃ f, fuel = f + 1 := ⟨fuel - 1, by omega⟩
            simp only [loop, hst, h1 f (by omega), if_pos hb]
          · simp only [Load.loop, hst, hd, if_neg hb]
            exact fun h => by cases h _ rfl
        · simp only [Load.loop, hst, hd]
          exact fun h => absurd (h _ rfl) hp

theorem loadTree_follows (hf : Shaky D I tape) (Z : Zlib) (p : Parser) (i : ρ) (hF : sited p) (hp : Agrees I tape p.reader i)
    (hn : ∀ x, (Load.load Z p).1 = .panic x → x = .attrEndOverflow) : ∃ f0 x p' j, (∀ fuel, f0 ≤ fuel → loadTree D Z fuel (p, i) = some (x, (p', j))) ∧
      (x = (Load.load Z p).1 ∨ (∃ e, x = .err e) ∨ ∃ t f e, (Load.load Z p).1 = .ok (t, f) ∧ x = .ok (t, .error e)) := by
  revert hn
  unfold Load.load loadTree
  by_cases hu : p.isUsed = true
  · simp only [if_pos hu]
    exact fun _ => ⟨0, _, p, i, fun _ _ => rfl, .inl rfl⟩
  · simp only [if_neg hu]
    intro hn
    obtain ⟨x, hx⟩ : ∃ x, Load.loop Z (2 * p.reader.rest.length + 2) ⟨p, Tree.empty, [0]⟩ = x := ⟨_, rfl⟩
    have hl := loop_follows hf Z (2 * p.reader.rest.length + 2) ⟨p, Tree.empty, [0]⟩ i hF hp
    rw [hx] at hn hl ⊢
    rcases x with ⟨x | x | x, s⟩
    · obtain ⟨f0, y, s', j, h1, h2⟩ := hl (by simp)
      rcases h2 with ⟨rfl, h2⟩ | ⟨e, rfl⟩ | ⟨e, f, rfl, h2, h3⟩ | ⟨p, rfl, h2⟩
      · exact ⟨f0, _, s'.parser, j, fun fuel hfuel => by rw [h1 fuel hfuel], .inl (by simp only [h2])⟩
      · exact ⟨f0, .err e, s'.parser, j, fun fuel hfuel => by rw [h1 fuel hfuel], .inr (.inl ⟨e, rfl⟩)⟩
      · exact ⟨f0, _, s'.parser, j, fun fuel hfuel => by rw [h1 fuel hfuel], .inr (.inr ⟨s.tree, x, e, rfl, by rw [h3]⟩)⟩
      · cases h2
    · obtain ⟨f0, y, s', j, h1, h2⟩ := hl (by simp)
      rcases h2 with ⟨rfl, h2⟩ | ⟨e, rfl⟩ | ⟨e, f, rfl, h2, h3⟩ | ⟨p, rfl, h2⟩
      · exact ⟨f0, .err x, s'.parser, j, fun fuel hfuel => by rw [h1 fuel hfuel], .inl rfl⟩
      · exact ⟨f0, .err e, s'.parser, j, fun fuel hfuel => by rw [h1 fuel hfuel], .inr (.inl ⟨e, rfl⟩)⟩
      · cases h2
      · cases h2
    · obtain ⟨f0, y, s', j, h1, h2⟩ := hl (fun p hp => hn p (by cases hp; rfl))
      rcases h2 with ⟨rfl, h2⟩ | ⟨e, rfl⟩ | ⟨e, f, rfl, h2, h3⟩ | ⟨p, rfl, h2⟩
      · exact ⟨f0, .panic x, s'.parser, j, fun fuel hfuel => by rw [h1 fuel hfuel], .inl rfl⟩
      · exact ⟨f0, .err e, s'.parser, j, fun fuel hfuel => by rw [h1 fuel hfuel], .inr (.inl ⟨e, rfl⟩)⟩
      · cases h2
      · cases h2; exact ⟨f0, .panic x, s'.parser, j, fun fuel hfuel => by rw [h1 fuel hfuel], .inl rfl⟩

/-! ## Files -/

theorem anyParser_follows (hf : Shaky D I tape) (checks seekable : Bool) (x : ρ) (hx : I x) :
    ∃ f0 y i, (∀ fuel, f0 ≤ fuel → anyParser D fuel checks seekable (tape x).rest (tape x).ending (tape x).pos (tape x).limit x = some y) ∧
      ((y = openedAt i (Fbx.anyParser checks seekable (tape x).rest (tape x).ending (tape x).pos (tape x).limit) ∧
        ∀ p, Fbx.anyParser checks seekable (tape x).rest (tape x).ending (tape x).pos (tape x).limit = .ok p → sited p ∧ Agrees I tape p.reader i) ∨
      ∃ e, y = .err e) := by
  obtain ⟨f0, y, r, i, h1, h2⟩ := loadHeader_follows hf
    { rest := (tape x).rest, ending := (tape x).ending, cursor := (tape x).pos, position := 0, seekable := seekable, seekLimit := (tape x).limit } x trivial
    ⟨hx, show 0 < u64Size by decide, rfl, rfl, rfl, rfl⟩
  rcases h2 with ⟨rfl, h2⟩ | ⟨⟨e, rfl⟩, _⟩
  · refine ⟨f0, _, i, fun fuel hfuel => ?_, .inl ⟨rfl, ?_⟩⟩
    · unfold anyParser Fbx.anyParser
      rw [h1 fuel hfuel]
      clear h1
      revert h2
      rcases Fbx.loadHeader { rest := (tape x).rest, ending := (tape x).ending, cursor := (tape x).pos, position := 0, seekable := seekable, seekLimit := (tape x).limit } with ⟨v | e | x, r'⟩
      · intro h2
        obtain ⟨rfl, _⟩ := h2 (by simp)
        dsimp only
        cases ParserVersion.fromFbxVersion v with
        | none => rfl
        | some k =>
          cases k
          dsimp only
          cases Parser.create checks v { r with position := headerLen } <;> rfl
      · exact fun _ => rfl
      · exact fun _ => rfl
    · unfold Fbx.anyParser
      clear h1
      revert h2
      rcases Fbx.loadHeader { rest := (tape x).rest, ending := (tape x).ending, cursor := (tape x).pos, position := 0, seekable := seekable, seekLimit := (tape x).limit } with ⟨v | e | x, r'⟩
      · intro h2 p
        obtain ⟨rfl, _, h3⟩ := h2 (by simp)
        dsimp only
        cases ParserVersion.fromFbxVersion v with
        | none => intro h; cases h
        | some k =>
          cases k
          dsimp only
          unfold Parser.create
          split
          · rename_i heq
            split at heq
            · cases heq
            · cases heq
              intro h; cases h
              exact ⟨.inl rfl, ⟨h3.inv, (by decide : headerLen < u64Size), h3.rest, h3.ending, h3.cursor, h3.limit⟩⟩
          · intro h; cases h
      · intro _ p h; cases h
      · intro _ p h; cases h
  · exact ⟨f0, .err (.header e), i, fun fuel hfuel => by unfold anyParser; rw [h1 fuel hfuel], .inr ⟨_, rfl⟩⟩

theorem anyTree_follows (hf : Shaky D I tape) (Z : Zlib) (checks seekable : Bool) (x : ρ) (hx : I x)
    (hn : ∀ p, Fbx.anyTree Z checks seekable (tape x).rest (tape x).ending (tape x).pos (tape x).limit = .panic p → p = .attrEndOverflow) :
    ∃ f0 y, (∀ fuel, f0 ≤ fuel → anyTree D fuel Z checks seekable (tape x).rest (tape x).ending (tape x).pos (tape x).limit x = some y) ∧
      (y = Fbx.anyTree Z checks seekable (tape x).rest (tape x).ending (tape x).pos (tape x).limit ∨
        Spoilt (Fbx.anyTree Z checks seekable (tape x).rest (tape x).ending (tape x).pos (tape x).limit) y) := by
  obtain ⟨f0, y, i, h1, h3⟩ := anyParser_follows hf checks seekable x hx
  rcases h3 with ⟨rfl, h3⟩ | ⟨e, rfl⟩
  · revert hn
    unfold anyTree Fbx.anyTree
    cases ho : Fbx.anyParser checks seekable (tape x).rest (tape x).ending (tape x).pos (tape x).limit with
    | err e => exact fun _ => ⟨f0, _, fun fuel hfuel => by rw [h1 fuel hfuel, ho]; rfl, .inl rfl⟩
    | panic e => exact fun _ => ⟨f0, _, fun fuel hfuel => by rw [h1 fuel hfuel, ho]; rfl, .inl rfl⟩
    | ok p =>
      intro hn
      obtain ⟨f1, y, p', j, h2, h4⟩ := loadTree_follows hf Z (p.setHandler (fun _ _ _ => none)) i (h3 p ho).1 (h3 p ho).2 (by
        intro x hx
        simp only [hx] at hn
        exact hn x rfl)
      revert hn h4
      dsimp only
      generalize (Load.load Z (p.setHandler (fun _ _ _ => none))).1 = z
      intro hn h4
      rcases h4 with rfl | ⟨e, rfl⟩ | ⟨t, f, e, rfl, rfl⟩
      · refine ⟨max f0 f1, _, fun fuel hfuel => ?_, .inl rfl⟩
        rw [h1 fuel (by omega), ho]
        simp only [openedAt, h2 fuel (by omega)]
        rcases y with x | x | x <;> rfl
      · refine ⟨max f0 f1, .err (.load e), fun fuel hfuel => ?_, .inr (.error _ _)⟩
        rw [h1 fuel (by omega), ho]
        simp only [openedAt, h2 fuel (by omega)]
      · refine ⟨max f0 f1, .ok (p.version, t, .error e), fun fuel hfuel => ?_, .inr (.footer _ _ _ _)⟩
        rw [h1 fuel (by omega), ho]
        simp only [openedAt, h2 fuel (by omega)]
  · exact ⟨f0, .err (.parserCreation e), fun fuel hfuel => by unfold anyTree; rw [h1 fuel hfuel], .inr (.error _ _)⟩

/-! ## Clients -/

/-- Code that keeps a component of the state, on any source. -/
def SKeeps {σ γ : Type} (g : σ → γ) (q : SM ρ ε σ α) : Prop := ∀ fuel s i x s' j, q fuel (s, i) = some (x, (s', j)) → g s' = g s

namespace SKeeps
variable {σ γ β : Type} {g : σ → γ}

theorem lift {m : M ε σ α} (h : ∀ s, g (m s).2 = g s) : SKeeps g (SM.lift m : SM ρ ε σ α) := by
  intro fuel s i x s' j hq
  simp only [SM.lift] at hq
  cases hq
  exact h s

theorem pure (a : α) : SKeeps g (Pure.pure a : SM ρ ε σ α) := by
  intro fuel s i x s' j hq
  cases hq
  rfl

theorem bind {q : SM ρ ε σ α} {f : α → SM ρ ε σ β} (h : SKeeps g q) (hf : ∀ a, SKeeps g (f a)) : SKeeps g (q >>= f) := by
  intro fuel s i x s' j hq
  change SM.bind q f fuel (s, i) = _ at hq
  unfold SM.bind at hq
  rcases hm : q fuel (s, i) with _ | ⟨y | y | y, s1, i1⟩ <;> rw [hm] at hq
  · cases hq
  · exact (hf y _ _ _ _ _ _ hq).trans (h _ _ _ _ _ _ hm)
  · cases hq; exact h _ _ _ _ _ _ hm
  · cases hq; exact h _ _ _ _ _ _ hm

theorem ite {c : Prop} [Decidable c] {m n : SM ρ ε σ α} (h1 : SKeeps g m) (h2 : SKeeps g n) : SKeeps g (if c then m else n) := by split <;> assumption

end SKeeps

theorem io_health (q : SM ρ IoErr Reader α) : SKeeps Parser.health (io q) := by
  intro fuel s i x s' j hq
  unfold io SM.mapErr SM.zoom at hq
  dsimp only at hq
  rcases hm : q fuel (s.reader, i) with _ | ⟨y | y | y, s1, i1⟩ <;> simp only [hm] at hq <;> cases hq <;> rfl

theorem warnIf_health (c : Bool) (w : Warning) (pos : SynPos) (p : Parser) : (Parser.warnIf c w pos p).2.health = p.health := by
  unfold Parser.warnIf
  cases c
  · rfl
  · simp only [if_true]
    unfold Parser.warn
    dsimp only
    split
    · rfl
    · split <;> rfl

theorem assert_skeeps {σ γ : Type} {g : σ → γ} (b : Bool) (x : Panic) : SKeeps g (SM.lift (M.assert b x : M ε σ Unit) : SM ρ ε σ Unit) :=
  .lift fun s => by cases b <;> rfl

theorem readFooter_health : SKeeps Parser.health (readFooter D) := by
  refine (SKeeps.lift fun _ => rfl).bind fun p => (io_health _).bind fun u => (SKeeps.lift fun _ => rfl).bind fun p' =>
    (SKeeps.lift (warnIf_health _ _ _)).bind fun _ => (io_health _).bind fun buf => ?_
  dsimp only
  generalize List.findIdx? _ (buf.drop 128) = o
  cases o with
  | none => exact .lift fun _ => rfl
  | some i =>
    refine (assert_skeeps _ _).bind fun _ => (assert_skeeps _ _).bind fun _ => .ite (.lift fun _ => rfl) (.ite (.lift fun _ => rfl) ?_)
    refine (SKeeps.lift fun _ => rfl).bind fun p'' => .ite (.lift fun _ => rfl) (.ite (.lift fun _ => rfl) ?_)
    exact (io_health _).bind fun more => .ite (.lift fun _ => rfl) ((SKeeps.lift (warnIf_health _ _ _)).bind fun _ => .pure _)

/-- After the end of the document, or an error, the parser does not go on. -/
theorem nextEvent_health {fuel : Nat} {p p' : Parser} {i j : ρ} {x : Res PErr Event} (h : nextEvent D fuel (p, i) = some (x, (p', j)))
    (hx : (∃ e, x = .err e) ∨ ∃ f, x = .ok (.endFbx f)) : p'.health ≠ .running := by
  change SM.bind _ _ fuel (p, i) = _ at h
  simp only [SM.bind, SM.lift, Parser.ensureContinuable] at h
  cases hp : p.health with
  | finished =>
    rw [hp] at h
    cases h
    rw [hp]; simp
  | aborted pos =>
    rw [hp] at h
    cases h
    rw [hp]; simp
  | running =>
    rw [hp] at h
    simp only [SM.andThen] at h
    rcases hm : nextEventImpl D fuel (p, i) with _ | ⟨k | e | y, p1, i1⟩ <;> rw [hm] at h
    · cases h
    · simp only at h
      change SM.bind _ _ fuel (p1, i1) = _ at h
      simp only [SM.bind, SM.lift, settle] at h
      split at h
      · cases h
      · rename_i a p2 heq
        obtain ⟨p2, i2⟩ := p2
        cases k with
        | endFbx =>
          simp only [if_true] at heq
          split at heq
          · cases heq
            simp only [makeEvent, SM.andThen] at h
            split at h
            · cases h
            · cases h
              rename_i hr
              have := readFooter_health _ _ _ _ _ _ hr
              rw [this]; simp
            · rename_i x1 q1 _ hr
              obtain ⟨q1, i3⟩ := q1
              have := readFooter_health _ _ _ _ _ _ hr
              have hq : p' = q1 := by
                cases x1 <;> cases h <;> rfl
              rw [hq, this]; simp
          · cases heq
        | startNode =>
          simp only [makeEvent, SM.lift, Parser.makeEvent] at h
          split at h
          · cases h; rcases hx with ⟨e, he⟩ | ⟨f, he⟩ <;> cases he
          · cases h; rcases hx with ⟨e, he⟩ | ⟨f, he⟩ <;> cases he
        | endNode =>
          simp only [makeEvent, SM.lift, Parser.makeEvent] at h
          cases h; rcases hx with ⟨e, he⟩ | ⟨f, he⟩ <;> cases he
      · rename_i e _ heq
        split at heq <;> first | cases heq | (split at heq <;> cases heq)
      · cases h; rcases hx with ⟨e, he⟩ | ⟨f, he⟩ <;> cases he
    · simp only [SM.lift, failed] at h
      unfold Parser.position at h
      split at h
      · rename_i heq
        split at heq
        · cases heq
        · cases heq; cases h; simp [Parser.setAborted]
      · rename_i heq
        split at heq <;> cases heq
      · cases h; rcases hx with ⟨e, he⟩ | ⟨f, he⟩ <;> cases he
    · cases h; rcases hx with ⟨e, he⟩ | ⟨f, he⟩ <;> cases he

theorem load_health {Z : Zlib} {b : Bool} {l : WLoader α} {fuel : Nat} {a a' : AP} {i j : ρ} {e : PErr}
    (h : load D Z b l fuel (a, i) = some (.err e, (a', j))) : a'.parser.health ≠ .running := by
  change SM.bind _ _ fuel (a, i) = _ at h
  simp only [SM.bind, SM.lift, AP.par, M.zoom_apply, Parser.ensureContinuable] at h
  cases hp : a.parser.health with
  | finished =>
    rw [hp] at h
    cases h
    rw [hp]; simp
  | aborted pos =>
    rw [hp] at h
    cases h
    rw [hp]; simp
  | running =>
    rw [hp] at h
    change SM.bind _ _ fuel (a, i) = _ at h
    simp only [SM.bind, SM.lift, M.get_apply] at h
    change SM.bind _ _ fuel (a, i) = _ at h
    simp only [SM.bind, SM.lift] at h
    cases hb : decide (a.attrs.rest ≤ a.attrs.total) with
    | false => rw [hb] at h; cases h
    | true =>
      rw [hb] at h
      simp only [M.assert, SM.andThen, if_true, M.pure] at h
      revert h
      generalize a.attrs.next = n
      generalize a.attrs.total - a.attrs.rest = idx
      intro h
      rcases hm : loadBody D Z b l n idx fuel (a, i) with _ | ⟨k | e | y, p1, i1⟩
      · erw [hm] at h; cases h
      · erw [hm] at h; cases h
      · erw [hm] at h
        simp only [SM.lift, loadFailed] at h
        split at h
        · cases h
          simp [Parser.setAborted]
        · rename_i heq
          unfold AP.position AP.par at heq
          rw [M.bind_apply, M.zoom_apply] at heq
          unfold Parser.position at heq
          split at heq
          · rename_i h1
            split at h1 <;> cases h1
            cases heq
          · rename_i h1
            split at h1 <;> cases h1
          · cases heq
        · cases h
      · erw [hm] at h; cases h

theorem skipCurrentNode_follows (hf : Shaky D I tape) : Shaken I tape sited Parser.reader errs Parser.skipCurrentNode (skipCurrentNode D) := by
  intro p i hF hp
  unfold Parser.skipCurrentNode skipCurrentNode
  cases hl : p.started with
  | nil =>
    refine ⟨0, .panic .skipRoot, p, i, fun fuel _ => ?_, .inl ?_⟩
    · show SM.bind _ _ fuel (p, i) = _
      simp only [SM.bind, SM.lift, M.get_apply, hl, M.panic_apply]
    · simp only [M.bind_apply, M.get_apply, hl, M.panic_apply]
      exact ⟨trivial, fun h => absurd rfl (h _)⟩
  | cons n outer =>
    obtain ⟨f0, y, s', j, h1, h2⟩ := io_follows (skipTo_follows hf n.endOff) { p with started := outer, last := some .endNode } i (.inr (pop_sited (p := p) hF hl)) hp
    refine ⟨f0, y, s', j, fun fuel hfuel => ?_, ?_⟩
    · show SM.bind _ _ fuel (p, i) = _
      simp only [SM.bind, SM.lift, M.get_apply, hl]
      show SM.bind _ _ fuel (p, i) = _
      simp only [SM.bind, SM.lift, M.set_apply]
      exact h1 fuel hfuel
    · simp only [M.bind_apply, M.get_apply, hl, M.set_apply]
      exact h2

theorem callFrom_follows (hf : Shaky D I tape) (Z : Zlib) (c : WCall α) (hc : c.truthful) (s : Client) (i : ρ) (hF : sited s.parser)
    (hs : Agrees I tape s.parser.reader i) :
    (s.call Z c.call = none ∧ ∀ fuel, callFrom D Z fuel (s, i) c = some none) ∨
    ∃ o t f0 o' t' j, s.call Z c.call = some (o, t) ∧ (∀ fuel, f0 ≤ fuel → callFrom D Z fuel (s, i) c = some (some (o', (t', j)))) ∧
      ((o' = o ∧ ((∀ x, o ≠ .panic x) → t' = t ∧ sited t'.parser ∧ Agrees I tape t'.parser.reader j)) ∨
       (Struck o o' ∧ (c.skips = false → t'.parser.health ≠ .running))) := by
  cases c with
  | next =>
    right
    obtain ⟨f0, y, p', j, h1, h2⟩ := nextEvent_follows hf s.parser i hF hs
    have hh := nextEvent_health (h1 f0 (Nat.le_refl _))
    simp only [callFrom, WCall.call, Client.call]
    rcases h2 with ⟨rfl, h2⟩ | ⟨⟨y, rfl⟩ | ⟨e, rfl, he⟩, h2⟩
    · rcases hd : Parser.nextEvent s.parser with ⟨x | x | x, p1⟩ <;> rw [hd] at h1 h2
      · obtain ⟨rfl, h3, h4⟩ := h2 (by simp)
        exact ⟨_, _, f0, _, _, j, rfl, fun fuel hfuel => by rw [h1 fuel hfuel]; cases x <;> rfl, .inl ⟨rfl, fun _ => ⟨rfl, h3, h4⟩⟩⟩
      · obtain ⟨rfl, h3, h4⟩ := h2 (by simp)
        exact ⟨_, _, f0, _, _, j, rfl, fun fuel hfuel => by rw [h1 fuel hfuel], .inl ⟨rfl, fun _ => ⟨rfl, h3, h4⟩⟩⟩
      · exact ⟨_, _, f0, _, _, j, rfl, fun fuel hfuel => by rw [h1 fuel hfuel], .inl ⟨rfl, fun h => absurd rfl (h _)⟩⟩
    · rcases hd : Parser.nextEvent s.parser with ⟨x | x | x, p1⟩ <;>
      exact ⟨_, _, f0, _, ⟨p', none⟩, j, rfl, fun fuel hfuel => by rw [h1 fuel hfuel], .inr ⟨.error _ y, fun _ => hh (.inl ⟨_, rfl⟩)⟩⟩
    · rcases hd : Parser.nextEvent s.parser with ⟨x, p1⟩
      rw [hd] at he
      rcases he with ⟨f, rfl⟩ | ⟨x, rfl, _⟩
      · exact ⟨_, _, f0, _, ⟨p', none⟩, j, rfl, fun fuel hfuel => by rw [h1 fuel hfuel], .inr ⟨.footer f e, fun _ => hh (.inr ⟨_, rfl⟩)⟩⟩
      · exact ⟨_, _, f0, _, ⟨p', none⟩, j, rfl, fun fuel hfuel => by rw [h1 fuel hfuel], .inr ⟨.panic x e, fun _ => hh (.inr ⟨_, rfl⟩)⟩⟩
  | load b l =>
    simp only [callFrom, WCall.call, Client.call]
    cases ha : s.attrs with
    | none => exact .inl ⟨rfl, fun _ => rfl⟩
    | some at_ =>
      right
      dsimp only
      obtain ⟨f0, y, a', j, h1, h2⟩ := load_follows hf Z b l hc ⟨s.parser, at_⟩ i hF hs
      rcases h2 with ⟨rfl, h2⟩ | ⟨⟨y, rfl⟩, h2⟩
      · rcases hd : AP.load Z b l.loader ⟨s.parser, at_⟩ with ⟨x | x | x, p1⟩ <;> rw [hd] at h1 h2
        · obtain ⟨rfl, h3, h4⟩ := h2 (by simp)
          cases x <;> exact ⟨_, _, f0, _, _, j, rfl, fun fuel hfuel => by rw [h1 fuel hfuel], .inl ⟨rfl, fun _ => ⟨rfl, h3, h4⟩⟩⟩
        · obtain ⟨rfl, h3, h4⟩ := h2 (by simp)
          exact ⟨_, _, f0, _, _, j, rfl, fun fuel hfuel => by rw [h1 fuel hfuel], .inl ⟨rfl, fun _ => ⟨rfl, h3, h4⟩⟩⟩
        · exact ⟨_, _, f0, _, _, j, rfl, fun fuel hfuel => by rw [h1 fuel hfuel], .inl ⟨rfl, fun h => absurd rfl (h _)⟩⟩
      · have hh := load_health (h1 f0 (Nat.le_refl _))
        rcases hd : AP.load Z b l.loader ⟨s.parser, at_⟩ with ⟨(_ | x) | x | x, p1⟩ <;>
        exact ⟨_, _, f0, _, ⟨a'.parser, some a'.attrs⟩, j, rfl, fun fuel hfuel => by rw [h1 fuel hfuel], .inr ⟨.error _ y, fun _ => hh⟩⟩
  | skip =>
    right
    obtain ⟨f0, y, p', j, h1, h2⟩ := skipCurrentNode_follows hf s.parser i hF hs
    simp only [callFrom, WCall.call, Client.call]
    rcases h2 with ⟨rfl, h2⟩ | ⟨⟨y, rfl⟩, h2⟩
    · rcases hd : Parser.skipCurrentNode s.parser with ⟨x | x | x, p1⟩ <;> rw [hd] at h1 h2
      · obtain ⟨rfl, h3, h4⟩ := h2 (by simp)
        exact ⟨_, _, f0, _, _, j, rfl, fun fuel hfuel => by rw [h1 fuel hfuel], .inl ⟨rfl, fun _ => ⟨rfl, h3, h4⟩⟩⟩
      · obtain ⟨rfl, h3, h4⟩ := h2 (by simp)
        exact ⟨_, _, f0, _, _, j, rfl, fun fuel hfuel => by rw [h1 fuel hfuel], .inl ⟨rfl, fun _ => ⟨rfl, h3, h4⟩⟩⟩
      · exact ⟨_, _, f0, _, _, j, rfl, fun fuel hfuel => by rw [h1 fuel hfuel], .inl ⟨rfl, fun h => absurd rfl (h _)⟩⟩
    · rcases hd : Parser.skipCurrentNode s.parser with ⟨x | x | x, p1⟩ <;>
      exact ⟨_, _, f0, _, ⟨p', none⟩, j, rfl, fun fuel hfuel => by rw [h1 fuel hfuel], .inr ⟨.error _ y, fun h => by cases h⟩⟩
  | setHandler h => exact .inr ⟨_, _, 0, _, _, i, rfl, fun _ _ => rfl, .inl ⟨rfl, fun _ => ⟨rfl, hF, hs⟩⟩⟩

/-- A parser that does not go on refuses all calls but `skip_current_node`. -/
theorem refused (Z : Zlib) : ∀ (cs : List (WCall α)) (s : Client) (i : ρ), s.parser.health ≠ .running → (∀ c ∈ cs, c.skips = false) →
    ∃ ls u, (∀ fuel, observeFrom D Z fuel (s, i) cs = some (ls, u)) ∧ ∀ l ∈ ls, Refusal l
  | [], s, i, _, _ => ⟨[], s, fun _ => rfl, fun _ h => by cases h⟩
  | c :: cs, s, i, hs, hc => by
    have h0 := hc c List.mem_cons_self
    have hcs : ∀ c ∈ cs, c.skips = false := fun c h => hc c (List.mem_cons_of_mem _ h)
    have key : (∀ fuel, callFrom D Z fuel (s, i) c = some none) ∨ ∃ o t, (∀ fuel, callFrom D Z fuel (s, i) c = some (some (o, (t, i)))) ∧ Refusal o ∧
        t.parser.health ≠ .running := by
      cases c with
      | skip => cases h0
      | setHandler h => exact .inr ⟨_, _, fun _ => rfl, .handler, hs⟩
      | next =>
        right
        cases hp : s.parser.health with
        | running => exact absurd hp hs
        | finished =>
          refine ⟨.err (PErr.ofOp .alreadyFinished), ⟨s.parser, none⟩, fun fuel => ?_, .finished, hs⟩
          have : nextEvent D fuel (s.parser, i) = some (.err (PErr.ofOp .alreadyFinished), (s.parser, i)) := by
            change SM.bind _ _ fuel (s.parser, i) = _
            simp only [SM.bind, SM.lift, Parser.ensureContinuable, hp]
          simp only [callFrom, this]
        | aborted pos =>
          refine ⟨.err ⟨.op .alreadyAborted, some pos⟩, ⟨s.parser, none⟩, fun fuel => ?_, .aborted pos, hs⟩
          have : nextEvent D fuel (s.parser, i) = some (.err ⟨.op .alreadyAborted, some pos⟩, (s.parser, i)) := by
            change SM.bind _ _ fuel (s.parser, i) = _
            simp only [SM.bind, SM.lift, Parser.ensureContinuable, hp]
          simp only [callFrom, this]
      | load b l =>
        cases ha : s.attrs with
        | none => exact .inl fun fuel => by simp only [callFrom, ha]
        | some at_ =>
          right
          cases hp : s.parser.health with
          | running => exact absurd hp hs
          | finished =>
            refine ⟨.err (PErr.ofOp .alreadyFinished), ⟨s.parser, some at_⟩, fun fuel => ?_, .finished, hs⟩
            have : load D Z b l fuel (⟨s.parser, at_⟩, i) = some (.err (PErr.ofOp .alreadyFinished), (⟨s.parser, at_⟩, i)) := by
              change SM.bind _ _ fuel _ = _
              simp only [SM.bind, SM.lift, AP.par, M.zoom_apply, Parser.ensureContinuable, hp]
            simp only [callFrom, ha, this]
          | aborted pos =>
            refine ⟨.err ⟨.op .alreadyAborted, some pos⟩, ⟨s.parser, some at_⟩, fun fuel => ?_, .aborted pos, hs⟩
            have : load D Z b l fuel (⟨s.parser, at_⟩, i) = some (.err ⟨.op .alreadyAborted, some pos⟩, (⟨s.parser, at_⟩, i)) := by
              change SM.bind _ _ fuel _ = _
              simp only [SM.bind, SM.lift, AP.par, M.zoom_apply, Parser.ensureContinuable, hp]
            simp only [callFrom, ha, this]
    rcases key with h | ⟨o, t, h1, h2, h3⟩
    · exact ⟨[], s, fun fuel => by simp only [observeFrom, h], fun _ h => by cases h⟩
    · obtain ⟨ls, u, h4, h5⟩ := refused Z cs t i h3 hcs
      refine ⟨o :: ls, u, fun fuel => ?_, fun l hl => ?_⟩
      · simp only [observeFrom, h1]
        cases h2 <;> simp only [h4, Option.map_some]
      · rcases List.mem_cons.1 hl with rfl | hl
        · exact h2
        · exact h5 l hl

theorem observe_follows (hf : Shaky D I tape) (Z : Zlib) : ∀ (cs : List (WCall α)) (s : Client) (i : ρ), (∀ c ∈ cs, c.truthful) → sited s.parser →
    Agrees I tape s.parser.reader i → SameFrom D Z s i cs ∨ Breaks D Z s i cs
  | [], s, i, _, _, _ => .inl ⟨0, s, fun _ _ => rfl, fun _ => rfl⟩
  | c :: cs, s, i, hc, hF, hs => by
    have hc0 := hc c List.mem_cons_self
    have hcs : ∀ c ∈ cs, c.truthful := fun c h => hc c (List.mem_cons_of_mem _ h)
    rcases callFrom_follows hf Z c hc0 s i hF hs with ⟨h1, h2⟩ | ⟨o, t, f0, o', t', j, h1, h2, h3⟩
    · refine .inl ⟨0, s, fun fuel _ => ?_, fun _ => ?_⟩
      · simp only [observeFrom, h2, observe, List.map_cons, h1]
      · simp only [observe, List.map_cons, h1]
    · rcases h3 with ⟨rfl, h3⟩ | ⟨h3, h4⟩
      · by_cases ho : ∃ x, o' = .panic x
        · obtain ⟨x, rfl⟩ := ho
          refine .inl ⟨f0, t', fun fuel hfuel => ?_, fun h => ?_⟩
          · simp only [observeFrom, h2 fuel hfuel, observe, List.map_cons, h1]
          · simp only [observe, List.map_cons, h1] at h
            exact absurd (List.mem_singleton.2 rfl) (h x)
        · obtain ⟨rfl, hF', h4⟩ := h3 fun x hx => ho ⟨x, hx⟩
          have e : ∀ cs : List (WCall α), observe Z s ((c :: cs).map WCall.call) =
              (o' :: (observe Z t' (cs.map WCall.call)).1, (observe Z t' (cs.map WCall.call)).2) := by
            intro cs
            simp only [observe, List.map_cons, h1]
            cases o' with
            | panic x => exact absurd ⟨x, rfl⟩ ho
            | _ => rfl
          have e' : ∀ (cs : List (WCall α)) (fuel : Nat), f0 ≤ fuel → observeFrom D Z fuel (s, i) (c :: cs) =
              (observeFrom D Z fuel (t', j) cs).map fun y => (o' :: y.1, y.2) := by
            intro cs fuel hfuel
            simp only [observeFrom, h2 fuel hfuel]
            cases o' with
            | panic x => exact absurd ⟨x, rfl⟩ ho
            | _ => rfl
          rcases observe_follows hf Z cs t' j hcs hF' h4 with ⟨f1, u, h5, h6⟩ | ⟨before, c', after, os, o, o'', u, k1, k2, k3, k4, ⟨f1, k5⟩, k6⟩
          · refine .inl ⟨max f0 f1, u, fun fuel hfuel => ?_, fun h => ?_⟩
            · rw [e, e' _ _ (by omega), h5 fuel (by omega)]
              rfl
            · rw [e] at h ⊢
              exact h6 fun x hx => h x (List.mem_cons_of_mem _ hx)
          · refine .inr ⟨c :: before, c', after, o' :: os, o, o'', u, by rw [k1]; rfl, by simp [k2], ?_, k4, ⟨max f0 f1, fun fuel hfuel => ?_⟩, fun n1 n2 => ?_⟩
            · rw [List.cons_append, e, k3]; rfl
            · rw [List.cons_append, e' _ _ (by omega), k5 fuel (by omega)]
              rfl
            · obtain ⟨f2, ls, u', m1, m2⟩ := k6 n1 n2
              refine ⟨max f0 f2, ls, u', fun fuel hfuel => ?_, m2⟩
              rw [e' _ _ (by omega), m1 fuel (by omega)]
              rfl
      · have hn : ∀ x, o' ≠ .panic x := by cases h3 <;> simp
        have e' : ∀ (cs : List (WCall α)) (fuel : Nat), f0 ≤ fuel → observeFrom D Z fuel (s, i) (c :: cs) =
            (observeFrom D Z fuel (t', j) cs).map fun y => (o' :: y.1, y.2) := by
          intro cs fuel hfuel
          simp only [observeFrom, h2 fuel hfuel]
        refine .inr ⟨[], c, cs, [], o, o', t', rfl, rfl, ?_, h3, ⟨f0, fun fuel hfuel => ?_⟩, fun n1 n2 => ?_⟩
        · simp only [observe, List.nil_append, List.map_cons, List.map_nil, h1]
          cases o <;> rfl
        · rw [List.nil_append, e' _ _ hfuel]
          rfl
        · obtain ⟨ls, u, m1, m2⟩ := refused (D := D) Z cs t' j (h4 n1) n2
          refine ⟨f0, ls, u, fun fuel hfuel => ?_, m2⟩
          rw [e' _ _ hfuel, m1]
          rfl

/-! ## Sources -/

theorem steady_shaky {S : Source ρ} (hf : Delivers S I tape) : Shaky S I tape := ⟨hf.interrupted, hf.bytes, hf.calm, hf.seeks⟩

theorem bufReader_shaky {S : Source ρ} (hf : Shaky S I tape) (cap : Nat) :
    Shaky (S.bufReader cap) (bufHolds I tape) (bufTape tape) where
  interrupted n b b' hb h := by
    obtain ⟨x, held⟩ := b
    simp only [Source.bufReader, Source.bufRead] at h
    split at h
    · cases h
    · rename_i h0
      obtain rfl : held = [] := by simpa using h0
      split at h
      · rcases hr : S.read n x with ⟨o, x'⟩
        rw [hr] at h
        cases h
        obtain ⟨h1, h2⟩ := hf.interrupted _ _ _ hb.1 hr
        exact ⟨⟨h1, Nat.zero_le _, List.nil_prefix⟩, by simp [bufTape, h2]⟩
      · split at h
        · cases h
        · cases h
        · rename_i hr
          cases h
          obtain ⟨h1, h2⟩ := hf.interrupted _ _ _ hb.1 hr
          exact ⟨⟨h1, Nat.zero_le _, List.nil_prefix⟩, by simp [bufTape, h2]⟩
  bytes n b b' bs hb h := by
    obtain ⟨x, held⟩ := b
    obtain ⟨hi, hl, hp⟩ := hb
    simp only at hi hl hp
    simp only [Source.bufReader, Source.bufRead] at h
    split at h
    · rename_i h0
      cases h
      have hlen : 0 < held.length := List.length_pos_iff.2 h0
      refine ⟨⟨hi, ?_, ?_⟩, ?_, ?_, ?_, ?_⟩
      · simp only [List.length_drop]; omega
      · simp only [List.length_drop]
        obtain ⟨t, ht⟩ := hp
        by_cases hn : n ≤ held.length
        · refine ⟨t, ?_⟩
          rw [show (tape x).pos - (held.length - n) = (tape x).pos - held.length + n by omega, ← List.drop_drop, ← ht, List.drop_append_of_le_length hn]
        · rw [List.drop_eq_nil_of_le (by omega)]; exact List.nil_prefix
      · simp only [bufTape, List.length_drop, List.length_take]
        congr 1; omega
      · simp only [List.length_take]; omega
      · exact (List.take_prefix _ _).trans hp
      · intro h1
        have := congrArg List.length h1
        simp only [List.length_take, List.length_nil] at this
        exact .inl (by omega)
    · rename_i h0
      obtain rfl : held = [] := by simpa using h0
      split at h
      · rcases hr : S.read n x with ⟨o, x'⟩
        rw [hr] at h
        cases h
        obtain ⟨h1, h2, h3, h4, h5⟩ := hf.bytes _ _ _ _ hi hr
        exact ⟨⟨h1, Nat.zero_le _, List.nil_prefix⟩, by simp [bufTape, h2], h3, h4, h5⟩
      · rename_i hc
        split at h
        · rename_i got x' hr
          cases h
          obtain ⟨h1, h2, h3, h4, h5⟩ := hf.bytes _ _ _ _ hi hr
          refine ⟨⟨h1, ?_, ?_⟩, ?_, ?_, ?_, ?_⟩
          · rw [h2]; simp only [List.length_drop]; omega
          · rw [h2]
            simp only [List.length_drop]
            obtain ⟨t, ht⟩ := h4
            by_cases hn : n ≤ got.length
            · refine ⟨t, ?_⟩
              rw [show (tape x).pos + got.length - (got.length - n) = (tape x).pos + n by omega, ← List.drop_drop]
              show _ = List.drop n (tape x).rest
              rw [← ht, List.drop_append_of_le_length hn]
            · rw [List.drop_eq_nil_of_le (by omega)]; exact List.nil_prefix
          · simp only [bufTape, h2, List.length_drop, List.length_take, List.length_nil]
            congr 1; omega
          · simp only [List.length_take]; omega
          · exact (List.take_prefix _ _).trans h4
          · intro h6
            have := congrArg List.length h6
            simp only [List.length_take, List.length_nil] at this
            by_cases hn : n = 0
            · exact .inl hn
            · have : got = [] := List.length_eq_zero_iff.1 (by omega)
              exact .inr ((h5 this).resolve_left (by omega))
        · cases h
        · cases h
  calm b hb := by
    obtain ⟨x, held⟩ := b
    have ha := hf.calm x hb.1
    clear hb
    induction ha generalizing held with
    | intro x _ ih =>
      refine ⟨_, fun y ⟨n, hy⟩ => ?_⟩
      simp only [Source.bufReader, Source.bufRead] at hy
      split at hy
      · cases hy
      · split at hy
        · rcases hr : S.read n x with ⟨o, x'⟩
          rw [hr] at hy
          cases hy
          exact ih x' ⟨n, hr⟩ _
        · split at hy
          · cases hy
          · cases hy
          · rename_i hr
            cases hy
            exact ih _ ⟨cap, hr⟩ _
  seeks d b b' hb h := by
    obtain ⟨x, held⟩ := b
    obtain ⟨hi, hl, hp⟩ := hb
    simp only at hi hl hp
    simp only [Source.bufReader, Source.bufSeek] at h
    split at h
    · rename_i hs
      cases h
      obtain ⟨h1, h2, h3, h4⟩ := hf.seeks _ _ _ hi hs
      refine ⟨⟨h1, Nat.zero_le _, List.nil_prefix⟩, ?_, ?_, ?_⟩
      · simp only [bufTape]; omega
      · simp only [bufTape]; omega
      · simp only [bufTape, h4, List.length_nil]
        congr 1; omega
    · cases h

theorem faulty_shaky {S : Source ρ} (hf : Shaky S I tape) (faults : Nat → Option IoErr) :
    Shaky (Faulty.source S faults) (fun x => I x.1) (fun x => tape x.1) where
  interrupted n x x' hx h := by
    simp only [Faulty.source, Faulty.read] at h
    split at h
    · cases h
    · rcases hr : S.read n x.1 with ⟨o, y⟩
      rw [hr] at h
      cases h
      exact hf.interrupted n _ _ hx hr
  bytes n x x' bs hx h := by
    simp only [Faulty.source, Faulty.read] at h
    split at h
    · cases h
    · rcases hr : S.read n x.1 with ⟨o, y⟩
      rw [hr] at h
      cases h
      exact hf.bytes n _ _ _ hx hr
  calm x hx := by
    obtain ⟨x, k⟩ := x
    have ha := hf.calm x hx
    clear hx
    induction ha generalizing k with
    | intro x _ ih =>
      refine ⟨_, fun y ⟨n, hy⟩ => ?_⟩
      simp only [Faulty.source, Faulty.read] at hy
      split at hy
      · cases hy
      · rcases hr : S.read n x with ⟨o, y⟩
        rw [hr] at hy
        cases hy
        exact ih y ⟨n, hr⟩ _
  seeks d x x' hx h := by
    simp only [Faulty.source, Faulty.seek] at h
    split at h
    · cases h
    · rcases hr : S.seek d x.1 with ⟨o, y⟩
      rw [hr] at h
      cases h
      exact hf.seeks d _ _ hx hr


/-! ## The loaders of the crate -/

/-- `Loader.default`. -/
def wDefault (expecting : String) : WLoader α where
  bool _ := .error (unexpected expecting "boolean")
  i16 _ := .error (unexpected expecting "i16")
  i32 _ := .error (unexpected expecting "i32")
  i64 _ := .error (unexpected expecting "i64")
  f32 _ := .error (unexpected expecting "f32")
  f64 _ := .error (unexpected expecting "f64")
  seqBool _ := .done (.error (unexpected expecting "boolean array"))
  seqI32 _ := .done (.error (unexpected expecting "i32 array"))
  seqI64 _ := .done (.error (unexpected expecting "i64 array"))
  seqF32 _ := .done (.error (unexpected expecting "f32 array"))
  seqF64 _ := .done (.error (unexpected expecting "f64 array"))
  binary _ := .done (.error (unexpected expecting "binary data"))
  string _ := .done (.error (unexpected expecting "string data"))
  binaryBuf _ := .done (.error (unexpected expecting "binary data"))
  stringBuf _ := .done (.error (unexpected expecting "string data"))

/-- `TypeLoader`. -/
def wType : WLoader AttrType where
  bool _ := .ok .bool
  i16 _ := .ok .i16
  i32 _ := .ok .i32
  i64 _ := .ok .i64
  f32 _ := .ok .f32
  f64 _ := .ok .f64
  seqBool _ := .done (.ok .arrBool)
  seqI32 _ := .done (.ok .arrI32)
  seqI64 _ := .done (.ok .arrI64)
  seqF32 _ := .done (.ok .arrF32)
  seqF64 _ := .done (.ok .arrF64)
  binary _ := .done (.ok .binary)
  string _ := .done (.ok .string)
  binaryBuf _ := .done (.ok .binary)
  stringBuf _ := .done (.ok .string)

theorem plain_truthful {l : WLoader α} (h1 : ∀ n, ∃ r, l.seqBool n = .done r) (h2 : ∀ n, ∃ r, l.seqI32 n = .done r)
    (h3 : ∀ n, ∃ r, l.seqI64 n = .done r) (h4 : ∀ n, ∃ r, l.seqF32 n = .done r) (h5 : ∀ n, ∃ r, l.seqF64 n = .done r) : Truthful l := by
  refine ⟨fun n => ?_, fun n => ?_, fun n => ?_, fun n => ?_, fun n => ?_⟩
  · obtain ⟨r, h⟩ := h1 n; rw [h]; trivial
  · obtain ⟨r, h⟩ := h2 n; rw [h]; trivial
  · obtain ⟨r, h⟩ := h3 n; rw [h]; trivial
  · obtain ⟨r, h⟩ := h4 n; rw [h]; trivial
  · obtain ⟨r, h⟩ := h5 n; rw [h]; trivial

theorem shipped_truthful : ∀ {α : Type} {L : Loader α}, Shipped L → ∃ l : WLoader α, l.loader = L ∧ Truthful l := by
  intro α L h
  cases h with
  | direct => exact ⟨direct, direct_loader, direct_truthful⟩
  | type => exact ⟨wType, rfl, plain_truthful (fun _ => ⟨_, rfl⟩) (fun _ => ⟨_, rfl⟩) (fun _ => ⟨_, rfl⟩) (fun _ => ⟨_, rfl⟩) (fun _ => ⟨_, rfl⟩)⟩
  | bool => exact ⟨{ wDefault "single boolean" with bool := .ok }, rfl, plain_truthful (fun _ => ⟨_, rfl⟩) (fun _ => ⟨_, rfl⟩) (fun _ => ⟨_, rfl⟩) (fun _ => ⟨_, rfl⟩) (fun _ => ⟨_, rfl⟩)⟩
  | i16 => exact ⟨{ wDefault "single i16" with i16 := .ok }, rfl, plain_truthful (fun _ => ⟨_, rfl⟩) (fun _ => ⟨_, rfl⟩) (fun _ => ⟨_, rfl⟩) (fun _ => ⟨_, rfl⟩) (fun _ => ⟨_, rfl⟩)⟩
  | i32 => exact ⟨{ wDefault "single i32" with i32 := .ok }, rfl, plain_truthful (fun _ => ⟨_, rfl⟩) (fun _ => ⟨_, rfl⟩) (fun _ => ⟨_, rfl⟩) (fun _ => ⟨_, rfl⟩) (fun _ => ⟨_, rfl⟩)⟩
  | i64 => exact ⟨{ wDefault "single i64" with i64 := .ok }, rfl, plain_truthful (fun _ => ⟨_, rfl⟩) (fun _ => ⟨_, rfl⟩) (fun _ => ⟨_, rfl⟩) (fun _ => ⟨_, rfl⟩) (fun _ => ⟨_, rfl⟩)⟩
  | f32 => exact ⟨{ wDefault "single f32" with f32 := .ok }, rfl, plain_truthful (fun _ => ⟨_, rfl⟩) (fun _ => ⟨_, rfl⟩) (fun _ => ⟨_, rfl⟩) (fun _ => ⟨_, rfl⟩) (fun _ => ⟨_, rfl⟩)⟩
  | f64 => exact ⟨{ wDefault "single f64" with f64 := .ok }, rfl, plain_truthful (fun _ => ⟨_, rfl⟩) (fun _ => ⟨_, rfl⟩) (fun _ => ⟨_, rfl⟩) (fun _ => ⟨_, rfl⟩) (fun _ => ⟨_, rfl⟩)⟩
  | arrBool => exact ⟨{ wDefault "boolean array" with seqBool := fun n => collectSeq id (n + 1) [] }, rfl, fun _ => collectSeq_honest _ _ _, fun _ => trivial, fun _ => trivial, fun _ => trivial, fun _ => trivial⟩
  | arrI32 => exact ⟨{ wDefault "i32 array" with seqI32 := fun n => collectSeq id (n + 1) [] }, rfl, fun _ => trivial, fun _ => collectSeq_honest _ _ _, fun _ => trivial, fun _ => trivial, fun _ => trivial⟩
  | arrI64 => exact ⟨{ wDefault "i64 array" with seqI64 := fun n => collectSeq id (n + 1) [] }, rfl, fun _ => trivial, fun _ => trivial, fun _ => collectSeq_honest _ _ _, fun _ => trivial, fun _ => trivial⟩
  | arrF32 => exact ⟨{ wDefault "f32 array" with seqF32 := fun n => collectSeq id (n + 1) [] }, rfl, fun _ => trivial, fun _ => trivial, fun _ => trivial, fun _ => collectSeq_honest _ _ _, fun _ => trivial⟩
  | arrF64 => exact ⟨{ wDefault "f64 array" with seqF64 := fun n => collectSeq id (n + 1) [] }, rfl, fun _ => trivial, fun _ => trivial, fun _ => trivial, fun _ => trivial, fun _ => collectSeq_honest _ _ _⟩
  | binary => exact ⟨{ wDefault "binary" with binary := Device.wBinary id, binaryBuf := Device.wBinary id }, rfl, plain_truthful (fun _ => ⟨_, rfl⟩) (fun _ => ⟨_, rfl⟩) (fun _ => ⟨_, rfl⟩) (fun _ => ⟨_, rfl⟩) (fun _ => ⟨_, rfl⟩)⟩
  | string => exact ⟨{ wDefault "string" with string := Device.wString id, stringBuf := Device.wString id }, rfl, plain_truthful (fun _ => ⟨_, rfl⟩) (fun _ => ⟨_, rfl⟩) (fun _ => ⟨_, rfl⟩) (fun _ => ⟨_, rfl⟩) (fun _ => ⟨_, rfl⟩)⟩

end Shakes
end Source
end Fbx
