import Verif.Spec.Chunked

/-! # Lemmas about reads in pieces -/

namespace Fbx
open Spec

/-- Induction over the calls of a fair schedule. -/
theorem Spec.Fair.ind {σ : Schedule} (hf : Fair σ) {P : Nat → Prop} (h1 : ∀ i, σ i = .interrupted → P (i + 1) → P i)
    (h2 : ∀ i k, σ i = .upTo k → P i) (i : Nat) : P i := by
  obtain ⟨j, hj⟩ := hf i
  induction j generalizing i with
  | zero =>
    cases h : σ i with
    | interrupted => exact absurd h hj
    | upTo k => exact h2 i k h
  | succ j ih =>
    cases h : σ i with
    | interrupted => exact h1 i h (ih (i + 1) (by rw [Nat.add_assoc, Nat.add_comm 1]; exact hj))
    | upTo k => exact h2 i k h

namespace Chunked

theorem read_interrupted {σ : Schedule} {c : Chunked} (h : σ c.calls = .interrupted) (n : Nat) : c.read σ n = (none, ⟨c.reader, c.calls + 1⟩) := by
  simp [read, h]

theorem read_upTo {σ : Schedule} {c : Chunked} {k : Nat} (h : σ c.calls = .upTo k) (n : Nat) :
    c.read σ n = (some (Reader.read (min n (k + 1)) c.reader).1, ⟨(Reader.read (min n (k + 1)) c.reader).2, c.calls + 1⟩) := by
  simp [read, h]

theorem consume_consume (r : Reader) (a b : Nat) : (r.consume a).consume b = r.consume (a + b) := by
  simp [Reader.consume, Nat.add_assoc]

theorem consumeInner_consumeInner (r : Reader) (a b : Nat) : (r.consumeInner a).consumeInner b = r.consumeInner (a + b) := by
  simp [Reader.consumeInner, Nat.add_assoc]

/-- A read of at least one byte from a source that has some. -/
theorem read_some {r : Reader} {m : Nat} (hm : m ≠ 0) (hr : r.rest ≠ []) :
    ∃ j, 0 < j ∧ j ≤ m ∧ j ≤ r.rest.length ∧
      Reader.read m r = if r.position + j < u64Size then (.ok (r.rest.take j), r.consume j) else (.panic .positionOverflow, r) := by
  have hl : 0 < r.rest.length := List.length_pos_iff.mpr hr
  refine ⟨min m r.rest.length, by omega, Nat.min_le_left _ _, Nat.min_le_right _ _, ?_⟩
  have : min m r.rest.length ≠ 0 := by omega
  simp [Reader.read, this]

theorem read_none {r : Reader} {m : Nat} (hm : m ≠ 0) (hr : r.rest = []) :
    Reader.read m r = (match r.ending with | none => .ok [] | some e => .err e, r) := by
  simp only [Reader.read, hr, List.length_nil, Nat.min_zero, if_true, hm, if_false]
  cases r.ending <;> rfl

theorem take_pos {l : Bytes} {j : Nat} (h1 : 0 < j) (h2 : j ≤ l.length) : ∃ b bs, l.take j = b :: bs := by
  cases l with
  | nil => simp at h2; omega
  | cons b bs =>
    cases j with
    | zero => omega
    | succ j => exact ⟨b, bs.take j, rfl⟩

/-- The result with some bytes in front. -/
def prefixed (acc : Bytes) (x : Res IoErr Bytes × Reader) : Res IoErr Bytes × Reader :=
  (match x.1 with
    | .ok bs => .ok (acc ++ bs)
    | .err e => .err e
    | .panic x => .panic x, x.2)

theorem prefixed_nil (x : Res IoErr Bytes × Reader) : prefixed [] x = x := by
  rcases x with ⟨_ | _ | _, _⟩ <;> rfl

theorem prefixed_panic {acc : Bytes} {x : Res IoErr Bytes × Reader} (h : ∀ p, (prefixed acc x).1 ≠ .panic p) : ∀ p, x.1 ≠ .panic p := by
  intro p hp
  refine h p ?_
  simp [prefixed, hp]

/-! ## `read_exact` -/

theorem readExact_same {σ : Schedule} (hf : Fair σ) (n : Nat) : ∀ (acc : Bytes) (r : Reader) (i : Nat), r.position < u64Size →
    Same (fun fuel => readExact σ fuel n acc ⟨r, i⟩) (prefixed acc (Reader.readExact n r)) := by
  induction n using Nat.strongRecOn with
  | ind n ihn =>
    intro acc r i hp
    by_cases hn : n = 0
    · subst hn
      refine ⟨1, fun fuel hfuel => ?_⟩
      obtain ⟨fuel, rfl⟩ : ∃ f, fuel = f + 1 := ⟨fuel - 1, by omega⟩
      refine ⟨⟨r, i⟩, ?_, fun _ => ?_⟩
      · simp [readExact, Reader.readExact, hp, prefixed]
      · simp [Reader.readExact, hp, Reader.consume, prefixed]
    · refine hf.ind (P := fun i => Same (fun fuel => readExact σ fuel n acc ⟨r, i⟩) _) ?_ ?_ i
      · intro i hi ⟨f0, ih⟩
        refine ⟨f0 + 1, fun fuel hfuel => ?_⟩
        obtain ⟨fuel, rfl⟩ : ∃ f, fuel = f + 1 := ⟨fuel - 1, by omega⟩
        obtain ⟨c, h1, h2⟩ := ih fuel (by omega)
        refine ⟨c, ?_, h2⟩
        simp only [readExact, hn, if_false, read_interrupted (c := ⟨r, i⟩) hi]
        exact h1
      · intro i k hi
        by_cases hr : r.rest = []
        · refine ⟨1, fun fuel hfuel => ?_⟩
          obtain ⟨fuel, rfl⟩ : ∃ f, fuel = f + 1 := ⟨fuel - 1, by omega⟩
          have hle : ¬ n ≤ r.rest.length := by rw [hr]; simpa using hn
          have hz : r.consume r.rest.length = r := by simp [hr, Reader.consume]; cases r; simp_all
          have hz' : r.position + r.rest.length < u64Size := by simpa [hr] using hp
          simp only [readExact, hn, if_false, read_upTo (c := ⟨r, i⟩) hi, read_none (r := r) (m := min n (k + 1)) (by omega) hr, Reader.readExact, hle, hz', if_true, hz, prefixed]
          refine ⟨⟨r, i + 1⟩, ?_, fun _ => rfl⟩
          cases r.ending <;> rfl
        · obtain ⟨j, j1, j2, j3, hj⟩ := read_some (r := r) (m := min n (k + 1)) (by omega) hr
          have hjn : j ≤ n := by omega
          by_cases ho : r.position + j < u64Size
          · rw [if_pos ho] at hj
            obtain ⟨b, bs, hb⟩ := take_pos j1 j3
            have hl : (b :: bs).length = j := by rw [← hb]; simp; omega
            obtain ⟨f0, ih⟩ := ihn (n - j) (by omega) (acc ++ b :: bs) (r.consume j) (i + 1) ho
            refine ⟨f0 + 1, fun fuel hfuel => ?_⟩
            obtain ⟨fuel, rfl⟩ : ∃ f, fuel = f + 1 := ⟨fuel - 1, by omega⟩
            obtain ⟨c, h1, h2⟩ := ih fuel (by omega)
            have key : (prefixed (acc ++ b :: bs) (Reader.readExact (n - j) (r.consume j))).1 = (prefixed acc (Reader.readExact n r)).1 ∧
                ((∀ x, (Reader.readExact n r).1 ≠ .panic x) → (Reader.readExact (n - j) (r.consume j)).2 = (Reader.readExact n r).2) := by
              unfold prefixed
              have e1 : (r.consume j).rest.length = r.rest.length - j := by simp [Reader.consume]
              have e2 : (r.consume j).position = r.position + j := rfl
              have e3 : (r.consume j).ending = r.ending := rfl
              by_cases hln : n ≤ r.rest.length
              · have : n - j ≤ r.rest.length - j := by omega
                by_cases hov : r.position + n < u64Size
                · have hov' : r.position + j + (n - j) < u64Size := by omega
                  simp only [Reader.readExact, e1, e2, hln, this, hov, hov', if_true, consume_consume, show j + (n - j) = n by omega, and_true, implies_true]
                  rw [← hb]
                  simp only [Reader.consume, List.append_assoc]
                  have : r.rest.take j ++ (r.rest.drop j).take (n - j) = r.rest.take n := by
                    rw [← List.take_add, show j + (n - j) = n by omega]
                  rw [this]
                · have hov' : ¬ r.position + j + (n - j) < u64Size := by omega
                  simp [Reader.readExact, e1, e2, hln, this, hov, hov']
              · have : ¬ n - j ≤ r.rest.length - j := by omega
                have hq : r.position + j + (r.rest.length - j) = r.position + r.rest.length := by omega
                simp only [Reader.readExact, e1, e2, e3, hln, this, hq, if_false, consume_consume, show j + (r.rest.length - j) = r.rest.length by omega]
                by_cases hov : r.position + r.rest.length < u64Size
                · simp [hov]
                · simp [hov]
            refine ⟨c, ?_, ?_⟩
            · simp only [readExact, hn, if_false, read_upTo (c := ⟨r, i⟩) hi, hj, hb, hl]
              rw [← key.1]
              exact h1
            · intro hx
              have h4 : c.reader = (prefixed (acc ++ b :: bs) (Reader.readExact (n - j) (r.consume j))).2 := h2 (by rw [key.1]; exact hx)
              exact h4.trans (key.2 (prefixed_panic hx))
          · rw [if_neg ho] at hj
            refine ⟨1, fun fuel hfuel => ?_⟩
            obtain ⟨fuel, rfl⟩ : ∃ f, fuel = f + 1 := ⟨fuel - 1, by omega⟩
            have hpan : Reader.readExact n r = (.panic .positionOverflow, r) := by
              by_cases hln : n ≤ r.rest.length
              · simp [Reader.readExact, hln, show ¬ r.position + n < u64Size by omega]
              · simp [Reader.readExact, hln, show ¬ r.position + r.rest.length < u64Size by omega]
            simp only [readExact, hn, if_false, read_upTo (c := ⟨r, i⟩) hi, hj, hpan]
            exact ⟨_, rfl, fun h => absurd rfl (h _)⟩

/-! ## Skipping -/

theorem copyToSink_same {σ : Schedule} (hf : Fair σ) (b : Nat) (n : Nat) : ∀ (r : Reader) (i : Nat),
    Same (fun fuel => copyToSink σ b fuel n ⟨r, i⟩) (Reader.skipPlain n r) := by
  induction n using Nat.strongRecOn with
  | ind n ihn =>
    intro r i
    by_cases hn : n = 0
    · subst hn
      refine ⟨1, fun fuel hfuel => ?_⟩
      obtain ⟨fuel, rfl⟩ : ∃ f, fuel = f + 1 := ⟨fuel - 1, by omega⟩
      refine ⟨⟨r, i⟩, ?_, fun _ => ?_⟩
      · simp [copyToSink, Reader.skipPlain]
      · simp [Reader.skipPlain, Reader.consumeInner]
    · refine hf.ind (P := fun i => Same (fun fuel => copyToSink σ b fuel n ⟨r, i⟩) _) ?_ ?_ i
      · intro i hi ⟨f0, ih⟩
        refine ⟨f0 + 1, fun fuel hfuel => ?_⟩
        obtain ⟨fuel, rfl⟩ : ∃ f, fuel = f + 1 := ⟨fuel - 1, by omega⟩
        obtain ⟨c, h1, h2⟩ := ih fuel (by omega)
        refine ⟨c, ?_, h2⟩
        simp only [copyToSink, hn, if_false, readInner, hi]
        exact h1
      · intro i k hi
        by_cases hr : r.rest = []
        · refine ⟨1, fun fuel hfuel => ?_⟩
          obtain ⟨fuel, rfl⟩ : ∃ f, fuel = f + 1 := ⟨fuel - 1, by omega⟩
          have hz : r.consumeInner r.rest.length = r := by simp [hr, Reader.consumeInner]; cases r; simp_all
          have hle : ¬ n ≤ r.rest.length := by rw [hr]; simpa using hn
          have hm : min (b + 1) n ≠ 0 := by omega
          simp only [copyToSink, hn, if_false, readInner, hi, hr, List.length_nil, Nat.min_zero, true_and, hm, ne_eq, not_false_eq_true, if_true, Reader.skipPlain, Nat.le_zero_eq]
          refine ⟨⟨r, i + 1⟩, ?_, fun _ => ?_⟩
          · cases r.ending <;> rfl
          · rw [hr] at hz
            cases r.ending <;> exact hz.symm
        · have hlen : 0 < r.rest.length := List.length_pos_iff.mpr hr
          obtain ⟨j, hj⟩ : ∃ j, min (min (min (b + 1) n) (k + 1)) r.rest.length = j := ⟨_, rfl⟩
          have j1 : 0 < j := by omega
          have j2 : j ≤ n := by omega
          have j3 : j ≤ r.rest.length := by omega
          obtain ⟨x, xs, hx⟩ := take_pos j1 j3
          have hl : (x :: xs).length = j := by rw [← hx]; simp; omega
          obtain ⟨f0, ih⟩ := ihn (n - j) (by omega) (r.consumeInner j) (i + 1)
          refine ⟨f0 + 1, fun fuel hfuel => ?_⟩
          obtain ⟨fuel, rfl⟩ : ∃ f, fuel = f + 1 := ⟨fuel - 1, by omega⟩
          obtain ⟨c, h1, h2⟩ := ih fuel (by omega)
          have key : Reader.skipPlain (n - j) (r.consumeInner j) = Reader.skipPlain n r := by
            have e1 : (r.consumeInner j).rest.length = r.rest.length - j := by simp [Reader.consumeInner]
            have e3 : (r.consumeInner j).ending = r.ending := rfl
            by_cases hln : n ≤ r.rest.length
            · simp only [Reader.skipPlain, e1, hln, show n - j ≤ r.rest.length - j by omega, if_true, consumeInner_consumeInner, show j + (n - j) = n by omega]
            · simp only [Reader.skipPlain, e1, e3, hln, show ¬ n - j ≤ r.rest.length - j by omega, if_false, consumeInner_consumeInner, show j + (r.rest.length - j) = r.rest.length by omega]
          rw [key] at h1 h2
          refine ⟨c, ?_, h2⟩
          simp only [copyToSink, hn, if_false, readInner, hi, hj, show ¬ (j = 0 ∧ min (b + 1) n ≠ 0) by omega, hx, hl]
          exact h1

/-! ## `read_to_end` -/

/-- Everything up to the limit. -/
def readAll (limit : Nat) (r : Reader) : Res IoErr Bytes × Reader :=
  if limit ≤ r.rest.length then
    if r.position + limit < u64Size then (.ok (r.rest.take limit), r.consume limit) else (.panic .positionOverflow, r)
  else if r.position + r.rest.length < u64Size then
    (match r.ending with | none => .ok r.rest | some e => .err e, r.consume r.rest.length)
  else (.panic .positionOverflow, r)

theorem readAll_zero {r : Reader} (h : r.position < u64Size) : readAll 0 r = (.ok [], r) := by
  simp [readAll, h, Reader.consume]

/-- Reading `j` bytes before the rest. -/
theorem readAll_step {n j : Nat} {r : Reader} {acc : Bytes} (hj : j ≤ n) (j3 : j ≤ r.rest.length) (ho : r.position + j < u64Size) :
    (prefixed (acc ++ r.rest.take j) (readAll (n - j) (r.consume j))).1 = (prefixed acc (readAll n r)).1 ∧
      ((∀ x, (readAll n r).1 ≠ .panic x) → (readAll (n - j) (r.consume j)).2 = (readAll n r).2) := by
  unfold prefixed
  have e1 : (r.consume j).rest.length = r.rest.length - j := by simp [Reader.consume]
  have e2 : (r.consume j).position = r.position + j := rfl
  have e3 : (r.consume j).ending = r.ending := rfl
  by_cases hln : n ≤ r.rest.length
  · have : n - j ≤ r.rest.length - j := by omega
    by_cases hov : r.position + n < u64Size
    · have hov' : r.position + j + (n - j) < u64Size := by omega
      simp only [readAll, e1, e2, hln, this, hov, hov', if_true, consume_consume, show j + (n - j) = n by omega, and_true, implies_true]
      simp only [Reader.consume, List.append_assoc]
      rw [← List.take_add, show j + (n - j) = n by omega]
    · have hov' : ¬ r.position + j + (n - j) < u64Size := by omega
      simp [readAll, e1, e2, hln, this, hov, hov']
  · have : ¬ n - j ≤ r.rest.length - j := by omega
    have hq : r.position + j + (r.rest.length - j) = r.position + r.rest.length := by omega
    simp only [readAll, e1, e2, e3, hln, this, hq, if_false, consume_consume, show j + (r.rest.length - j) = r.rest.length by omega]
    by_cases hov : r.position + r.rest.length < u64Size
    · simp only [hov, if_true, implies_true, and_true]
      cases r.ending with
      | none => simp [Reader.consume]
      | some e => rfl
    · simp [hov]

theorem readToEnd_same {σ : Schedule} (hf : Fair σ) (bufs : Nat → Nat) (n : Nat) : ∀ (acc : Bytes) (r : Reader) (i : Nat), r.position < u64Size →
    Same (fun fuel => readToEnd σ bufs fuel n acc ⟨r, i⟩) (prefixed acc (readAll n r)) := by
  induction n using Nat.strongRecOn with
  | ind n ihn =>
    intro acc r i hp
    by_cases hn : n = 0
    · subst hn
      refine ⟨1, fun fuel hfuel => ?_⟩
      obtain ⟨fuel, rfl⟩ : ∃ f, fuel = f + 1 := ⟨fuel - 1, by omega⟩
      rw [readAll_zero hp]
      exact ⟨⟨r, i⟩, by simp [readToEnd, prefixed], fun _ => rfl⟩
    · refine hf.ind (P := fun i => Same (fun fuel => readToEnd σ bufs fuel n acc ⟨r, i⟩) _) ?_ ?_ i
      · intro i hi ⟨f0, ih⟩
        refine ⟨f0 + 1, fun fuel hfuel => ?_⟩
        obtain ⟨fuel, rfl⟩ : ∃ f, fuel = f + 1 := ⟨fuel - 1, by omega⟩
        obtain ⟨c, h1, h2⟩ := ih fuel (by omega)
        refine ⟨c, ?_, h2⟩
        simp only [readToEnd, hn, if_false, read_interrupted (c := ⟨r, i⟩) hi]
        exact h1
      · intro i k hi
        by_cases hr : r.rest = []
        · refine ⟨1, fun fuel hfuel => ?_⟩
          obtain ⟨fuel, rfl⟩ : ∃ f, fuel = f + 1 := ⟨fuel - 1, by omega⟩
          have hle : ¬ n ≤ r.rest.length := by rw [hr]; simpa using hn
          have hz : r.consume r.rest.length = r := by simp [hr, Reader.consume]; cases r; simp_all
          have hz' : r.position + r.rest.length < u64Size := by simpa [hr] using hp
          simp only [readToEnd, hn, if_false, read_upTo (c := ⟨r, i⟩) hi, read_none (r := r) (m := min (min (bufs i + 1) n) (k + 1)) (by omega) hr,
            readAll, hle, hz', if_true, hz, prefixed]
          refine ⟨⟨r, i + 1⟩, ?_, fun _ => rfl⟩
          cases r.ending <;> simp [hr]
        · obtain ⟨j, j1, j2, j3, hj⟩ := read_some (r := r) (m := min (min (bufs i + 1) n) (k + 1)) (by omega) hr
          have hjn : j ≤ n := by omega
          by_cases ho : r.position + j < u64Size
          · rw [if_pos ho] at hj
            have key := readAll_step (acc := acc) hjn j3 ho
            obtain ⟨b, bs, hb⟩ := take_pos j1 j3
            have hl : (b :: bs).length = j := by rw [← hb]; simp; omega
            rw [hb] at key
            obtain ⟨f0, ih⟩ := ihn (n - j) (by omega) (acc ++ b :: bs) (r.consume j) (i + 1) ho
            refine ⟨f0 + 1, fun fuel hfuel => ?_⟩
            obtain ⟨fuel, rfl⟩ : ∃ f, fuel = f + 1 := ⟨fuel - 1, by omega⟩
            obtain ⟨c, h1, h2⟩ := ih fuel (by omega)
            refine ⟨c, ?_, ?_⟩
            · simp only [readToEnd, hn, if_false, read_upTo (c := ⟨r, i⟩) hi, hj, hb, hl]
              rw [← key.1]
              exact h1
            · intro hx
              have h4 : c.reader = (prefixed (acc ++ b :: bs) (readAll (n - j) (r.consume j))).2 := h2 (by rw [key.1]; exact hx)
              exact h4.trans (key.2 (prefixed_panic hx))
          · rw [if_neg ho] at hj
            refine ⟨1, fun fuel hfuel => ?_⟩
            obtain ⟨fuel, rfl⟩ : ∃ f, fuel = f + 1 := ⟨fuel - 1, by omega⟩
            have hpan : readAll n r = (.panic .positionOverflow, r) := by
              by_cases hln : n ≤ r.rest.length
              · simp [readAll, hln, show ¬ r.position + n < u64Size by omega]
              · simp [readAll, hln, show ¬ r.position + r.rest.length < u64Size by omega]
            simp only [readToEnd, hn, if_false, read_upTo (c := ⟨r, i⟩) hi, hj, hpan]
            exact ⟨_, rfl, fun h => absurd rfl (h _)⟩

/-! ## Schedules that are not fair -/

/-- More fuel does not change a result. -/
theorem readExact_mono {σ : Schedule}  : ∀ {fuel : Nat} {n : Nat} {acc : Bytes} {c : Chunked} {x : Res IoErr Bytes × Chunked}, readExact σ  fuel n acc c = some x →
    ∀ fuel' ≥ fuel, readExact σ  fuel' n acc c = some x := by
  intro fuel
  induction fuel with
  | zero => intro n acc c x h; simp [readExact] at h
  | succ fuel ih =>
    intro n acc c x h fuel' hf
    obtain ⟨fuel', rfl⟩ : ∃ f, fuel' = f + 1 := ⟨fuel' - 1, by omega⟩
    simp only [readExact] at h ⊢
    split
    · rename_i h0; rw [if_pos h0] at h; exact h
    · rename_i h0
      rw [if_neg h0] at h
      split
      · rename_i h1; rw [h1] at h; exact ih h _ (by omega)
      · rename_i h1; rw [h1] at h; exact h
      · rename_i h1; rw [h1] at h; exact ih h _ (by omega)
      · rename_i h1; rw [h1] at h; exact h
      · rename_i h1; rw [h1] at h; exact h
/-- Only the next `fuel` steps of the schedule matter. -/
theorem readExact_congr {σ σ' : Schedule}  : ∀ {fuel : Nat} {n : Nat} {acc : Bytes} {c : Chunked}, (∀ i, i < c.calls + fuel → σ' i = σ i) →
    readExact σ'  fuel n acc c = readExact σ  fuel n acc c := by
  intro fuel
  induction fuel with
  | zero => intro n acc c h; rfl
  | succ fuel ih =>
    intro n acc c h
    simp only [readExact]
    have h1 : ∀ m, c.read σ' m = c.read σ m := fun m => by simp only [read, h c.calls (by omega)]
    rw [h1]
    split
    · rfl
    · have h2 : ∀ m, (c.read σ m).2.calls = c.calls + 1 := fun m => by
        simp only [read]; split <;> (try split) <;> rfl
      split
      · rename_i h3
        refine ih (fun i hi => h i ?_)
        have := h2 (n); rw [h3] at this; simp only at this; omega
      · rfl
      · rename_i h3
        refine ih (fun i hi => h i ?_)
        have := h2 (n); rw [h3] at this; simp only at this; omega
      · rfl
      · rfl

/-- More fuel does not change a result. -/
theorem copyToSink_mono {σ : Schedule} {b : Nat} : ∀ {fuel : Nat} {n : Nat}  {c : Chunked} {x : Res IoErr Unit × Chunked}, copyToSink σ b fuel n  c = some x →
    ∀ fuel' ≥ fuel, copyToSink σ b fuel' n  c = some x := by
  intro fuel
  induction fuel with
  | zero => intro n  c x h; simp [copyToSink] at h
  | succ fuel ih =>
    intro n  c x h fuel' hf
    obtain ⟨fuel', rfl⟩ : ∃ f, fuel' = f + 1 := ⟨fuel' - 1, by omega⟩
    simp only [copyToSink] at h ⊢
    split
    · rename_i h0; rw [if_pos h0] at h; exact h
    · rename_i h0
      rw [if_neg h0] at h
      split
      · rename_i h1; rw [h1] at h; exact ih h _ (by omega)
      · rename_i h1; rw [h1] at h; exact h
      · rename_i h1; rw [h1] at h; exact ih h _ (by omega)
      · rename_i h1; rw [h1] at h; exact h
/-- Only the next `fuel` steps of the schedule matter. -/
theorem copyToSink_congr {σ σ' : Schedule} {b : Nat} : ∀ {fuel : Nat} {n : Nat}  {c : Chunked}, (∀ i, i < c.calls + fuel → σ' i = σ i) →
    copyToSink σ' b fuel n  c = copyToSink σ b fuel n  c := by
  intro fuel
  induction fuel with
  | zero => intro n  c h; rfl
  | succ fuel ih =>
    intro n  c h
    simp only [copyToSink]
    have h1 : ∀ m, c.readInner σ' m = c.readInner σ m := fun m => by simp only [readInner, h c.calls (by omega)]
    rw [h1]
    split
    · rfl
    · have h2 : ∀ m, (c.readInner σ m).2.calls = c.calls + 1 := fun m => by
        simp only [readInner]; split <;> (try split) <;> rfl
      split
      · rename_i h3
        refine ih (fun i hi => h i ?_)
        have := h2 (min (b + 1) n); rw [h3] at this; simp only at this; omega
      · rfl
      · rename_i h3
        refine ih (fun i hi => h i ?_)
        have := h2 (min (b + 1) n); rw [h3] at this; simp only at this; omega
      · rfl

/-- More fuel does not change a result. -/
theorem readToEnd_mono {σ : Schedule} {bufs : Nat → Nat} : ∀ {fuel : Nat} {n : Nat} {acc : Bytes} {c : Chunked} {x : Res IoErr Bytes × Chunked}, readToEnd σ bufs fuel n acc c = some x →
    ∀ fuel' ≥ fuel, readToEnd σ bufs fuel' n acc c = some x := by
  intro fuel
  induction fuel with
  | zero => intro n acc c x h; simp [readToEnd] at h
  | succ fuel ih =>
    intro n acc c x h fuel' hf
    obtain ⟨fuel', rfl⟩ : ∃ f, fuel' = f + 1 := ⟨fuel' - 1, by omega⟩
    simp only [readToEnd] at h ⊢
    split
    · rename_i h0; rw [if_pos h0] at h; exact h
    · rename_i h0
      rw [if_neg h0] at h
      split
      · rename_i h1; rw [h1] at h; exact ih h _ (by omega)
      · rename_i h1; rw [h1] at h; exact h
      · rename_i h1; rw [h1] at h; exact ih h _ (by omega)
      · rename_i h1; rw [h1] at h; exact h
      · rename_i h1; rw [h1] at h; exact h
/-- Only the next `fuel` steps of the schedule matter. -/
theorem readToEnd_congr {σ σ' : Schedule} {bufs : Nat → Nat} : ∀ {fuel : Nat} {n : Nat} {acc : Bytes} {c : Chunked}, (∀ i, i < c.calls + fuel → σ' i = σ i) →
    readToEnd σ' bufs fuel n acc c = readToEnd σ bufs fuel n acc c := by
  intro fuel
  induction fuel with
  | zero => intro n acc c h; rfl
  | succ fuel ih =>
    intro n acc c h
    simp only [readToEnd]
    have h1 : ∀ m, c.read σ' m = c.read σ m := fun m => by simp only [read, h c.calls (by omega)]
    rw [h1]
    split
    · rfl
    · have h2 : ∀ m, (c.read σ m).2.calls = c.calls + 1 := fun m => by
        simp only [read]; split <;> (try split) <;> rfl
      split
      · rename_i h3
        refine ih (fun i hi => h i ?_)
        have := h2 (min (bufs c.calls + 1) n); rw [h3] at this; simp only at this; omega
      · rfl
      · rename_i h3
        refine ih (fun i hi => h i ?_)
        have := h2 (min (bufs c.calls + 1) n); rw [h3] at this; simp only at this; omega
      · rfl
      · rfl

/-- A fair schedule with the same beginning. -/
def cutAt (σ : Schedule) (n : Nat) : Schedule := fun i => if i < n then σ i else .upTo 0

theorem cutAt_fair (σ : Schedule) (n : Nat) : Fair (cutAt σ n) := fun i => ⟨n, by
  unfold cutAt
  rw [if_neg (by omega)]
  simp⟩

theorem cutAt_eq (σ : Schedule) (n i : Nat) (h : i < n) : cutAt σ n i = σ i := by simp [cutAt, h]

end Chunked

/-- What `fin` makes of the bytes read. -/
def finished {α : Type} (fin : Bytes → Except PErr α) : Res IoErr Bytes → Res PErr α
  | .ok bs => match fin bs with
    | .ok v => .ok v
    | .error e => .err e
  | .err e => .err (PErr.ofIo e)
  | .panic x => .panic x

/-- The model's `read_to_end`, which reads with large buffers, as a limited read of everything. -/
theorem readToEnd_run {α : Type} (len : Nat) (fin : Bytes → Except PErr α) : ∀ (fuel limit : Nat) (acc : Bytes) (r : Reader), limit < fuel → limit ≤ len →
    r.position < u64Size →
    ((readToEnd len fin fuel acc).run (limit, r)).1 = finished fin (Chunked.prefixed acc (Chunked.readAll limit r)).1 ∧
      ((∀ x, (Chunked.readAll limit r).1 ≠ .panic x) → ((readToEnd len fin fuel acc).run (limit, r)).2.2 = (Chunked.readAll limit r).2) := by
  intro fuel
  induction fuel with
  | zero => intro limit acc r h; omega
  | succ fuel ih =>
    intro limit acc r hfuel hlen hp
    by_cases hl : limit = 0
    · subst hl
      rw [Chunked.readAll_zero hp]
      simp only [readToEnd, ReadCons.run, takeRead, if_true, Chunked.prefixed, List.append_nil, finished]
      cases fin acc <;> simp [M.ofExcept, M.pure]
    · have hmin : min len limit = limit := by omega
      by_cases hr : r.rest = []
      · have hle : ¬ limit ≤ r.rest.length := by rw [hr]; simpa using hl
        have hz : r.consume r.rest.length = r := by simp [hr, Reader.consume]; cases r; simp_all
        have hz' : r.position + r.rest.length < u64Size := by simpa [hr] using hp
        simp only [readToEnd, ReadCons.run, takeRead, hl, if_false, hmin, Chunked.read_none (r := r) (m := limit) hl hr, Chunked.readAll, hle, hz', if_true, hz, Chunked.prefixed]
        cases r.ending with
        | none =>
          simp only [hr, List.append_nil, finished]
          simp only [ReadCons.run]
          cases fin acc <;> simp [M.ofExcept, M.pure]
        | some e => simp [M.ofExcept, M.pure, finished]
      · obtain ⟨j, j1, j2, j3, hj⟩ := Chunked.read_some (r := r) (m := limit) hl hr
        by_cases ho : r.position + j < u64Size
        · rw [if_pos ho] at hj
          have key := Chunked.readAll_step (acc := acc) j2 j3 ho
          obtain ⟨b, bs, hb⟩ := Chunked.take_pos j1 j3
          have hl' : (b :: bs).length = j := by rw [← hb]; simp; omega
          rw [hb] at key hj
          obtain ⟨i1, i2⟩ := ih (limit - j) (acc ++ b :: bs) (r.consume j) (by omega) (by omega) ho
          rw [key.1] at i1
          simp only [readToEnd, ReadCons.run, takeRead, hl, if_false, hmin, hj, hl']
          refine ⟨i1, fun hx => ?_⟩
          rw [← key.2 hx]
          refine i2 ?_
          refine Chunked.prefixed_panic (acc := acc ++ b :: bs) ?_
          rw [key.1]
          intro x hx'
          simp only [Chunked.prefixed] at hx'
          split at hx' <;> simp_all
        · rw [if_neg ho] at hj
          have hpan : Chunked.readAll limit r = (.panic .positionOverflow, r) := by
            by_cases hln : limit ≤ r.rest.length
            · simp [Chunked.readAll, hln, show ¬ r.position + limit < u64Size by omega]
            · simp [Chunked.readAll, hln, show ¬ r.position + r.rest.length < u64Size by omega]
          simp [readToEnd, ReadCons.run, takeRead, hl, hmin, hj, hpan, Chunked.prefixed, finished]

end Fbx
