import Verif.Proof.Chunked

/-! # C48: results do not depend on how the source splits reads

`Same loop m`: std's loop terminates, returns what the call on the whole source returns and leaves the source in the same
state (`Verif/Spec/Chunked.lean`). The sources are arbitrary, with an arbitrary device error or EOF at their end. -/

namespace Fbx
open Spec

/-- `read_exact` on a source that delivers its bytes in arbitrary pieces, with arbitrary interruptions, returns what the
undivided source returns, and afterwards the source and the tracked position are the same. -/
theorem C48_read_exact {σ : Schedule} (hf : Fair σ) (n : Nat) (c : Chunked) (hp : c.reader.position < u64Size) :
    Same (fun fuel => Chunked.readExact σ fuel n [] c) (Reader.readExact n c.reader) := by
  have := Chunked.readExact_same hf n [] c.reader c.calls hp
  rwa [Chunked.prefixed_nil] at this

/-- Skipping by reading (`io::copy` to a sink, with any buffer size). -/
theorem C48_skip {σ : Schedule} (hf : Fair σ) (b n : Nat) (c : Chunked) :
    Same (fun fuel => Chunked.copyToSink σ b fuel n c) (Reader.skipPlain n c.reader) :=
  Chunked.copyToSink_same hf b n c.reader c.calls

/-- The library's binary and string loaders (`read_to_end` on the limited stream, with any buffer sizes): the loop
terminates, with the bytes from which the model's loader computes its result, and leaves the source in the same state. -/
theorem C48_read_to_end {α : Type} {σ : Schedule} (hf : Fair σ) (bufs : Nat → Nat) (len : Nat) (c : Chunked) (hp : c.reader.position < u64Size) (fin : Bytes → Except PErr α) :
    ∃ fuel₀ x, ∀ fuel ≥ fuel₀, ∃ c', Chunked.readToEnd σ bufs fuel len [] c = some (x, c') ∧
      ((readToEnd len fin (len + 1) []).run (len, c.reader)).1 = finished fin x ∧
      ((∀ p, x ≠ .panic p) → c'.reader = ((readToEnd len fin (len + 1) []).run (len, c.reader)).2.2) := by
  obtain ⟨f0, h⟩ := Chunked.readToEnd_same hf bufs len [] c.reader c.calls hp
  obtain ⟨k1, k2⟩ := readToEnd_run len fin (len + 1) len [] c.reader (by omega) (Nat.le_refl _) hp
  rw [Chunked.prefixed_nil] at h k1
  refine ⟨f0, (Chunked.readAll len c.reader).1, fun fuel hfuel => ?_⟩
  obtain ⟨c', h1, h2⟩ := h fuel hfuel
  exact ⟨c', h1, k1, fun hx => (h2 hx).trans (k2 hx).symm⟩

/-- With any schedule, fair or not, `read_exact` returns this or does not return. -/
theorem C48_read_exact_any (σ : Schedule) (n : Nat) (c : Chunked) (hp : c.reader.position < u64Size) {fuel : Nat} {x : Res IoErr Bytes} {c' : Chunked}
    (h : Chunked.readExact σ fuel n [] c = some (x, c')) :
    x = (Reader.readExact n c.reader).1 ∧ ((∀ p, x ≠ .panic p) → c'.reader = (Reader.readExact n c.reader).2) := by
  rw [← Chunked.readExact_congr (σ' := Chunked.cutAt σ (c.calls + fuel)) (fun i hi => Chunked.cutAt_eq _ _ _ hi)] at h
  obtain ⟨f0, hs⟩ := C48_read_exact (Chunked.cutAt_fair σ (c.calls + fuel)) n c hp
  obtain ⟨c2, h1, h2⟩ := hs (max f0 fuel) (by omega)
  have h3 := Chunked.readExact_mono h (max f0 fuel) (by omega)
  simp only [h3, Option.some.injEq, Prod.mk.injEq] at h1
  obtain ⟨rfl, rfl⟩ := h1
  exact ⟨rfl, h2⟩

theorem C48_skip_any (σ : Schedule) (b n : Nat) (c : Chunked) {fuel : Nat} {x : Res IoErr Unit} {c' : Chunked}
    (h : Chunked.copyToSink σ b fuel n c = some (x, c')) :
    x = (Reader.skipPlain n c.reader).1 ∧ ((∀ p, x ≠ .panic p) → c'.reader = (Reader.skipPlain n c.reader).2) := by
  rw [← Chunked.copyToSink_congr (σ' := Chunked.cutAt σ (c.calls + fuel)) (fun i hi => Chunked.cutAt_eq _ _ _ hi)] at h
  obtain ⟨f0, hs⟩ := C48_skip (Chunked.cutAt_fair σ (c.calls + fuel)) b n c
  obtain ⟨c2, h1, h2⟩ := hs (max f0 fuel) (by omega)
  have h3 := Chunked.copyToSink_mono h (max f0 fuel) (by omega)
  simp only [h3, Option.some.injEq, Prod.mk.injEq] at h1
  obtain ⟨rfl, rfl⟩ := h1
  exact ⟨rfl, h2⟩

/-- Two schedules, and two sequences of buffer sizes, cannot be told apart by `read_to_end`. -/
theorem C48_read_to_end_any (σ σ' : Schedule) (bufs bufs' : Nat → Nat) (len : Nat) (r : Reader) (i i' : Nat) (hp : r.position < u64Size) {fuel fuel' : Nat}
    {x x' : Res IoErr Bytes} {c c' : Chunked} (h : Chunked.readToEnd σ bufs fuel len [] ⟨r, i⟩ = some (x, c))
    (h' : Chunked.readToEnd σ' bufs' fuel' len [] ⟨r, i'⟩ = some (x', c')) : x = x' ∧ ((∀ p, x ≠ .panic p) → c.reader = c'.reader) := by
  have key : ∀ (σ : Schedule) (bufs : Nat → Nat) (i fuel : Nat) (x : Res IoErr Bytes) (c : Chunked), Chunked.readToEnd σ bufs fuel len [] ⟨r, i⟩ = some (x, c) →
      x = (Chunked.readAll len r).1 ∧ ((∀ p, x ≠ .panic p) → c.reader = (Chunked.readAll len r).2) := by
    intro σ bufs i fuel x c h
    rw [← Chunked.readToEnd_congr (σ' := Chunked.cutAt σ (i + fuel)) (fun j hj => Chunked.cutAt_eq _ _ _ hj)] at h
    obtain ⟨f0, hs⟩ := Chunked.readToEnd_same (Chunked.cutAt_fair σ (i + fuel)) bufs len [] r i hp
    rw [Chunked.prefixed_nil] at hs
    obtain ⟨c2, h1, h2⟩ := hs (max f0 fuel) (by omega)
    have h3 := Chunked.readToEnd_mono h (max f0 fuel) (by omega)
    simp only [h3, Option.some.injEq, Prod.mk.injEq] at h1
    obtain ⟨rfl, rfl⟩ := h1
    exact ⟨rfl, h2⟩
  obtain ⟨k1, k2⟩ := key σ bufs i fuel x c h
  obtain ⟨k3, k4⟩ := key σ' bufs' i' fuel' x' c' h'
  subst k1 k3
  exact ⟨rfl, fun hx => (k2 hx).trans (k4 hx).symm⟩

/-- A device that interrupts every read keeps `read_exact` busy for ever: termination needs the fairness assumption. -/
theorem C48_starved (n : Nat) (hn : n ≠ 0) (c : Chunked) (fuel : Nat) : Chunked.readExact (fun _ => .interrupted) fuel n [] c = none := by
  induction fuel generalizing c with
  | zero => rfl
  | succ fuel ih => simp [Chunked.readExact, hn, Chunked.read, ih]

/-! ## Examples -/

/-- Every other read is interrupted, the others deliver one, two, … bytes. -/
def exSchedule : Schedule := fun i => if i % 2 = 0 then .interrupted else .upTo (i / 2)

theorem exSchedule_fair : Fair exSchedule := fun i => ⟨i + 1, by
  unfold exSchedule
  rw [if_neg (by omega)]
  simp⟩

def exChunked : Chunked := ⟨⟨[1, 2, 3, 4, 5, 6, 7, 8, 9], some (.other 3), 27, 27, false, 2 ^ 64⟩, 0⟩

/-- Seven bytes arrive in the pieces `1`, `2 3`, `4 5 6`, `7`. -/
example : Chunked.readExact exSchedule 9 7 [] exChunked = some (.ok [1, 2, 3, 4, 5, 6, 7], ⟨⟨[8, 9], some (.other 3), 34, 34, false, 2 ^ 64⟩, 8⟩) := by decide +kernel
/-- Ten bytes are too many: the device's error. -/
example : (Chunked.readExact exSchedule 20 10 [] exChunked).map Prod.fst = some (.err (.other 3)) := by decide +kernel
example : Same (fun fuel => Chunked.readExact exSchedule fuel 7 [] exChunked) (.ok [1, 2, 3, 4, 5, 6, 7], ⟨[8, 9], some (.other 3), 34, 34, false, 2 ^ 64⟩) :=
  C48_read_exact exSchedule_fair 7 exChunked (by decide)
example : (Chunked.copyToSink exSchedule 1 20 7 exChunked).map (fun x => (x.1, x.2.reader.rest)) = some (.ok (), [8, 9]) := by decide +kernel
example : (Chunked.readToEnd exSchedule (fun i => i) 20 7 [] exChunked).map (fun x => (x.1, x.2.reader.rest)) = some (.ok [1, 2, 3, 4, 5, 6, 7], [8, 9]) := by decide +kernel

end Fbx
