import Verif.Proof.HistoryAt
import Verif.Proof.ReadForest

/-! # End markers at wrong places -/

namespace Fbx
open Reader Parser Spec
variable {α : Type} {Z : Zlib}

/-- A failing core makes `next_event` fail with that error at the position reached. -/
theorem next_of_impl {L : Nat} (hL : L + 2 ^ 32 ≤ 2 ^ 64) {s : Client} (hs : CInv L s) (hrun : s.parser.health = .running) {e : PErr} {q : Parser}
    (h : nextEventImpl s.parser = (.err e, q)) :
    s.call Z (.next : Call α) = some (.err (e.andPosition q.synPos), ⟨q.setAborted q.synPos, none⟩) := by
  have hw := wp_nextEvent hL hs.parser hs.last
  have he : ensureContinuable s.parser = (.ok (), s.parser) := by simp only [ensureContinuable, hrun]
  have hn : nextEvent s.parser = match position q with
      | (.ok pos, p'') => (.err (e.andPosition pos), p''.setAborted pos)
      | (.err e', p'') => (.err e', p'')
      | (.panic x, p'') => (.panic x, p'') := by
    rw [nextEvent, M.get_bind]
    refine (M.bind_val he _).trans ?_
    simp only [h]
    rfl
  simp only [M.wp, hn] at hw
  simp only [Client.call, hn]
  by_cases hc : q.started ≠ [] ∧ q.toplevel = 0
  · simp only [Parser.position, if_pos hc] at hw
    exact absurd hw.2.1 (by decide)
  · simp only [Parser.position, if_neg hc]

theorem headWidth_eq (v : FbxVersion) : headWidth v = width v.toNat := by
  have : v < 7500 ↔ v.toNat < 7500 := by rw [UInt32.lt_iff_toNat_lt]; rfl
  simp only [headWidth, width, this]

theorem fromLe_zeros : ∀ k, fromLe (zeros k) = 0
  | 0 => rfl
  | k + 1 => by
    have := fromLe_zeros k
    simp only [zeros] at this
    simp only [zeros, List.replicate_succ, fromLe, this]
    rfl

theorem headerAt_zeros (w : Nat) (t : Bytes) : headerAt w (zeros (3 * w + 1) ++ t) = .nodeEnd := by
  have h : ∀ a b, a + b ≤ 3 * w + 1 → ((zeros (3 * w + 1) ++ t).drop a).take b = zeros b := by
    intro a b hab
    rw [List.drop_append_of_le_length (by simp; omega), List.take_append_of_le_length (by simp [zeros]; omega)]
    simp only [zeros, List.drop_replicate, List.take_replicate]
    congr 1
    omega
  have h0 := h 0 w (by omega)
  rw [List.drop_zero] at h0
  simp only [headerAt, h0, h w w (by omega), h (w + w) w (by omega), h (w + w + w) 1 (by omega), fromLe_zeros]
  rfl

theorem readLe_exact {r : Reader} {k : Nat} (h : k ≤ r.rest.length) (hp : r.position + k < 2 ^ 64) :
    readLe k r = (.ok (fromLe (r.rest.take k)), r.consume k) := by
  have hu : u64Size = 2 ^ 64 := rfl
  rw [readLe, M.bind_apply, readExact, if_pos h, if_pos (by rw [hu]; exact hp)]
  rfl

theorem io_exact {β : Type} {m : M IoErr Reader β} {p : Parser} {v : β} {r : Reader} (h : m p.reader = (.ok v, r)) :
    Parser.io m p = (.ok v, { p with reader := r }) := by
  simp only [Parser.io, M.mapErr_apply, M.zoom_apply, h]

/-- A node header that is all there is read. -/
theorem readNodeHeader_exact {p : Parser} (h : 3 * headWidth p.version + 1 ≤ p.reader.rest.length)
    (hp : p.reader.position + (3 * headWidth p.version + 1) < 2 ^ 64) :
    readNodeHeader p = (.ok (headerAt (headWidth p.version) p.reader.rest), { p with reader := p.reader.consume (3 * headWidth p.version + 1) }) := by
  rw [readNodeHeader, M.get_bind]
  rw [show (if p.version < 7500 then 4 else 8) = headWidth p.version from rfl]
  generalize headWidth p.version = w at *
  refine (M.bind_val (io_exact (readLe_exact (by omega) (by omega))) _).trans ?_
  refine (M.bind_val (io_exact (readLe_exact (by simp; omega) (by simp; omega))) _).trans ?_
  refine (M.bind_val (io_exact (readLe_exact (by simp; omega) (by simp; omega))) _).trans ?_
  refine (M.bind_val (io_exact (readLe_exact (by simp; omega) (by simp; omega))) _).trans ?_
  simp only [consume_consume, M.pure_apply, consume_rest, headerAt]
  congr 3
  omega

/-- The core with an explicit end marker in front. -/
theorem impl_marker {L : Nat} (hL : L + 2 ^ 32 ≤ 2 ^ 64) {p q : Parser} (hp : PInv L p) (hrun : p.health = .running) (hlast : p.last ≠ some .endFbx)
    {n : Started} {outer : List Started} (hst : p.started = n :: outer)
    (hq : skipUnreadAttributes p = (.ok (), q)) {rest : Bytes} (hz : q.reader.rest = zeros (3 * headWidth p.version + 1) ++ rest)
    (hlt : q.reader.position < n.endOff) (hne : q.reader.position + (3 * headWidth p.version + 1) ≠ n.endOff) :
    ∃ q', nextEventImpl p = (.err (PErr.ofData (.nodeLengthMismatch n.endOff (some (q.reader.position + (3 * headWidth p.version + 1))))), q') := by
  have hw : M.wp skipUnreadAttributes (fun _ q => ∃ r, Skipped p r ∧ RInv L r ∧ q = { p with reader := r }) (fun _ _ => True) (fun _ _ => True) p :=
    wp_skipUnread hp (fun r h1 h2 => ⟨r, h1, h2, rfl⟩) (fun _ _ _ _ => trivial)
  obtain ⟨r, h1, h2, rfl⟩ := M.wp_ok hw hq
  simp only [] at hz hlt hne
  have hzl : 3 * headWidth p.version + 1 ≤ r.rest.length := by rw [hz]; simp
  have hf : r.position + (3 * headWidth p.version + 1) < 2 ^ 64 := by
    rcases h2.2 with ⟨-, h3⟩ | h3
    · rw [h3] at hzl; simp at hzl
    · omega
  have hi : tryImplicitEnd { p with reader := r } = (.ok false, { p with reader := r }) := by
    rw [tryImplicitEnd, M.get_bind]
    simp only [hst]
    rw [if_neg (by omega), if_neg (by omega)]
    rfl
  rw [nextEventImpl, M.get_bind, M.assert_bind, if_pos (by simp [hrun]), M.assert_bind, if_pos (by simp [hlast])]
  refine ⟨{ p with reader := r.consume (3 * headWidth p.version + 1), started := outer }, ?_⟩
  refine (M.bind_val hq _).trans ?_
  rw [M.get_bind]
  refine (M.bind_val hi _).trans ?_
  simp only [Bool.false_eq_true, if_false]
  have hh := readNodeHeader_exact (p := { p with reader := r }) hzl hf
  refine (M.bind_val hh _).trans ?_
  simp only [hz, headerAt_zeros]
  rw [if_pos (by rfl), explicitEnd, M.get_bind]
  simp only [hst]
  rw [M.bind_apply]
  simp only [M.set]
  rw [if_pos (by simpa [Reader.consume] using fun h => hne h.symm)]
  rfl

/-- The core beyond the end. -/
theorem impl_overrun {L : Nat} {p q : Parser} (hp : PInv L p) (hrun : p.health = .running) (hlast : p.last ≠ some .endFbx)
    {n : Started} {outer : List Started} (hst : p.started = n :: outer)
    (hq : skipUnreadAttributes p = (.ok (), q)) (hlt : n.endOff < q.reader.position) :
    nextEventImpl p = (.err (PErr.ofData (.nodeLengthMismatch n.endOff none)), q) := by
  have hw : M.wp skipUnreadAttributes (fun _ q => ∃ r, Skipped p r ∧ RInv L r ∧ q = { p with reader := r }) (fun _ _ => True) (fun _ _ => True) p :=
    wp_skipUnread hp (fun r h1 h2 => ⟨r, h1, h2, rfl⟩) (fun _ _ _ _ => trivial)
  obtain ⟨r, h1, h2, rfl⟩ := M.wp_ok hw hq
  rw [nextEventImpl, M.get_bind, M.assert_bind, if_pos (by simp [hrun]), M.assert_bind, if_pos (by simp [hlast])]
  refine (M.bind_val hq _).trans ?_
  rw [M.get_bind, M.bind_apply]
  have : tryImplicitEnd { p with reader := r } = (.err (PErr.ofData (.nodeLengthMismatch n.endOff none)), { p with reader := r }) := by
    rw [tryImplicitEnd, M.get_bind]
    simp only [hst]
    rw [if_pos hlt]
    rfl
  rw [this]

end Fbx
