import Verif.Proof.Wp
import Verif.Proof.Basic
import Verif.Proof.ReaderAt
import Verif.Model.Attribute

/-! # What reading does to the source, on arbitrary inputs -/

namespace Fbx
namespace Reader

/-- The position has not overflowed and cannot while there are bytes left. -/
def RInv (L : Nat) (r : Reader) : Prop := r.position < 2 ^ 64 ∧ ((r.seekable = true ∧ r.rest = []) ∨ r.position + r.rest.length ≤ L)

/-- The source has advanced by `k` bytes and the tracked position by `j`. -/
structure Adv (j k : Nat) (r s : Reader) : Prop where
  rest : s.rest = r.rest.drop k
  ending : s.ending = r.ending
  cursor : s.cursor = r.cursor + k
  position : s.position = r.position + j
  seekable : s.seekable = r.seekable
  seekLimit : s.seekLimit = r.seekLimit
  le : j ≤ k
  eq : r.seekable = true → j = k

def Moves (r s : Reader) : Prop := ∃ j k, Adv j k r s

theorem Adv.refl (r : Reader) : Adv 0 0 r r := ⟨by simp, rfl, rfl, rfl, rfl, rfl, Nat.le_refl 0, fun _ => rfl⟩
theorem Moves.refl (r : Reader) : Moves r r := ⟨0, 0, .refl r⟩

theorem Adv.trans {j k j' k' : Nat} {r s t : Reader} (h : Adv j k r s) (g : Adv j' k' s t) : Adv (j + j') (k + k') r t := by
  obtain ⟨a, b, c, d, e, f, l, q⟩ := h
  obtain ⟨a', b', c', d', e', f', l', q'⟩ := g
  refine ⟨by rw [a', a, List.drop_drop], b'.trans b, by omega, by omega, e'.trans e, f'.trans f, by omega, fun hs => ?_⟩
  have h1 := q hs
  have h2 := q' (e.trans hs)
  omega

theorem Moves.trans {r s t : Reader} (h : Moves r s) (g : Moves s t) : Moves r t := by
  obtain ⟨_, _, h⟩ := h
  obtain ⟨_, _, g⟩ := g
  exact ⟨_, _, h.trans g⟩

theorem Adv.consume (r : Reader) (k : Nat) : Adv k k r (r.consume k) := ⟨rfl, rfl, rfl, rfl, rfl, rfl, Nat.le_refl k, fun _ => rfl⟩
theorem Moves.consume (r : Reader) (k : Nat) : Moves r (r.consume k) := ⟨k, k, .consume r k⟩

theorem Moves.seekable {r s : Reader} (h : Moves r s) (hs : r.seekable = true) : ∃ k, s = r.consume k := by
  obtain ⟨j, k, a, b, c, d, e, f, l, q⟩ := h
  have := q hs
  subst this
  refine ⟨j, ?_⟩
  obtain ⟨⟩ := s
  simp_all [Reader.consume]

theorem Moves.pos_le {r s : Reader} (h : Moves r s) : r.position ≤ s.position := by
  obtain ⟨j, k, h⟩ := h
  rw [h.position]; omega

theorem Moves.len_le {r s : Reader} (h : Moves r s) : s.rest.length ≤ r.rest.length := by
  obtain ⟨j, k, h⟩ := h
  rw [h.rest, List.length_drop]; omega

theorem RInv.consume {L : Nat} (hL : L < 2 ^ 64) {r : Reader} (h : RInv L r) {n : Nat} (hn : n ≤ r.rest.length) : RInv L (r.consume n) := by
  obtain ⟨h1, h2⟩ := h
  rcases h2 with ⟨hs, h2⟩ | h2
  · rw [h2] at hn
    have : n = 0 := by simpa using hn
    subst this
    exact ⟨by simpa using h1, .inl ⟨hs, by simp [h2]⟩⟩
  · refine ⟨by simp; omega, .inr ?_⟩
    simp; omega

/-- Exact reads. -/
theorem wp_readExact {L : Nat} (hL : L < 2 ^ 64) {r : Reader} (h : RInv L r) (n : Nat) {P E X}
    (hP : n ≤ r.rest.length → RInv L (r.consume n) → (0 < n → r.position + n ≤ L) → P (r.rest.take n) (r.consume n))
    (hE : r.rest.length < n → RInv L (r.consume r.rest.length) → E (r.ending.getD .unexpectedEof) (r.consume r.rest.length)) :
    M.wp (readExact n) P E X r := by
  have hu : u64Size = 2 ^ 64 := rfl
  simp only [M.wp, readExact, hu]
  by_cases hn : n ≤ r.rest.length
  · have hp : r.position + n < 2 ^ 64 ∧ (0 < n → r.position + n ≤ L) := by
      rcases h.2 with ⟨-, h2⟩ | h2
      · rw [h2] at hn
        have : n = 0 := by simpa using hn
        subst this
        exact ⟨h.1, by omega⟩
      · exact ⟨by omega, by omega⟩
    rw [if_pos hn, if_pos hp.1]
    exact hP hn (h.consume hL hn) hp.2
  · have hp : r.position + r.rest.length < 2 ^ 64 := by
      rcases h.2 with ⟨-, h2⟩ | h2
      · rw [h2]; exact h.1
      · omega
    rw [if_neg hn, if_pos hp]
    exact hE (by omega) (h.consume hL (Nat.le_refl _))

theorem wp_read {L : Nat} (hL : L < 2 ^ 64) {r : Reader} (h : RInv L r) (n : Nat) {P E X}
    (hP : ∀ k, k = min n r.rest.length → RInv L (r.consume k) → P (r.rest.take k) (r.consume k))
    (hE : ∀ e, E e r) : M.wp (read n) P E X r := by
  have hu : u64Size = 2 ^ 64 := rfl
  have h0 : r.consume 0 = r := consume_zero r
  have hP0 : min n r.rest.length = 0 → P [] r := by
    intro hk
    have := hP 0 hk.symm (by rw [h0]; exact h)
    rw [h0] at this
    simpa using this
  simp only [M.wp, read, hu]
  by_cases hk : min n r.rest.length = 0
  · rw [if_pos hk]
    by_cases hn : n = 0
    · rw [if_pos hn]; exact hP0 hk
    · rw [if_neg hn]
      cases r.ending with
      | none => exact hP0 hk
      | some e => exact hE e
  · rw [if_neg hk]
    have hp : r.position + min n r.rest.length < 2 ^ 64 := by
      rcases h.2 with ⟨-, h2⟩ | h2
      · rw [h2] at hk; simp at hk
      · omega
    rw [if_pos hp]
    exact hP _ rfl (h.consume hL (Nat.min_le_right _ _))

theorem RInv.seek {L : Nat} {r : Reader} (h : RInv L r) (hs : r.seekable = true) {n : Nat} (hn : r.position + n < 2 ^ 64) : RInv L (r.consume n) := by
  refine ⟨by simpa using hn, ?_⟩
  by_cases hl : n < r.rest.length
  · rcases h.2 with ⟨-, h2⟩ | h2
    · rw [h2] at hl; simp at hl
    · exact .inr (by simp; omega)
  · exact .inl ⟨hs, by simp; omega⟩

theorem skipSeekLoop_spec : ∀ (fuel d : Nat) (r : Reader), d < fuel * i64Max → r.position + d < 2 ^ 64 →
    skipSeekLoop fuel d r = (.ok (), r.consume d) ∨
      ∃ k, k ≤ d ∧ skipSeekLoop fuel d r = (.err .invalidSeek, r.consume k) := by
  have hu : u64Size = 2 ^ 64 := rfl
  have hi : i64Max = 2 ^ 63 - 1 := rfl
  intro fuel
  induction fuel with
  | zero => intro d r h; omega
  | succ fuel ih =>
    intro d r hd hp
    rw [skipSeekLoop_succ]
    by_cases h0 : d = 0
    · subst h0
      exact .inl (by rw [if_pos rfl, consume_zero])
    · rw [if_neg h0]
      by_cases hc : r.cursor + min d i64Max ≤ r.seekLimit
      · rw [if_pos hc, if_pos (by rw [hu]; omega)]
        by_cases hm : d ≤ i64Max
        · rw [Nat.min_eq_left hm, Nat.sub_self]
          left
          cases fuel with
          | zero => rfl
          | succ f => rw [skipSeekLoop_succ, if_pos rfl]
        · rw [Nat.min_eq_right (by omega)]
          rcases ih (d - i64Max) (r.consume i64Max) (by rw [Nat.add_mul] at hd; omega) (by simp; omega) with h | ⟨k, hk, h⟩
          · left
            rw [h, consume_consume, show i64Max + (d - i64Max) = d by omega]
          · right
            exact ⟨i64Max + k, by omega, by rw [h, consume_consume]⟩
      · rw [if_neg hc]
        exact .inr ⟨0, by omega, by rw [consume_zero]⟩

theorem Adv.inner (r : Reader) (k : Nat) (hs : r.seekable = false) : Adv 0 k r (r.consumeInner k) :=
  ⟨rfl, rfl, rfl, rfl, rfl, rfl, Nat.zero_le k, fun h => by rw [hs] at h; cases h⟩

theorem RInv.inner {L : Nat} {r : Reader} (h : RInv L r) (n : Nat) : RInv L (r.consumeInner n) := by
  refine ⟨h.1, ?_⟩
  rcases h.2 with ⟨hs, h2⟩ | h2
  · exact .inl ⟨hs, by simp [consumeInner, h2]⟩
  · refine .inr ?_
    simp [consumeInner]; omega

/-- Skipping forward. -/
theorem wp_skipTo {L : Nat} {r : Reader} (h : RInv L r) (q : Nat) (hge : r.position ≤ q) (hq : q < 2 ^ 64) {P E X}
    (hP : ∀ s, Moves r s → RInv L s → (r.seekable = true → s.position = q) →
      (r.seekable = false → s = r.consumeInner (min (q - r.position) r.rest.length)) → P () s)
    (hE : ∀ e s, Moves r s → RInv L s → E e s) : M.wp (skipTo q) P E X r := by
  have hi : i64Max = 2 ^ 63 - 1 := rfl
  simp only [M.wp, skipTo, skipDistance]
  rw [if_neg (by omega)]
  cases hs : r.seekable with
  | true =>
    rw [if_pos rfl, skipSeek]
    rcases skipSeekLoop_spec ((q - r.position) / i64Max + 1) (q - r.position) r (by
        have := Nat.div_add_mod (q - r.position) i64Max
        have hm := Nat.mod_lt (q - r.position) (show 0 < i64Max by omega)
        rw [Nat.add_mul, Nat.mul_comm]
        omega) (by omega) with h' | ⟨k, hk, h'⟩
    · rw [h']
      exact hP _ (.consume _ _) (h.seek hs (by omega)) (fun _ => by simp; omega) (fun hh => by rw [hs] at hh; cases hh)
    · rw [h']
      exact hE _ _ (.consume _ _) (h.seek hs (by omega))
  | false =>
    rw [if_neg (by simp), skipPlain]
    by_cases hd : q - r.position ≤ r.rest.length
    · rw [if_pos hd]
      exact hP _ ⟨_, _, .inner r _ hs⟩ (h.inner _) (fun hh => by rw [hs] at hh; cases hh) (fun _ => by rw [Nat.min_eq_left hd])
    · rw [if_neg hd]
      cases r.ending with
      | none => exact hP _ ⟨_, _, .inner r _ hs⟩ (h.inner _) (fun hh => by rw [hs] at hh; cases hh) (fun _ => by rw [Nat.min_eq_right (by omega)])
      | some e => exact hE _ _ ⟨_, _, .inner r _ hs⟩ (h.inner _)

/-- The reads used for values: `P` gets the number of bytes. -/
theorem wp_readLe {L : Nat} (hL : L < 2 ^ 64) {r : Reader} (h : RInv L r) (n : Nat) {P E X}
    (hP : n ≤ r.rest.length → RInv L (r.consume n) → (0 < n → r.position + n ≤ L) → P (fromLe (r.rest.take n)) (r.consume n))
    (hE : r.rest.length < n → RInv L (r.consume r.rest.length) → E (r.ending.getD .unexpectedEof) (r.consume r.rest.length)) :
    M.wp (readLe n) P E X r := by
  rw [readLe, M.wp_bind]
  exact wp_readExact hL h n hP hE

theorem wp_readU8 {L : Nat} (hL : L < 2 ^ 64) {r : Reader} (h : RInv L r) {P E X}
    (hP : 1 ≤ r.rest.length → RInv L (r.consume 1) → r.position + 1 ≤ L → P ((r.rest.take 1).headD 0) (r.consume 1))
    (hE : r.rest.length < 1 → RInv L (r.consume r.rest.length) → E (r.ending.getD .unexpectedEof) (r.consume r.rest.length)) :
    M.wp readU8 P E X r := by
  rw [readU8, M.wp_bind]
  exact wp_readExact hL h 1 (fun a b c => hP a b (c (by omega))) hE

end Reader

/-! ## Decoders, element iterators and limited streams -/

open Reader

theorem Dec.wp_zRead {Z : Zlib} {L : Nat} (hL : L < 2 ^ 64) : ∀ (fuel n : Nat) (acc : Bytes) (s : Z.S) (r : Reader),
    RInv L r → n + r.rest.length < fuel →
    M.wp (Dec.zRead Z fuel n acc) (fun _ t => Moves r t.2 ∧ RInv L t.2) (fun _ t => Moves r t.2 ∧ RInv L t.2) (fun _ _ => False) (s, r) := by
  intro fuel
  induction fuel with
  | zero => intro n acc s r _ h; omega
  | succ fuel ih =>
    intro n acc s r hi h
    simp only [M.wp, Dec.zRead]
    by_cases hn : n = 0
    · rw [if_pos hn]; exact ⟨.refl r, hi⟩
    · rw [if_neg hn]
      cases hz : Z.step s with
      | need k =>
        simp only []
        have hb : M.wp readU8 (fun _ s => s = r.consume 1 ∧ 1 ≤ r.rest.length ∧ RInv L s) (fun _ s => Moves r s ∧ RInv L s) (fun _ _ => False) r :=
          wp_readU8 hL hi (fun a b _ => ⟨rfl, a, b⟩) (fun _ b => ⟨.consume _ _, b⟩)
        rcases hx : readU8 r with ⟨x, r'⟩
        cases x with
        | ok b =>
          simp only []
          obtain ⟨rfl, h1, hi'⟩ := M.wp_ok hb hx
          have := ih n acc (k b) (r.consume 1) hi' (by simp; omega)
          refine M.wp_mono this ?_ ?_ (fun _ _ h => h)
          · exact fun _ t ht => ⟨(Moves.consume r 1).trans ht.1, ht.2⟩
          · exact fun _ t ht => ⟨(Moves.consume r 1).trans ht.1, ht.2⟩
        | err e => have := M.wp_err hb hx; exact this
        | panic p => exact (M.wp_pan hb hx).elim
      | emit b s' => exact ih (n - 1) (acc ++ [b]) s' r hi (by omega)
      | eof => exact ⟨.refl r, hi⟩
      | fail => exact ⟨.refl r, hi⟩

theorem Dec.wp_readExact {Z : Zlib} {L : Nat} (hL : L < 2 ^ 64) (n : Nat) (d : Dec Z) (r : Reader) (hi : RInv L r) :
    M.wp (Dec.readExact (Z := Z) n) (fun _ t => Moves r t.2 ∧ RInv L t.2) (fun _ t => Moves r t.2 ∧ RInv L t.2) (fun _ _ => False) (d, r) := by
  cases d with
  | direct =>
    have : M.wp (Reader.readExact n) (fun _ t => Moves r t ∧ RInv L t) (fun _ t => Moves r t ∧ RInv L t) (fun _ _ => False) r :=
      Reader.wp_readExact hL hi n (fun _ b _ => ⟨.consume _ _, b⟩) (fun _ b => ⟨.consume _ _, b⟩)
    simp only [M.wp, Dec.readExact] at this ⊢
    rcases hx : Reader.readExact n r with ⟨x, r'⟩
    rw [hx] at this
    cases x <;> exact this
  | zlib s =>
    have := Dec.wp_zRead (Z := Z) hL (n + r.rest.length + 1) n [] s r hi (by omega)
    simp only [M.wp, Dec.readExact] at this ⊢
    rcases hx : Dec.zRead Z (n + r.rest.length + 1) n [] (s, r) with ⟨x, r'⟩
    rw [hx] at this
    cases x <;> exact this

theorem Dec.wp_create {Z : Zlib} {L : Nat} (hL : L < 2 ^ 64) (enc : ArrEnc) (r : Reader) (hi : RInv L r) :
    M.wp (Dec.create Z enc) (fun _ t => Moves r t ∧ RInv L t) (fun _ t => Moves r t ∧ RInv L t) (fun _ _ => False) r := by
  cases enc with
  | direct => exact ⟨.refl r, hi⟩
  | zlib =>
    simp only [Dec.create, M.wp_bind, M.wp_mapErr]
    refine wp_readU8 hL hi (fun _ hi1 _ => ?_) (fun _ b => ⟨.consume _ _, b⟩)
    rw [M.wp_bind, M.wp_mapErr]
    refine wp_readU8 hL hi1 (fun _ hi2 _ => ?_) (fun _ b => ⟨(Moves.consume _ _).trans (.consume _ _), b⟩)
    split
    · exact ⟨(Moves.consume _ _).trans (.consume _ _), hi2⟩
    · exact ⟨(Moves.consume _ _).trans (.consume _ _), hi2⟩

theorem ElemIter.wp_next {Z : Zlib} {e : Type} {L : Nat} (hL : L < 2 ^ 64) (t : ElemTy e) (it : ElemIter Z) (r : Reader) (hi : RInv L r) :
    M.wp (ElemIter.next t) (fun _ s => Moves r s.2 ∧ RInv L s.2) (fun _ _ => False) (fun _ _ => False) (it, r) := by
  simp only [M.wp, ElemIter.next]
  by_cases h0 : it.rest = 0
  · rw [if_pos h0]; exact ⟨.refl r, hi⟩
  · rw [if_neg h0]
    have := Dec.wp_readExact hL t.size it.dec r hi
    simp only [M.wp] at this
    rcases hx : Dec.readExact t.size (it.dec, r) with ⟨x, d, r'⟩
    rw [hx] at this
    cases x <;> exact this

theorem ElemIter.wp_run {Z : Zlib} {e α : Type} {L : Nat} (hL : L < 2 ^ 64) (t : ElemTy e) (c : SeqCons e α) :
    ∀ (it : ElemIter Z) (r : Reader), RInv L r →
    M.wp (ElemIter.run t c) (fun _ s => Moves r s.2 ∧ RInv L s.2) (fun _ s => Moves r s.2 ∧ RInv L s.2) (fun _ _ => False) (it, r) := by
  induction c with
  | done x =>
    intro it r hi
    simp only [ElemIter.run, M.wp_ofExcept]
    cases x <;> exact ⟨.refl r, hi⟩
  | pull k ih =>
    intro it r hi
    simp only [ElemIter.run, M.wp_bind]
    refine M.wp_mono (ElemIter.wp_next hL t it r hi) ?_ (fun _ _ h => h.elim) (fun _ _ h => h)
    rintro x ⟨it', r'⟩ ⟨hm, hi'⟩
    refine M.wp_mono (ih x it' r' hi') ?_ ?_ (fun _ _ h => h)
    · exact fun _ _ h => ⟨hm.trans h.1, h.2⟩
    · exact fun _ _ h => ⟨hm.trans h.1, h.2⟩

theorem wp_takeRead {L : Nat} (hL : L < 2 ^ 64) (n lim : Nat) (r : Reader) (hi : RInv L r) :
    M.wp (takeRead n) (fun _ s => Moves r s.2 ∧ RInv L s.2) (fun _ s => Moves r s.2 ∧ RInv L s.2) (fun _ _ => False) (lim, r) := by
  simp only [M.wp, takeRead]
  by_cases h0 : lim = 0
  · rw [if_pos h0]; exact ⟨.refl r, hi⟩
  · rw [if_neg h0]
    have : M.wp (Reader.read (min n lim)) (fun _ s => Moves r s ∧ RInv L s) (fun _ s => Moves r s ∧ RInv L s) (fun _ _ => False) r :=
      Reader.wp_read hL hi _ (fun _ _ b => ⟨.consume _ _, b⟩) (fun _ => ⟨.refl r, hi⟩)
    simp only [M.wp] at this
    rcases hx : Reader.read (min n lim) r with ⟨x, r'⟩
    rw [hx] at this
    cases x <;> exact this

theorem ReadCons.wp_run {α : Type} {L : Nat} (hL : L < 2 ^ 64) (c : ReadCons α) :
    ∀ (lim : Nat) (r : Reader), RInv L r →
    M.wp c.run (fun _ s => Moves r s.2 ∧ RInv L s.2) (fun _ s => Moves r s.2 ∧ RInv L s.2) (fun _ _ => False) (lim, r) := by
  induction c with
  | done x =>
    intro lim r hi
    simp only [ReadCons.run, M.wp_ofExcept]
    cases x <;> exact ⟨.refl r, hi⟩
  | read n k ih =>
    intro lim r hi
    have := wp_takeRead hL n lim r hi
    simp only [M.wp, ReadCons.run] at this ⊢
    rcases hx : takeRead n (lim, r) with ⟨x, lim', r'⟩
    rw [hx] at this
    cases x with
    | ok bs =>
      exact M.wp_mono (ih (.ok bs) lim' r' this.2) (fun _ _ h => ⟨this.1.trans h.1, h.2⟩) (fun _ _ h => ⟨this.1.trans h.1, h.2⟩) (fun _ _ h => h)
    | err e =>
      exact M.wp_mono (ih (.error e) lim' r' this.2) (fun _ _ h => ⟨this.1.trans h.1, h.2⟩) (fun _ _ h => ⟨this.1.trans h.1, h.2⟩) (fun _ _ h => h)
    | panic p => exact this

end Fbx
