import Verif.Proof.Monad
import Verif.Proof.Basic
import Verif.Model.Zlib

/-! # Reading from a source that has the needed bytes -/

namespace Fbx
namespace Reader

/-- A source with room for its offsets. -/
structure Fine (r : Reader) : Prop where
  position : r.position + r.rest.length < 2 ^ 64
  cursor : r.seekable = true → r.cursor + r.rest.length ≤ r.seekLimit

theorem consume_zero (r : Reader) : r.consume 0 = r := by simp [consume]
theorem consume_consume (r : Reader) (a b : Nat) : (r.consume a).consume b = r.consume (a + b) := by
  simp [consume, Nat.add_assoc]
@[simp] theorem consume_position (r : Reader) (k : Nat) : (r.consume k).position = r.position + k := rfl
@[simp] theorem consume_cursor (r : Reader) (k : Nat) : (r.consume k).cursor = r.cursor + k := rfl
@[simp] theorem consume_rest (r : Reader) (k : Nat) : (r.consume k).rest = r.rest.drop k := rfl
@[simp] theorem consume_seekable (r : Reader) (k : Nat) : (r.consume k).seekable = r.seekable := rfl
@[simp] theorem consume_seekLimit (r : Reader) (k : Nat) : (r.consume k).seekLimit = r.seekLimit := rfl

theorem Fine.consume {r : Reader} (h : Fine r) {k : Nat} (hk : k ≤ r.rest.length) : Fine (r.consume k) := by
  obtain ⟨h2, h3⟩ := h
  refine ⟨?_, fun hs => ?_⟩
  · simp; omega
  · have := h3 hs
    simp; omega

theorem readExact_app {r : Reader} {x t : Bytes} (h : r.rest = x ++ t) (hp : r.position + x.length < 2 ^ 64) :
    readExact x.length r = (.ok x, r.consume x.length) := by
  have hu : u64Size = 2 ^ 64 := rfl
  rw [readExact, if_pos (by rw [h]; simp), if_pos (by rw [hu]; exact hp), h, List.take_left]

theorem readExact_room {r : Reader} (hf : r.position + r.rest.length < 2 ^ 64) {n : Nat} {x t : Bytes} (h : r.rest = x ++ t) (hn : x.length = n) :
    readExact n r = (.ok x, r.consume n) := by
  subst hn
  rw [h, List.length_append] at hf
  exact readExact_app h (by omega)

theorem readExact_fine {r : Reader} (hf : Fine r) {n : Nat} {x t : Bytes} (h : r.rest = x ++ t) (hn : x.length = n) :
    readExact n r = (.ok x, r.consume n) := by
  subst hn
  have := hf.position
  rw [h, List.length_append] at this
  exact readExact_app h (by omega)

theorem readLe_fine {r : Reader} (hf : Fine r) {k n : Nat} {t : Bytes} (h : r.rest = leBytes k n ++ t) (hn : n < 256 ^ k) :
    readLe k r = (.ok n, r.consume k) := by
  rw [readLe, M.bind_apply, readExact_fine hf h (leBytes_length k n)]
  simp only [M.pure_apply, fromLe_leBytes hn]

theorem readU8_fine {r : Reader} (hf : Fine r) {b : Byte} {t : Bytes} (h : r.rest = b :: t) :
    readU8 r = (.ok b, r.consume 1) := by
  rw [readU8, M.bind_apply, readExact_fine hf (n := 1) (x := [b]) (t := t) (by simpa using h) rfl]
  rfl

theorem skipSeekLoop_succ (fuel d : Nat) (r : Reader) : skipSeekLoop (fuel + 1) d r =
    if d = 0 then (.ok (), r)
    else if r.cursor + min d i64Max ≤ r.seekLimit then
      if r.position + min d i64Max < u64Size then skipSeekLoop fuel (d - min d i64Max) (r.consume (min d i64Max))
      else (.panic .positionOverflow, r.consumeInner (min d i64Max))
    else (.err .invalidSeek, r) := rfl

theorem skipSeekLoop_ok (fuel : Nat) : ∀ (d : Nat) (r : Reader), d < fuel * i64Max → r.position + d < 2 ^ 64 →
    r.cursor + d ≤ r.seekLimit → skipSeekLoop fuel d r = (.ok (), r.consume d) := by
  have hu : u64Size = 2 ^ 64 := rfl
  have hi : i64Max = 2 ^ 63 - 1 := rfl
  induction fuel with
  | zero => intro d r hd _ _; omega
  | succ fuel ih =>
    intro d r hd hp hc
    rw [skipSeekLoop_succ]
    by_cases h0 : d = 0
    · subst h0; rw [if_pos rfl, consume_zero]
    · rw [if_neg h0, if_pos (by omega), if_pos (by rw [hu]; omega)]
      by_cases hm : d ≤ i64Max
      · rw [Nat.min_eq_left hm, Nat.sub_self]
        cases fuel with
        | zero => rfl
        | succ f => rw [skipSeekLoop_succ, if_pos rfl]
      · rw [Nat.min_eq_right (by omega), ih _ _ (by rw [Nat.add_mul] at hd; omega) (by simp; omega) (by simp; omega), consume_consume,
          show i64Max + (d - i64Max) = d by omega]

theorem skipDistance_ok {r : Reader} (hs : r.seekable = true) (d : Nat) (hp : r.position + d < 2 ^ 64)
    (hc : r.cursor + d ≤ r.seekLimit) : skipDistance d r = (.ok (), r.consume d) := by
  have hi : i64Max = 2 ^ 63 - 1 := rfl
  rw [skipDistance, if_pos hs, skipSeek]
  refine skipSeekLoop_ok _ _ _ ?_ hp hc
  have := Nat.div_add_mod d i64Max
  have hm := Nat.mod_lt d (show 0 < i64Max by omega)
  rw [Nat.add_mul, Nat.mul_comm]
  omega

theorem skipTo_ok {r : Reader} (hs : r.seekable = true) (p : Nat) (hge : r.position ≤ p) (hp : p < 2 ^ 64)
    (hc : r.cursor + (p - r.position) ≤ r.seekLimit) : skipTo p r = (.ok (), r.consume (p - r.position)) := by
  rw [skipTo, if_neg (by omega)]
  exact skipDistance_ok hs _ (by omega) hc

theorem skipTo_fine {r : Reader} (hf : Fine r) (h1 : r.seekable = true) {p : Nat} (hge : r.position ≤ p) (hle : p ≤ r.position + r.rest.length) :
    skipTo p r = (.ok (), r.consume (p - r.position)) := by
  obtain ⟨h2, h3⟩ := hf
  have := h3 h1
  exact skipTo_ok h1 p hge (by omega) (by omega)

end Reader

/-! ## Decoders -/

namespace Dec
variable {Z : Zlib}
open Reader

/-- The decoder will deliver `data`, consuming at most `avail` bytes. -/
def Feeds (d : Dec Z) (r : Reader) (data : Bytes) (avail : Nat) : Prop :=
  match d with
  | .direct => ∃ t, r.rest = data ++ t ∧ data.length ≤ avail
  | .zlib s => ∃ inp t, r.rest = inp ++ t ∧ inp.length ≤ avail ∧ Z.Decodes s inp data

theorem zRead_decodes {s : Z.S} {inp data : Bytes} (hd : Z.Decodes s inp data) :
    ∀ (x y t : Bytes) (fuel : Nat) (acc : Bytes) (r : Reader), data = x ++ y → Fine r → r.rest = inp ++ t →
      x.length + inp.length < fuel →
      ∃ s' k, zRead Z fuel x.length acc (s, r) = (.ok (acc ++ x), (s', r.consume k)) ∧ k ≤ inp.length ∧
        Z.Decodes s' (inp.drop k) y := by
  have stop : ∀ {s : Z.S} {inp y : Bytes} (hd : Z.Decodes s inp y) (fuel : Nat) (acc : Bytes) (r : Reader), 0 < fuel →
      ∃ s' k, zRead Z fuel ([] : Bytes).length acc (s, r) = (.ok (acc ++ []), (s', r.consume k)) ∧ k ≤ inp.length ∧
        Z.Decodes s' (inp.drop k) y := by
    intro s inp y hd fuel acc r hfuel
    obtain ⟨f, rfl⟩ : ∃ f, fuel = f + 1 := ⟨fuel - 1, by omega⟩
    refine ⟨s, 0, ?_, by omega, by simpa using hd⟩
    simp [zRead, consume_zero]
  induction hd with
  | done s inp =>
    intro x y t fuel acc r hx hf hr hfuel
    have : x = [] := by
      have := congrArg List.length hx
      simp at this
      exact List.eq_nil_of_length_eq_zero (by omega)
    subst this
    have hy : y = [] := by simpa using hx.symm
    subst hy
    exact stop (.done s inp) fuel acc r (by omega)
  | @need s k b inp out hs hd ih =>
    intro x y t fuel acc r hx hf hr hfuel
    cases x with
    | nil =>
      have hy : y = out := by simpa using hx.symm
      subst hy
      exact stop (.need hs hd) fuel acc r (by omega)
    | cons c x =>
      obtain ⟨f, rfl⟩ : ∃ f, fuel = f + 1 := ⟨fuel - 1, by omega⟩
      have h1 := readU8_fine hf (b := b) (t := inp ++ t) hr
      simp only [List.length_cons] at hfuel
      obtain ⟨s', j, h2, h3, h4⟩ := ih (c :: x) y t f acc (r.consume 1) hx (hf.consume (by rw [hr]; simp)) (by simp [hr])
        (by simp; omega)
      refine ⟨s', j + 1, ?_, by simp; omega, by simpa using h4⟩
      rw [zRead]
      simp only
      rw [if_neg (by simp), hs]
      simp only [h1]
      rw [h2, consume_consume, Nat.add_comm]
  | @emit s b s2 inp out hs hd ih =>
    intro x y t fuel acc r hx hf hr hfuel
    cases x with
    | nil =>
      have hy : y = b :: out := by simpa using hx.symm
      subst hy
      exact stop (.emit hs hd) fuel acc r (by omega)
    | cons c x =>
      obtain ⟨f, rfl⟩ : ∃ f, fuel = f + 1 := ⟨fuel - 1, by omega⟩
      simp only [List.cons_append, List.cons.injEq] at hx
      obtain ⟨rfl, hx⟩ := hx
      simp only [List.length_cons] at hfuel
      obtain ⟨s', j, h2, h3, h4⟩ := ih x y t f (acc ++ [b]) r hx hf hr (by omega)
      refine ⟨s', j, ?_, h3, h4⟩
      rw [zRead]
      simp only
      rw [if_neg (by simp), hs]
      simp only [List.length_cons, Nat.add_sub_cancel]
      rw [h2]
      simp

theorem readExact_feeds {d : Dec Z} {r : Reader} {x y : Bytes} {avail : Nat} (hf : Fine r) (h : Feeds d r (x ++ y) avail) :
    ∃ d' k, Dec.readExact x.length (d, r) = (.ok x, (d', r.consume k)) ∧ k ≤ avail ∧ k ≤ r.rest.length ∧
      Feeds d' (r.consume k) y (avail - k) ∧ (d = .direct → d' = .direct ∧ k = x.length) := by
  cases d with
  | direct =>
    obtain ⟨t, h1, h2⟩ := h
    rw [List.length_append] at h2
    refine ⟨.direct, x.length, ?_, by omega, by rw [h1]; simp, ⟨t, by simp [h1], by omega⟩, fun _ => ⟨rfl, rfl⟩⟩
    simp only [Dec.readExact]
    rw [readExact_fine hf (x := x) (t := y ++ t) (by rw [h1, List.append_assoc]) rfl]
  | zlib s =>
    obtain ⟨inp, t, h1, h2, h3⟩ := h
    obtain ⟨s', k, h4, h5, h6⟩ := zRead_decodes h3 x y t (x.length + r.rest.length + 1) [] r rfl hf h1
      (by rw [h1]; simp; omega)
    refine ⟨.zlib s', k, ?_, by omega, by rw [h1]; simp; omega, ⟨inp.drop k, t, ?_, by simp; omega, h6⟩, fun h => nomatch h⟩
    · simp only [Dec.readExact, h4, List.nil_append]
    · simp [h1, List.drop_append_of_le_length h5]

end Dec
end Fbx
