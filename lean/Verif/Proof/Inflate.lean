import Verif.Model.Inflate
import Verif.Spec.Deflate

/-! # The decoder reads all compressed forms -/

namespace Fbx
open Spec
namespace Inflate

/-! ## Numbers -/

theorem numberBits_succ (n v : Nat) : numberBits (n + 1) v = numberBits n v ++ [v.testBit n] := by
  simp [numberBits, List.range_succ]

theorem numberBits_length (n v : Nat) : (numberBits n v).length = n := by simp [numberBits]

theorem codeBits_length (n v : Nat) : (codeBits n v).length = n := by simp [codeBits, numberBits_length]

/-- The most significant bit comes first. -/
theorem codeBits_succ (n v : Nat) : codeBits (n + 1) v = v.testBit n :: codeBits n v := by
  simp [codeBits, numberBits_succ]

/-- The bits from `i` on. -/
def bitsFrom (i k v : Nat) : List Bool := (List.range' i k).map (fun j => v.testBit j)

theorem bitsFrom_zero (k v : Nat) : bitsFrom 0 k v = numberBits k v := by
  simp [bitsFrom, numberBits, List.range_eq_range']

theorem bitsFrom_succ (i k v : Nat) : bitsFrom i (k + 1) v = v.testBit i :: bitsFrom (i + 1) k v := by
  simp [bitsFrom, List.range'_succ]

theorem bit_value (v n : Nat) : (v.testBit n).toNat = v / 2 ^ n % 2 := by
  rw [Nat.testBit_eq_decide_div_mod_eq]
  rcases Nat.mod_two_eq_zero_or_one (v / 2 ^ n) with h | h <;> simp [h]

theorem mod_next (v n : Nat) : v % 2 ^ n + (v.testBit n).toNat * 2 ^ n = v % 2 ^ (n + 1) := by
  rw [Nat.mod_pow_succ, bit_value, Nat.mul_comm]

/-! ## Steps of the decoder within a byte -/

/-- The decoder is reading bits. -/
def Phase.reads : Phase → Bool
  | .align | .lens _ | .copy _ | .sum _ | .over | .bad => false
  | _ => true

/-- The decoder is reading bits, and has nothing to deliver. -/
def State.busy (s : State) : Prop := s.phase.reads = true ∧ s.ready = []

/-- The decoder reads some bits. -/
inductive Steps : State → List Bool → State → Prop where
  | nil {s} : Steps s [] s
  | cons {s b w s'} : s.busy → Steps (s.bit b) w s' → Steps s (b :: w) s'

theorem Steps.trans {s w t w' u} (h : Steps s w t) (h' : Steps t w' u) : Steps s (w ++ w') u := by
  induction h with
  | nil => exact h'
  | cons hb _ ih => exact .cons hb (ih h')

section
variable {last : Bool} {out : Bytes} {block : Nat}

/-- A number is read. -/
theorem steps_number {f : (left n v : Nat) → Phase} {K : Nat → State} (N : Nat) (hr : ∀ left n v, (f left n v).reads = true)
    (hf : ∀ left n v b, 1 ≤ left → left + n = N → State.bit ⟨f left n v, last, out, block, []⟩ b =
      if 1 < left then ⟨f (left - 1) (n + 1) (v + b.toNat * 2 ^ n), last, out, block, []⟩ else K (v + b.toNat * 2 ^ n))
    {e : Nat} (he : e < 2 ^ N) (hN : 1 ≤ N) : Steps ⟨f N 0 0, last, out, block, []⟩ (numberBits N e) (K e) := by
  have main : ∀ left n, left + 1 + n = N → Steps ⟨f (left + 1) n (e % 2 ^ n), last, out, block, []⟩ (bitsFrom n (left + 1) e) (K e) := by
    intro left
    induction left with
    | zero =>
      intro n hn
      rw [bitsFrom_succ]
      refine .cons ⟨hr _ _ _, rfl⟩ ?_
      rw [hf 1 n _ _ (by omega) (by omega), if_neg (by omega), mod_next, show n + 1 = N by omega, Nat.mod_eq_of_lt he]
      exact .nil
    | succ left ih =>
      intro n hn
      rw [bitsFrom_succ]
      refine .cons ⟨hr _ _ _, rfl⟩ ?_
      rw [hf _ n _ _ (by omega) (by omega), if_pos (by omega), mod_next]
      exact ih (n + 1) (by omega)
  obtain ⟨M, rfl⟩ : ∃ M, N = M + 1 := ⟨N - 1, by omega⟩
  have := main M 0 rfl
  rw [bitsFrom_zero, Nat.pow_zero, Nat.mod_one] at this
  exact this

/-! ## Codes -/

theorem firstCode_le (lens : List Nat) (l k : Nat) : 2 ^ (k + 1) * (firstCode lens l + howMany lens l) ≤ firstCode lens (l + 1 + k) := by
  induction k with
  | zero => simp [firstCode]
  | succ k ih =>
    rw [show l + 1 + (k + 1) = (l + 1 + k) + 1 by omega, firstCode, Nat.pow_succ]
    have : 2 ^ (k + 1) * 2 * (firstCode lens l + howMany lens l) = 2 * (2 ^ (k + 1) * (firstCode lens l + howMany lens l)) := by
      rw [Nat.mul_comm (2 ^ (k + 1)) 2, Nat.mul_assoc]
    omega

/-- The number of symbols with codes of length 1, …, l. -/
def upTo (lens : List Nat) : Nat → Nat
  | 0 => 0
  | l + 1 => upTo lens l + howMany lens (l + 1)

theorem counts_eq (lens : List Nat) : (Huff.ofLengths lens).counts = (List.range 15).map (fun n => howMany lens (n + 1)) := by
  simp [Huff.ofLengths, howMany]

/-- A code is read. -/
theorem steps_walk {f : Walk → Phase} {K : Nat → State} (hr : ∀ w, (f w).reads = true)
    (hf : ∀ w b, State.bit ⟨f w, last, out, block, []⟩ b = match w.bit b with
      | none => State.fail ⟨f w, last, out, block, []⟩
      | some (.inl w) => ⟨f w, last, out, block, []⟩
      | some (.inr i) => K i)
    (lens : List Nat) (l c : Nat) (h1 : 1 ≤ l) (h15 : l ≤ 15) (hc : firstCode lens l ≤ c) (hc' : c < firstCode lens l + howMany lens l) :
    ∀ (k : Nat), k ≤ 15 → k < l → c < 2 ^ l →
      Steps ⟨f ⟨((List.range' k (15 - k)).map (fun n => howMany lens (n + 1))), 2 * (c >>> (l - k)), firstCode lens (k + 1), upTo lens k⟩, last, out, block, []⟩
        (codeBits (l - k) c) (K (upTo lens (l - 1) + (c - firstCode lens l))) := by
  intro k hk hkl hcl
  generalize hm : l - k = m
  induction m generalizing k with
  | zero => omega
  | succ m ih =>
    rw [codeBits_succ]
    refine .cons ⟨hr _, rfl⟩ ?_
    have hcode : 2 * (c >>> (m + 1)) + (c.testBit m).toNat = c >>> m := by
      rw [Nat.shiftRight_succ, bit_value, ← Nat.shiftRight_eq_div_pow]
      omega
    rw [hf]
    have hcnt : (List.range' k (15 - k)).map (fun n => howMany lens (n + 1)) =
        howMany lens (k + 1) :: (List.range' (k + 1) (15 - (k + 1))).map (fun n => howMany lens (n + 1)) := by
      rw [show 15 - k = (15 - (k + 1)) + 1 by omega, List.range'_succ]
      rfl
    simp only [Walk.bit, hcnt, hcode]
    by_cases hend : m = 0
    · subst hend
      have hl : l = k + 1 := by omega
      subst hl
      simp only [Nat.shiftRight_zero]
      rw [if_pos hc']
      exact .nil
    · have hge : ¬ c >>> m < firstCode lens (k + 1) + howMany lens (k + 1) := by
        have := firstCode_le lens (k + 1) (m - 1)
        rw [show m - 1 + 1 = m by omega, show k + 1 + 1 + (m - 1) = l by omega] at this
        rw [Nat.shiftRight_eq_div_pow, Nat.not_lt, Nat.le_div_iff_mul_le (Nat.two_pow_pos m), Nat.mul_comm]
        omega
      rw [if_neg hge]
      exact ih (k + 1) (by omega) (by omega) (by omega)

theorem nth_of_length (l : Nat) : ∀ (lens : List Nat) (k i : Nat), lens[i]? = some l →
    (((lens.zipIdx k).filter (fun x => x.1 = l)).map Prod.snd)[((lens.take i).filter (· = l)).length]? = some (k + i) := by
  intro lens
  induction lens with
  | nil => intro k i h; simp at h
  | cons a lens ih =>
    intro k i h
    cases i with
    | zero =>
      simp only [List.getElem?_cons_zero, Option.some.injEq] at h
      subst h
      simp
    | succ i =>
      simp only [List.getElem?_cons_succ] at h
      have := ih (k + 1) i h
      simp only [List.zipIdx_cons, List.take_succ_cons, List.filter_cons]
      by_cases ha : a = l
      · simp only [ha, decide_true, if_true, List.map_cons, List.length_cons, List.getElem?_cons_succ]
        rw [this]
        congr 1; omega
      · simp only [ha, decide_false, Bool.false_eq_true, if_false]
        rw [this]
        congr 1; omega

theorem length_of_length (lens : List Nat) (n : Nat) (k : Nat) : (((lens.zipIdx k).filter (fun x => x.1 = n + 1)).map Prod.snd).length = howMany lens (n + 1) := by
  simp only [howMany, Nat.add_one_ne_zero, if_false, List.length_map]
  induction lens generalizing k with
  | nil => rfl
  | cons a lens ih =>
    simp only [List.zipIdx_cons, List.filter_cons]
    by_cases ha : a = n + 1 <;> simp [ha, ih]

theorem symbols_length (lens : List Nat) (m : Nat) :
    ((List.range m).flatMap (fun n => (lens.zipIdx.filter (fun x => x.1 = n + 1)).map Prod.snd)).length = upTo lens m := by
  induction m with
  | zero => rfl
  | succ m ih =>
    rw [List.range_succ, List.flatMap_append, List.length_append, ih, upTo]
    simp only [List.flatMap_cons, List.flatMap_nil, List.append_nil]
    rw [length_of_length]

theorem symbol_found {lens : List Nat} {i l : Nat} (h : lens[i]? = some l) (h1 : 1 ≤ l) (h15 : l ≤ 15) :
    (Huff.ofLengths lens).symbols[upTo lens (l - 1) + ((lens.take i).filter (· = l)).length]? = some i ∧
      ((lens.take i).filter (· = l)).length < howMany lens l := by
  obtain ⟨m, rfl⟩ : ∃ m, l = m + 1 := ⟨l - 1, by omega⟩
  have hn := nth_of_length (m + 1) lens 0 i h
  have hlt : ((lens.take i).filter (· = m + 1)).length < howMany lens (m + 1) := by
    rw [← length_of_length lens m 0]
    exact (List.getElem?_eq_some_iff.mp hn).1
  refine ⟨?_, hlt⟩
  have hsplit : List.range 15 = List.range m ++ List.range' m (15 - m) := by
    rw [List.range_eq_range', List.range_eq_range', show 15 = m + (15 - m) by omega, ← List.range'_append_1]
    simp
  simp only [Huff.ofLengths, hsplit, List.flatMap_append]
  rw [List.getElem?_append_right (by rw [symbols_length]; simp), symbols_length]
  rw [show 15 - m = (14 - m) + 1 by omega, List.range'_succ, List.flatMap_cons, List.getElem?_append_left (by rw [length_of_length]; simp; exact hlt)]
  simp only [Nat.add_sub_cancel, Nat.add_sub_cancel_left]
  rw [hn, Nat.zero_add]

/-- The code of a symbol is read. -/
theorem steps_code {f : Walk → Phase} {K : Nat → State} (hr : ∀ w, (f w).reads = true)
    (hf : ∀ w b, State.bit ⟨f w, last, out, block, []⟩ b = match w.bit b with
      | none => State.fail ⟨f w, last, out, block, []⟩
      | some (.inl w) => ⟨f w, last, out, block, []⟩
      | some (.inr i) => K i)
    {lens : List Nat} {i : Nat} {w : List Bool} (h : Coded lens i w) :
    ∃ j, (Huff.ofLengths lens).symbols[j]? = some i ∧ Steps ⟨f (Huff.ofLengths lens).begin, last, out, block, []⟩ w (K j) := by
  obtain ⟨l, h1, h2, h3, c, h4, h5, h6⟩ := h
  obtain ⟨k1, k2⟩ := symbol_found h1 h2 h3
  refine ⟨_, k1, ?_⟩
  have := steps_walk hr hf lens l c h2 h3 (by omega) (by omega) 0 (by omega) (by omega) h5
  simp only [Nat.sub_zero] at this
  rw [← h6, show c - firstCode lens l = ((lens.take i).filter (· = l)).length by omega] at this
  have hb : (Huff.ofLengths lens).begin = ⟨(List.range' 0 15).map (fun n => howMany lens (n + 1)), 2 * (c >>> l), firstCode lens 1, upTo lens 0⟩ := by
    simp only [Huff.begin, counts_eq, List.range_eq_range', upTo, firstCode, howMany, if_true, Nat.shiftRight_eq_div_pow, Nat.div_eq_of_lt h5]
  rw [hb]
  exact this

/-! ## Tokens -/

/-- The state between two tokens. -/
abbrev between (lit dist : List Nat) (last : Bool) (out : Bytes) (block : Nat) : State :=
  ⟨.symbol (.ofLengths lit) (.ofLengths dist) (Huff.ofLengths lit).begin, last, out, block, []⟩

theorem repeat_eq (lit : Phase) (dist : Nat) : ∀ (len : Nat) (last : Bool) (out : Bytes) (block : Nat), 1 ≤ dist → dist ≤ out.length →
    State.repeat_ dist len ⟨lit, last, out.reverse, block, []⟩ = ⟨lit, last, (copied dist len out).reverse, block + len, []⟩ := by
  intro len
  induction len with
  | zero => intro last out block _ _; rfl
  | succ len ih =>
    intro last out block h0 h
    simp only [State.repeat_, State.push, copied]
    have : out.reverse.getD (dist - 1) 0 = out.getD (out.length - dist) 0 := by
      rw [List.getD_eq_getElem?_getD, List.getD_eq_getElem?_getD, List.getElem?_reverse (by omega)]
      rw [show out.length - 1 - (dist - 1) = out.length - dist by omega]
    rw [this, ← List.reverse_concat, ih _ _ _ h0 (by simp; omega)]
    congr 1; omega

theorem afterSymbol_phase (lit dist : Huff) (i : Nat) (p q : Phase) (last : Bool) (out : Bytes) (block : Nat) (r : Bytes) :
    afterSymbol lit dist i ⟨p, last, out, block, r⟩ = afterSymbol lit dist i ⟨q, last, out, block, r⟩ := by
  simp only [afterSymbol, State.fail, State.push, State.close, afterLength]

theorem afterDistanceCode_phase (lit dist : Huff) (len i : Nat) (p q : Phase) (last : Bool) (out : Bytes) (block : Nat) :
    afterDistanceCode lit dist len i ⟨p, last, out, block, []⟩ = afterDistanceCode lit dist len i ⟨q, last, out, block, []⟩ := by
  have hrep : ∀ d n (o : Bytes) (k : Nat), ∃ o' k', State.repeat_ d n ⟨p, last, o, k, []⟩ = ⟨p, last, o', k', []⟩ ∧ State.repeat_ d n ⟨q, last, o, k, []⟩ = ⟨q, last, o', k', []⟩ := by
    intro d n
    induction n with
    | zero => intro o k; exact ⟨o, k, rfl, rfl⟩
    | succ n ih => intro o k; exact ih _ _
  simp only [afterDistanceCode, afterDistance, State.fail]
  split
  · rfl
  · split
    · rfl
    · rename_i base k _
      obtain ⟨o', k', h1, h2⟩ := hrep base len out block
      rw [h1, h2]

theorem steps_symbol {lit dist : List Nat} {i : Nat} {w : List Bool} (h : Coded lit i w) :
    ∃ j, (Huff.ofLengths lit).symbols[j]? = some i ∧
      Steps (between lit dist last out block) w (afterSymbol (.ofLengths lit) (.ofLengths dist) j ⟨.over, last, out, block, []⟩) := by
  refine steps_code (f := fun w => .symbol (.ofLengths lit) (.ofLengths dist) w)
    (K := fun j => afterSymbol (.ofLengths lit) (.ofLengths dist) j ⟨.over, last, out, block, []⟩) (fun _ => rfl) ?_ h
  intro w b
  simp only [State.bit]
  rcases w.bit b with _ | _ | j
  · rfl
  · rfl
  · exact afterSymbol_phase _ _ _ _ _ _ _ _ _

theorem tables : lengthCodes = lengthTable ∧ distanceCodes = distanceTable := ⟨rfl, rfl⟩

theorem copied_length (dist : Nat) : ∀ (len : Nat) (out : Bytes), (copied dist len out).length = out.length + len ∧ (copied dist len out).take out.length = out := by
  intro len
  induction len with
  | zero => intro out; simp [copied]
  | succ len ih =>
    intro out
    obtain ⟨h1, h2⟩ := ih (out ++ [out.getD (out.length - dist) 0])
    simp only [List.length_append, List.length_cons, List.length_nil] at h1 h2
    refine ⟨by rw [copied, h1]; omega, ?_⟩
    rw [copied]
    have := congrArg (List.take out.length) h2
    rw [List.take_take, show min out.length (out.length + (0 + 1)) = out.length by omega] at this
    rw [this]
    simp

/-- Extra bits are read, if there are any. -/
theorem steps_extra {f : (left n v : Nat) → Phase} {K : Nat → State} {k e : Nat} (he : e < 2 ^ k) (hr : ∀ left n v, (f left n v).reads = true)
    (hf : ∀ left n v b, 1 ≤ left → State.bit ⟨f left n v, last, out, block, []⟩ b =
      if 1 < left then ⟨f (left - 1) (n + 1) (v + b.toNat * 2 ^ n), last, out, block, []⟩ else K (v + b.toNat * 2 ^ n)) :
    Steps (if k = 0 then K 0 else ⟨f k 0 0, last, out, block, []⟩) (numberBits k e) (K e) := by
  by_cases hk : k = 0
  · subst hk
    have : e = 0 := by simpa using he
    subst this
    rw [if_pos rfl]
    exact .nil
  · rw [if_neg hk]
    exact steps_number k hr (fun left n v b h _ => hf left n v b h) he (by omega)

theorem distance_pos {j base k : Nat} (h : distanceTable[j]? = some (base, k)) : 1 ≤ base := by
  have : ∀ x ∈ distanceTable, 1 ≤ x.1 := by decide
  exact this _ (List.mem_of_getElem? h)

theorem length_ne {i base k : Nat} (h : lengthTable[i]? = some (base, k)) : lengthCodes[257 + i - 257]? = some (base, k) := by
  rw [show 257 + i - 257 = i by omega]
  exact h

theorem steps_token {lit dist : List Nat} {t : Token} {w : List Bool} (h : TokenBits lit dist t w) {out out' : Bytes} {ts : List Token} (he : Expands out (t :: ts) out') :
    ∃ out1 k, Expands out1 ts out' ∧ out1.length = out.length + k ∧ out1.take out.length = out ∧
      Steps (between lit dist last out.reverse block) w (between lit dist last out1.reverse (block + k)) := by
  cases h with
  | byte hc =>
    rename_i b
    cases he with
    | byte he =>
      refine ⟨out ++ [b], 1, he, by simp, by simp, ?_⟩
      obtain ⟨j, h1, h2⟩ := steps_symbol (last := last) (out := out.reverse) (block := block) (dist := dist) hc
      have : afterSymbol (.ofLengths lit) (.ofLengths dist) j ⟨.over, last, out.reverse, block, []⟩ = between lit dist last (out ++ [b]).reverse (block + 1) := by
        simp only [afterSymbol, h1, if_pos b.toNat_lt, State.push, UInt8.ofNat_toNat, List.reverse_append, List.reverse_cons, List.reverse_nil, List.nil_append, List.singleton_append]
      rw [← this]
      exact h2
  | copy hi hx hc hj hx' hc' =>
    rename_i i base k e w1 j base' k' e' w2
    cases he with
    | copy hd he =>
      obtain ⟨l1, l2⟩ := copied_length (base' + e') (base + e) out
      refine ⟨_, base + e, he, l1, l2, ?_⟩
      obtain ⟨m, h1, h2⟩ := steps_symbol (last := last) (out := out.reverse) (block := block) (dist := dist) hc
      have e1 : afterSymbol (.ofLengths lit) (.ofLengths dist) m ⟨.over, last, out.reverse, block, []⟩ =
          if k = 0 then afterLength (.ofLengths lit) (.ofLengths dist) (base + 0) ⟨.over, last, out.reverse, block, []⟩
          else ⟨.lengthBits (.ofLengths lit) (.ofLengths dist) base k 0 0, last, out.reverse, block, []⟩ := by
        simp only [afterSymbol, h1, if_neg (show ¬ 257 + i < 256 by omega), if_neg (show ¬ 257 + i = 256 by omega), length_ne hi, Nat.add_zero]
      rw [e1] at h2
      have h3 := steps_extra (last := last) (out := out.reverse) (block := block) (f := fun left n v => .lengthBits (.ofLengths lit) (.ofLengths dist) base left n v)
        (K := fun v => afterLength (.ofLengths lit) (.ofLengths dist) (base + v) ⟨.over, last, out.reverse, block, []⟩) hx (fun _ _ _ => rfl)
        (fun left n v b _ => by simp only [State.bit, afterLength])
      obtain ⟨m', h4, h5⟩ := steps_code (last := last) (out := out.reverse) (block := block) (f := fun w => .distance (.ofLengths lit) (.ofLengths dist) (base + e) w)
        (K := fun j => afterDistanceCode (.ofLengths lit) (.ofLengths dist) (base + e) j ⟨.over, last, out.reverse, block, []⟩) (fun _ => rfl)
        (fun w b => by
          simp only [State.bit]
          rcases w.bit b with _ | _ | j
          · rfl
          · rfl
          · exact afterDistanceCode_phase _ _ _ _ _ _ _ _ _) hc'
      have e2 : afterDistanceCode (.ofLengths lit) (.ofLengths dist) (base + e) m' ⟨.over, last, out.reverse, block, []⟩ =
          if k' = 0 then afterDistance (.ofLengths lit) (.ofLengths dist) (base + e) (base' + 0) ⟨.over, last, out.reverse, block, []⟩
          else ⟨.distanceBits (.ofLengths lit) (.ofLengths dist) (base + e) base' k' 0 0, last, out.reverse, block, []⟩ := by
        simp only [afterDistanceCode, h4, tables.2, hj, Nat.add_zero]
      rw [e2] at h5
      have e3 : ∀ p d, afterDistance (.ofLengths lit) (.ofLengths dist) (base + e) d ⟨p, last, out.reverse, block, []⟩ =
          afterDistance (.ofLengths lit) (.ofLengths dist) (base + e) d ⟨.over, last, out.reverse, block, []⟩ := by
        intro p d
        have hrep : ∀ n (o : Bytes) (k : Nat), ∃ o' k', State.repeat_ d n ⟨p, last, o, k, []⟩ = ⟨p, last, o', k', []⟩ ∧ State.repeat_ d n ⟨.over, last, o, k, []⟩ = ⟨.over, last, o', k', []⟩ := by
          intro n
          induction n with
          | zero => intro o k; exact ⟨o, k, rfl, rfl⟩
          | succ n ih => intro o k; exact ih _ _
        obtain ⟨o', k', h1, h2⟩ := hrep (base + e) out.reverse block
        simp only [afterDistance, h1, h2, State.fail]
      have h6 := steps_extra (last := last) (out := out.reverse) (block := block) (f := fun left n v => .distanceBits (.ofLengths lit) (.ofLengths dist) (base + e) base' left n v)
        (K := fun v => afterDistance (.ofLengths lit) (.ofLengths dist) (base + e) (base' + v) ⟨.over, last, out.reverse, block, []⟩) hx' (fun _ _ _ => rfl)
        (fun left n v b _ => by simp only [State.bit, e3])
      have e4 : afterDistance (.ofLengths lit) (.ofLengths dist) (base + e) (base' + e') ⟨.over, last, out.reverse, block, []⟩ =
          between lit dist last (copied (base' + e') (base + e) out).reverse (block + (base + e)) := by
        have := distance_pos hj
        simp only [afterDistance]
        rw [if_pos (by simpa using hd), repeat_eq _ _ _ _ _ _ (by omega) hd]
      rw [e4] at h6
      exact (h2.trans h3).trans (h5.trans h6)

theorem steps_tokens {lit dist : List Nat} : ∀ {ts : List Token} {w : List Bool}, TokensBits lit dist ts w → ∀ {out out' : Bytes}, Expands out ts out' → ∀ {block : Nat},
    ∃ data, out' = out ++ data ∧ Steps (between lit dist last out.reverse block) w (State.close ⟨.over, last, out'.reverse, block + data.length, []⟩) := by
  intro ts w h
  induction h with
  | over hc =>
    intro out out' he block
    cases he
    refine ⟨[], by simp, ?_⟩
    obtain ⟨m, h1, h2⟩ := steps_symbol (last := last) (out := out.reverse) (block := block) (dist := dist) hc
    have : afterSymbol (.ofLengths lit) (.ofLengths dist) m ⟨.over, last, out.reverse, block, []⟩ = State.close ⟨.over, last, out.reverse, block, []⟩ := by
      simp only [afterSymbol, h1, if_neg (show ¬ 256 < 256 by omega), if_true]
    rw [this] at h2
    exact h2
  | token ht _ ih =>
    intro out out' he block
    obtain ⟨out1, k, h1, h2, h3, h4⟩ := steps_token (last := last) (block := block) ht he
    obtain ⟨data, h5, h6⟩ := ih h1 (block := block + k)
    have h7 : out1 = out ++ out1.drop out.length := by
      have := List.take_append_drop out.length out1
      rw [h3] at this
      exact this.symm
    refine ⟨out1.drop out.length ++ data, by rw [h5, ← List.append_assoc, ← h7], ?_⟩
    have hl : (out1.drop out.length ++ data).length = k + data.length := by
      rw [List.length_append, List.length_drop]; omega
    rw [hl, ← Nat.add_assoc]
    exact h4.trans h6

/-! ## The codes of a block -/

theorem afterCodes_phase (lits dists : Nat) (h : Huff) (found : List Nat) (p q : Phase) (last : Bool) (out : Bytes) (block : Nat) (r : Bytes) :
    afterCodes lits dists h found ⟨p, last, out, block, r⟩ = afterCodes lits dists h found ⟨q, last, out, block, r⟩ := by
  simp only [afterCodes, State.fail]

theorem afterLengthCode_phase (lits dists : Nat) (h : Huff) (found : List Nat) (i : Nat) (p q : Phase) (last : Bool) (out : Bytes) (block : Nat) (r : Bytes) :
    afterLengthCode lits dists h found i ⟨p, last, out, block, r⟩ = afterLengthCode lits dists h found i ⟨q, last, out, block, r⟩ := by
  simp only [afterLengthCode, afterCodes_phase lits dists h _ p q, State.fail]

theorem lengths_grow {cl b a w} (h : LengthsBits cl b a w) : b.length < a.length ∨ (b = a ∧ w = []) := by
  induction h with
  | nil => exact .inr ⟨rfl, rfl⟩
  | length _ _ _ ih => left; rcases ih with h | ⟨rfl, -⟩ <;> simp at * <;> omega
  | previous _ _ _ ih => left; rcases ih with h | ⟨rfl, -⟩ <;> simp at * <;> omega
  | zeros _ _ _ ih => left; rcases ih with h | ⟨rfl, -⟩ <;> simp at * <;> omega
  | manyZeros _ _ _ ih => left; rcases ih with h | ⟨rfl, -⟩ <;> simp at * <;> omega

theorem steps_lengthCode {cl : List Nat} {lits dists i : Nat} {found : List Nat} {w : List Bool} (h : Coded cl i w) :
    ∃ j, (Huff.ofLengths cl).symbols[j]? = some i ∧
      Steps ⟨.codes lits dists (.ofLengths cl) (Huff.ofLengths cl).begin found, last, out, block, []⟩ w
        (afterLengthCode lits dists (.ofLengths cl) found j ⟨.over, last, out, block, []⟩) := by
  refine steps_code (f := fun w => .codes lits dists (.ofLengths cl) w found)
    (K := fun j => afterLengthCode lits dists (.ofLengths cl) found j ⟨.over, last, out, block, []⟩) (fun _ => rfl) ?_ h
  intro w b
  simp only [State.bit]
  rcases w.bit b with _ | _ | j
  · rfl
  · rfl
  · exact afterLengthCode_phase _ _ _ _ _ _ _ _ _ _ _

theorem steps_again {cl : List Nat} {lits dists what base k e : Nat} {found : List Nat} (hk : 1 ≤ k) (he : e < 2 ^ k) :
    Steps ⟨.again lits dists (.ofLengths cl) found what base k 0 0, last, out, block, []⟩ (numberBits k e)
      (afterCodes lits dists (.ofLengths cl) (found ++ List.replicate (base + e) what) ⟨.over, last, out, block, []⟩) := by
  refine steps_number (f := fun left n v => .again lits dists (.ofLengths cl) found what base left n v)
    (K := fun v => afterCodes lits dists (.ofLengths cl) (found ++ List.replicate (base + v) what) ⟨.over, last, out, block, []⟩) k (fun _ _ _ => rfl) ?_ he hk
  intro left n v b _ _
  simp only [State.bit]
  rw [afterCodes_phase _ _ _ _ _ .over]

theorem steps_lengths {cl : List Nat} {lits dists : Nat} {b a : List Nat} {w : List Bool} (h : LengthsBits cl b a w) (ha : a.length = lits + dists) :
    Steps (afterCodes lits dists (.ofLengths cl) b ⟨.over, last, out, block, []⟩) w (afterCodes lits dists (.ofLengths cl) a ⟨.over, last, out, block, []⟩) := by
  have start : ∀ {b : List Nat}, b.length < lits + dists → afterCodes lits dists (.ofLengths cl) b ⟨.over, last, out, block, []⟩ =
      ⟨.codes lits dists (.ofLengths cl) (Huff.ofLengths cl).begin b, last, out, block, []⟩ := fun hb => by simp only [afterCodes, if_pos hb]
  have grow := @lengths_grow cl
  induction h with
  | nil => exact .nil
  | length hl hc hrest ih =>
    have := grow (.length hl hc hrest)
    rename_i ls l w ls' w'
    have hlt : ls.length < lits + dists := by
      rcases grow hrest with h | ⟨rfl, -⟩ <;> simp at * <;> omega
    rw [start hlt]
    obtain ⟨j, h1, h2⟩ := steps_lengthCode (last := last) (out := out) (block := block) (lits := lits) (dists := dists) (found := ls) hc
    refine h2.trans ?_
    simp only [afterLengthCode, h1, if_pos hl]
    exact ih ha
  | previous he hc hrest ih =>
    rename_i ls l e w ls' w'
    have hlt : (ls ++ [l]).length < lits + dists := by
      rcases grow hrest with h | ⟨rfl, -⟩ <;> simp at * <;> omega
    rw [start hlt]
    obtain ⟨j, h1, h2⟩ := steps_lengthCode (last := last) (out := out) (block := block) (lits := lits) (dists := dists) (found := ls ++ [l]) hc
    rw [List.append_assoc]
    refine h2.trans ?_
    simp only [afterLengthCode, h1, if_neg (show ¬ 16 ≤ 15 by omega), if_true]
    rw [if_neg (by simp), show (ls ++ [l]).getLastD 0 = l by simp]
    exact (steps_again (by omega) (by omega)).trans (ih ha)
  | zeros he hc hrest ih =>
    rename_i ls e w ls' w'
    have hlt : ls.length < lits + dists := by
      rcases grow hrest with h | ⟨rfl, -⟩ <;> simp at * <;> omega
    rw [start hlt]
    obtain ⟨j, h1, h2⟩ := steps_lengthCode (last := last) (out := out) (block := block) (lits := lits) (dists := dists) (found := ls) hc
    rw [List.append_assoc]
    refine h2.trans ?_
    simp only [afterLengthCode, h1, if_neg (show ¬ 17 ≤ 15 by omega), if_neg (show ¬ 17 = 16 by omega), if_true]
    exact (steps_again (by omega) (by omega)).trans (ih ha)
  | manyZeros he hc hrest ih =>
    rename_i ls e w ls' w'
    have hlt : ls.length < lits + dists := by
      rcases grow hrest with h | ⟨rfl, -⟩ <;> simp at * <;> omega
    rw [start hlt]
    obtain ⟨j, h1, h2⟩ := steps_lengthCode (last := last) (out := out) (block := block) (lits := lits) (dists := dists) (found := ls) hc
    rw [List.append_assoc]
    refine h2.trans ?_
    simp only [afterLengthCode, h1, if_neg (show ¬ 18 ≤ 15 by omega), if_neg (show ¬ 18 = 16 by omega), if_neg (show ¬ 18 = 17 by omega)]
    exact (steps_again (by omega) (by omega)).trans (ih ha)

theorem numberBits_append (a b x y : Nat) (hx : x < 2 ^ a) : numberBits (a + b) (x + 2 ^ a * y) = numberBits a x ++ numberBits b y := by
  induction b with
  | zero =>
    rw [Nat.add_zero]
    simp only [numberBits, List.range_zero, List.map_nil, List.append_nil, List.map_inj_left, List.mem_range]
    intro i hi
    rw [Nat.add_comm, Nat.testBit_two_pow_mul_add _ hx, if_pos hi]
  | succ b ih =>
    rw [← Nat.add_assoc, numberBits_succ, ih, numberBits_succ, ← List.append_assoc, Nat.add_comm x, Nat.testBit_two_pow_mul_add _ hx, if_neg (by omega)]
    simp

/-- The lengths of the codes for lengths. -/
def given (found : List Nat) : List Nat := (List.range 19).map (fun i => found.getD (orderOfLengths.idxOf i) 0)

theorem steps_given (lits dists : Nat) : ∀ (ls found : List Nat), ls ≠ [] → (∀ l ∈ ls, l < 8) →
    Steps ⟨.codeLens lits dists found ls.length 0 0, last, out, block, []⟩ (ls.flatMap (numberBits 3))
      ⟨.codes lits dists (.ofLengths (given (found ++ ls))) (Huff.ofLengths (given (found ++ ls))).begin [], last, out, block, []⟩ := by
  intro ls
  induction ls with
  | nil => intro _ h; exact absurd rfl h
  | cons l ls ih =>
    intro found _ hl
    rw [List.flatMap_cons]
    have h1 := steps_number (last := last) (out := out) (block := block) (f := fun _ n v => .codeLens lits dists found (ls.length + 1) n v)
      (K := fun v => if 1 < ls.length + 1 then ⟨.codeLens lits dists (found ++ [v]) ls.length 0 0, last, out, block, []⟩
        else ⟨.codes lits dists (.ofLengths (given (found ++ [v]))) (Huff.ofLengths (given (found ++ [v]))).begin [], last, out, block, []⟩) 3 (fun _ _ _ => rfl)
      (fun left n v b h1 h2 => by
        simp only [State.bit]
        by_cases hn : 1 < left
        · rw [if_pos hn, if_pos (by omega)]
        · rw [if_neg hn, if_neg (by omega)]
          rfl) (hl l (by simp)) (by omega)
    refine Steps.trans h1 ?_
    cases ls with
    | nil => exact .nil
    | cons m ls =>
      rw [if_pos (by simp)]
      have := ih (found ++ [l]) (by simp) (fun x hx => hl x (by simp [hx]))
      rw [List.append_assoc] at this
      exact this

theorem steps_codes {lit dist : List Nat} {w : List Bool} (h : CodesBits lit dist w) :
    Steps ⟨.sizes 0 0, last, out, block, []⟩ w (between lit dist last out block) := by
  cases h with
  | mk h1 h2 h3 h4 h5 h6 h7 h8 =>
    rename_i given_ w
    have e1 : numberBits 5 (lit.length - 257) ++ numberBits 5 (dist.length - 1) ++ numberBits 4 (given_.length - 4) =
        numberBits 14 (lit.length - 257 + 2 ^ 5 * (dist.length - 1) + 2 ^ 10 * (given_.length - 4)) := by
      rw [show (14 : Nat) = 10 + 4 by rfl, numberBits_append 10 4 _ _ (by omega), show (10 : Nat) = 5 + 5 by rfl, numberBits_append 5 5 _ _ (by omega)]
    rw [e1]
    have k1 := steps_number (last := last) (out := out) (block := block) (f := fun _ n v => .sizes n v)
      (K := fun v => ⟨.codeLens (v % 32 + 257) (v / 32 % 32 + 1) [] (v / 1024 + 4) 0 0, last, out, block, []⟩) 14 (fun _ _ _ => rfl)
      (fun left n v b h1 h2 => by
        simp only [State.bit]
        by_cases hn : 1 < left
        · rw [if_pos hn, if_pos (by omega)]
        · rw [if_neg hn, if_neg (by omega)])
      (e := lit.length - 257 + 2 ^ 5 * (dist.length - 1) + 2 ^ 10 * (given_.length - 4)) (by omega) (by omega)
    rw [show (lit.length - 257 + 2 ^ 5 * (dist.length - 1) + 2 ^ 10 * (given_.length - 4)) % 32 + 257 = lit.length by omega,
      show (lit.length - 257 + 2 ^ 5 * (dist.length - 1) + 2 ^ 10 * (given_.length - 4)) / 32 % 32 + 1 = dist.length by omega,
      show (lit.length - 257 + 2 ^ 5 * (dist.length - 1) + 2 ^ 10 * (given_.length - 4)) / 1024 + 4 = given_.length by omega] at k1
    have k2 := steps_given (last := last) (out := out) (block := block) lit.length dist.length given_ [] (by intro h; subst h; simp at h1) h3
    rw [List.nil_append] at k2
    have k3 := steps_lengths (last := last) (out := out) (block := block) (lits := lit.length) (dists := dist.length) h8 (by simp)
    have e2 : afterCodes lit.length dist.length (.ofLengths (given given_)) [] ⟨.over, last, out, block, []⟩ =
        ⟨.codes lit.length dist.length (.ofLengths (given given_)) (Huff.ofLengths (given given_)).begin [], last, out, block, []⟩ := by
      simp only [afterCodes]
      rw [if_pos (by simp; omega)]
    have e3 : afterCodes lit.length dist.length (.ofLengths (given given_)) (lit ++ dist) ⟨.over, last, out, block, []⟩ = between lit dist last out block := by
      simp only [afterCodes]
      rw [if_neg (by simp), if_pos (by simp), List.take_left' rfl, List.drop_left' rfl]
    have k3' : Steps (afterCodes lit.length dist.length (.ofLengths (given given_)) [] ⟨.over, last, out, block, []⟩) w
        (afterCodes lit.length dist.length (.ofLengths (given given_)) (lit ++ dist) ⟨.over, last, out, block, []⟩) := k3
    rw [e2, e3] at k3'
    exact (k1.trans k2).trans k3'
end

/-! ## Bytes -/

variable {cmf flg : Byte} {early late : Bytes → Bytes}

/-- At the end of a byte a stored block begins. -/
def State.fix (s : State) : State := match s.phase with
  | .align => { s with phase := .lens [] }
  | _ => s

/-- The decoder delivers `out` from the bits left of the current byte and from the bytes which follow. -/
def Run (cmf flg : Byte) (early late : Bytes → Bytes) (s : State) (bits : List Bool) (inp out : Bytes) : Prop :=
  Zlib.Decodes (Zlib.rfcFor cmf flg early late) (bits.foldl State.bit s).fix inp out

theorem byte_eq {s : State} (h : s.phase.reads = true) (b : Byte) : s.byte b = ((byteBits b).foldl State.bit s).fix := by
  obtain ⟨p, last, out, block, r⟩ := s
  cases p <;> first | rfl | cases h

theorem next_eq {s : State} (h : s.busy) : s.next = .need s.byte := by
  obtain ⟨p, last, out, block, r⟩ := s
  obtain ⟨h1, h2⟩ := h
  simp only at h1 h2
  subst h2
  cases p <;> first | rfl | cases h1

theorem fix_reads {s : State} (h : s.phase.reads = true) : s.fix = s := by
  obtain ⟨p, last, out, block, r⟩ := s
  cases p <;> first | rfl | cases h

theorem byteBits_length (b : Byte) : (byteBits b).length = 8 := by simp [byteBits]

/-- The decoder reads bits, of the current byte and of the following ones. -/
theorem run_steps {s s' : State} {w : List Bool} (h : Steps s w s') : ∀ (bits : List Bool) (inp : Bytes) (rest : List Bool), bits.length < 8 →
    bits ++ inp.flatMap byteBits = w ++ rest → ∃ bits' inp', bits'.length < 8 ∧ (bits'.length + w.length) % 8 = bits.length % 8 ∧
      bits' ++ inp'.flatMap byteBits = rest ∧ ∀ out, Run cmf flg early late s' bits' inp' out → Run cmf flg early late s bits inp out := by
  induction h with
  | nil => intro bits inp rest hb h; exact ⟨bits, inp, hb, by simp, h, fun _ h => h⟩
  | cons hb hs ih =>
    rename_i s b w s'
    intro bits inp rest hlt h
    have hcons : ∀ (cs : List Bool) (ys : Bytes), cs.length < 8 → cs ++ ys.flatMap byteBits = w ++ rest → (cs.length + 1) % 8 = bits.length % 8 →
        (∀ out, Run cmf flg early late (s.bit b) cs ys out → Run cmf flg early late s bits inp out) →
        ∃ bits' inp', bits'.length < 8 ∧ (bits'.length + (b :: w).length) % 8 = bits.length % 8 ∧
          bits' ++ inp'.flatMap byteBits = rest ∧ ∀ out, Run cmf flg early late s' bits' inp' out → Run cmf flg early late s bits inp out := by
      intro cs ys h1 h2 h3 h4
      obtain ⟨bits', inp', k1, k2, k3, k4⟩ := ih cs ys rest h1 h2
      refine ⟨bits', inp', k1, ?_, k3, fun out h => h4 out (k4 out h)⟩
      simp only [List.length_cons]
      omega
    cases bits with
    | cons c cs =>
      simp only [List.cons_append, List.cons.injEq] at h
      obtain ⟨rfl, h⟩ := h
      simp only [List.length_cons] at hlt
      exact hcons cs inp (by omega) h (by simp) (fun _ h => h)
    | nil =>
      cases inp with
      | nil => simp at h
      | cons y ys =>
        obtain ⟨c, cs, hcs⟩ : ∃ c cs, byteBits y = c :: cs := by
          cases hy : byteBits y with
          | nil => have := byteBits_length y; rw [hy] at this; cases this
          | cons c cs => exact ⟨c, cs, rfl⟩
        have hl := byteBits_length y
        rw [hcs] at hl
        simp only [List.length_cons] at hl
        simp only [List.flatMap_cons, hcs, List.nil_append, List.cons_append, List.cons.injEq] at h
        obtain ⟨rfl, h⟩ := h
        refine hcons cs ys (by omega) h (by simp; omega) (fun out ho => ?_)
        unfold Run at ho ⊢
        simp only [List.foldl_nil, fix_reads hb.1]
        refine .need (next_eq hb) ?_
        rw [byte_eq hb.1, hcs]
        exact ho

/-- What is to be delivered stays so. -/
theorem bit_ready (s : State) (r : Bytes) (b : Bool) : State.bit { s with ready := r ++ s.ready } b = { s.bit b with ready := r ++ (s.bit b).ready } := by
  obtain ⟨p, last, out, block, q⟩ := s
  have hrep : ∀ d n (o : Bytes) (k : Nat), ∃ o' k', ∀ q, State.repeat_ d n ⟨p, last, o, k, q⟩ = ⟨p, last, o', k', q⟩ := by
    intro d n
    induction n with
    | zero => intro o k; exact ⟨o, k, fun _ => rfl⟩
    | succ n ih => intro o k; exact ih (o.getD (d - 1) 0 :: o) (k + 1)
  have hd : ∀ lit dist len d, afterDistance lit dist len d ⟨p, last, out, block, r ++ q⟩ =
      { afterDistance lit dist len d ⟨p, last, out, block, q⟩ with ready := r ++ (afterDistance lit dist len d ⟨p, last, out, block, q⟩).ready } := by
    intro lit dist len d
    obtain ⟨o', k', h⟩ := hrep d len out block
    simp only [afterDistance, h, State.fail]
    split <;> rfl
  have hc : ∀ lits dists h found, afterCodes lits dists h found ⟨p, last, out, block, r ++ q⟩ =
      { afterCodes lits dists h found ⟨p, last, out, block, q⟩ with ready := r ++ (afterCodes lits dists h found ⟨p, last, out, block, q⟩).ready } := by
    intro lits dists h found
    simp only [afterCodes, State.fail]
    repeat' split
    all_goals rfl
  cases p <;> simp only [State.bit, afterLengthCode, afterSymbol, afterDistanceCode, hd, hc, State.fail, State.push, State.close, afterLength]
  all_goals first
    | rfl
    | (repeat' split) <;> first | rfl | simp

theorem bits_ready (bits : List Bool) : ∀ (s : State) (r : Bytes), bits.foldl State.bit { s with ready := r ++ s.ready } =
    { bits.foldl State.bit s with ready := r ++ (bits.foldl State.bit s).ready } := by
  induction bits with
  | nil => intro s r; rfl
  | cons b bits ih =>
    intro s r
    simp only [List.foldl_cons, bit_ready]
    exact ih _ _

theorem emits {s : State} (r : Bytes) {inp out : Bytes} (h : Zlib.Decodes (Zlib.rfcFor cmf flg early late) s inp out) :
    Zlib.Decodes (Zlib.rfcFor cmf flg early late) ({ s with ready := r ++ s.ready } : State) inp (r ++ out) := by
  induction r with
  | nil => exact h
  | cons b r ih => exact .emit rfl ih

theorem run_ready {p : Phase} {last : Bool} {o : Bytes} {k : Nat} {bits : List Bool} {inp out : Bytes} (r : Bytes)
    (h : Run cmf flg early late ⟨p, last, o, k, []⟩ bits inp out) : Run cmf flg early late ⟨p, last, o, k, r⟩ bits inp (r ++ out) := by
  have e := bits_ready bits ⟨p, last, o, k, []⟩ r
  simp only [List.append_nil] at e
  unfold Run at h ⊢
  rw [e]
  have := emits r h
  have hfix : ∀ t : State, ({ t.fix with ready := r ++ t.fix.ready } : State) = State.fix { t with ready := r ++ t.ready } := by
    intro t
    obtain ⟨p, _, _, _, _⟩ := t
    cases p <;> rfl
  rw [hfix] at this
  exact this

/-! ## Blocks -/

theorem copies (bs : Bytes) : ∀ {b : Byte} {last : Bool} {o : Bytes} {k : Nat} {inp out : Bytes},
    Zlib.Decodes (Zlib.rfcFor cmf flg early late) (⟨if last then .sum [] else .head 0 0, last, bs.reverse ++ b :: o, 0, ((bs.reverse ++ b :: o).take (k + 1 + bs.length)).reverse⟩ : State) inp out →
    Zlib.Decodes (Zlib.rfcFor cmf flg early late) (⟨.copy (bs.length + 1), last, o, k, []⟩ : State) (b :: bs ++ inp) out := by
  induction bs with
  | nil => intro b last o k inp out h; exact .need rfl h
  | cons c bs ih =>
    intro b last o k inp out h
    refine .need rfl ?_
    have : State.byte (⟨.copy ((c :: bs).length + 1), last, o, k, []⟩ : State) b = ⟨.copy (bs.length + 1), last, b :: o, k + 1, []⟩ := by
      simp only [State.byte, List.length_cons, State.push]
      rw [if_pos (by omega)]
      simp
    rw [this]
    refine ih ?_
    simp only [List.reverse_cons, List.append_assoc, List.cons_append, List.nil_append, List.length_cons] at h
    rw [show k + 1 + 1 + bs.length = k + 1 + (bs.length + 1) by omega]
    exact h

/-- The state between two blocks. -/
abbrev State.after (last : Bool) (data : Bytes) : State := ⟨if last then .sum [] else .head 0 0, last, data.reverse, 0, []⟩

theorem after_fix (last : Bool) (data r : Bytes) : State.fix { State.after last data with ready := r } = { State.after last data with ready := r } := by cases last <;> rfl

theorem close_data (last : Bool) (before data : Bytes) : State.close ⟨.over, last, (before ++ data).reverse, data.length, []⟩ = { State.after last (before ++ data) with ready := data } := by
  simp only [State.close, List.nil_append]
  rw [List.reverse_append, List.take_left' (by simp), List.reverse_reverse]

theorem stored_bytes {last : Bool} {before data inp out : Bytes} {l0 l1 n0 n1 : Byte} (h1 : l0.toNat + 256 * l1.toNat = data.length)
    (h2 : n0.toNat + 256 * n1.toNat = 65535 - data.length) (h : Zlib.Decodes (Zlib.rfcFor cmf flg early late) (State.after last (before ++ data)) inp out) :
    Zlib.Decodes (Zlib.rfcFor cmf flg early late) (⟨.lens [], last, before.reverse, 0, []⟩ : State) ([l0, l1, n0, n1] ++ data ++ inp) (data ++ out) := by
  refine .need rfl (.need rfl (.need rfl (.need rfl ?_)))
  have e : ∀ a b c d : Byte, State.byte (State.byte (State.byte (State.byte (⟨.lens [], last, before.reverse, 0, []⟩ : State) a) b) c) d =
      if two a b + two c d = 65535 then (if two a b = 0 then State.close ⟨.lens [a, b, c], last, before.reverse, 0, []⟩ else ⟨.copy (two a b), last, before.reverse, 0, []⟩)
      else State.fail ⟨.lens [a, b, c], last, before.reverse, 0, []⟩ := fun a b c d => rfl
  show Zlib.Decodes (Zlib.rfcFor cmf flg early late) (State.byte (State.byte (State.byte (State.byte _ _) _) _) _ : State) _ _
  have b0 := l0.toNat_lt
  have b1 := l1.toNat_lt
  rw [e]
  simp only [two, h1, h2]
  rw [if_pos (by omega)]
  cases data with
  | nil =>
    simp only [List.append_nil, List.nil_append] at h ⊢
    exact h
  | cons b bs =>
    rw [if_neg (by simp : ¬ (b :: bs).length = 0)]
    refine copies bs ?_
    rw [show bs.reverse ++ b :: before.reverse = (before ++ b :: bs).reverse by simp]
    rw [show ((before ++ b :: bs).reverse.take (0 + 1 + bs.length)).reverse = b :: bs by
      rw [List.reverse_append, List.take_left' (by simp; omega), List.reverse_reverse]]
    have := emits (b :: bs) h
    simpa using this

theorem bytes_inj : ∀ (xs ys : Bytes) (rest : List Bool), ys.flatMap byteBits = xs.flatMap byteBits ++ rest → ∃ zs, ys = xs ++ zs ∧ zs.flatMap byteBits = rest := by
  intro xs
  induction xs with
  | nil => intro ys rest h; exact ⟨ys, rfl, h⟩
  | cons x xs ih =>
    intro ys rest h
    cases ys with
    | nil =>
      have := congrArg List.length h
      simp [byteBits_length] at this
      omega
    | cons y ys =>
      simp only [List.flatMap_cons, List.append_assoc] at h
      obtain ⟨h1, h2⟩ := List.append_inj h (by rw [byteBits_length, byteBits_length])
      obtain ⟨zs, rfl, h3⟩ := ih ys rest h2
      refine ⟨zs, ?_, h3⟩
      have : y = x := by
        have hb : ∀ i, i < 8 → y.toNat.testBit i = x.toNat.testBit i := by
          intro i hi
          have := congrArg (fun l => l[i]?) h1
          simp only [byteBits, List.getElem?_map, List.getElem?_range hi, Option.map_some, Option.some.injEq] at this
          exact this
        apply UInt8.toNat_inj.mp
        apply Nat.eq_of_testBit_eq
        intro i
        by_cases hi : i < 8
        · exact hb i hi
        · have b1 := y.toNat_lt
          have b2 := x.toNat_lt
          have hp : 2 ^ 8 ≤ 2 ^ i := Nat.pow_le_pow_right (by omega) (by omega)
          rw [Nat.testBit_lt_two_pow (by omega), Nat.testBit_lt_two_pow (by omega)]
      rw [this]
      rfl

theorem steps_head (last l a b : Bool) (o : Bytes) (h : (a, b) ≠ (true, true)) : Steps ⟨.head 0 0, l, o, 0, []⟩ [last, a, b]
    ⟨match a, b with | false, false => .align | true, false => .symbol fixedLit fixedDist fixedLit.begin | _, _ => .sizes 0 0, last, o, 0, []⟩ := by
  refine .cons ⟨rfl, rfl⟩ (.cons ⟨by cases last <;> rfl, rfl⟩ (.cons ⟨by cases last <;> cases a <;> rfl, rfl⟩ ?_))
  have : State.bit (State.bit (State.bit ⟨.head 0 0, l, o, 0, []⟩ last) a) b =
      ⟨match a, b with | false, false => .align | true, false => .symbol fixedLit fixedDist fixedLit.begin | _, _ => .sizes 0 0, last, o, 0, []⟩ := by
    cases last <;> cases a <;> cases b <;> first | rfl | exact absurd rfl h
  rw [this]
  exact .nil

/-- A block is decoded. -/
theorem run_block {n : Nat} {before after : Bytes} {last l : Bool} {w : List Bool} (h : BlockBits n before last w after) : ∀ (bits : List Bool) (inp : Bytes) (rest : List Bool),
    bits.length < 8 → (n + bits.length) % 8 = 0 → bits ++ inp.flatMap byteBits = w ++ rest → ∃ data bits' inp', after = before ++ data ∧ bits'.length < 8 ∧
      (n + w.length + bits'.length) % 8 = 0 ∧ bits' ++ inp'.flatMap byteBits = rest ∧
      ∀ out, Run cmf flg early late (.after last after) bits' inp' out → Run cmf flg early late ⟨.head 0 0, l, before.reverse, 0, []⟩ bits inp (data ++ out) := by
  intro bits inp rest hlt hn hb
  have coded : ∀ (lit dist : List Nat) (ts : List Token) (w1 w2 : List Bool), TokensBits lit dist ts w2 → Expands before ts after → w = w1 ++ w2 →
      Steps ⟨.head 0 0, l, before.reverse, 0, []⟩ w1 (between lit dist last before.reverse 0) →
      ∃ data bits' inp', after = before ++ data ∧ bits'.length < 8 ∧ (n + w.length + bits'.length) % 8 = 0 ∧ bits' ++ inp'.flatMap byteBits = rest ∧
      ∀ out, Run cmf flg early late (.after last after) bits' inp' out → Run cmf flg early late ⟨.head 0 0, l, before.reverse, 0, []⟩ bits inp (data ++ out) := by
    intro lit dist ts w1 w2 ht he hw hs
    obtain ⟨data, h1, h2⟩ := steps_tokens (last := last) ht he (block := 0)
    have h3 := hs.trans h2
    rw [← hw, Nat.zero_add, h1, close_data] at h3
    obtain ⟨bits', inp', k1, k2, k3, k4⟩ := run_steps (cmf := cmf) (flg := flg) (early := early) (late := late) h3 bits inp rest hlt hb
    refine ⟨data, bits', inp', h1, k1, by omega, k3, fun out ho => k4 _ ?_⟩
    rw [h1] at ho
    exact run_ready data ho
  cases h with
  | stored h1 h2 h3 h4 =>
    rename_i pad l0 l1 n0 n1 data
    have hs := steps_head last l false false before.reverse (by simp)
    rw [List.append_assoc, List.append_assoc] at hb
    obtain ⟨bits', inp', k1, k2, k3, k4⟩ := run_steps (cmf := cmf) (flg := flg) (early := early) (late := late) hs bits inp _ hlt hb
    simp only [List.length_cons, List.length_nil] at k2
    have hl : bits'.length = pad.length := by omega
    obtain ⟨h5, h6⟩ := List.append_inj k3 hl
    subst h5
    obtain ⟨inp'', h7, h8⟩ := bytes_inj _ _ _ h6
    refine ⟨data, [], inp'', rfl, by simp, ?_, h8, fun out ho => k4 _ ?_⟩
    · have e : ∀ xs : Bytes, (xs.flatMap byteBits).length = 8 * xs.length := by
        intro xs
        induction xs with
        | nil => rfl
        | cons x xs ih => simp only [List.flatMap_cons, List.length_append, ih, byteBits_length, List.length_cons]; omega
      simp only [List.length_append, e, List.length_cons, List.length_nil]
      omega
    · have e : ∀ bits : List Bool, bits.foldl State.bit ⟨.align, last, before.reverse, 0, []⟩ = ⟨.align, last, before.reverse, 0, []⟩ := by
        intro bits
        induction bits with
        | nil => rfl
        | cons b bits ih => exact ih
      unfold Run at ho ⊢
      simp only
      rw [e, h7]
      refine stored_bytes h3 h4 ?_
      have e2 : State.fix (State.after last (before ++ data)) = State.after last (before ++ data) := after_fix last _ []
      simp only [List.foldl_nil] at ho
      rw [e2] at ho
      exact ho
  | fixed ht he =>
    exact coded fixedLiterals fixedDistances _ _ _ ht he rfl (steps_head last l true false before.reverse (by simp))
  | coded hc ht he =>
    exact coded _ _ _ _ _ ht he rfl ((steps_head last l false true before.reverse (by simp)).trans (steps_codes hc))

theorem run_stream {n : Nat} {before after : Bytes} {w : List Bool} (h : StreamBits n before w after) : ∀ (l : Bool) (bits : List Bool) (inp : Bytes) (rest : List Bool),
    bits.length < 8 → (n + bits.length) % 8 = 0 → bits ++ inp.flatMap byteBits = w ++ rest → ∃ data, after = before ++ data ∧
      Run cmf flg early late ⟨.head 0 0, l, before.reverse, 0, []⟩ bits inp data := by
  induction h with
  | last hb =>
    intro l bits inp rest h1 h2 h3
    obtain ⟨data, bits', inp', k1, k2, k3, k4, k5⟩ := run_block (cmf := cmf) (flg := flg) (early := early) (late := late) (l := l) hb bits inp rest h1 h2 h3
    refine ⟨data, k1, ?_⟩
    have := k5 [] (.done _ _)
    rw [List.append_nil] at this
    exact this
  | more hb _ ih =>
    intro l bits inp rest h1 h2 h3
    rw [List.append_assoc] at h3
    obtain ⟨data, bits', inp', k1, k2, k3, k4, k5⟩ := run_block (cmf := cmf) (flg := flg) (early := early) (late := late) (l := l) hb bits inp _ h1 h2 h3
    obtain ⟨data', k6, k7⟩ := ih false bits' inp' rest k2 k3 k4
    exact ⟨data ++ data', by rw [k6, k1, List.append_assoc], k5 _ k7⟩

/-- Whatever follows. -/
theorem decodes_compressed {cmf flg : Byte} {body data : Bytes} (h : Compressed (cmf :: flg :: body) data) (tail : Bytes) :
    ∃ s, begin cmf flg = some s ∧ Zlib.Decodes (Zlib.rfcFor cmf flg early late) s (body ++ tail) data := by
  obtain ⟨c, f, bs, w, pad, h1, h2, h3, h4, h5, h6, h7, h8⟩ := h
  cases h1
  refine ⟨⟨.head 0 0, false, [], 0, []⟩, if_pos ⟨h2, h3, h4, h5⟩, ?_⟩
  obtain ⟨d, k1, k2⟩ := run_stream (cmf := cmf) (flg := flg) (early := early) (late := late) h6 false [] (body ++ tail) (pad ++ tail.flatMap byteBits) (by simp) rfl
    (by rw [List.nil_append, List.flatMap_append, h7, List.append_assoc])
  rw [List.nil_append] at k1
  subst k1
  exact k2

end Inflate
end Fbx
