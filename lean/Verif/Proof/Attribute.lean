import Verif.Proof.Decision
import Verif.Proof.ReadAttr
import Verif.Spec.Attribute

/-! # `load_next` with `DirectLoader` follows the table -/

namespace Fbx
open Reader Parser Spec
variable {Z : Zlib}

/-- There is room for all the offsets of what is left. -/
def Room (r : Reader) : Prop := r.position + r.rest.length < 2 ^ 64

theorem Room.consume {r : Reader} (h : Room r) {k : Nat} (hk : k ≤ r.rest.length) : Room (r.consume k) := by
  simp only [Room, consume_position, consume_rest, List.length_drop] at *
  omega

/-- Puts data in front of data. -/
def pre (out : Bytes) : Except IoErr Bytes × Bytes → Except IoErr Bytes × Bytes
  | (.ok o, left) => (.ok (out ++ o), left)
  | (.error x, left) => (.error x, left)

theorem pre_nil (x : Except IoErr Bytes × Bytes) : pre [] x = x := by
  rcases x with ⟨_ | _, _⟩ <;> rfl
theorem pre_pre (a b : Bytes) (x : Except IoErr Bytes × Bytes) : pre a (pre b x) = pre (a ++ b) x := by
  rcases x with ⟨_ | _, _⟩ <;> simp [pre]

theorem readU8_empty {r : Reader} (h : Room r) (he : r.rest = []) : readU8 r = (.err (r.ending.getD .unexpectedEof), r) := by
  have hu : u64Size = 2 ^ 64 := rfl
  have hp : r.position < 2 ^ 64 := by have := h; simp only [Room] at this; omega
  rw [readU8, M.bind_apply, readExact_dry (by simp [he]) h, he, List.length_nil, consume_zero]

theorem readU8_head {r : Reader} (h : Room r) {b : Byte} {t : Bytes} (he : r.rest = b :: t) : readU8 r = (.ok b, r.consume 1) := by
  have hu : u64Size = 2 ^ 64 := rfl
  simp only [Room, he, List.length_cons] at h
  rw [readU8, M.bind_apply, readExact, he, if_pos (by simp), if_pos (by rw [hu]; omega)]
  rfl

theorem inflate_need {e : Ending} {s : Z.S} {k : Byte → Z.S} (h : Z.step s = .need k) (x : Byte) (xs : Bytes) (n : Nat) :
    inflate Z e (n + 1) s (x :: xs) = inflate Z e (n + 1) (k x) xs := by
  simp only [inflate, inflateByte, h]

theorem inflate_emit {e : Ending} {s s' : Z.S} {b : Byte} (h : Z.step s = .emit b s') (bs : Bytes) (n : Nat) :
    inflate Z e (n + 1) s bs = pre [b] (inflate Z e n s' bs) := by
  cases bs <;> simp only [inflate, inflateByte, h] <;> rcases inflate Z e n s' _ with ⟨_ | _, _⟩ <;> rfl

theorem zRead_inflate : ∀ (fuel n : Nat) (acc : Bytes) (s : Z.S) (r : Reader), n + r.rest.length < fuel → Room r →
    (∃ out s' j, j ≤ r.rest.length ∧ Dec.zRead Z fuel n acc (s, r) = (.ok (acc ++ out), (s', r.consume j)) ∧ out.length = n ∧
      ∀ k, inflate Z r.ending (n + k) s r.rest = pre out (inflate Z r.ending k s' (r.rest.drop j))) ∨
    (∃ x s' j, j ≤ r.rest.length ∧ Dec.zRead Z fuel n acc (s, r) = (.err x, (s', r.consume j)) ∧
      ∀ k, inflate Z r.ending (n + k) s r.rest = (.error x, r.rest.drop j)) := by
  intro fuel
  induction fuel with
  | zero => intro n acc s r h; omega
  | succ fuel ih =>
    intro n acc s r hf hroom
    rw [Dec.zRead]
    by_cases h0 : n = 0
    · subst h0
      refine .inl ⟨[], s, 0, by omega, by simp [consume_zero], rfl, fun k => ?_⟩
      simp [pre_nil]
    simp only [h0, if_false]
    obtain ⟨m, rfl⟩ : ∃ m, n = m + 1 := ⟨n - 1, by omega⟩
    cases hs : Z.step s with
    | need k =>
      simp only
      cases hr : r.rest with
      | nil =>
        simp only [readU8_empty hroom hr]
        refine .inr ⟨_, s, 0, by omega, by rw [consume_zero], fun j => ?_⟩
        rw [show m + 1 + j = (m + j) + 1 by omega]
        simp only [inflate, inflateByte, hs, Ending.error, List.drop_nil]
      | cons b t =>
        have hc : (r.consume 1).rest = t := by simp [hr]
        simp only [readU8_head hroom hr]
        rcases ih (m + 1) acc (k b) (r.consume 1) (by rw [hc]; rw [hr] at hf; simp at hf; omega) (hroom.consume (by rw [hr]; simp)) with
          ⟨out, s', j, h1, h2, h3, h4⟩ | ⟨x, s', j, h1, h2, h3⟩
        · rw [hc] at h1 h4
          refine .inl ⟨out, s', 1 + j, by simp; omega, by rw [h2, consume_consume], h3, fun i => ?_⟩
          have := h4 i
          rw [show m + 1 + i = (m + i) + 1 by omega] at this ⊢
          rw [inflate_need hs, show r.ending = (r.consume 1).ending from rfl, this, Nat.add_comm 1 j, List.drop_succ_cons]
        · rw [hc] at h1 h3
          refine .inr ⟨x, s', 1 + j, by simp; omega, by rw [h2, consume_consume], fun i => ?_⟩
          have := h3 i
          rw [show m + 1 + i = (m + i) + 1 by omega] at this ⊢
          rw [inflate_need hs, show r.ending = (r.consume 1).ending from rfl, this, Nat.add_comm 1 j, List.drop_succ_cons]
    | emit b s1 =>
      simp only
      rcases ih m (acc ++ [b]) s1 r (by omega) hroom with ⟨out, s', j, h1, h2, h3, h4⟩ | ⟨x, s', j, h1, h2, h3⟩
      · refine .inl ⟨b :: out, s', j, h1, by simp [h2], by simp [h3], fun i => ?_⟩
        rw [show m + 1 + i = (m + i) + 1 by omega, inflate_emit hs, h4 i, pre_pre]
        rfl
      · refine .inr ⟨x, s', j, h1, by simp [h2], fun i => ?_⟩
        rw [show m + 1 + i = (m + i) + 1 by omega, inflate_emit hs, h3 i]
        rfl
    | eof =>
      refine .inr ⟨.unexpectedEof, s, 0, by omega, by simp [consume_zero], fun i => ?_⟩
      rw [show m + 1 + i = (m + i) + 1 by omega]
      cases r.rest <;> simp only [inflate, inflateByte, hs, List.drop_zero]
    | fail =>
      refine .inr ⟨.badCompression, s, 0, by omega, by simp [consume_zero], fun i => ?_⟩
      rw [show m + 1 + i = (m + i) + 1 by omega]
      cases r.rest <;> simp only [inflate, inflateByte, hs, List.drop_zero]

/-- The next `n` bytes of a decoder. -/
def feed (e : Ending) (d : Dec Z) (n : Nat) (bs : Bytes) : Except IoErr Bytes × Bytes := match d with
  | .direct => if n ≤ bs.length then (.ok (bs.take n), bs.drop n) else (.error e.error, [])
  | .zlib s => inflate Z e n s bs

theorem readExact_feed (d : Dec Z) (n : Nat) (r : Reader) (hroom : Room r) :
    (∃ out d' j, j ≤ r.rest.length ∧ Dec.readExact n (d, r) = (.ok out, (d', r.consume j)) ∧ out.length = n ∧
      ∀ k, feed r.ending d (n + k) r.rest = pre out (feed r.ending d' k (r.rest.drop j))) ∨
    (∃ x d' j, j ≤ r.rest.length ∧ Dec.readExact n (d, r) = (.err x, (d', r.consume j)) ∧
      ∀ k, feed r.ending d (n + k) r.rest = (.error x, r.rest.drop j)) := by
  have hu : u64Size = 2 ^ 64 := rfl
  cases d with
  | direct =>
    by_cases h : n ≤ r.rest.length
    · refine .inl ⟨r.rest.take n, .direct, n, h, ?_, by simp; omega, fun k => ?_⟩
      · simp only [Room] at hroom
        simp only [Dec.readExact, readExact, if_pos h]
        rw [if_pos (by rw [hu]; omega)]
      · simp only [feed, List.length_drop]
        by_cases hk : n + k ≤ r.rest.length
        · rw [if_pos hk, if_pos (by omega)]
          simp only [pre, List.drop_drop, List.take_add]
        · rw [if_neg hk, if_neg (by omega)]
          rfl
    · refine .inr ⟨r.ending.getD .unexpectedEof, .direct, r.rest.length, Nat.le_refl _, ?_, fun k => ?_⟩
      · simp only [Dec.readExact]
        rw [readExact_dry (by omega) hroom]
      · simp only [feed]
        rw [if_neg (by omega)]
        simp [Ending.error]
  | zlib s =>
    simp only [Dec.readExact]
    rcases zRead_inflate (n + r.rest.length + 1) n [] s r (by omega) hroom with ⟨out, s', j, h1, h2, h3, h4⟩ | ⟨x, s', j, h1, h2, h3⟩
    · exact .inl ⟨out, .zlib s', j, h1, by rw [h2]; rfl, h3, h4⟩
    · exact .inr ⟨x, .zlib s', j, h1, by rw [h2], h3⟩

theorem pieces_succ {w m : Nat} {a b : Bytes} (h : a.length = w) : pieces w (m + 1) (a ++ b) = a :: pieces w m b := by
  simp only [pieces, List.range_succ_eq_map, List.map_cons, List.map_map]
  congr 1
  · simp [← h]
  · apply List.map_congr_left
    intro i _
    simp only [Function.comp]
    rw [Nat.succ_mul, Nat.add_comm, ← h, ← List.drop_drop, List.drop_left' rfl]

theorem pieces_zero (w : Nat) (a : Bytes) : pieces w 0 a = [] := rfl

theorem consume_of_left {r : Reader} {j : Nat} (h : j ≤ r.rest.length) : r.consume (r.rest.length - (r.rest.drop j).length) = r.consume j := by
  rw [List.length_drop]
  congr 1
  omega

theorem feed_zero (e : Ending) (d : Dec Z) (bs : Bytes) : feed e d 0 bs = (.ok [], bs) := by
  cases d <;> simp [feed, inflate]

theorem inflateByte_left (e : Ending) : ∀ (bs : Bytes) (s : Z.S), (inflateByte Z e s bs).2.length ≤ bs.length
  | [], s => by simp only [inflateByte]; split <;> simp
  | x :: xs, s => by
    simp only [inflateByte]
    split
    · simp
    · exact Nat.le_trans (inflateByte_left e xs _) (by simp)
    · simp
    · simp

theorem inflate_left (e : Ending) : ∀ (n : Nat) (s : Z.S) (bs : Bytes), (inflate Z e n s bs).2.length ≤ bs.length
  | 0, s, bs => by simp [inflate]
  | n + 1, s, bs => by
    have h1 := inflateByte_left e bs s
    simp only [inflate]
    rcases hb : inflateByte Z e s bs with ⟨x | ⟨b, s'⟩, left⟩
    · rw [hb] at h1; exact h1
    · rw [hb] at h1
      have h2 := inflate_left e n s' left
      rcases hn : inflate Z e n s' left with ⟨_ | _, l⟩
      all_goals
        rw [hn] at h2
        simp only [hn] at h1 h2 ⊢
        omega

theorem feed_left (e : Ending) (d : Dec Z) (n : Nat) (bs : Bytes) : (feed e d n bs).2.length ≤ bs.length := by
  cases d with
  | direct => simp only [feed]; split <;> simp
  | zlib s => exact inflate_left e n s bs

theorem feed_length (e : Ending) (d : Dec Z) (n : Nat) (bs out left : Bytes) (h : feed e d n bs = (.ok out, left)) : out.length = n := by
  cases d with
  | direct =>
    simp only [feed] at h
    split at h
    · cases h; simp; omega
    · cases h
  | zlib s =>
    simp only [feed] at h
    induction n generalizing s bs out with
    | zero => simp only [inflate] at h; cases h; rfl
    | succ n ih =>
      simp only [inflate] at h
      rcases hb : inflateByte Z e s bs with ⟨x | ⟨b, s'⟩, l⟩
      · rw [hb] at h; cases h
      · rw [hb] at h
        simp only at h
        rcases hn : inflate Z e n s' l with ⟨x | o, l'⟩
        · rw [hn] at h; cases h
        · rw [hn] at h
          cases h
          simp [ih l o s' hn]

theorem collect_feed {e α : Type} (t : ElemTy e) (fin : List e → α) : ∀ (m : Nat) (acc : List e) (it : ElemIter Z) (r : Reader), it.rest = m → Room r →
    ∃ it', ElemIter.run t (collectSeq fin (m + 1) acc) (it, r) = match feed r.ending it.dec (m * t.size) r.rest with
      | (.ok data, left) => (.ok (fin (acc.reverse ++ (pieces t.size m data).map t.ofBytes)),
          ({ it' with hasError := it.hasError, odd := it.odd || (pieces t.size m data).any t.odd }, r.consume (r.rest.length - left.length)))
      | (.error x, left) => (.err (PErr.ofIo x), (it', r.consume (r.rest.length - left.length))) := by
  intro m
  induction m with
  | zero =>
    intro acc it r h0 hroom
    refine ⟨it, ?_⟩
    rw [Nat.zero_mul, feed_zero]
    simp only [collectSeq, ElemIter.run, M.bind_apply, ElemIter.next, h0, if_true, pieces_zero, List.map_nil, List.append_nil,
      List.any_nil, Bool.or_false, Nat.sub_self, consume_zero]
    cases it
    cases h0
    rfl
  | succ m ih =>
    intro acc it r h0 hroom
    rw [collectSeq]
    simp only [ElemIter.run, M.bind_apply, ElemIter.next, h0, Nat.succ_ne_zero, if_false]
    have hmul : (m + 1) * t.size = t.size + m * t.size := by rw [Nat.succ_mul, Nat.add_comm]
    rcases readExact_feed it.dec t.size r hroom with ⟨out, d', j, h1, h2, h3, h4⟩ | ⟨x, d', j, h1, h2, h3⟩
    · simp only [h2, Nat.add_sub_cancel]
      obtain ⟨it', hi⟩ := ih (t.ofBytes out :: acc) { it with dec := d', rest := m, odd := it.odd || t.odd out } (r.consume j) rfl (hroom.consume h1)
      refine ⟨it', hi.trans ?_⟩
      rw [hmul, h4]
      rw [show (r.consume j).ending = r.ending from rfl, consume_rest]
      simp only
      rcases hff : feed r.ending d' (m * t.size) (r.rest.drop j) with ⟨x | data, left⟩
      all_goals
        have hle : left.length ≤ (r.rest.drop j).length := by
          have := feed_left r.ending d' (m * t.size) (r.rest.drop j)
          rwa [hff] at this
        simp only [pre, consume_consume, List.length_drop] at hle ⊢
        have hcj : j + (r.rest.length - j - left.length) = r.rest.length - left.length := by omega
        simp only [hcj]
      rw [pieces_succ h3]
      simp [Bool.or_assoc]
    · have := h3 (m * t.size)
      refine ⟨{ it with dec := d', hasError := true }, ?_⟩
      simp only [h2, hmul, this, consume_of_left h1, h0]
      rfl

/-! ## The attribute reader -/

theorem byte_odd (b : Byte) : oddBool b = neither b := rfl

theorem byte_bool (b : Byte) : boolOfByte b = decide (b.toNat % 2 = 1) := by
  have : ∀ b : BitVec 8, ((UInt8.ofBitVec b) &&& 1 ≠ 0) ↔ (UInt8.ofBitVec b).toNat % 2 = 1 := by decide +kernel
  have h := this b.toBitVec
  simp only [boolOfByte]
  exact decide_eq_decide.mpr h

theorem any_odd : ∀ (m : Nat) (data : Bytes), data.length = m → (pieces 1 m data).any ElemTy.bool.odd = data.any neither
  | 0, data, h => by rw [List.eq_nil_of_length_eq_zero h]; rfl
  | m + 1, b :: t, h => by
    rw [show b :: t = [b] ++ t from rfl, pieces_succ (w := 1) rfl, List.any_cons, any_odd m t (by simpa using h)]
    simp [ElemTy.bool, byte_odd]

theorem any_even {e : Type} (t : ElemTy e) (h : ∀ b, t.odd b = false) (l : List Bytes) : l.any t.odd = false := by
  induction l with
  | nil => rfl
  | cons x l ih => simp [h, ih]

namespace AP

theorem io_err {α : Type} {m : M IoErr Reader α} {a : AP} {x : IoErr} {r : Reader} (h : m a.parser.reader = (.err x, r)) :
    AP.io m a = (.err (PErr.ofIo x), a.withReader r) := by
  simp only [AP.io, AP.par, Parser.io, M.zoom_apply, M.mapErr_apply, h, withReader]

/-- Same with warnings. -/
def logged (a : AP) (ws : List (Warning × SynPos)) (n : Nat) (r : Reader) : AP :=
  { attrs := { a.attrs with next := n }, parser := { a.parser with reader := r, log := ws ++ a.parser.log } }

/-- The outcome of loading the contents of an attribute is what the table says. -/
def LoadsTo (a : AP) (start idx : Nat) (x : Res PErr AttrValue × AP) (l : Loaded) : Prop :=
  l.read ≤ a.parser.reader.rest.length ∧ match l.answer with
  | .ok v => x = (.ok v, a.logged (if l.odd then
      [(.incorrectBool, { ({ a.parser with reader := a.parser.reader.consume l.read } : Parser).synPos with compPos := start, attrIdx := some idx })] else [])
      (a.parser.reader.position + l.len) (a.parser.reader.consume l.read))
  | .error k => ∃ n, x = (.err ⟨k, none⟩, a.moved n (a.parser.reader.consume l.read))

variable {a : AP} {start idx : Nat}

theorem LoadsTo.of_eq {x y : Res PErr AttrValue × AP} {l : Loaded} (h : x = y) (hy : LoadsTo a start idx y l) : LoadsTo a start idx x l := h ▸ hy

theorem readLe_dry {k : Nat} (hr : Room a.parser.reader) (h : a.parser.reader.rest.length < k) :
    AP.io (readLe k) a = (.err (PErr.ofIo (Ending.error a.parser.reader.ending)), a.moved a.attrs.next (a.parser.reader.consume a.parser.reader.rest.length)) :=
  (io_err (readLe_short h hr)).trans rfl

theorem loadPrim_to (w : Nat) (f : BitVec (8 * w) → Except PErr AttrValue) (g : Nat → AttrValue) (hfg : ∀ n, f (BitVec.ofNat _ n) = .ok (g n))
    (hr : Room a.parser.reader) : LoadsTo a start idx (loadPrim w f a) (fixed a.parser.reader.ending w g a.parser.reader.rest) := by
  have hroom := hr
  simp only [Room] at hroom
  simp only [fixed]
  split
  · rename_i h
    rw [loadPrim, bind_err (readLe_dry hr h)]
    exact ⟨Nat.le_refl _, _, rfl⟩
  · rename_i h
    refine ⟨by simpa using h, ?_⟩
    rw [loadPrim, M.bind_val (io_ok (readLe_exact (by omega) (by omega))), M.bind_val (updateNext_ok (by simp; omega)), hfg]
    rfl

theorem warn_to {β : Type} {b : AP} (ht : tolerant b.parser) (htop : b.parser.started ≠ [] → b.parser.toplevel ≠ 0) (odd : Bool) (k : Unit → M PErr AP β) :
    (if odd = true then position start idx >>= fun pos => par (Parser.warn .incorrectBool pos) >>= k else k ()) b = k () (b.logged (if odd then
      [(.incorrectBool, { b.parser.synPos with compPos := start, attrIdx := some idx })] else []) b.attrs.next b.parser.reader) := by
  cases odd with
  | false => rfl
  | true =>
    simp only [if_true]
    rw [M.bind_apply, position_eq, if_neg (fun h => htop h.1 h.2)]
    simp only
    rw [M.bind_apply]
    simp only [par, M.zoom_apply]
    rw [warn_tolerant ht]
    rfl

theorem loadBool_to (hr : Room a.parser.reader) (ht : tolerant a.parser) (htop : a.parser.started ≠ [] → a.parser.toplevel ≠ 0) :
    LoadsTo a start idx (loadBool directLoader.bool start idx a) (boolean a.parser.reader.ending a.parser.reader.rest) := by
  have hroom := hr
  simp only [Room] at hroom
  cases hb : a.parser.reader.rest with
  | nil =>
    rw [loadBool, bind_err (io_err (readU8_empty hr hb))]
    refine ⟨by simp [Loaded.fails, boolean], a.attrs.next, ?_⟩
    simp only [boolean, Loaded.fails, consume_zero]
    rfl
  | cons b t =>
    rw [hb, List.length_cons] at hroom
    refine ⟨by simp [boolean, hb], ?_⟩
    rw [loadBool, M.bind_val (io_ok (readU8_head hr hb)), M.bind_val (updateNext_ok (by simp; omega))]
    simp only [boolean]
    refine (warn_to (b := (a.withReader (a.parser.reader.consume 1)).moved (a.parser.reader.position + 1) (a.parser.reader.consume 1)) ht htop (oddBool b) _).trans ?_
    simp only [byte_bool, byte_odd]
    rfl

theorem toEnd_stop {α : Type} (len : Nat) (fin : Bytes → Except PErr α) (fuel : Nat) (acc : Bytes) (r : Reader) :
    ∃ m, (readToEnd len fin (fuel + 1) acc).run (0, r) = (resOf (fin acc), (m, r)) := by
  refine ⟨0, ?_⟩
  simp only [readToEnd, ReadCons.run, takeRead, if_true]
  cases fin acc <;> rfl

theorem toEnd_dry {α : Type} (len : Nat) (fin : Bytes → Except PErr α) (fuel limit : Nat) (acc : Bytes) (r : Reader) (hl : limit ≠ 0) (hn : len ≠ 0)
    (he : r.rest = []) :
    ∃ m, (readToEnd len fin (fuel + 1) acc).run (limit, r) = (match r.ending with | none => resOf (fin acc) | some x => .err (PErr.ofIo x), (m, r)) := by
  refine ⟨limit, ?_⟩
  simp only [readToEnd, ReadCons.run, takeRead, if_neg hl, Reader.read, he, List.length_nil, Nat.min_zero, if_true]
  rw [if_neg (by omega)]
  cases r.ending with
  | none =>
    simp only [List.length_nil, Nat.sub_zero, ReadCons.run]
    cases fin acc <;> rfl
  | some x => rfl

theorem toEnd_run {α : Type} (len : Nat) (fin : Bytes → Except PErr α) (r : Reader) (hr : Room r) :
    ∃ m, (readToEnd len fin (len + 1) []).run (len, r) =
      ((match (if (r.rest.take len).length < len then r.ending else none) with | none => resOf (fin (r.rest.take len)) | some x => .err (PErr.ofIo x)),
        (m, r.consume (r.rest.take len).length)) := by
  have hu : u64Size = 2 ^ 64 := rfl
  by_cases h0 : len = 0
  · subst h0
    obtain ⟨m, hm⟩ := toEnd_stop 0 fin 0 [] r
    refine ⟨m, hm.trans ?_⟩
    simp [consume_zero]
  by_cases he : r.rest = []
  · obtain ⟨m, hm⟩ := toEnd_dry len fin len len [] r h0 h0 he
    refine ⟨m, hm.trans ?_⟩
    rw [he]
    simp only [List.take_nil, List.length_nil, consume_zero]
    rw [if_pos (by omega)]
  · have hpos : 0 < r.rest.length := List.length_pos_iff.mpr he
    obtain ⟨fuel, hfuel⟩ : ∃ f, len = f + 1 := ⟨len - 1, by omega⟩
    simp only [Room] at hr
    have hk : min len r.rest.length = (r.rest.take len).length := by simp
    have hread : takeRead len (len, r) = (.ok (r.rest.take len), (len - (r.rest.take len).length, r.consume (r.rest.take len).length)) := by
      simp only [takeRead, if_neg h0, Nat.min_self, Reader.read]
      rw [if_neg (by omega), if_pos (by rw [hu]; omega), ← List.take_eq_take_min, hk]
    have hrun : (readToEnd len fin (len + 1) []).run (len, r) =
        (readToEnd len fin len (r.rest.take len)).run (len - (r.rest.take len).length, r.consume (r.rest.take len).length) := by
      simp only [readToEnd, ReadCons.run, hread]
      cases hd : r.rest.take len with
      | nil => rw [hd, List.length_nil] at hk; omega
      | cons b t => simp
    rw [hrun]
    generalize hd : r.rest.take len = data at *
    by_cases hs : data.length < len
    · rw [if_pos hs]
      have : (r.consume data.length).rest = [] := by rw [consume_rest]; exact List.drop_eq_nil_of_le (by omega)
      have := toEnd_dry len fin fuel (len - data.length) data _ (by omega) h0 this
      rw [← hfuel] at this
      exact this
    · rw [if_neg hs, show len - data.length = 0 by omega]
      have := toEnd_stop len fin fuel data (r.consume data.length)
      rw [← hfuel] at this
      exact this

theorem loadSpecial_to (f : Bytes → Except ErrKind AttrValue) (fin : Bytes → Except PErr AttrValue)
    (hf : ∀ bs, fin bs = match f bs with | .ok v => .ok v | .error k => .error ⟨k, none⟩) (hr : Room a.parser.reader)
    (hcap : a.parser.reader.position + a.parser.reader.rest.length + 2 ^ 32 ≤ 2 ^ 64) :
    LoadsTo a start idx (loadSpecial (fun len => readToEnd len fin (len + 1) []) a) (special a.parser.reader.ending f a.parser.reader.rest) := by
  have hroom := hr
  simp only [Room] at hroom
  simp only [special]
  split
  · rename_i h
    rw [loadSpecial, bind_err (readLe_dry hr h)]
    exact ⟨Nat.le_refl _, _, rfl⟩
  · rename_i h
    have hlen : fromLe (a.parser.reader.rest.take 4) < 2 ^ 32 := by
      have := fromLe_lt (a.parser.reader.rest.take 4)
      rw [List.length_take, Nat.min_eq_left (by omega)] at this
      exact this
    rw [loadSpecial, M.bind_val (io_ok (readLe_exact (by omega) (by omega)))]
    generalize fromLe (a.parser.reader.rest.take 4) = len at *
    refine LoadsTo.of_eq (M.bind_val (updateNext_ok (by simp; omega)) _) ?_
    obtain ⟨m, hm⟩ := toEnd_run len fin (a.parser.reader.consume 4) (hr.consume (by omega))
    have hend : (a.parser.reader.consume 4).ending = a.parser.reader.ending := rfl
    rw [consume_rest, consume_consume, hend] at hm
    simp only [moved, withReader, hm]
    generalize hd : (a.parser.reader.rest.drop 4).take len = data at *
    have hdl : 4 + data.length ≤ a.parser.reader.rest.length := by rw [← hd]; simp; omega
    cases (if data.length < len then a.parser.reader.ending else none) with
    | some x => exact ⟨hdl, _, rfl⟩
    | none =>
      simp only
      refine ⟨hdl, ?_⟩
      rw [hf]
      cases f data with
      | ok v =>
        simp only [resOf, consume_position, Nat.add_assoc]
        rfl
      | error k =>
        exact ⟨_, rfl⟩

theorem readLe_dry_at {k j : Nat} (hr : Room a.parser.reader) (hj : j ≤ a.parser.reader.rest.length) (h : a.parser.reader.rest.length < j + k) :
    AP.io (readLe k) (a.withReader (a.parser.reader.consume j)) =
      (.err (PErr.ofIo (Ending.error a.parser.reader.ending)), a.moved a.attrs.next (a.parser.reader.consume a.parser.reader.rest.length)) := by
  refine (readLe_dry (a := a.withReader (a.parser.reader.consume j)) (hr.consume hj) (by simp; omega)).trans ?_
  simp only [withReader_reader, withReader_attrs, consume_rest, List.length_drop, consume_consume, show j + (a.parser.reader.rest.length - j) = a.parser.reader.rest.length by omega]
  rfl

theorem readLe_at {k j : Nat} (hr : Room a.parser.reader) (h : j + k ≤ a.parser.reader.rest.length) :
    AP.io (readLe k) (a.withReader (a.parser.reader.consume j)) =
      (.ok (fromLe ((a.parser.reader.rest.drop j).take k)), a.withReader (a.parser.reader.consume (j + k))) := by
  simp only [Room] at hr
  refine (io_ok (readLe_exact (by simp; omega) (by simp; omega))).trans ?_
  simp only [withReader_reader, consume_consume, withReader_withReader, consume_rest]

theorem withReader_self (a : AP) : a.withReader (a.parser.reader.consume 0) = a := by rw [consume_zero]; rfl

/-- The header of an array. -/
theorem readArrHeader_to (hr : Room a.parser.reader) : readArrHeader a =
    if a.parser.reader.rest.length < 8 then
      (.err (PErr.ofIo (Ending.error a.parser.reader.ending)), a.moved a.attrs.next (a.parser.reader.consume a.parser.reader.rest.length))
    else match ArrEnc.fromU32 (fromLe ((a.parser.reader.rest.drop 4).take 4)) with
      | none => (.err (PErr.ofData (.invalidArrayEncoding (fromLe ((a.parser.reader.rest.drop 4).take 4)))), a.moved a.attrs.next (a.parser.reader.consume 8))
      | some enc =>
        if a.parser.reader.rest.length < 12 then
          (.err (PErr.ofIo (Ending.error a.parser.reader.ending)), a.moved a.attrs.next (a.parser.reader.consume a.parser.reader.rest.length))
        else (.ok ⟨fromLe (a.parser.reader.rest.take 4), enc, fromLe ((a.parser.reader.rest.drop 8).take 4)⟩, a.withReader (a.parser.reader.consume 12)) := by
  have h0 : AP.io (readLe 4) a = AP.io (readLe 4) (a.withReader (a.parser.reader.consume 0)) := by rw [withReader_self]
  rw [readArrHeader]
  by_cases h1 : a.parser.reader.rest.length < 4
  · rw [if_pos (by omega)]
    exact bind_err (h0.trans (readLe_dry_at hr (by omega) (by omega)))
  refine (M.bind_val (h0.trans (readLe_at hr (by omega))) _).trans ?_
  by_cases h2 : a.parser.reader.rest.length < 8
  · rw [if_pos h2]
    exact bind_err (readLe_dry_at hr (by omega) (by omega))
  refine (M.bind_val (readLe_at hr (by omega)) _).trans ?_
  rw [if_neg h2]
  cases ArrEnc.fromU32 (fromLe ((a.parser.reader.rest.drop 4).take 4)) with
  | none => rfl
  | some enc =>
    simp only
    by_cases h3 : a.parser.reader.rest.length < 12
    · rw [if_pos h3]
      exact bind_err (readLe_dry_at hr (by omega) (by omega))
    rw [if_neg h3]
    refine (M.bind_val (readLe_at hr (by omega)) _).trans ?_
    rfl

/-- The decoder of an array. -/
theorem create_to (enc : ArrEnc) (n : Nat) (r : Reader) (hr : Room r) :
    (∃ d j, j ≤ r.rest.length ∧ Dec.create Z enc r = (.ok d, r.consume j) ∧
      payload Z r.ending enc n r.rest = match feed r.ending d n (r.rest.drop j) with
        | (.ok out, left) => (.ok out, left)
        | (.error x, left) => (.error (.io x), left)) ∨
    (∃ k j, j ≤ r.rest.length ∧ Dec.create Z enc r = (.err ⟨k, none⟩, r.consume j) ∧ payload Z r.ending enc n r.rest = (.error k, r.rest.drop j)) := by
  cases enc with
  | direct =>
    refine .inl ⟨.direct, 0, by omega, by simp [Dec.create, consume_zero], ?_⟩
    simp only [payload, feed, List.drop_zero]
    split <;> rfl
  | zlib =>
    rw [Dec.create]
    cases h1 : r.rest with
    | nil =>
      refine .inr ⟨.data (.brokenCompression (Ending.error r.ending)), 0, by omega, ?_, rfl⟩
      rw [consume_zero, M.bind_apply, M.mapErr_apply, readU8_empty hr h1]
      rfl
    | cons b t =>
      rw [M.bind_apply, M.mapErr_apply, readU8_head hr h1]
      simp only
      have hc : (r.consume 1).rest = t := by simp [h1]
      have hr1 : Room (r.consume 1) := hr.consume (by simp [h1])
      cases t with
      | nil =>
        refine .inr ⟨.data (.brokenCompression (Ending.error r.ending)), 1, by simp, ?_, rfl⟩
        rw [M.bind_apply, M.mapErr_apply, readU8_empty hr1 hc]
        rfl
      | cons c t =>
        rw [M.bind_apply, M.mapErr_apply, readU8_head hr1 hc]
        simp only [payload, consume_consume]
        cases Z.header b c with
        | none => exact .inr ⟨_, 2, by simp, rfl, rfl⟩
        | some s =>
          refine .inl ⟨.zlib s, 2, by simp, rfl, ?_⟩
          simp only [feed, List.drop_succ_cons, List.drop_zero]
          rcases inflate Z r.ending n s t with ⟨_ | _, _⟩ <;> rfl

theorem loadSeq_to {e : Type} (t : ElemTy e) (fin : List e → AttrValue) (bools : Bool) (f : List Bytes → AttrValue)
    (hf : ∀ l, f l = fin (l.map t.ofBytes)) (hodd : ∀ m data, data.length = m * t.size → (pieces t.size m data).any t.odd = (bools && data.any neither))
    (hr : Room a.parser.reader) (ht : tolerant a.parser) (htop : a.parser.started ≠ [] → a.parser.toplevel ≠ 0)
    (hcap : a.parser.reader.position + a.parser.reader.rest.length + 2 ^ 32 ≤ 2 ^ 64) :
    LoadsTo a start idx (loadSeq Z t (fun n => collectSeq fin (n + 1) []) start idx a) (array Z a.parser.reader.ending t.size bools f a.parser.reader.rest) := by
  have hroom := hr
  simp only [Room] at hroom
  have hh := readArrHeader_to hr
  simp only [array]
  rw [loadSeq]
  by_cases h8 : a.parser.reader.rest.length < 8
  · rw [if_pos h8] at hh ⊢
    rw [bind_err hh]
    exact ⟨Nat.le_refl _, _, rfl⟩
  rw [if_neg h8] at hh ⊢
  simp only [ArrEnc.fromU32] at hh
  cases henc : (if fromLe ((a.parser.reader.rest.drop 4).take 4) = 0 then some ArrEnc.direct else if fromLe ((a.parser.reader.rest.drop 4).take 4) = 1 then some .zlib else none) with
  | none =>
    rw [henc] at hh
    rw [bind_err hh]
    exact ⟨by simp only [Loaded.fails]; omega, _, rfl⟩
  | some enc =>
    rw [henc] at hh
    simp only at hh ⊢
    by_cases h12 : a.parser.reader.rest.length < 12
    · rw [if_pos h12] at hh ⊢
      rw [bind_err hh]
      exact ⟨Nat.le_refl _, _, rfl⟩
    rw [if_neg h12] at hh ⊢
    have hlen : fromLe ((a.parser.reader.rest.drop 8).take 4) < 2 ^ 32 := by
      have := fromLe_lt ((a.parser.reader.rest.drop 8).take 4)
      rw [List.length_take, List.length_drop, Nat.min_eq_left (by omega)] at this
      exact this
    refine LoadsTo.of_eq (M.bind_val hh _) ?_
    generalize fromLe ((a.parser.reader.rest.drop 8).take 4) = len at *
    generalize fromLe (a.parser.reader.rest.take 4) = m at *
    refine LoadsTo.of_eq (M.bind_val (updateNext_ok (by simp; omega)) _) ?_
    simp only [withReader_reader, consume_position]
    have r12 : Room (a.parser.reader.consume 12) := hr.consume (by omega)
    have e12 : (a.parser.reader.consume 12).ending = a.parser.reader.ending := rfl
    rcases create_to (Z := Z) enc (m * t.size) _ r12 with ⟨d, j, c1, c2, c3⟩ | ⟨k, j, c1, c2, c3⟩
    · rw [consume_rest] at c1
      rw [consume_rest, e12, List.drop_drop] at c3
      rw [consume_consume] at c2
      have hcr : par (M.zoom Parser.reader (fun r p => { p with reader := r }) (Dec.create Z enc))
          ((a.withReader (a.parser.reader.consume 12)).moved (a.parser.reader.position + 12 + len) (a.parser.reader.consume 12)) =
          (.ok d, a.moved (a.parser.reader.position + 12 + len) (a.parser.reader.consume (12 + j))) := by
        simp only [par, M.zoom_apply, moved, withReader, c2]
      refine LoadsTo.of_eq (M.bind_val hcr _) ?_
      rw [List.length_drop] at c1
      have rj : Room (a.parser.reader.consume (12 + j)) := hr.consume (by omega)
      obtain ⟨it', hrun⟩ := collect_feed (Z := Z) t fin m [] ⟨d, m, false, false⟩ _ rfl rj
      have ej : (a.parser.reader.consume (12 + j)).ending = a.parser.reader.ending := rfl
      have hleft := feed_left a.parser.reader.ending d (m * t.size) (a.parser.reader.rest.drop (12 + j))
      have hlenD := feed_length a.parser.reader.ending d (m * t.size) (a.parser.reader.rest.drop (12 + j))
      rw [consume_rest, ej] at hrun
      rw [c3]
      simp only at hrun
      rcases hfd : feed a.parser.reader.ending d (m * t.size) (a.parser.reader.rest.drop (12 + j)) with ⟨x | data, left⟩
      all_goals
        rw [hfd] at hrun hleft
        simp only [List.length_drop, consume_consume] at hrun hleft ⊢
        rw [show 12 + j + (a.parser.reader.rest.length - (12 + j) - left.length) = a.parser.reader.rest.length - left.length by omega] at hrun
      · have hs : runSeq t (collectSeq fin (m + 1) []) d m (a.moved (a.parser.reader.position + 12 + len) (a.parser.reader.consume (12 + j))) =
            (.err (PErr.ofIo x), a.moved (a.parser.reader.position + 12 + len) (a.parser.reader.consume (a.parser.reader.rest.length - left.length))) := by
          simp only [runSeq, moved, hrun]
        refine LoadsTo.of_eq (bind_err hs) ?_
        exact ⟨by simp only [Loaded.fails]; omega, _, rfl⟩
      · have hs : runSeq t (collectSeq fin (m + 1) []) d m (a.moved (a.parser.reader.position + 12 + len) (a.parser.reader.consume (12 + j))) =
            (.ok (fin ((pieces t.size m data).map t.ofBytes), false, bools && data.any neither),
              a.moved (a.parser.reader.position + 12 + len) (a.parser.reader.consume (a.parser.reader.rest.length - left.length))) := by
          simp only [runSeq, moved, hrun, List.reverse_nil, List.nil_append, Bool.false_or]
          rw [hodd m data (hlenD _ _ hfd)]
        refine LoadsTo.of_eq (M.bind_val hs _) ?_
        simp only
        refine LoadsTo.of_eq (warn_to (b := a.moved (a.parser.reader.position + 12 + len) (a.parser.reader.consume (a.parser.reader.rest.length - left.length)))
          ht htop (bools && data.any neither) (fun _ => if false = true then M.throw (PErr.ofData .nodeAttributeError) else
            pure (fin ((pieces t.size m data).map t.ofBytes)))) ?_
        refine ⟨by simp only; omega, ?_⟩
        simp only [hf, Nat.add_assoc]
        rfl
    · rw [consume_rest, e12] at c3
      rw [consume_consume] at c2
      rw [consume_rest, List.length_drop] at c1
      rw [c3]
      have hcr : par (M.zoom Parser.reader (fun r p => { p with reader := r }) (Dec.create Z enc))
          ((a.withReader (a.parser.reader.consume 12)).moved (a.parser.reader.position + 12 + len) (a.parser.reader.consume 12)) =
          (.err ⟨k, none⟩, a.moved (a.parser.reader.position + 12 + len) (a.parser.reader.consume (12 + j))) := by
        simp only [par, M.zoom_apply, moved, withReader, c2]
      refine LoadsTo.of_eq (bind_err hcr) ?_
      refine ⟨by simp only [Loaded.fails]; omega, a.parser.reader.position + 12 + len, ?_⟩
      · simp only [Loaded.fails, List.length_drop]
        rw [show a.parser.reader.rest.length - (a.parser.reader.rest.length - 12 - j) = 12 + j by omega]

theorem bool_ofBytes (bs : Bytes) : ElemTy.bool.ofBytes bs = decide (fromLe bs % 2 = 1) := by
  simp only [ElemTy.bool, byte_bool]
  cases bs with
  | nil => rfl
  | cons b t =>
    simp only [List.headD_cons, fromLe]
    congr 1
    apply propext
    omega

theorem loadImpl_to (buffered : Bool) (ty : AttrType) (hr : Room a.parser.reader) (ht : tolerant a.parser) (htop : a.parser.started ≠ [] → a.parser.toplevel ≠ 0)
    (hcap : a.parser.reader.position + a.parser.reader.rest.length + 2 ^ 32 ≤ 2 ^ 64) :
    LoadsTo a start idx (loadImpl Z buffered ty directLoader start idx a) (contents Z a.parser.reader.ending ty a.parser.reader.rest) := by
  have hstr : ∀ bs : Bytes, (match stringOfUtf8 bs with | some s => .ok (.string s) | none => .error (PErr.ofIo .invalidData) : Except PErr AttrValue) =
      match (match stringOfUtf8 bs with | some s => .ok (.string s) | none => .error (.io .invalidData) : Except ErrKind AttrValue) with
      | .ok v => .ok v | .error k => .error ⟨k, none⟩ := by
    intro bs
    cases stringOfUtf8 bs <;> rfl
  cases ty with
  | bool => exact loadBool_to hr ht htop
  | i16 => exact loadPrim_to 2 _ _ (fun _ => rfl) hr
  | i32 => exact loadPrim_to 4 _ _ (fun _ => rfl) hr
  | i64 => exact loadPrim_to 8 _ _ (fun _ => rfl) hr
  | f32 => exact loadPrim_to 4 _ _ (fun _ => rfl) hr
  | f64 => exact loadPrim_to 8 _ _ (fun _ => rfl) hr
  | arrBool =>
    refine loadSeq_to ElemTy.bool .arrBool true _ (fun l => ?_) (fun m data h => ?_) hr ht htop hcap
    · exact congrArg AttrValue.arrBool (List.map_congr_left fun bs _ => (bool_ofBytes bs).symm)
    · rw [Bool.true_and]
      exact any_odd m data (by simpa [ElemTy.bool] using h)
  | arrI32 => exact loadSeq_to ElemTy.i32 .arrI32 false _ (fun _ => rfl) (fun _ _ _ => any_even _ (fun _ => rfl) _) hr ht htop hcap
  | arrI64 => exact loadSeq_to ElemTy.i64 .arrI64 false _ (fun _ => rfl) (fun _ _ _ => any_even _ (fun _ => rfl) _) hr ht htop hcap
  | arrF32 => exact loadSeq_to ElemTy.f32 .arrF32 false _ (fun _ => rfl) (fun _ _ _ => any_even _ (fun _ => rfl) _) hr ht htop hcap
  | arrF64 => exact loadSeq_to ElemTy.f64 .arrF64 false _ (fun _ => rfl) (fun _ _ _ => any_even _ (fun _ => rfl) _) hr ht htop hcap
  | binary =>
    have := loadSpecial_to (a := a) (start := start) (idx := idx) (fun bs => .ok (.binary bs)) (fun bs => .ok (.binary bs)) (fun _ => rfl) hr hcap
    cases buffered <;> exact this
  | string =>
    have := loadSpecial_to (a := a) (start := start) (idx := idx) _ _ hstr hr hcap
    cases buffered <;> exact this

theorem type_of_char (c : Byte) : AttrType.fromTypeCode c = typeOfChar (Char.ofNat c.toNat) := by
  have : ∀ b : BitVec 8, AttrType.fromTypeCode (UInt8.ofBitVec b) = typeOfChar (Char.ofNat (UInt8.ofBitVec b).toNat) := by decide +kernel
  exact this c.toBitVec

/-- One attribute fewer to come. -/
def fewer (a : AP) : AP := { a with attrs := { a.attrs with rest := a.attrs.rest - 1 } }

theorem readNextType_skip (hs : a.parser.reader.seekable = true) (hrest : a.attrs.rest ≠ 0) (hn : a.attrs.next < 2 ^ 64) (hlim : canReach a.parser a.attrs) :
    readNextType a = (do
      let code ← io readU8
      match AttrType.fromTypeCode code with
      | none => M.throw (PErr.ofData (.invalidAttrTypeCode code))
      | some t => do
        M.modify (fun a => { a with attrs := { a.attrs with rest := a.attrs.rest - 1 } })
        pure (some t) : M PErr AP (Option AttrType)) (a.withReader (a.parser.reader.consume (a.attrs.next - a.parser.reader.position))) := by
  rw [readNextType, M.get_bind, if_neg hrest]
  by_cases h : a.parser.reader.position < a.attrs.next
  · rw [if_pos h]
    exact M.bind_val (io_ok (skipTo_ok hs _ (by omega) hn hlim)) _
  · rw [if_neg h, show a.attrs.next - a.parser.reader.position = 0 by omega, withReader_self]
    rfl

/-- Type code and contents, after skipping to `r`. -/
theorem body_from (buffered : Bool) (ht : tolerant a.parser) (htop : a.parser.started ≠ [] → a.parser.toplevel ≠ 0) (r : Reader)
    (h0 : readNextType a = (do
      let code ← io readU8
      match AttrType.fromTypeCode code with
      | none => M.throw (PErr.ofData (.invalidAttrTypeCode code))
      | some t => do
        M.modify (fun a => { a with attrs := { a.attrs with rest := a.attrs.rest - 1 } })
        pure (some t) : M PErr AP (Option AttrType)) (a.withReader r)) (hr : Room r)
    (hcap : r.rest ≠ [] → r.position + r.rest.length + 2 ^ 32 ≤ 2 ^ 64) (l : Loaded) (hl : l = attrInFront Z r.ending r.rest) :
    match l.answer with
    | .ok v => loadBody Z buffered directLoader start idx a = (.ok (some v), a.fewer.logged (if l.odd then
      [(.incorrectBool, { ({ a.parser with reader := r.consume l.read } : Parser).synPos with compPos := start, attrIdx := some idx })] else [])
      (r.position + l.len) (r.consume l.read))
    | .error k => ∃ b, loadBody Z buffered directLoader start idx a = (.err ⟨k, none⟩, b) ∧ b.parser = { a.parser with reader := r.consume l.read } := by
  cases hb : r.rest with
  | nil =>
    rw [hb] at hl
    subst hl
    refine ⟨a.withReader r, ?_, ?_⟩
    · exact bind_err (h0.trans (bind_err (io_err (readU8_empty hr hb))))
    · simp [attrInFront, Loaded.fails, withReader, consume_zero]
  | cons c bs =>
    rw [hb] at hl
    have hcap := hcap (by simp [hb])
    have hroom := hr
    simp only [Room] at hroom
    have h1 : (io readU8) (a.withReader r) = (.ok c, a.withReader (r.consume 1)) := io_ok (readU8_head hr hb)
    replace h0 := h0.trans (M.bind_val h1 _)
    simp only [attrInFront] at hl
    rw [type_of_char] at h0
    cases hty : typeOfChar (Char.ofNat c.toNat) with
    | none =>
      rw [hty] at hl h0
      subst hl
      exact ⟨_, bind_err h0, rfl⟩
    | some ty =>
      rw [hty] at hl h0
      simp only at hl h0
      have hmod : ((M.modify fun a => { a with attrs := { a.attrs with rest := a.attrs.rest - 1 } }) : M PErr AP Unit) (a.withReader (r.consume 1)) =
        (.ok (), (a.withReader (r.consume 1)).fewer) := rfl
      replace h0 := h0.trans (M.bind_val hmod _)
      have h2 : loadBody Z buffered directLoader start idx a =
          (do let v ← loadImpl Z buffered ty directLoader start idx; pure (some v) : M PErr AP _) (a.withReader (r.consume 1)).fewer :=
        M.bind_val h0 _
      have hto := loadImpl_to (Z := Z) (a := (a.withReader (r.consume 1)).fewer) (start := start) (idx := idx) buffered ty
        (hr.consume (by simp [hb])) ht htop (by
          simp only [fewer, withReader, consume_position, consume_rest, List.length_drop]
          rw [hb, List.length_cons] at hcap ⊢
          omega)
      have hbs : (a.withReader (r.consume 1)).fewer.parser.reader.rest = bs := by simp [fewer, withReader, hb]
      have hend : (a.withReader (r.consume 1)).fewer.parser.reader.ending = r.ending := rfl
      rw [hbs, hend] at hto
      generalize contents Z r.ending ty bs = lc at *
      subst hl
      obtain ⟨_, hto⟩ := hto
      simp only
      cases hans : lc.answer with
      | error k =>
        rw [hans] at hto
        obtain ⟨n, hto⟩ := hto
        refine ⟨_, h2.trans (bind_err hto), ?_⟩
        simp only [moved, fewer, withReader, consume_consume]
      | ok v =>
        rw [hans] at hto
        simp only at hto ⊢
        refine h2.trans ((M.bind_val hto _).trans ?_)
        simp only [fewer, withReader, logged, consume_consume, consume_position, Nat.add_assoc]
        rfl

/-- Skipping, type code and contents. -/
theorem body_to (buffered : Bool) (hs : a.parser.reader.seekable = true) (hrest : a.attrs.rest ≠ 0) (hn : a.attrs.next < 2 ^ 64) (hlim : canReach a.parser a.attrs)
    (ht : tolerant a.parser) (htop : a.parser.started ≠ [] → a.parser.toplevel ≠ 0) (r : Reader)
    (hreq : r = a.parser.reader.consume (a.attrs.next - a.parser.reader.position)) (hr : Room r)
    (hcap : r.rest ≠ [] → r.position + r.rest.length + 2 ^ 32 ≤ 2 ^ 64) (l : Loaded) (hl : l = attrInFront Z r.ending r.rest) :
    match l.answer with
    | .ok v => loadBody Z buffered directLoader start idx a = (.ok (some v), a.fewer.logged (if l.odd then
      [(.incorrectBool, { ({ a.parser with reader := r.consume l.read } : Parser).synPos with compPos := start, attrIdx := some idx })] else [])
      (r.position + l.len) (r.consume l.read))
    | .error k => ∃ b, loadBody Z buffered directLoader start idx a = (.err ⟨k, none⟩, b) ∧ b.parser = { a.parser with reader := r.consume l.read } := by
  have h0 := readNextType_skip hs hrest hn hlim
  rw [← hreq] at h0
  exact body_from buffered ht htop r h0 hr hcap l hl

end AP

/-- `load_next` with `DirectLoader` answers what the table says. -/
theorem answers_load {L : Nat} (hL : L + 2 ^ 32 ≤ 2 ^ 64) {s : Client} {a : Attrs} (hi : CInv L s) (ha : s.attrs = some a) (hrest : a.rest ≠ 0)
    (hrun : s.parser.health = .running) (ht : tolerant s.parser) (hs : s.parser.reader.seekable = true) (hlim : canReach s.parser a) (buffered : Bool) :
    ∃ o t, s.call Z (.load buffered directLoader) = some (o, t) ∧ LoadAnswers Z s.parser.reader.ending s a o t ∧
      t.parser.handler = s.parser.handler ∧ ∃ k, t.parser.reader = s.parser.reader.consume k := by
  obtain ⟨h1, h2, n, outer, h3, h4⟩ := hi.attrs a ha
  obtain ⟨r, hr⟩ : ∃ r, r = s.parser.reader.consume (a.next - s.parser.reader.position) := ⟨_, rfl⟩
  have hri := hi.parser.reader
  have hrr : (r.rest = [] ∧ r.position < 2 ^ 64) ∨ r.position + r.rest.length ≤ L := by
    rw [hr]
    simp only [consume_rest, consume_position, List.length_drop]
    rcases hri.2 with hc | hc
    · left
      refine ⟨by simp [hc.2], ?_⟩
      have := hri.1
      omega
    · by_cases hd : a.next - s.parser.reader.position ≤ s.parser.reader.rest.length
      · right; omega
      · left
        exact ⟨List.drop_eq_nil_of_le (by omega), by have := hri.1; omega⟩
  have hroom : Room r := by
    simp only [Room]
    rcases hrr with ⟨e1, e2⟩ | hc
    · rw [e1]; simpa using e2
    · omega
  have hcap : r.rest ≠ [] → r.position + r.rest.length + 2 ^ 32 ≤ 2 ^ 64 := by
    intro hne
    rcases hrr with ⟨e1, _⟩ | hc
    · exact absurd e1 hne
    · omega
  have hb := AP.body_to (Z := Z) (a := ⟨s.parser, a⟩) (start := a.next) (idx := a.total - a.rest) buffered hs hrest h2 hlim ht hi.parser.top r hr hroom hcap _ rfl
  have hload := AP.load_eq (Z := Z) ⟨s.parser, a⟩ buffered directLoader
  simp only [hrun, h1, if_true] at hload
  have hlook : (look s.parser).move (a.next - (look s.parser).pos) = look { s.parser with reader := r } := by rw [hr]; rfl
  have hbytes : (look { s.parser with reader := r }).bytes = r.rest := rfl
  have hpos : (look { s.parser with reader := r }).pos = r.position := rfl
  have hend : r.ending = s.parser.reader.ending := by rw [hr]; rfl
  rw [hend] at hb
  simp only [LoadAnswers, hlook, hbytes, hpos]
  have hmv : ∀ k, (look { s.parser with reader := r }).move k = look { s.parser with reader := r.consume k } := fun _ => rfl
  simp only [hmv, ← synPos_here]
  generalize attrInFront Z s.parser.reader.ending r.rest = l at *
  cases hans : l.answer with
  | ok v =>
    rw [hans] at hb
    simp only at hb ⊢
    rw [hb] at hload
    simp only [Client.call, ha, hload]
    refine ⟨_, _, rfl, ⟨rfl, rfl, rfl, hrun, rfl⟩, rfl, (a.next - s.parser.reader.position) + l.read, ?_⟩
    simp only [AP.logged, hr, consume_consume]
  | error k =>
    rw [hans] at hb
    obtain ⟨b, hb, hbp⟩ := hb
    rw [hb] at hload
    simp only at hload
    rw [AP.position_eq, hbp, if_neg (fun h => hi.parser.top h.1 h.2)] at hload
    simp only at hload
    simp only [Client.call, ha, hload]
    refine ⟨_, _, rfl, ⟨?_, ?_, ?_, ?_⟩, ?_, (a.next - s.parser.reader.position) + l.read, ?_⟩
    · simp only [hbp, Parser.setAborted]; rfl
    · rfl
    · simp only [hbp, Parser.setAborted]
    · rfl
    · simp only [hbp, Parser.setAborted]
    · simp only [hbp, Parser.setAborted, hr, consume_consume]

/-! ## All the attributes of a node -/

theorem payload_left (e : Ending) (enc : ArrEnc) (n : Nat) (bs : Bytes) : (payload Z e enc n bs).2.length ≤ bs.length := by
  cases enc with
  | direct => simp only [payload]; split <;> simp
  | zlib =>
    rcases bs with _ | ⟨a, _ | ⟨b, t⟩⟩
    · simp [payload]
    · simp [payload]
    · simp only [payload]
      cases Z.header a b with
      | none => simp; omega
      | some s =>
        have := inflate_left e n s t
        simp only
        rcases hi : inflate Z e n s t with ⟨_ | _, l⟩ <;> rw [hi] at this <;> simp at this ⊢ <;> omega

theorem contents_read (e : Ending) (ty : AttrType) (bs : Bytes) : (contents Z e ty bs).read ≤ bs.length ∧
    (contents Z e ty bs).len < bs.length + 2 ^ 32 := by
  have hfix : ∀ w (f : Nat → AttrValue), (fixed e w f bs).read ≤ bs.length ∧ (fixed e w f bs).len < bs.length + 2 ^ 32 := by
    intro w f
    simp only [fixed]
    split
    · simp only [Loaded.fails]; omega
    · simp only; omega
  have harr : ∀ w b (f : List Bytes → AttrValue), (array Z e w b f bs).read ≤ bs.length ∧ (array Z e w b f bs).len < bs.length + 2 ^ 32 := by
    intro w b f
    simp only [array]
    split
    · simp only [Loaded.fails]; omega
    · split
      · simp only [Loaded.fails]; omega
      · split
        · simp only [Loaded.fails]; omega
        · rename_i enc _ _
          have hlen : fromLe ((bs.drop 8).take 4) < 2 ^ 32 := by
            have := fromLe_lt ((bs.drop 8).take 4)
            rw [List.length_take, List.length_drop, Nat.min_eq_left (by omega)] at this
            exact this
          have hp := payload_left (Z := Z) e enc (fromLe (bs.take 4) * w) (bs.drop 12)
          rcases payload Z e enc (fromLe (bs.take 4) * w) (bs.drop 12) with ⟨_ | _, l⟩
          · simp only [Loaded.fails]; omega
          · simp only; omega
  have hsp : ∀ (f : Bytes → Except ErrKind AttrValue), (special e f bs).read ≤ bs.length ∧ (special e f bs).len < bs.length + 2 ^ 32 := by
    intro f
    simp only [special]
    split
    · simp only [Loaded.fails]; omega
    · have hlen : fromLe (bs.take 4) < 2 ^ 32 := by
        have := fromLe_lt (bs.take 4)
        rw [List.length_take, Nat.min_eq_left (by omega)] at this
        exact this
      split
      · simp only [Loaded.fails, List.length_take, List.length_drop]; omega
      · simp only [List.length_take, List.length_drop]; omega
  cases ty with
  | bool => cases bs <;> simp only [contents, boolean, Loaded.fails, List.length_nil, List.length_cons] <;> omega
  | i16 | i32 | i64 | f32 | f64 => exact hfix _ _
  | arrBool | arrI32 | arrI64 | arrF32 | arrF64 => exact harr _ _ _
  | binary | string => exact hsp _

theorem attrInFront_read (e : Ending) (bs : Bytes) : (attrInFront Z e bs).read ≤ bs.length ∧ (attrInFront Z e bs).len < bs.length + 2 ^ 32 := by
  cases bs with
  | nil => simp only [attrInFront, Loaded.fails, List.length_nil]; omega
  | cons c t =>
    simp only [attrInFront]
    cases typeOfChar (Char.ofNat c.toNat) with
    | none => simp only [Loaded.fails, List.length_cons]; omega
    | some ty =>
      have := contents_read (Z := Z) e ty t
      simp only [List.length_cons]
      omega

theorem attrInFront_nil (e : Ending) : (attrInFront Z e []).answer = .error (.io e.error) := rfl

theorem session_loads {L : Nat} (hL : L + 2 ^ 32 ≤ 2 ^ 64) (e : Ending) (buffered : Bool) : ∀ (n total next : Nat) (s : Client), CInv L s → s.attrs = some ⟨total, n, next⟩ →
    s.parser.health = .running → tolerant s.parser → s.parser.reader.seekable = true → s.parser.reader.ending = e → farSeeking s.parser →
    next ≤ s.parser.reader.position + s.parser.reader.rest.length + 2 ^ 32 →
    ∃ t, s.session Z (List.replicate (attributes Z e total n next (look s.parser)).outcomes.length (.load buffered directLoader)) =
        some ((attributes Z e total n next (look s.parser)).outcomes, t) ∧
      look t.parser = (attributes Z e total n next (look s.parser)).ahead ∧
      t.parser.log = (attributes Z e total n next (look s.parser)).warnings ++ s.parser.log ∧
      t.parser.health = (match (attributes Z e total n next (look s.parser)).error with | some ⟨_, some pos⟩ => .aborted pos | _ => .running) ∧
      ((attributes Z e total n next (look s.parser)).error = none → t.attrs.map (·.rest) = some 0) := by
  intro n
  induction n with
  | zero =>
    intro total next s hi ha hrun ht hs hend hfar hnext
    exact ⟨s, rfl, rfl, rfl, hrun, fun _ => by rw [ha]; rfl⟩
  | succ n ih =>
    intro total next s hi ha hrun ht hs hend hfar hnext
    have hreach : canReach s.parser ⟨total, n + 1, next⟩ := by
      simp only [canReach]
      simp only [farSeeking] at hfar
      omega
    obtain ⟨o, t, hc, hans, hhd, k, hk⟩ := answers_load (Z := Z) hL hi ha (by simp) hrun ht hs hreach buffered
    rw [hend] at hans
    simp only [LoadAnswers] at hans
    obtain ⟨hlook, hans⟩ := hans
    simp only [attributes]
    have hpos : (look s.parser).pos = s.parser.reader.position := rfl
    obtain ⟨here, hhere⟩ : ∃ h, h = (look s.parser).move (next - (look s.parser).pos) := ⟨_, rfl⟩
    rw [← hhere] at hlook hans ⊢
    have hrd := attrInFront_read (Z := Z) e here.bytes
    have hnil : here.bytes = [] → (attrInFront Z e here.bytes).answer = .error (.io e.error) := by
      intro h; rw [h]; rfl
    generalize attrInFront Z e here.bytes = l at *
    cases hl : l.answer with
    | error k =>
      rw [hl] at hans
      obtain ⟨h1, h2, h3⟩ := hans
      refine ⟨t, ?_, hlook, h2, h3, fun h => by cases h⟩
      simp only [Attributes.outcomes, List.map_nil, List.nil_append, Option.toList, List.map_cons, List.length_cons, List.length_nil,
        List.replicate_succ, List.replicate_zero, Client.session, hc, h1]
    | ok v =>
      rw [hl] at hans
      simp only at hans ⊢
      obtain ⟨h1, h2, h3, h4⟩ := hans
      have hcalm : ∀ x, o ≠ .panic x := by rw [h1]; intro x h; cases h
      have hsk : next - s.parser.reader.position ≤ s.parser.reader.rest.length := by
        by_cases hd : next - s.parser.reader.position ≤ s.parser.reader.rest.length
        · exact hd
        · have : here.bytes = [] := by rw [hhere]; exact List.drop_eq_nil_of_le (by have : (look s.parser).bytes = s.parser.reader.rest := rfl; rw [this, hpos]; omega)
          rw [hl] at hnil
          exact absurd (hnil this) (by simp)
      have hlen : here.bytes.length = s.parser.reader.rest.length - (next - s.parser.reader.position) := by rw [hhere]; exact List.length_drop ..
      have hherepos : here.pos = s.parser.reader.position + (next - s.parser.reader.position) := by rw [hhere]; rfl
      have hk' : k = (next - s.parser.reader.position) + l.read := by
        have : (look t.parser).pos = here.pos + l.read := by rw [hlook]; rfl
        have h2 : (look t.parser).pos = s.parser.reader.position + k := by simp only [look, hk, consume_position]
        omega
      have hkl : k ≤ s.parser.reader.rest.length := by omega
      obtain ⟨u, g1, g2, g3, g4, g5⟩ := ih total (here.pos + l.len) t ((call_did hL hi hc).inv hi hcalm) h4 h3 (fun f hf => ht f (by rw [← hhd]; exact hf))
        (by rw [hk]; exact hs) (by rw [hk]; exact hend) (by
          simp only [farSeeking, hk, consume_rest, consume_cursor, consume_seekLimit, List.length_drop] at hfar ⊢
          omega) (by
          rw [hk]
          simp only [consume_position, consume_rest, List.length_drop]
          omega)
      rw [hlook] at g1 g2 g3 g4 g5
      refine ⟨u, ?_, g2, by rw [g3, h2, List.append_assoc], g4, g5⟩
      simp only [Attributes.outcomes, List.map_cons, List.cons_append, List.length_cons, List.replicate_succ, Client.session, hc] at g1 ⊢
      rw [g1, h1]

theorem attributes_length (Z : Zlib) (e : Ending) (total : Nat) : ∀ (n next : Nat) (a : Ahead),
    (attributes Z e total n next a).error = none → (attributes Z e total n next a).values.length = n
  | 0, _, _, _ => rfl
  | n + 1, next, a, h => by
    simp only [attributes] at h ⊢
    split at h
    · cases h
    · rename_i v hv
      exact congrArg (· + 1) (attributes_length Z e total n _ _ h)

theorem attributes_error (Z : Zlib) (e : Ending) (total : Nat) : ∀ (n next : Nat) (a : Ahead) (x : PErr),
    (attributes Z e total n next a).error = some x → ∃ pos, x.pos = some pos
  | 0, _, _, _, h => by cases h
  | n + 1, next, a, x, h => by
    simp only [attributes] at h
    split at h
    · cases h; exact ⟨_, rfl⟩
    · exact attributes_error Z e total n _ _ x h

end Fbx
