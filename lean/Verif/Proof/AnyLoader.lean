import Verif.Proof.AnySource
import Verif.Spec.AnyLoader

/-! # `load_next` with any loader follows the table -/

namespace Fbx
open Reader Parser Spec
variable {Z : Zlib} {α : Type}

/-! ## The data of arrays -/

theorem unpack_need {e : Ending} {s : Z.S} {k : Byte → Z.S} (h : Z.step s = .need k) (x : Byte) (xs : Bytes) (n : Nat) :
    unpack Z e (n + 1) s (x :: xs) = unpack Z e (n + 1) (k x) xs := by
  simp only [unpack, unpackByte, h]

/-- Puts a byte in front of data. -/
def preByte (b : Byte) : Except IoErr Bytes × Z.S × Bytes → Except IoErr Bytes × Z.S × Bytes
  | (.ok out, t, left) => (.ok (b :: out), t, left)
  | (.error x, t, left) => (.error x, t, left)

theorem unpack_emit {e : Ending} {s s' : Z.S} {b : Byte} (h : Z.step s = .emit b s') (bs : Bytes) (n : Nat) :
    unpack Z e (n + 1) s bs = preByte b (unpack Z e n s' bs) := by
  cases bs <;> simp only [unpack, unpackByte, h] <;> rcases unpack Z e n s' _ with ⟨_ | _, _, _⟩ <;> rfl

/-- The result of a read, after data read before. -/
def readRes (acc : Bytes) : Except IoErr Bytes → Res IoErr Bytes
  | .ok out => .ok (acc ++ out)
  | .error x => .err x

theorem zRead_unpack : ∀ (fuel n : Nat) (acc : Bytes) (s : Z.S) (r : Reader), n + r.rest.length < fuel → Room r →
    ∃ j, j ≤ r.rest.length ∧ (unpack Z r.ending n s r.rest).2.2 = r.rest.drop j ∧
      Dec.zRead Z fuel n acc (s, r) = (readRes acc (unpack Z r.ending n s r.rest).1, ((unpack Z r.ending n s r.rest).2.1, r.consume j)) := by
  intro fuel
  induction fuel with
  | zero => intro n acc s r h; omega
  | succ fuel ih =>
    intro n acc s r hf hroom
    rw [Dec.zRead]
    by_cases h0 : n = 0
    · subst h0
      exact ⟨0, by omega, rfl, by simp [consume_zero, unpack, readRes]⟩
    simp only [h0, if_false]
    obtain ⟨m, rfl⟩ : ∃ m, n = m + 1 := ⟨n - 1, by omega⟩
    cases hs : Z.step s with
    | need k =>
      simp only
      cases hr : r.rest with
      | nil =>
        simp only [readU8_empty hroom hr]
        refine ⟨0, by omega, ?_⟩
        simp only [unpack, unpackByte, hs, consume_zero]
        exact ⟨rfl, rfl⟩
      | cons b t =>
        have hc : (r.consume 1).rest = t := by simp [hr]
        simp only [readU8_head hroom hr]
        obtain ⟨j, h1, h2, h3⟩ := ih (m + 1) acc (k b) (r.consume 1) (by rw [hc]; rw [hr] at hf; simp at hf; omega) (hroom.consume (by rw [hr]; simp))
        rw [hc, show (r.consume 1).ending = r.ending from rfl] at h2 h3
        rw [hc] at h1
        rw [unpack_need hs]
        refine ⟨1 + j, by simp; omega, ?_, by rw [h3, consume_consume]⟩
        rw [h2, Nat.add_comm 1 j, List.drop_succ_cons]
    | emit b s1 =>
      simp only
      obtain ⟨j, h1, h2, h3⟩ := ih m (acc ++ [b]) s1 r (by omega) hroom
      rw [unpack_emit hs, Nat.add_sub_cancel, h3]
      rcases hu : unpack Z r.ending m s1 r.rest with ⟨_ | _, _, _⟩
      all_goals
        rw [hu] at h2
        refine ⟨j, h1, h2, ?_⟩
        simp [readRes, preByte]
    | eof =>
      refine ⟨0, by omega, ?_⟩
      cases hr : r.rest <;> simp only [unpack, unpackByte, hs, consume_zero] <;> exact ⟨rfl, rfl⟩
    | fail =>
      refine ⟨0, by omega, ?_⟩
      cases hr : r.rest <;> simp only [unpack, unpackByte, hs, consume_zero] <;> exact ⟨rfl, rfl⟩

theorem unpack_length (e : Ending) : ∀ (n : Nat) (s : Z.S) (bs out : Bytes), (unpack Z e n s bs).1 = .ok out → out.length = n
  | 0, s, bs, out, h => by cases h; rfl
  | n + 1, s, bs, out, h => by
    simp only [unpack] at h
    rcases hb : unpackByte Z e s bs with ⟨x | b, s', left⟩
    · rw [hb] at h; cases h
    · rw [hb] at h
      simp only at h
      have ih := unpack_length e n s' left
      rcases hn : unpack Z e n s' left with ⟨x | o, t, l⟩
      · rw [hn] at h; cases h
      · rw [hn] at h ih
        cases h
        simp [ih o rfl]

/-- The decoder. -/
def decOf : Option Z.S → Dec Z
  | none => .direct
  | some s => .zlib s

theorem element_length (e : Ending) (n : Nat) (d : Option Z.S) (bs out : Bytes) (h : (element Z e n d bs).1 = .ok out) : out.length = n := by
  cases d with
  | none =>
    simp only [element] at h
    split at h
    · cases h; simp; omega
    · cases h
  | some s => exact unpack_length e n s bs out h

theorem readExact_element (d : Option Z.S) (n : Nat) (r : Reader) (hroom : Room r) :
    ∃ j, j ≤ r.rest.length ∧ (element Z r.ending n d r.rest).2.2 = r.rest.drop j ∧
      Dec.readExact n (decOf d, r) = (readRes [] (element Z r.ending n d r.rest).1, (decOf (element Z r.ending n d r.rest).2.1, r.consume j)) := by
  have hu : u64Size = 2 ^ 64 := rfl
  cases d with
  | none =>
    by_cases h : n ≤ r.rest.length
    · refine ⟨n, h, by simp only [element, if_pos h], ?_⟩
      simp only [Room] at hroom
      simp only [Dec.readExact, decOf, readExact, element, if_pos h]
      rw [if_pos (by rw [hu]; omega)]
      rfl
    · refine ⟨r.rest.length, Nat.le_refl _, by simp only [element, if_neg h, List.drop_length], ?_⟩
      simp only [Dec.readExact, decOf, element, if_neg h]
      rw [readExact_dry (by omega) hroom]
      rfl
  | some s =>
    obtain ⟨j, h1, h2, h3⟩ := zRead_unpack (n + r.rest.length + 1) n [] s r (by omega) hroom
    refine ⟨j, h1, h2, ?_⟩
    simp only [Dec.readExact, decOf, h3, element]

/-- A program which pulls elements. -/
theorem run_pulling {ε : Type} (t : ElemTy ε) (bools : Bool) (value : Bytes → ε) (hval : ∀ bs, t.ofBytes bs = value bs)
    (hodd : ∀ bs : Bytes, bs.length = t.size → t.odd bs = (bools && bs.any neither)) :
    ∀ (c : SeqCons ε α) (rest : Nat) (failed odd : Bool) (d : Option Z.S) (r : Reader), Room r →
    ∃ j d' n', j ≤ r.rest.length ∧ (pulling Z r.ending t.size bools value c rest failed odd d r.rest).left = r.rest.drop j ∧
      ElemIter.run t c (⟨decOf d, rest, failed, odd⟩, r) =
        (resOf (pulling Z r.ending t.size bools value c rest failed odd d r.rest).answer,
          (⟨d', n', (pulling Z r.ending t.size bools value c rest failed odd d r.rest).failed,
            (pulling Z r.ending t.size bools value c rest failed odd d r.rest).odd⟩, r.consume j)) := by
  intro c
  induction c with
  | done x =>
    intro rest failed odd d r hr
    refine ⟨0, decOf d, rest, by omega, rfl, ?_⟩
    simp only [ElemIter.run, pulling, consume_zero]
    cases x <;> rfl
  | pull k ih =>
    intro rest failed odd d r hr
    simp only [ElemIter.run, M.bind_apply, ElemIter.next, pulling]
    by_cases h0 : rest = 0
    · simp only [h0, if_true]
      exact ih none 0 failed odd d r hr
    · simp only [h0, if_false]
      obtain ⟨j, h1, h2, h3⟩ := readExact_element d t.size r hr
      rw [h3]
      have hl := element_length (Z := Z) r.ending t.size d r.rest
      rcases he : element Z r.ending t.size d r.rest with ⟨x | x, d', left⟩
      all_goals
        rw [he] at h2 hl
        simp only at h2 hl
        subst h2
        simp only [readRes, List.nil_append]
      · obtain ⟨i, d2, n2, g1, g2, g3⟩ := ih (some (.error (PErr.ofIo x))) rest true odd d' (r.consume j) (hr.consume h1)
        rw [consume_rest, show (r.consume j).ending = r.ending from rfl] at g2 g3
        rw [consume_rest, List.length_drop] at g1
        refine ⟨j + i, d2, n2, by omega, ?_, ?_⟩
        · rw [← List.drop_drop]; exact g2
        · rw [consume_consume] at g3; exact g3
      · rw [hval, hodd x (hl x rfl)]
        obtain ⟨i, d2, n2, g1, g2, g3⟩ := ih (some (.ok (value x))) (rest - 1) failed (odd || (bools && x.any neither)) d' (r.consume j) (hr.consume h1)
        rw [consume_rest, show (r.consume j).ending = r.ending from rfl] at g2 g3
        rw [consume_rest, List.length_drop] at g1
        refine ⟨j + i, d2, n2, by omega, ?_, ?_⟩
        · rw [← List.drop_drop]; exact g2
        · rw [consume_consume] at g3; exact g3

/-- A program which reads bytes. -/
theorem run_reads : ∀ (c : ReadCons α) (limit : Nat) (r : Reader), Room r →
    ∃ j m, j ≤ r.rest.length ∧ (reads r.ending c limit r.rest).2 = r.rest.drop j ∧
      c.run (limit, r) = (resOf (reads r.ending c limit r.rest).1, (m, r.consume j)) := by
  intro c
  induction c with
  | done x =>
    intro limit r hr
    refine ⟨0, limit, by omega, rfl, ?_⟩
    simp only [ReadCons.run, reads, consume_zero]
    cases x <;> rfl
  | read n k ih =>
    intro limit r hr
    have hu : u64Size = 2 ^ 64 := rfl
    have go : ∀ (got : Bytes) (l : Nat), got = r.rest.take got.length → l = limit - got.length → takeRead n (limit, r) = (.ok got, (l, r.consume got.length)) →
        (if r.rest.take (min n limit) = [] ∧ n ≠ 0 ∧ limit ≠ 0 then r.ending else none) = none → r.rest.take (min n limit) = got →
        ∃ j m, j ≤ r.rest.length ∧ (reads r.ending (.read n k) limit r.rest).2 = r.rest.drop j ∧
          (ReadCons.read n k).run (limit, r) = (resOf (reads r.ending (.read n k) limit r.rest).1, (m, r.consume j)) := by
      intro got l hg hl ht hn hgot
      rw [hgot] at hn
      have hle : got.length ≤ r.rest.length := by rw [← hgot]; simp; omega
      obtain ⟨j, m, g1, g2, g3⟩ := ih (.ok got) l (r.consume got.length) (hr.consume hle)
      rw [consume_rest, show (r.consume got.length).ending = r.ending from rfl] at g2 g3
      rw [consume_rest, List.length_drop] at g1
      refine ⟨got.length + j, m, by omega, ?_, ?_⟩
      · simp only [reads, hn, hgot]
        rw [← List.drop_drop, ← hl]; exact g2
      · simp only [ReadCons.run, ht, reads, hn, hgot]
        rw [consume_consume] at g3
        rw [← hl]; exact g3
    by_cases hl : limit = 0
    · subst hl
      exact go [] 0 rfl rfl (by simp [takeRead, consume_zero]) (by simp) (by simp)
    · by_cases hn : n = 0
      · subst hn
        exact go [] limit rfl rfl (by simp [takeRead, hl, Reader.read, consume_zero]) (by simp) (by simp)
      · cases hb : r.rest with
        | nil =>
          cases he : r.ending with
          | none =>
            have := go [] limit rfl rfl (by simp [takeRead, hl, hn, Reader.read, consume_zero, hb, he]) (by simp [he]) (by simp [hb])
            rw [hb, he] at this
            exact this
          | some x =>
            obtain ⟨j, m, g1, g2, g3⟩ := ih (.error x) limit r hr
            rw [hb, he] at g2 g3
            rw [hb] at g1
            have ht : takeRead n (limit, r) = (.err x, (limit, r)) := by simp [takeRead, hl, hn, Reader.read, hb, he, hn]
            refine ⟨j, m, g1, ?_, ?_⟩
            · simp only [reads, List.take_nil, true_and, hn, hl, ne_eq, not_false_eq_true, and_self, if_true]
              exact g2
            · simp only [ReadCons.run, ht, reads, List.take_nil, true_and, hn, hl, ne_eq, not_false_eq_true, and_self, if_true]
              exact g3
        | cons b t =>
          have hne : r.rest.take (min n limit) ≠ [] := by
            rw [hb]
            obtain ⟨q, hq⟩ : ∃ q, min n limit = q + 1 := ⟨min n limit - 1, by omega⟩
            rw [hq]; simp
          have h := go (r.rest.take (min n limit)) _ (by rw [List.length_take, ← List.take_take]; simp [List.take_take]) rfl ?_ (by simp [hne]) rfl
          · rw [hb] at h; exact h
          · simp only [Room] at hr
            have hlen : r.rest.length = t.length + 1 := by rw [hb]; simp
            simp only [takeRead, if_neg hl, Reader.read]
            rw [if_neg (by omega), if_pos (by rw [hu]; omega)]
            have e1 : r.rest.take (min (min n limit) r.rest.length) = r.rest.take (min n limit) := by
              rw [← List.take_take, List.take_length]
            simp only [List.length_take, e1]

/-! ## The attribute reader -/

/-- The answer, if the handler does not object. -/
def Spec.Taking.said (l : Taking α) : Option ErrKind → Except ErrKind α
  | some k => .error k
  | none => l.answer

theorem objection_none (h : Option Handler) (log : List (Warning × SynPos)) : objection h log none = none := by
  cases h <;> rfl

namespace AP

/-- The warning about an odd boolean. -/
def oddAt (a : AP) (start idx : Nat) (odd : Bool) (n : Nat) : List (Warning × SynPos) :=
  (if odd then some (.incorrectBool, { ({ a.parser with reader := a.parser.reader.consume n } : Parser).synPos with compPos := start, attrIdx := some idx }) else
    none : Option (Warning × SynPos)).toList

/-- The objection to it. -/
def oddError (a : AP) (start idx : Nat) (odd : Bool) (n : Nat) : Option ErrKind :=
  objection a.parser.handler a.parser.log (if odd then
    some (.incorrectBool, { ({ a.parser with reader := a.parser.reader.consume n } : Parser).synPos with compPos := start, attrIdx := some idx }) else none)

theorem oddError_false (a : AP) (start idx n : Nat) : a.oddError start idx false n = none := objection_none _ _

/-- The outcome of loading the contents of an attribute is what the table says. -/
def LoadsToAs (a : AP) (start idx : Nat) (x : Res PErr α × AP) (l : Taking α) : Prop :=
  l.read ≤ a.parser.reader.rest.length ∧ match l.said (a.oddError start idx l.odd l.read) with
  | .ok v => x = (.ok v, a.logged (a.oddAt start idx l.odd l.read) (a.parser.reader.position + l.len) (a.parser.reader.consume l.read))
  | .error k => ∃ n p, x = (.err ⟨k, p⟩, a.logged (a.oddAt start idx l.odd l.read) n (a.parser.reader.consume l.read))

variable {a : AP} {start idx : Nat}

theorem LoadsToAs.of_eq {x y : Res PErr α × AP} {l : Taking α} (h : x = y) (hy : LoadsToAs a start idx y l) : LoadsToAs a start idx x l := h ▸ hy

/-- A failure before the loader comes into play. -/
theorem LoadsToAs.fails {k : ErrKind} {n j : Nat} (h : j ≤ a.parser.reader.rest.length) :
    LoadsToAs (α := α) a start idx (.err ⟨k, none⟩, a.moved n (a.parser.reader.consume j)) (.fails k j) := by
  refine ⟨h, ?_⟩
  simp only [Taking.fails, oddError_false, Taking.said]
  exact ⟨n, none, rfl⟩

/-- The end of the loader of a number, of binary data or of a string. -/
theorem LoadsToAs.answers {f : Except PErr α} {j len : Nat} (h : j ≤ a.parser.reader.rest.length) :
    LoadsToAs a start idx (resOf f, a.logged (a.oddAt start idx false j) (a.parser.reader.position + len) (a.parser.reader.consume j)) ⟨answerOf f, false, j, len⟩ := by
  refine ⟨h, ?_⟩
  simp only [oddError_false, Taking.said]
  cases f with
  | ok v => exact rfl
  | error e => exact ⟨_, e.pos, rfl⟩

theorem loadPrim_as (w : Nat) (f : BitVec (8 * w) → Except PErr α) (g : Nat → Except PErr α) (hfg : ∀ n, f (BitVec.ofNat _ n) = g n)
    (hr : Room a.parser.reader) : LoadsToAs a start idx (loadPrim w f a) (numberFor a.parser.reader.ending w g a.parser.reader.rest) := by
  have hroom := hr
  simp only [Room] at hroom
  simp only [numberFor]
  split
  · rename_i h
    rw [loadPrim, bind_err (readLe_dry hr h)]
    exact .fails (Nat.le_refl _)
  · rename_i h
    rw [loadPrim, M.bind_val (io_ok (readLe_exact (by omega) (by omega))), M.bind_val (updateNext_ok (by simp; omega)), hfg]
    refine .of_eq ?_ (.answers (by omega))
    cases g (fromLe (List.take w a.parser.reader.rest)) <;> rfl

/-- The warning with any handler. -/
theorem warn_to_any {β : Type} {b : AP} (htop : b.parser.started ≠ [] → b.parser.toplevel ≠ 0) (odd : Bool) (k : Unit → M PErr AP β) :
    (if odd = true then position start idx >>= fun pos => par (Parser.warn .incorrectBool pos) >>= k else k ()) b = match b.oddError start idx odd 0 with
      | none => k () (b.logged (b.oddAt start idx odd 0) b.attrs.next b.parser.reader)
      | some x => (.err ⟨x, some { b.parser.synPos with compPos := start, attrIdx := some idx }⟩, b.logged (b.oddAt start idx odd 0) b.attrs.next b.parser.reader) := by
  cases odd with
  | false => rw [oddError_false]; rfl
  | true =>
    simp only [if_true]
    rw [M.bind_apply, position_eq, if_neg (fun h => htop h.1 h.2)]
    simp only
    rw [M.bind_apply]
    simp only [par, M.zoom_apply]
    rw [warn_any]
    simp only [oddError, if_true, consume_zero]
    cases objection b.parser.handler b.parser.log (some (.incorrectBool, { b.parser.synPos with compPos := start, attrIdx := some idx })) <;>
      simp only [logged, oddAt, if_true, consume_zero, Option.toList, List.singleton_append]

theorem loadBool_as (f : Bool → Except PErr α) (hr : Room a.parser.reader) (htop : a.parser.started ≠ [] → a.parser.toplevel ≠ 0) :
    LoadsToAs a start idx (loadBool f start idx a) (booleanFor a.parser.reader.ending f a.parser.reader.rest) := by
  have hroom := hr
  simp only [Room] at hroom
  cases hb : a.parser.reader.rest with
  | nil =>
    rw [loadBool, bind_err (io_err (readU8_empty hr hb))]
    refine .of_eq ?_ (.fails (n := a.attrs.next) (Nat.zero_le _))
    simp only [consume_zero]
    rfl
  | cons b t =>
    rw [hb, List.length_cons] at hroom
    rw [loadBool, M.bind_val (io_ok (readU8_head hr hb)), M.bind_val (updateNext_ok (by simp; omega))]
    refine .of_eq (warn_to_any (b := (a.withReader (a.parser.reader.consume 1)).moved (a.parser.reader.position + 1) (a.parser.reader.consume 1)) htop (oddBool b) _) ?_
    refine ⟨by simp [booleanFor, hb], ?_⟩
    simp only [booleanFor, byte_bool, byte_odd]
    have e1 : ((a.withReader (a.parser.reader.consume 1)).moved (a.parser.reader.position + 1) (a.parser.reader.consume 1)).oddError start idx (neither b) 0 =
        a.oddError start idx (neither b) 1 := by
      simp only [oddError, moved, withReader, consume_zero]
    rw [e1]
    cases a.oddError start idx (neither b) 1 with
    | some k =>
      refine ⟨_, _, rfl⟩
    | none =>
      simp only [Taking.said]
      cases f (decide (b.toNat % 2 = 1)) with
      | ok v => rfl
      | error e => exact ⟨_, e.pos, rfl⟩

theorem loadSpecial_as (f : Nat → ReadCons α) (hr : Room a.parser.reader)
    (hcap : a.parser.reader.position + a.parser.reader.rest.length + 2 ^ 32 ≤ 2 ^ 64) :
    LoadsToAs a start idx (loadSpecial f a) (specialFor a.parser.reader.ending f a.parser.reader.rest) := by
  have hroom := hr
  simp only [Room] at hroom
  simp only [specialFor]
  split
  · rename_i h
    rw [loadSpecial, bind_err (readLe_dry hr h)]
    exact .fails (Nat.le_refl _)
  · rename_i h
    have hlen : fromLe (a.parser.reader.rest.take 4) < 2 ^ 32 := by
      have := fromLe_lt (a.parser.reader.rest.take 4)
      rw [List.length_take, Nat.min_eq_left (by omega)] at this
      exact this
    rw [loadSpecial, M.bind_val (io_ok (readLe_exact (by omega) (by omega)))]
    generalize fromLe (a.parser.reader.rest.take 4) = len at *
    refine .of_eq (M.bind_val (updateNext_ok (by simp; omega)) _) ?_
    obtain ⟨j, m, h1, h2, h3⟩ := run_reads (f len) len (a.parser.reader.consume 4) (hr.consume (by omega))
    have hend : (a.parser.reader.consume 4).ending = a.parser.reader.ending := rfl
    rw [consume_rest, hend] at h2
    rw [consume_rest, consume_consume, hend] at h3
    rw [consume_rest, List.length_drop] at h1
    simp only [moved, withReader, h3]
    rw [h2, List.drop_drop, List.length_drop, show a.parser.reader.rest.length - (a.parser.reader.rest.length - (4 + j)) = 4 + j by omega]
    refine .of_eq ?_ (.answers (by omega))
    simp only [consume_position, Nat.add_assoc]
    rfl

/-- The decoder of an array. -/
theorem create_as (enc : ArrEnc) (r : Reader) (hr : Room r) :
    (∃ d j, j ≤ r.rest.length ∧ Dec.create Z enc r = (.ok (decOf d), r.consume j) ∧ dataStart Z r.ending enc r.rest = (.ok d, r.rest.drop j)) ∨
    (∃ k j, j ≤ r.rest.length ∧ Dec.create Z enc r = (.err ⟨k, none⟩, r.consume j) ∧ dataStart Z r.ending enc r.rest = (.error k, r.rest.drop j)) := by
  cases enc with
  | direct => exact .inl ⟨none, 0, by omega, by simp [Dec.create, consume_zero, decOf], rfl⟩
  | zlib =>
    rw [Dec.create]
    cases h1 : r.rest with
    | nil =>
      refine .inr ⟨.data (.brokenCompression (Ending.error r.ending)), 0, by omega, ?_, rfl⟩
      rw [consume_zero, M.bind_apply, M.mapErr_apply, readU8_empty hr h1]
      rfl
    | cons b t =>
      rw [M.bind_apply, M.mapErr_apply, readU8_head hr h1]
      simp only
      have hc : (r.consume 1).rest = t := by simp [h1]
      have hr1 : Room (r.consume 1) := hr.consume (by simp [h1])
      cases t with
      | nil =>
        refine .inr ⟨.data (.brokenCompression (Ending.error r.ending)), 1, by simp, ?_, rfl⟩
        rw [M.bind_apply, M.mapErr_apply, readU8_empty hr1 hc]
        rfl
      | cons c t =>
        rw [M.bind_apply, M.mapErr_apply, readU8_head hr1 hc]
        simp only [dataStart, consume_consume]
        cases Z.header b c with
        | none => exact .inr ⟨_, 2, by simp, rfl, rfl⟩
        | some s => exact .inl ⟨some s, 2, by simp, rfl, rfl⟩

theorem loadSeq_as {e : Type} (t : ElemTy e) (bools : Bool) (value : Bytes → e) (f : Nat → SeqCons e α)
    (hval : ∀ bs, t.ofBytes bs = value bs) (hodd : ∀ bs : Bytes, bs.length = t.size → t.odd bs = (bools && bs.any neither))
    (hr : Room a.parser.reader) (htop : a.parser.started ≠ [] → a.parser.toplevel ≠ 0)
    (hcap : a.parser.reader.position + a.parser.reader.rest.length + 2 ^ 32 ≤ 2 ^ 64) :
    LoadsToAs a start idx (loadSeq Z t f start idx a) (arrayFor Z a.parser.reader.ending t.size bools value f a.parser.reader.rest) := by
  have hroom := hr
  simp only [Room] at hroom
  have hh := readArrHeader_to hr
  simp only [arrayFor]
  rw [loadSeq]
  by_cases h8 : a.parser.reader.rest.length < 8
  · rw [if_pos h8] at hh ⊢
    rw [bind_err hh]
    exact .fails (Nat.le_refl _)
  rw [if_neg h8] at hh ⊢
  simp only [ArrEnc.fromU32] at hh
  cases henc : (if fromLe ((a.parser.reader.rest.drop 4).take 4) = 0 then some ArrEnc.direct else if fromLe ((a.parser.reader.rest.drop 4).take 4) = 1 then some .zlib else none) with
  | none =>
    rw [henc] at hh
    rw [bind_err hh]
    exact .fails (by omega)
  | some enc =>
    rw [henc] at hh
    simp only at hh ⊢
    by_cases h12 : a.parser.reader.rest.length < 12
    · rw [if_pos h12] at hh ⊢
      rw [bind_err hh]
      exact .fails (Nat.le_refl _)
    rw [if_neg h12] at hh ⊢
    have hlen : fromLe ((a.parser.reader.rest.drop 8).take 4) < 2 ^ 32 := by
      have := fromLe_lt ((a.parser.reader.rest.drop 8).take 4)
      rw [List.length_take, List.length_drop, Nat.min_eq_left (by omega)] at this
      exact this
    refine .of_eq (M.bind_val hh _) ?_
    generalize fromLe ((a.parser.reader.rest.drop 8).take 4) = len at *
    generalize fromLe (a.parser.reader.rest.take 4) = m at *
    refine .of_eq (M.bind_val (updateNext_ok (by simp; omega)) _) ?_
    simp only [withReader_reader, consume_position]
    have r12 : Room (a.parser.reader.consume 12) := hr.consume (by omega)
    have e12 : (a.parser.reader.consume 12).ending = a.parser.reader.ending := rfl
    rcases create_as (Z := Z) enc _ r12 with ⟨d, j, c1, c2, c3⟩ | ⟨k, j, c1, c2, c3⟩
    all_goals
      rw [consume_rest, List.length_drop] at c1
      rw [consume_rest, e12, List.drop_drop] at c3
      rw [consume_consume] at c2
      rw [c3]
    · have hcr : par (M.zoom Parser.reader (fun r p => { p with reader := r }) (Dec.create Z enc))
          ((a.withReader (a.parser.reader.consume 12)).moved (a.parser.reader.position + 12 + len) (a.parser.reader.consume 12)) =
          (.ok (decOf d), a.moved (a.parser.reader.position + 12 + len) (a.parser.reader.consume (12 + j))) := by
        simp only [par, M.zoom_apply, moved, withReader, c2]
      refine .of_eq (M.bind_val hcr _) ?_
      have rj : Room (a.parser.reader.consume (12 + j)) := hr.consume (by omega)
      obtain ⟨i, d', n', g1, g2, g3⟩ := run_pulling (Z := Z) t bools value hval hodd (f m) m false false d _ rj
      have ej : (a.parser.reader.consume (12 + j)).ending = a.parser.reader.ending := rfl
      rw [consume_rest, ej, List.drop_drop] at g2
      rw [consume_rest, ej, consume_consume] at g3
      rw [consume_rest, List.length_drop] at g1
      simp only
      generalize pulling Z a.parser.reader.ending t.size bools value (f m) m false false d (a.parser.reader.rest.drop (12 + j)) = p at *
      obtain ⟨ans, failed, odd, left⟩ := p
      simp only at g2 g3 ⊢
      subst g2
      rw [List.length_drop, show a.parser.reader.rest.length - (a.parser.reader.rest.length - (12 + j + i)) = 12 + j + i by omega]
      cases ans with
      | error x =>
        have hs : runSeq t (f m) (decOf d) m (a.moved (a.parser.reader.position + 12 + len) (a.parser.reader.consume (12 + j))) =
            (.err x, a.moved (a.parser.reader.position + 12 + len) (a.parser.reader.consume (12 + j + i))) := by
          simp only [runSeq, moved, g3, resOf]
        refine .of_eq (bind_err hs) ?_
        refine ⟨by simp only; omega, ?_⟩
        simp only [arrayAnswer, oddError_false, Taking.said]
        exact ⟨_, x.pos, rfl⟩
      | ok v =>
        have hs : runSeq t (f m) (decOf d) m (a.moved (a.parser.reader.position + 12 + len) (a.parser.reader.consume (12 + j))) =
            (.ok (v, failed, odd), a.moved (a.parser.reader.position + 12 + len) (a.parser.reader.consume (12 + j + i))) := by
          simp only [runSeq, moved, g3, resOf]
        refine .of_eq (M.bind_val hs _) ?_
        simp only
        refine .of_eq (warn_to_any (b := a.moved (a.parser.reader.position + 12 + len) (a.parser.reader.consume (12 + j + i)))
          htop odd (fun _ => if failed = true then M.throw (PErr.ofData .nodeAttributeError) else pure v)) ?_
        have e1 : (a.moved (a.parser.reader.position + 12 + len) (a.parser.reader.consume (12 + j + i))).oddError start idx odd 0 =
            a.oddError start idx odd (12 + j + i) := by
          simp only [oddError, moved, consume_zero]
        rw [e1]
        have e2 : (arrayAnswer (⟨.ok v, failed, odd, a.parser.reader.rest.drop (12 + j + i)⟩ : Pulled α)).2 = odd := by cases failed <;> rfl
        refine ⟨by simp only; omega, ?_⟩
        simp only [e2]
        cases a.oddError start idx odd (12 + j + i) with
        | some k => exact ⟨_, _, rfl⟩
        | none =>
        cases failed with
        | true => exact ⟨_, none, rfl⟩
        | false =>
          simp only [arrayAnswer, Nat.add_assoc, Taking.said]
          rfl
    · have hcr : par (M.zoom Parser.reader (fun r p => { p with reader := r }) (Dec.create Z enc))
          ((a.withReader (a.parser.reader.consume 12)).moved (a.parser.reader.position + 12 + len) (a.parser.reader.consume 12)) =
          (.err ⟨k, none⟩, a.moved (a.parser.reader.position + 12 + len) (a.parser.reader.consume (12 + j))) := by
        simp only [par, M.zoom_apply, moved, withReader, c2]
      refine .of_eq (bind_err hcr) ?_
      simp only
      rw [List.length_drop, show a.parser.reader.rest.length - (a.parser.reader.rest.length - (12 + j)) = 12 + j by omega]
      exact .fails (by omega)

theorem bool_odd (bs : Bytes) (h : bs.length = ElemTy.bool.size) : ElemTy.bool.odd bs = (true && bs.any neither) := by
  match bs, h with
  | [b], _ => simp [ElemTy.bool, byte_odd]

theorem loadImpl_as (buffered : Bool) (ty : AttrType) (l : Loader α) (hr : Room a.parser.reader)
    (htop : a.parser.started ≠ [] → a.parser.toplevel ≠ 0)
    (hcap : a.parser.reader.position + a.parser.reader.rest.length + 2 ^ 32 ≤ 2 ^ 64) :
    LoadsToAs a start idx (loadImpl Z buffered ty l start idx a) (contentsFor Z a.parser.reader.ending buffered l ty a.parser.reader.rest) := by
  cases ty with
  | bool => exact loadBool_as _ hr htop
  | i16 => exact loadPrim_as 2 _ _ (fun _ => rfl) hr
  | i32 => exact loadPrim_as 4 _ _ (fun _ => rfl) hr
  | i64 => exact loadPrim_as 8 _ _ (fun _ => rfl) hr
  | f32 => exact loadPrim_as 4 _ _ (fun _ => rfl) hr
  | f64 => exact loadPrim_as 8 _ _ (fun _ => rfl) hr
  | arrBool => exact loadSeq_as ElemTy.bool true _ _ bool_ofBytes bool_odd hr htop hcap
  | arrI32 => exact loadSeq_as ElemTy.i32 false _ _ (fun _ => rfl) (fun _ _ => rfl) hr htop hcap
  | arrI64 => exact loadSeq_as ElemTy.i64 false _ _ (fun _ => rfl) (fun _ _ => rfl) hr htop hcap
  | arrF32 => exact loadSeq_as ElemTy.f32 false _ _ (fun _ => rfl) (fun _ _ => rfl) hr htop hcap
  | arrF64 => exact loadSeq_as ElemTy.f64 false _ _ (fun _ => rfl) (fun _ _ => rfl) hr htop hcap
  | binary => exact loadSpecial_as _ hr hcap
  | string => exact loadSpecial_as _ hr hcap

/-- Type code and contents, after skipping to `r`. -/
theorem body_as (buffered : Bool) (ld : Loader α) (htop : a.parser.started ≠ [] → a.parser.toplevel ≠ 0) (r : Reader)
    (h0 : readNextType a = (do
      let code ← io readU8
      match AttrType.fromTypeCode code with
      | none => M.throw (PErr.ofData (.invalidAttrTypeCode code))
      | some t => do
        M.modify (fun a => { a with attrs := { a.attrs with rest := a.attrs.rest - 1 } })
        pure (some t) : M PErr AP (Option AttrType)) (a.withReader r)) (hr : Room r)
    (hcap : r.rest ≠ [] → r.position + r.rest.length + 2 ^ 32 ≤ 2 ^ 64) (l : Taking α) (hl : l = inFrontFor Z r.ending buffered ld r.rest) :
    let w : Option (Warning × SynPos) := if l.odd then
      some (.incorrectBool, { ({ a.parser with reader := r.consume l.read } : Parser).synPos with compPos := start, attrIdx := some idx }) else none
    match l.said (objection a.parser.handler a.parser.log w) with
    | .ok v => loadBody Z buffered ld start idx a = (.ok (some v), a.fewer.logged w.toList (r.position + l.len) (r.consume l.read))
    | .error k => ∃ b p, loadBody Z buffered ld start idx a = (.err ⟨k, p⟩, b) ∧ b.parser = { a.parser with reader := r.consume l.read, log := w.toList ++ a.parser.log } ∧
        ∃ n, b.attrs = ⟨a.attrs.total, if typed r.rest then a.attrs.rest - 1 else a.attrs.rest, n⟩ := by
  cases hb : r.rest with
  | nil =>
    rw [hb] at hl
    subst hl
    simp only [inFrontFor, Taking.fails, Bool.false_eq_true, if_false, objection_none, Taking.said]
    refine ⟨a.withReader r, none, ?_, ?_, _, rfl⟩
    · exact bind_err (h0.trans (bind_err (io_err (readU8_empty hr hb))))
    · simp [withReader, consume_zero]
  | cons c bs =>
    rw [hb] at hl
    have hcap := hcap (by simp [hb])
    have hroom := hr
    simp only [Room] at hroom
    have h1 : (io readU8) (a.withReader r) = (.ok c, a.withReader (r.consume 1)) := io_ok (readU8_head hr hb)
    replace h0 := h0.trans (M.bind_val h1 _)
    simp only [inFrontFor] at hl
    rw [type_of_char] at h0
    cases hty : typeOfChar (Char.ofNat c.toNat) with
    | none =>
      rw [hty] at hl h0
      subst hl
      simp only [Taking.fails, Bool.false_eq_true, if_false, objection_none, Taking.said]
      exact ⟨_, none, bind_err h0, rfl, _, by simp only [typed, hty]; rfl⟩
    | some ty =>
      rw [hty] at hl h0
      simp only at hl h0
      have hmod : ((M.modify fun a => { a with attrs := { a.attrs with rest := a.attrs.rest - 1 } }) : M PErr AP Unit) (a.withReader (r.consume 1)) =
        (.ok (), (a.withReader (r.consume 1)).fewer) := rfl
      replace h0 := h0.trans (M.bind_val hmod _)
      have h2 : loadBody Z buffered ld start idx a =
          (do let v ← loadImpl Z buffered ty ld start idx; pure (some v) : M PErr AP _) (a.withReader (r.consume 1)).fewer :=
        M.bind_val h0 _
      have hto := loadImpl_as (Z := Z) (a := (a.withReader (r.consume 1)).fewer) (start := start) (idx := idx) buffered ty ld
        (hr.consume (by simp [hb])) htop (by
          simp only [fewer, withReader, consume_position, consume_rest, List.length_drop]
          rw [hb, List.length_cons] at hcap ⊢
          omega)
      have hbs : (a.withReader (r.consume 1)).fewer.parser.reader.rest = bs := by simp [fewer, withReader, hb]
      have hend : (a.withReader (r.consume 1)).fewer.parser.reader.ending = r.ending := rfl
      rw [hbs, hend] at hto
      generalize contentsFor Z r.ending buffered ld ty bs = lc at *
      subst hl
      obtain ⟨_, hto⟩ := hto
      have hob : ({ lc with read := 1 + lc.read, len := 1 + lc.len } : Taking α).said (objection a.parser.handler a.parser.log (if lc.odd then
          some (.incorrectBool, { ({ a.parser with reader := r.consume (1 + lc.read) } : Parser).synPos with compPos := start, attrIdx := some idx }) else none)) =
          lc.said ((a.withReader (r.consume 1)).fewer.oddError start idx lc.odd lc.read) := by
        simp only [oddError, fewer, withReader, consume_consume]
        generalize objection _ _ _ = ob
        cases ob <;> rfl
      simp only [hob]
      cases hans : lc.said ((a.withReader (r.consume 1)).fewer.oddError start idx lc.odd lc.read) with
      | error k =>
        rw [hans] at hto
        obtain ⟨n, p, hto⟩ := hto
        refine ⟨_, p, h2.trans (bind_err hto), ?_, n, ?_⟩
        · simp only [logged, oddAt, fewer, withReader, consume_consume]
        · simp only [typed, hty]; rfl
      | ok v =>
        rw [hans] at hto
        simp only at hto ⊢
        refine h2.trans ((M.bind_val hto _).trans ?_)
        simp only [fewer, withReader, logged, oddAt, consume_consume, consume_position, Nat.add_assoc]
        rfl

end AP

/-- `load_next` with any loader and any handler answers what the table says. -/
theorem answers_loadAny {L : Nat} (hL : L + 2 ^ 32 ≤ 2 ^ 64) {s : Client} {a : Attrs} (hi : CInv L s) (ha : s.attrs = some a) (hrest : a.rest ≠ 0)
    (hrun : s.parser.health = .running) (buffered : Bool) (ld : Loader α) :
    ∃ o t, s.call Z (.load buffered ld) = some (o, t) ∧ (match (look s.parser).skip s.parser.reader.skipping s.parser.reader.ending (a.next - (look s.parser).pos) with
      | (some x, here) =>
        let pos : SynPos := { here.here with compPos := a.next, attrIdx := some (a.total - a.rest) }
        o = .err ⟨.io x, some pos⟩ ∧ look t.parser = here ∧ t.parser.log = s.parser.log ∧ t.parser.health = .aborted pos ∧ t.attrs = some a
      | (none, here) =>
        let x := inFrontFor Z s.parser.reader.ending buffered ld here.bytes
        let pos : SynPos := { (here.move x.read).here with compPos := a.next, attrIdx := some (a.total - a.rest) }
        let w : Option (Warning × SynPos) := if x.odd then some (.incorrectBool, pos) else none
        look t.parser = here.move x.read ∧ t.parser.log = w.toList ++ s.parser.log ∧ match x.said (objection s.parser.handler s.parser.log w) with
        | .ok v => o = .value v ∧ t.parser.health = .running ∧ t.attrs = some ⟨a.total, a.rest - 1, here.pos + x.len⟩
        | .error k => o = .err ⟨k, some pos⟩ ∧ t.parser.health = .aborted pos ∧
          ∃ n, t.attrs = some ⟨a.total, if typed here.bytes then a.rest - 1 else a.rest, n⟩) ∧
      t.parser.handler = s.parser.handler := by
  obtain ⟨h1, h2, n, outer, h3, h4⟩ := hi.attrs a ha
  obtain ⟨x, r, hr, hm, hx, hread⟩ := AP.readNextType_from (a := ⟨s.parser, a⟩) hi.parser.reader hrest h2
  simp only at hr hm hx
  have hload := AP.load_eq (Z := Z) ⟨s.parser, a⟩ buffered ld
  simp only [hrun, h1, if_true] at hload
  have hpos0 : (look s.parser).pos = s.parser.reader.position := rfl
  simp only [hpos0, hx]
  cases x with
  | some x =>
    simp only at hread
    have hb : AP.loadBody Z buffered ld a.next (a.total - a.rest) ⟨s.parser, a⟩ = (.err (PErr.ofIo x), (⟨s.parser, a⟩ : AP).withReader r) :=
      bind_err hread
    rw [hb] at hload
    simp only at hload
    rw [AP.position_eq, if_neg (fun h => hi.parser.top h.1 h.2)] at hload
    simp only [Client.call, ha, hload]
    refine ⟨_, _, rfl, ⟨?_, ?_, ?_, ?_, rfl⟩, ?_⟩
    · simp only [AP.withReader, synPos_here]; rfl
    · rfl
    · rfl
    · simp only [Parser.setAborted, AP.withReader, synPos_here]
    · rfl
  | none =>
  simp only at hread ⊢
  have hroom : Room r := room (by omega) hr
  have hcap : r.rest ≠ [] → r.position + r.rest.length + 2 ^ 32 ≤ 2 ^ 64 := by
    intro hne
    rcases hr.2 with ⟨-, e1⟩ | hc
    · exact absurd e1 hne
    · omega
  have hb := AP.body_as (Z := Z) (a := ⟨s.parser, a⟩) (start := a.next) (idx := a.total - a.rest) buffered ld hi.parser.top r hread hroom hcap _ rfl
  have hbytes : (look { s.parser with reader := r }).bytes = r.rest := rfl
  have hpos : (look { s.parser with reader := r }).pos = r.position := rfl
  rw [hm.ending] at hb
  simp only at hb
  simp only [hbytes, hpos]
  have hmv : ∀ k, (look { s.parser with reader := r }).move k = look { s.parser with reader := r.consume k } := fun _ => rfl
  simp only [hmv, ← synPos_here]
  generalize inFrontFor Z s.parser.reader.ending buffered ld r.rest = l at *
  cases hans : l.said (objection s.parser.handler s.parser.log (if l.odd then some (.incorrectBool, { ({ s.parser with reader := r.consume l.read } : Parser).synPos with
    compPos := a.next, attrIdx := some (a.total - a.rest) }) else none)) with
  | ok v =>
    rw [hans] at hb
    simp only at hb ⊢
    rw [hb] at hload
    simp only [Client.call, ha, hload]
    exact ⟨_, _, rfl, ⟨rfl, rfl, rfl, hrun, rfl⟩, rfl⟩
  | error k =>
    rw [hans] at hb
    obtain ⟨b, p, hb, hbp, n, hba⟩ := hb
    rw [hb] at hload
    simp only at hload
    rw [AP.position_eq, hbp, if_neg (fun h => hi.parser.top h.1 h.2)] at hload
    simp only at hload
    simp only [Client.call, ha, hload]
    refine ⟨_, _, rfl, ⟨?_, ?_, ?_, ?_, n, ?_⟩, ?_⟩
    · simp only [hbp, Parser.setAborted]; rfl
    · simp only [hbp, Parser.setAborted]
    · rfl
    · rfl
    · simp only [hba]
    · simp only [hbp, Parser.setAborted]

/-- `load_next` with any loader answers what the table says. -/
theorem answers_loadFor {L : Nat} (hL : L + 2 ^ 32 ≤ 2 ^ 64) {s : Client} {a : Attrs} (hi : CInv L s) (ha : s.attrs = some a) (hrest : a.rest ≠ 0)
    (hrun : s.parser.health = .running) (ht : tolerant s.parser) (buffered : Bool) (ld : Loader α) :
    ∃ o t, s.call Z (.load buffered ld) = some (o, t) ∧
      LoadAnswersFor Z s.parser.reader.skipping s.parser.reader.ending buffered ld s a o t ∧ t.parser.handler = s.parser.handler := by
  obtain ⟨o, t, h1, h2, h3⟩ := answers_loadAny (Z := Z) hL hi ha hrest hrun buffered ld
  refine ⟨o, t, h1, ?_, h3⟩
  unfold LoadAnswersFor
  revert h2
  rcases (look s.parser).skip s.parser.reader.skipping s.parser.reader.ending (a.next - (look s.parser).pos) with ⟨_ | x, here⟩
  · simp only [tolerant_accepts ht, Taking.said]
    rintro ⟨h4, h5, h6⟩
    refine ⟨h4, ?_, ?_⟩
    · rw [h5]
      cases (inFrontFor Z s.parser.reader.ending buffered ld here.bytes).odd <;> rfl
    · revert h6
      cases (inFrontFor Z s.parser.reader.ending buffered ld here.bytes).answer with
      | ok v => exact id
      | error k => exact fun h => ⟨h.1, h.2.1⟩
  · exact fun h => ⟨h.1, h.2.1, h.2.2.1, h.2.2.2.1⟩

/-! ## Whole files -/

theorem load_call {s t : Client} {at_ : Attrs} {b : Bool} {l : Loader α} {o : Outcome α} (ha : s.attrs = some at_) (h : s.call Z (.load b l) = some (o, t)) :
    ∃ ap : AP, t = ⟨ap.parser, some ap.attrs⟩ ∧ match o with
    | .value v => AP.load Z b l ⟨s.parser, at_⟩ = (.ok (some v), ap)
    | .noValue => AP.load Z b l ⟨s.parser, at_⟩ = (.ok none, ap)
    | .err e => AP.load Z b l ⟨s.parser, at_⟩ = (.err e, ap)
    | .panic x => AP.load Z b l ⟨s.parser, at_⟩ = (.panic x, ap)
    | _ => False := by
  simp only [Client.call, ha] at h
  rcases hl : AP.load Z b l ⟨s.parser, at_⟩ with ⟨(_ | _) | _ | _, c⟩ <;> rw [hl] at h <;> cases h <;> exact ⟨c, rfl, rfl⟩

/-- Some attributes of a node. -/
theorem loadEach_for {L : Nat} (hL : L + 2 ^ 32 ≤ 2 ^ 64) (m : Skipping) (e : Ending) (buffered : Bool) (total : Nat) : ∀ (ls : List (Loader α)) (n next : Nat) (s : Client),
    CInv L s → s.attrs = some ⟨total, n, next⟩ → s.parser.health = .running → tolerant s.parser → s.parser.reader.skipping = m → s.parser.reader.ending = e →
    ∃ ap : AP, look ap.parser = (attributesFor Z m e buffered total ls n next (look s.parser)).ahead ∧
      ap.parser.log = (attributesFor Z m e buffered total ls n next (look s.parser)).warnings ++ s.parser.log ∧
      match (attributesFor Z m e buffered total ls n next (look s.parser)).error with
      | some x => loadEach Z buffered ls ⟨s.parser, ⟨total, n, next⟩⟩ = (.err x, ap)
      | none => loadEach Z buffered ls ⟨s.parser, ⟨total, n, next⟩⟩ = (.ok (attributesFor Z m e buffered total ls n next (look s.parser)).values, ap) ∧
        ap.parser.health = .running ∧ ap.parser.handler = s.parser.handler ∧ ∃ h at_, Runs (α := α) Z s h ⟨ap.parser, at_⟩ ∧ h.calm := by
  intro ls
  induction ls with
  | nil =>
    intro n next s hi ha hrun ht hm hend
    obtain ⟨sp, sa⟩ := s
    exact ⟨⟨sp, ⟨total, n, next⟩⟩, rfl, rfl, rfl, hrun, rfl, [], _, .nil, fun _ _ h => by cases h⟩
  | cons l ls ih =>
    intro n next s hi ha hrun ht hm hend
    cases n with
    | zero =>
      obtain ⟨ap, h1, h2, h3⟩ := ih 0 next s hi ha hrun ht hm hend
      refine ⟨ap, h1, h2, ?_⟩
      have hl := AP.load_none (Z := Z) buffered l ⟨s.parser, ⟨total, 0, next⟩⟩ hrun rfl
      simp only [attributesFor]
      generalize attributesFor Z m e buffered total ls 0 next (look s.parser) = r at *
      cases he : r.error with
      | some x =>
        rw [he] at h3
        simp only [loadEach, M.bind_apply, hl, h3]
      | none =>
        rw [he] at h3
        obtain ⟨h3, h4⟩ := h3
        refine ⟨?_, h4⟩
        simp only [loadEach, M.bind_apply, hl, h3, M.pure_apply]
    | succ n =>
      obtain ⟨o, t, hc, hans, hhd⟩ := answers_loadFor (Z := Z) hL hi ha (by simp) hrun ht buffered l
      obtain ⟨ap, hap, hlo⟩ := load_call ha hc
      rw [hend, hm] at hans
      simp only [LoadAnswersFor] at hans
      simp only [attributesFor]
      rcases hx : (look s.parser).skip m e (next - (look s.parser).pos) with ⟨_ | x, here⟩
      · rw [hx] at hans
        simp only at hans ⊢
        obtain ⟨hlook, hlog, hans⟩ := hans
        generalize inFrontFor Z e buffered l here.bytes = x at *
        cases hl : x.answer with
        | error k =>
          rw [hl] at hans
          obtain ⟨rfl, h3⟩ := hans
          subst hap
          refine ⟨ap, hlook, hlog, ?_⟩
          simp only at hlo ⊢
          simp only [loadEach, M.bind_apply, hlo]
        | ok v =>
          rw [hl] at hans
          simp only at hans ⊢
          obtain ⟨rfl, h3, h4⟩ := hans
          have hcalm : ∀ x, (Outcome.value v : Outcome α) ≠ .panic x := by intro x h; cases h
          obtain ⟨c1, c2⟩ := call_skipping hL hi hc hcalm
          obtain ⟨aq, g1, g2, g3⟩ := ih n (here.pos + x.len) t ((call_did hL hi hc).inv hi hcalm) h4 h3 (fun f hf => ht f (by rw [← hhd]; exact hf))
            (c1.trans hm) (c2.trans hend)
          have hat : ap = ⟨t.parser, ⟨total, n, here.pos + x.len⟩⟩ := by
            rw [hap] at h4 ⊢
            simp only [Option.some.injEq, Nat.add_sub_cancel] at h4
            rw [← h4]
          rw [hlook] at g1 g2 g3
          refine ⟨aq, g1, by rw [g2, hlog, List.append_assoc], ?_⟩
          generalize attributesFor Z m e buffered total ls n (here.pos + x.len) (here.move x.read) = r at *
          simp only at hlo
          rw [hat] at hlo
          cases he : r.error with
          | some x =>
            rw [he] at g3
            simp only at g3 ⊢
            simp only [loadEach, M.bind_apply, hlo, g3]
          | none =>
            rw [he] at g3
            obtain ⟨g3, g4, g5, h, at_, g6, g7⟩ := g3
            refine ⟨?_, g4, g5.trans hhd, _, at_, Runs.trans (Runs.snoc .nil (by simp) hc) (by
              intro c x hm
              simp only [List.nil_append, List.mem_singleton, Prod.mk.injEq] at hm
              cases hm.2) g6, ?_⟩
            · simp only [loadEach, M.bind_apply, hlo, g3, M.pure_apply]
            · refine calm_append.mpr ⟨?_, g7⟩
              intro c x hm
              simp only [List.nil_append, List.mem_singleton, Prod.mk.injEq] at hm
              cases hm.2
      · rw [hx] at hans
        obtain ⟨rfl, h2, h3, h4⟩ := hans
        subst hap
        refine ⟨ap, h2, h3, ?_⟩
        simp only at hlo ⊢
        simp only [loadEach, M.bind_apply, hlo]

theorem Spec.SeesFor.after {v : FbxVersion} {r : ReadingFor α} {o : Obs α} {ws : List (Warning × SynPos)} {seen : List (Obs α)} {log : List (Warning × SynPos)}
    {x : Res PErr (List (Obs α)) × Parser} (h : SeesFor v r (seen ++ [o]) (ws ++ log) x) : SeesFor v (r.after o ws) seen log x := by
  unfold SeesFor at h ⊢
  simp only [ReadingFor.after]
  simp only [List.append_assoc, List.cons_append, List.nil_append] at h ⊢
  exact h

theorem nextEvent_call_as {p : Parser} {at_ : Option Attrs} {o : Outcome α} {u : Client} (h : (Client.mk p at_).call Z (.next : Call α) = some (o, u)) :
    match o with
    | .event ev => Parser.nextEvent p = (.ok ev, u.parser) ∧ u.attrs = (match ev with | .startNode _ _ => attrsOf u.parser | _ => none)
    | .err e => Parser.nextEvent p = (.err e, u.parser)
    | .panic x => Parser.nextEvent p = (.panic x, u.parser)
    | _ => False := by
  simp only [Client.call] at h
  rcases hx : Parser.nextEvent p with ⟨_ | _ | _, q⟩ <;> rw [hx] at h <;> simp only [Option.some.injEq, Prod.mk.injEq] at h <;> obtain ⟨rfl, rfl⟩ := h
  · rename_i ev
    cases ev <;> exact ⟨rfl, rfl⟩
  · rfl
  · rfl

theorem drive_readingFor {checks : Bool} {v : FbxVersion} {r0 : Reader} {p : Parser} {m : Skipping} {e : Ending}
    (hp : Parser.create checks v r0 = .ok p) (hpos : r0.position = headerLen) (hsz : Sized r0.rest) (hm : r0.skipping = m) (he : r0.ending = e) (b : Bool)
    (plan : Nat → String → Nat → List (Loader α)) :
    ∀ (n k : Nat) (seen : List (Obs α)) (h : History α) (s : Client), Runs Z ⟨p, none⟩ h s → h.calm → s.parser.health = .running → tolerant s.parser →
      SeesFor v (readingFor Z m e checks b plan n k (look s.parser)) seen s.parser.log (drive Z b plan n k seen s.parser) := by
  intro n
  induction n with
  | zero => intro k seen h s hr hn hrun ht; exact ⟨(congrArg Res.ok (List.append_nil seen).symm : _), rfl, rfl⟩
  | succ n ih =>
    intro k seen h s hr hn hrun ht
    obtain ⟨bytes, ending, cursor, position, seekable, limit⟩ := r0
    simp only at hpos hsz
    subst hpos
    obtain ⟨hi, hL⟩ := open_inv ⟨_, _, _, _, _, _, hp⟩ hsz
    have hst := Opens.state ⟨_, _, _, _, _, _, hp⟩
    have hpe := create_eq hp
    have hfr := hr.frame hL hi hn
    have hv : s.parser.version = v := hfr.1.trans (by rw [hpe])
    have hck : s.parser.checks = checks := hfr.2.trans (by rw [hpe])
    obtain ⟨hm1, he1⟩ := hr.source hL hi hn
    have hms : s.parser.reader.skipping = m := hm1.trans (by rw [hpe]; exact hm)
    have hes : s.parser.reader.ending = e := he1.trans (by rw [hpe]; exact he)
    have hkids := hr.kids hL hi hn hst.2.1 hrun
    obtain ⟨o, t, hc, hans⟩ := answers_nextFrom (Z := Z) (α := α) hL (hr.inv hL hi hn) hrun ht (fun n outer h => (hkids n outer h).1)
    rw [hck, hms, hes] at hans
    have hne := nextEvent_call_as hc
    have hcalm : ∀ {o' : Outcome α}, (∀ x, o' ≠ .panic x) → (h ++ [((.next : Call α), o')]).calm := by
      intro o' ho
      refine calm_append.mpr ⟨hn, ?_⟩
      intro c x hm
      simp only [List.mem_singleton, Prod.mk.injEq] at hm
      exact ho x hm.2.symm
    have hhd : ∀ {u : Parser}, u.handler = s.parser.handler → tolerant u := fun hu f hf => ht f (hu ▸ hf)
    obtain ⟨⟨vd, w, bb⟩, hx⟩ : ∃ x, (look s.parser).nextFrom m e checks = x := ⟨_, rfl⟩
    rw [hx] at hans
    rw [drive, M.bind_apply]
    simp only [readingFor]
    rw [hx]
    cases vd with
    | fails kd =>
      obtain ⟨rfl, h2, h3, h4⟩ := hans
      simp only at hne
      simp only [hne]
      exact ⟨rfl, h2⟩
    | overflows =>
      cases hans
      simp only at hne
      simp only [hne]
      exact rfl
    | finishes =>
      obtain ⟨rfl, h2, footer, rfl, h4⟩ := hans
      simp only at hne
      simp only [hne.1]
      refine ⟨footer, by simp, ?_⟩
      rw [hv] at h4
      exact h4
    | ends =>
      obtain ⟨rfl, h2, h3, h4⟩ := hans
      simp only at hne
      simp only [hne.1]
      have hd := call_did hL (hr.inv hL hi hn) hc
      have hr' := Runs.snoc hr hn hc
      have hn' := hcalm (o' := .event .endNode) (by simp)
      have hht : t.parser.handler = s.parser.handler := by
        cases hd with
        | event hrun he hi' ha => exact he.frame.2.2
      have := ih k (seen ++ [.end]) _ t hr' hn' h4 (hhd hht)
      rw [h3, h2] at this
      exact this.after
    | starts name c =>
      obtain ⟨rfl, h2, h3, h4⟩ := hans
      simp only at hne
      have hd := call_did hL (hr.inv hL hi hn) hc
      have hr' := Runs.snoc hr hn hc
      have hn' := hcalm (o' := .event (.startNode name c)) (by simp)
      have hht : t.parser.handler = s.parser.handler ∧ t.attrs = some ⟨c, c, t.parser.reader.position⟩ := by
        cases hd with
        | event hrun he hi' ha => exact ⟨he.frame.2.2, ha⟩
      obtain ⟨c1, c2⟩ := call_skipping hL (hr.inv hL hi hn) hc (by simp)
      obtain ⟨ap, g1, g2, g3⟩ := loadEach_for (Z := Z) hL m e b c (plan k name c) c t.parser.reader.position t (hr'.inv hL hi hn') hht.2 h4 (hhd hht.1)
        (c1.trans hms) (c2.trans hes)
      rw [h3, show t.parser.reader.position = bb.pos by rw [← h3]; rfl] at g1 g2 g3
      simp only
      have hof : AP.ofParser t.parser = .ok ⟨t.parser, ⟨c, c, bb.pos⟩⟩ := by
        have h5 := hne.2
        rw [hht.2] at h5
        rw [show bb.pos = t.parser.reader.position by rw [← h3]; rfl]
        simp only [attrsOf] at h5
        unfold AP.ofParser at h5 ⊢
        split at h5
        · rename_i a ha
          split at ha
          · cases ha
          · cases ha
            cases h5
            rfl
        · cases h5
      simp only [hne.1, M.bind_apply, withAttrs, hof]
      generalize attributesFor Z m e b c (plan k name c) c bb.pos bb = r at g1 g2 g3 ⊢
      cases he : r.error with
      | some x =>
        rw [he] at g3
        simp only at g3
        simp only [g3]
        refine ⟨rfl, ?_⟩
        simp only [g2, h2, List.append_assoc]
      | none =>
        rw [he] at g3
        obtain ⟨g3, g4, g5, hz, at_, hr2, hn2⟩ := g3
        simp only [g3]
        have := ih (k + 1) (seen ++ [.start name c r.values]) _ ⟨ap.parser, at_⟩ (hr'.trans hn' hr2) (calm_append.mpr ⟨hn', hn2⟩) g4 (hhd (g5.trans hht.1))
        simp only [g1, g2, h2] at this
        refine SeesFor.after ?_
        rw [List.append_assoc]
        exact this

end Fbx
