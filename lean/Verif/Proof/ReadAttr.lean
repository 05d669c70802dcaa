import Verif.Spec.Read
import Verif.Spec.Drain
import Verif.Spec.Write
import Verif.Proof.ReaderAt
import Verif.Proof.WriterAttrs

/-! # Loading a well-formed attribute -/

namespace Fbx
open Spec Reader
open Writer (le_eq)

/-- Results of loaders as results of calls. -/
def resOf {ε α : Type} : Except ε α → Res ε α
  | .ok a => .ok a
  | .error e => .err e

/-- How elements of a type are encoded. -/
structure Codes {e : Type} (t : ElemTy e) (f : e → Bytes) : Prop where
  size : ∀ x, (f x).length = t.size
  ofBytes : ∀ x, t.ofBytes (f x) = x
  odd : ∀ x, t.odd (f x) = false

theorem Codes.bool : Codes ElemTy.bool (fun b => [if b then 0x59 else 0x54]) where
  size _ := rfl
  ofBytes b := by cases b <;> rfl
  odd b := by cases b <;> rfl
theorem Codes.i32 : Codes ElemTy.i32 (fun v => leBytes 4 v.toNat) where
  size _ := by simp [ElemTy.i32]
  ofBytes v := by simp only [ElemTy.i32]; rw [fromLe_leBytes v.isLt]; simp
  odd _ := rfl
theorem Codes.i64 : Codes ElemTy.i64 (fun v => leBytes 8 v.toNat) where
  size _ := by simp [ElemTy.i64]
  ofBytes v := by simp only [ElemTy.i64]; rw [fromLe_leBytes v.isLt]; simp
  odd _ := rfl
theorem Codes.f32 : Codes ElemTy.f32 (fun v => leBytes 4 v.toNat) where
  size _ := by simp [ElemTy.f32]
  ofBytes v := by simp only [ElemTy.f32]; rw [fromLe_leBytes v.isLt]; simp
  odd _ := rfl
theorem Codes.f64 : Codes ElemTy.f64 (fun v => leBytes 8 v.toNat) where
  size _ := by simp [ElemTy.f64]
  ofBytes v := by simp only [ElemTy.f64]; rw [fromLe_leBytes v.isLt]; simp
  odd _ := rfl

theorem Codes.flatMap_length {e : Type} {t : ElemTy e} {f : e → Bytes} (hc : Codes t f) (xs : List e) :
    (xs.flatMap f).length = xs.length * t.size := by
  induction xs with
  | nil => simp
  | cons x xs ih => simp [hc.size, ih, Nat.add_mul, Nat.add_comm]

theorem iter_run {Z : Zlib} {e α : Type} {t : ElemTy e} {f : e → Bytes} (hc : Codes t f) (c : SeqCons e α) :
    ∀ (xs : List e) (it : ElemIter Z) (r : Reader) (avail : Nat), Fine r → it.rest = xs.length →
      Dec.Feeds it.dec r (xs.flatMap f) avail →
      ∃ it' k, ElemIter.run t c (it, r) = (resOf (feedSeq c xs), (it', r.consume k)) ∧ k ≤ avail ∧ k ≤ r.rest.length ∧
        it'.hasError = it.hasError ∧ it'.odd = it.odd ∧
        (it.dec = .direct → k + (restSeq c xs).length * t.size = xs.length * t.size) := by
  induction c with
  | done q =>
    intro xs it r avail _ _ _
    refine ⟨it, 0, ?_, by omega, by omega, rfl, rfl, fun _ => ?_⟩
    · rw [consume_zero]
      cases q <;> cases xs <;> rfl
    · cases xs <;> simp [restSeq]
  | pull k ih =>
    intro xs it r avail hf hr hfeed
    cases xs with
    | nil =>
      obtain ⟨it', j, h1, h2, h3, h4⟩ := ih none [] it r avail hf hr hfeed
      refine ⟨it', j, ?_, h2, h3, h4⟩
      rw [ElemIter.run, M.bind_apply]
      simp only [ElemIter.next, hr, List.length_nil, if_true]
      exact h1
    | cons x xs =>
      simp only [List.flatMap_cons] at hfeed
      obtain ⟨d', j, h1, h2, h3, h4, h5⟩ := Dec.readExact_feeds hf hfeed
      rw [hc.size] at h1
      have hr' : it.rest - 1 = xs.length := by rw [hr]; simp
      obtain ⟨it', i, g1, g2, g3, g4, g5, g6⟩ := ih (some (.ok x)) xs
        { it with dec := d', rest := it.rest - 1, odd := it.odd || t.odd (f x) } (r.consume j) (avail - j)
        (hf.consume h3) hr' h4
      simp only [consume_rest, List.length_drop] at g3
      refine ⟨it', j + i, ?_, by omega, by omega, g4, by rw [g5]; simp [hc.odd], fun hd => ?_⟩
      · rw [ElemIter.run, M.bind_apply]
        simp only [ElemIter.next, hr, List.length_cons, Nat.succ_ne_zero, Nat.add_eq_zero_iff, and_false, if_false, h1, hc.ofBytes]
        rw [← consume_consume, feedSeq, ← g1, hr]
        rfl
      · obtain ⟨a1, a2⟩ := h5 hd
        have := g6 a1
        rw [hc.size] at a2
        simp only [restSeq, List.length_cons, Nat.add_mul]
        omega

theorem takeRead_fine {r : Reader} (hf : Fine r) {bs t : Bytes} (h : r.rest = bs ++ t) (n : Nat) :
    takeRead n (bs.length, r) = (.ok (bs.take n), ((bs.drop n).length, r.consume (bs.take n).length)) := by
  have hu : u64Size = 2 ^ 64 := rfl
  have hp := hf.position
  rw [h, List.length_append] at hp
  by_cases h0 : bs.length = 0
  · have : bs = [] := List.eq_nil_of_length_eq_zero h0
    subst this
    simp [takeRead, consume_zero]
  · simp only [takeRead, h0, if_false]
    have hm : min (min n bs.length) r.rest.length = min n bs.length := by rw [h, List.length_append]; omega
    simp only [Reader.read, hm]
    by_cases hn : n = 0
    · subst hn; simp [consume_zero]
    · rw [if_neg (by omega), if_pos (by rw [hu]; omega), h]
      simp only [List.length_take, List.length_drop, List.length_append, Prod.mk.injEq, Res.ok.injEq, and_true]
      refine ⟨?_, by omega⟩
      rw [List.take_append_of_le_length (by omega), ← List.take_eq_take_min]

theorem readCons_run {α : Type} (c : ReadCons α) : ∀ (bs t : Bytes) (r : Reader), Fine r → r.rest = bs ++ t →
    ∃ m k, c.run (bs.length, r) = (resOf (feedBytes c bs), (m, r.consume k)) ∧ k + (restBytes c bs).length = bs.length := by
  induction c with
  | done q =>
    intro bs t r _ _
    refine ⟨bs.length, 0, ?_, by simp [restBytes]⟩
    rw [consume_zero]
    cases q <;> rfl
  | read n k ih =>
    intro bs t r hf h
    obtain ⟨m, j, h1, h2⟩ := ih (.ok (bs.take n)) (bs.drop n) t (r.consume (bs.take n).length)
      (hf.consume (by rw [h]; simp; omega)) (by
        rw [consume_rest, h, List.length_take, List.drop_append_of_le_length (by omega)]
        congr 1
        by_cases hn : n ≤ bs.length
        · rw [Nat.min_eq_left hn]
        · rw [Nat.min_eq_right (by omega), List.drop_eq_nil_of_le (by omega), List.drop_eq_nil_of_le (by omega)])
    simp only [List.length_drop] at h2
    refine ⟨m, (bs.take n).length + j, ?_, by simp [restBytes]; omega⟩
    simp only [ReadCons.run]
    rw [takeRead_fine hf h n]
    simp only
    rw [h1, consume_consume, feedBytes]

namespace AP

/-- The reader of the borrowed parser. -/
def withReader (a : AP) (r : Reader) : AP := { a with parser := { a.parser with reader := r } }

theorem io_ok {α : Type} {m : M IoErr Reader α} {a : AP} {v : α} {r : Reader} (h : m a.parser.reader = (.ok v, r)) :
    AP.io m a = (.ok v, a.withReader r) := by
  simp only [AP.io, AP.par, Parser.io, M.zoom_apply, M.mapErr_apply, h, withReader]


@[simp] theorem withReader_reader (a : AP) (r : Reader) : (a.withReader r).parser.reader = r := rfl
@[simp] theorem withReader_attrs (a : AP) (r : Reader) : (a.withReader r).attrs = a.attrs := rfl
theorem withReader_withReader (a : AP) (r q : Reader) : (a.withReader r).withReader q = a.withReader q := rfl

/-- Same with the offset of the next attribute. -/
def moved (a : AP) (n : Nat) (r : Reader) : AP :=
  { attrs := { a.attrs with next := n }, parser := { a.parser with reader := r } }

theorem updateNext_ok {a : AP} {size : Nat} (h : a.parser.reader.position + size < 2 ^ 64) :
    updateNext size a = (.ok (), a.moved (a.parser.reader.position + size) a.parser.reader) := by
  have hu : u64Size = 2 ^ 64 := rfl
  simp only [updateNext]
  rw [if_pos (by rw [hu]; exact h)]
  rfl

theorem loadPrim_fine {α : Type} (w : Nat) (v : BitVec (8 * w)) (f : BitVec (8 * w) → Except PErr α) (a : AP) (t : Bytes)
    (hf : Fine a.parser.reader) (h : a.parser.reader.rest = leBytes w v.toNat ++ t) :
    loadPrim w f a = (resOf (f v), a.moved (a.parser.reader.position + w) (a.parser.reader.consume w)) := by
  have hp := hf.position
  rw [h, List.length_append, leBytes_length] at hp
  have hlt : v.toNat < 256 ^ w := by
    have := v.isLt
    rwa [Nat.pow_mul] at this
  rw [loadPrim, M.bind_val (io_ok (readLe_fine hf h hlt)),
    M.bind_val (updateNext_ok (by simp; omega)), BitVec.ofNat_toNat, BitVec.setWidth_eq]
  cases f v <;> rfl

theorem loadBool_fine {α : Type} (v : Bool) (f : Bool → Except PErr α) (start idx : Nat) (a : AP) (t : Bytes)
    (hf : Fine a.parser.reader) (h : a.parser.reader.rest = (if v then 0x59 else 0x54) :: t) :
    loadBool f start idx a = (resOf (f v), a.moved (a.parser.reader.position + 1) (a.parser.reader.consume 1)) := by
  have hp := hf.position
  rw [h, List.length_cons] at hp
  rw [loadBool, M.bind_val (io_ok (readU8_fine hf h)), M.bind_val (updateNext_ok (by simp; omega))]
  cases v
  · show M.ofExcept (f false) _ = _
    cases f false <;> rfl
  · show M.ofExcept (f true) _ = _
    cases f true <;> rfl

theorem loadSpecial_fine {α : Type} (c : Nat → ReadCons α) (bs t : Bytes) (a : AP)
    (hf : Fine a.parser.reader) (hlen : bs.length < 2 ^ 32) (h : a.parser.reader.rest = leBytes 4 bs.length ++ bs ++ t) :
    ∃ k, k ≤ 4 + bs.length ∧ (restBytes (c bs.length) bs = [] → k = 4 + bs.length) ∧ loadSpecial c a = (resOf (feedBytes (c bs.length) bs),
      a.moved (a.parser.reader.position + (4 + bs.length)) (a.parser.reader.consume k)) := by
  have hp := hf.position
  rw [h] at hp
  simp only [List.length_append, leBytes_length] at hp
  rw [List.append_assoc] at h
  have hf4 : Fine (a.parser.reader.consume 4) := hf.consume (by rw [h]; simp)
  have h4 : (a.parser.reader.consume 4).rest = bs ++ t := by
    rw [consume_rest, h]
    exact List.drop_left' (by simp)
  obtain ⟨m, k, h1, h2⟩ := readCons_run (c bs.length) bs t _ hf4 h4
  refine ⟨4 + k, by omega, fun hd => by rw [hd, List.length_nil] at h2; omega, ?_⟩
  rw [loadSpecial, M.bind_val (io_ok (readLe_fine hf h hlen))]
  refine (M.bind_val (updateNext_ok (by simp; omega)) _).trans ?_
  simp only [moved, withReader]
  rw [h1, consume_consume]
  simp only [consume_position, Nat.add_assoc]

theorem arrHeader_fine (count : Nat) (enc : ArrEnc) (len : Nat) (t : Bytes) (a : AP) (hf : Fine a.parser.reader)
    (hc : count < 2 ^ 32) (hl : len < 2 ^ 32)
    (h : a.parser.reader.rest = leBytes 4 count ++ (leBytes 4 enc.toU32 ++ (leBytes 4 len ++ t))) :
    readArrHeader a = (.ok ⟨count, enc, len⟩, a.withReader (a.parser.reader.consume 12)) := by
  have h1 : (a.parser.reader.consume 4).rest = leBytes 4 enc.toU32 ++ (leBytes 4 len ++ t) := by
    rw [consume_rest, h]; exact List.drop_left' (by simp)
  have hf1 : Fine (a.parser.reader.consume 4) := hf.consume (by rw [h]; simp)
  have h2 : (a.parser.reader.consume 8).rest = leBytes 4 len ++ t := by
    rw [show a.parser.reader.consume 8 = (a.parser.reader.consume 4).consume 4 by rw [consume_consume], consume_rest, h1]
    exact List.drop_left' (by simp)
  have hf2 : Fine (a.parser.reader.consume 8) := hf.consume (by rw [h]; simp; omega)
  have he : enc.toU32 < 256 ^ 4 := by cases enc <;> decide
  rw [readArrHeader, M.bind_val (io_ok (readLe_fine hf h hc)), M.bind_val (io_ok (readLe_fine hf1 h1 he))]
  simp only [withReader_reader, consume_consume, withReader_withReader]
  have : ArrEnc.fromU32 enc.toU32 = some enc := by cases enc <;> rfl
  simp only [this]
  rw [M.bind_val (io_ok (readLe_fine hf2 h2 hl))]
  simp only [withReader_reader, consume_consume, withReader_withReader, M.pure_apply]

/-- Stored form of array data. -/
def payloadOf (Z : Zlib) (enc : ArrEnc) (data : Bytes) : Bytes :=
  match enc with
  | .direct => data
  | .zlib => Z.encode data

/-- The decoder gives the data back. -/
def _root_.Fbx.Zlib.Restores (Z : Zlib) (data : Bytes) : Prop :=
  ∃ s, Z.header Z.encHeader.1 Z.encHeader.2 = some s ∧ Z.Decodes s (Z.encEarly data ++ Z.encLate data) data

theorem create_fine {Z : Zlib} (enc : ArrEnc) (data t : Bytes) (hZ : enc = .zlib → Z.Restores data) (r : Reader) (hf : Fine r)
    (h : r.rest = (payloadOf Z enc data) ++ t) :
    ∃ d j, Dec.create Z enc r = (.ok d, r.consume j) ∧ j ≤ (payloadOf Z enc data).length ∧
      Dec.Feeds d (r.consume j) data ((payloadOf Z enc data).length - j) ∧ (enc = .direct → d = .direct ∧ j = 0) := by
  cases enc with
  | direct =>
    refine ⟨.direct, 0, ?_, by simp, ⟨t, ?_, by simp [payloadOf]⟩, fun _ => ⟨rfl, rfl⟩⟩
    · simp [Dec.create, consume_zero]
    · simpa [consume_zero, payloadOf] using h
  | zlib =>
    simp only [payloadOf, Zlib.encode, List.cons_append, List.nil_append] at h
    obtain ⟨s, h1, h2⟩ := hZ rfl
    have e1 : (r.consume 1).rest = Z.encHeader.2 :: (Z.encEarly data ++ Z.encLate data ++ t) := by simp [h]
    have f1 : Fine (r.consume 1) := hf.consume (by rw [h]; simp)
    refine ⟨.zlib s, 2, ?_, by simp [payloadOf, Zlib.encode],
      ⟨Z.encEarly data ++ Z.encLate data, t, by simp [h], by simp [payloadOf, Zlib.encode], h2⟩, fun h => nomatch h⟩
    rw [Dec.create, M.bind_apply, M.mapErr_apply, readU8_fine hf h]
    simp only
    rw [M.bind_apply, M.mapErr_apply, readU8_fine f1 e1]
    simp only [h1, M.pure_apply, consume_consume]

theorem loadSeq_fine {Z : Zlib} {e α : Type} {ty : ElemTy e} {f : e → Bytes} (hcod : Codes ty f)
    (c : Nat → SeqCons e α) (start idx : Nat) (xs : List e) (enc : ArrEnc) (payload t : Bytes)
    (hZ : enc = .zlib → Z.Restores (xs.flatMap f)) (hpay : payload = payloadOf Z enc (xs.flatMap f)) (a : AP)
    (hf : Fine a.parser.reader) (hc : xs.length < 2 ^ 32) (hl : payload.length < 2 ^ 32)
    (h : a.parser.reader.rest = leBytes 4 xs.length ++ (leBytes 4 enc.toU32 ++ (leBytes 4 payload.length ++ (payload ++ t)))) :
    ∃ k, k ≤ 12 + payload.length ∧ (enc = .direct ∧ restSeq (c xs.length) xs = [] → k = 12 + payload.length) ∧ loadSeq Z ty c start idx a = (resOf (feedSeq (c xs.length) xs),
      a.moved (a.parser.reader.position + (12 + payload.length)) (a.parser.reader.consume k)) := by
  have hp := hf.position
  rw [h] at hp
  simp only [List.length_append, leBytes_length] at hp
  have f1 : Fine (a.parser.reader.consume 12) := hf.consume (by rw [h]; simp; omega)
  have e1 : (a.parser.reader.consume 12).rest = payload ++ t := by
    rw [consume_rest, h, ← List.append_assoc, ← List.append_assoc]
    exact List.drop_left' (by simp)
  subst hpay
  have hdl : enc = .direct → (payloadOf Z enc (xs.flatMap f)).length = xs.length * ty.size := by
    rintro rfl
    exact hcod.flatMap_length xs
  obtain ⟨d, j, g1, g2, g3, g4⟩ := create_fine enc (xs.flatMap f) t hZ _ f1 e1
  generalize hpl : payloadOf Z enc (xs.flatMap f) = payload at *
  rw [consume_consume] at g1 g3
  have f2 : Fine (a.parser.reader.consume (12 + j)) := hf.consume (by rw [h]; simp; omega)
  obtain ⟨it', k, k1, k2, k3, k4, k5, k6⟩ := iter_run (Z := Z) hcod (c xs.length) xs ⟨d, xs.length, false, false⟩ _ _ f2 rfl g3
  rw [consume_consume] at k1
  refine ⟨12 + j + k, by omega, ?_, ?_⟩
  · rintro ⟨he, hd⟩
    have := k6 (g4 he).1
    rw [hd, List.length_nil, Nat.zero_mul] at this
    have := hdl he
    have := (g4 he).2
    omega
  rw [loadSeq, M.bind_val (arrHeader_fine _ enc _ (payload ++ t) a hf hc hl h), M.bind_val (updateNext_ok (by simp; omega))]
  have hcr : par (M.zoom Parser.reader (fun r p => { p with reader := r }) (Dec.create Z enc))
      ((a.withReader (a.parser.reader.consume 12)).moved (a.parser.reader.position + 12 + payload.length) (a.parser.reader.consume 12)) =
      (.ok d, a.moved (a.parser.reader.position + 12 + payload.length) (a.parser.reader.consume (12 + j))) := by
    simp only [par, M.zoom_apply, moved, withReader, g1]
  simp only [withReader_reader, consume_position]
  rw [M.bind_val hcr]
  cases hfe : feedSeq (c xs.length) xs with
  | error x =>
    rw [hfe] at k1
    refine (M.bind_fail (s1 := a.moved (a.parser.reader.position + (12 + payload.length)) (a.parser.reader.consume (12 + j + k)))
      (e := x) ?_ _).trans rfl
    simp only [runSeq, moved]
    rw [k1]
    simp [resOf, Nat.add_assoc]
  | ok v =>
    rw [hfe] at k1
    refine (M.bind_val (s1 := a.moved (a.parser.reader.position + (12 + payload.length)) (a.parser.reader.consume (12 + j + k)))
      (a := (v, false, false)) ?_ _).trans rfl
    simp only [runSeq, moved]
    rw [k1]
    simp [resOf, Nat.add_assoc, k4, k5]

/-- Type of an attribute is what its code says. -/
theorem type_code (v : AttrValue) : AttrType.fromTypeCode (UInt8.ofNat (typeChar v).toNat) = some v.type_ := by
  cases v <;> rfl

/-- The part of an attribute after its code. -/
theorem loadImpl_fine {Z : Zlib} {α : Type} (buffered : Bool) (l : Loader α) (start idx : Nat) (d : DAttr) (hZ : d.enc = .zlib → Z.Restores (arrayData d.value)) (a : AP)
    (t : Bytes) (hf : Fine a.parser.reader) (hfit : attrFits Z d) (h : a.parser.reader.rest = attrBody Z d ++ t) :
    ∃ k, k ≤ (attrBody Z d).length ∧ (drains buffered l d → k = (attrBody Z d).length) ∧ loadImpl Z buffered d.value.type_ l start idx a = (resOf (present buffered l d.value),
      a.moved (a.parser.reader.position + (attrBody Z d).length) (a.parser.reader.consume k)) := by
  obtain ⟨v, enc⟩ := d
  have arr : ∀ {e : Type} {ty : ElemTy e} {f : e → Bytes} (hcod : Codes ty f) (c : Nat → SeqCons e α) (xs : List e)
      (hb : attrBody Z ⟨v, enc⟩ = leBytes 4 xs.length ++ leBytes 4 enc.toU32 ++ leBytes 4 (arrayPayload Z ⟨v, enc⟩).length ++ arrayPayload Z ⟨v, enc⟩)
      (hd : arrayData v = xs.flatMap f) (hfit : xs.length < 2 ^ 32 ∧ (arrayPayload Z ⟨v, enc⟩).length < 2 ^ 32),
      ∃ k, k ≤ (attrBody Z ⟨v, enc⟩).length ∧ (enc = .direct ∧ restSeq (c xs.length) xs = [] → k = (attrBody Z ⟨v, enc⟩).length) ∧ loadSeq Z ty c start idx a = (resOf (feedSeq (c xs.length) xs),
      a.moved (a.parser.reader.position + (attrBody Z ⟨v, enc⟩).length) (a.parser.reader.consume k)) := by
    intro e ty f hcod c xs hb hd hfit
    rw [hb] at h ⊢
    have hpay : arrayPayload Z ⟨v, enc⟩ = payloadOf Z enc (xs.flatMap f) := by
      cases enc <;> simp [arrayPayload, payloadOf, hd]
    have := loadSeq_fine hcod c start idx xs enc (arrayPayload Z ⟨v, enc⟩) t (fun h => by rw [← hd]; exact hZ h) hpay a hf hfit.1 hfit.2 (by simpa using h)
    simpa [← Nat.add_assoc] using this
  have henc : ∀ (v : Nat), le 4 v = leBytes 4 v := fun v => le_eq 4 v
  cases v with
  | bool b => exact ⟨1, by simp [attrBody], fun _ => by simp [attrBody], loadBool_fine b _ _ _ a t hf (by simpa [attrBody] using h)⟩
  | i16 x =>
    simp only [attrBody, le_eq] at h ⊢
    exact ⟨2, by simp, fun _ => by simp, by rw [leBytes_length]; exact loadPrim_fine 2 x _ a t hf h⟩
  | i32 x =>
    simp only [attrBody, le_eq] at h ⊢
    exact ⟨4, by simp, fun _ => by simp, by rw [leBytes_length]; exact loadPrim_fine 4 x _ a t hf h⟩
  | i64 x =>
    simp only [attrBody, le_eq] at h ⊢
    exact ⟨8, by simp, fun _ => by simp, by rw [leBytes_length]; exact loadPrim_fine 8 x _ a t hf h⟩
  | f32 x =>
    simp only [attrBody, le_eq] at h ⊢
    exact ⟨4, by simp, fun _ => by simp, by rw [leBytes_length]; exact loadPrim_fine 4 x _ a t hf h⟩
  | f64 x =>
    simp only [attrBody, le_eq] at h ⊢
    exact ⟨8, by simp, fun _ => by simp, by rw [leBytes_length]; exact loadPrim_fine 8 x _ a t hf h⟩
  | arrBool xs =>
    refine arr Codes.bool l.seqBool xs ?_ ?_ hfit
    · cases enc <;> simp [attrBody, le_eq, arrayCount, ArrEnc.toU32]
    · simp only [arrayData, List.map_eq_flatMap]
  | arrI32 xs =>
    refine arr Codes.i32 l.seqI32 xs ?_ ?_ hfit
    · cases enc <;> simp [attrBody, le_eq, arrayCount, ArrEnc.toU32]
    · simp [arrayData, le_eq]
  | arrI64 xs =>
    refine arr Codes.i64 l.seqI64 xs ?_ ?_ hfit
    · cases enc <;> simp [attrBody, le_eq, arrayCount, ArrEnc.toU32]
    · simp [arrayData, le_eq]
  | arrF32 xs =>
    refine arr Codes.f32 l.seqF32 xs ?_ ?_ hfit
    · cases enc <;> simp [attrBody, le_eq, arrayCount, ArrEnc.toU32]
    · simp [arrayData, le_eq]
  | arrF64 xs =>
    refine arr Codes.f64 l.seqF64 xs ?_ ?_ hfit
    · cases enc <;> simp [attrBody, le_eq, arrayCount, ArrEnc.toU32]
    · simp [arrayData, le_eq]
  | string s =>
    simp only [attrBody, le_eq] at h ⊢
    rw [List.length_append, leBytes_length]
    exact loadSpecial_fine (if buffered then l.stringBuf else l.string) (utf8 s) t a hf hfit h
  | binary s =>
    simp only [attrBody, le_eq] at h ⊢
    rw [List.length_append, leBytes_length]
    exact loadSpecial_fine (if buffered then l.binaryBuf else l.binary) s t a hf hfit h

theorem readNextType_fine {Z : Zlib} (d : DAttr) (a : AP) (t : Bytes) (m : Nat) (hf : Fine a.parser.reader)
    (hs : a.parser.reader.seekable = true ∨ a.attrs.next = a.parser.reader.position) (hr : a.attrs.rest = m + 1)
    (hn : a.parser.reader.position ≤ a.attrs.next) (hle : a.attrs.next - a.parser.reader.position ≤ a.parser.reader.rest.length)
    (h : a.parser.reader.rest.drop (a.attrs.next - a.parser.reader.position) = attrBytes Z d ++ t) :
    readNextType a = (.ok (some d.value.type_), ⟨{ a.parser with
      reader := a.parser.reader.consume (a.attrs.next - a.parser.reader.position + 1) }, { a.attrs with rest := m }⟩) := by
  have f1 : Fine (a.parser.reader.consume (a.attrs.next - a.parser.reader.position)) := hf.consume hle
  have e1 : (a.parser.reader.consume (a.attrs.next - a.parser.reader.position)).rest =
      UInt8.ofNat (typeChar d.value).toNat :: (attrBody Z d ++ t) := by
    rw [consume_rest, h]; rfl
  rw [readNextType, M.get_bind, if_neg (by omega)]
  have key := io_ok (a := a.withReader (a.parser.reader.consume (a.attrs.next - a.parser.reader.position))) (readU8_fine f1 e1)
  simp only [M.ite_apply]
  split
  · refine (M.bind_val (io_ok (skipTo_fine hf (hs.resolve_right (by omega)) hn (by omega))) _).trans ?_
    refine (M.bind_val key _).trans ?_
    simp only [type_code, withReader_reader, withReader_withReader, consume_consume]
    rw [M.modify_bind]
    simp only [withReader, hr, M.pure_apply, Nat.add_sub_cancel]
  · have h0 : a.attrs.next - a.parser.reader.position = 0 := by omega
    rw [h0, consume_zero] at key
    rw [h0]
    refine (M.bind_val key _).trans ?_
    simp only [type_code, withReader_reader, withReader_withReader]
    rw [M.modify_bind]
    simp only [withReader, hr, M.pure_apply, Nat.add_sub_cancel, Nat.zero_add]

/-- The state after an attribute was loaded from state `a`, `k` bytes having been read. -/
def after (a : AP) (len k : Nat) : AP :=
  ⟨{ a.parser with reader := a.parser.reader.consume k },
    ⟨a.attrs.total, a.attrs.rest - 1, a.attrs.next + len⟩⟩

/-- Position of a failure of the loader. -/
def failPos (a : AP) (start idx : Nat) : SynPos := { a.parser.synPos with compPos := start, attrIdx := some idx }

/-- The state after a failure. -/
def aborted (a : AP) (pos : SynPos) : AP := { a with parser := a.parser.setAborted pos }

theorem load_fine {Z : Zlib} {α : Type} (buffered : Bool) (l : Loader α) (d : DAttr) (hZ : d.enc = .zlib → Z.Restores (arrayData d.value)) (a : AP) (t : Bytes) (m : Nat)
    (hf : Fine a.parser.reader) (hs : a.parser.reader.seekable = true ∨ a.attrs.next = a.parser.reader.position)
    (hh : a.parser.health = .running) (hr : a.attrs.rest = m + 1) (hrt : a.attrs.rest ≤ a.attrs.total)
    (htop : a.parser.started ≠ [] → a.parser.toplevel ≠ 0)
    (hn : a.parser.reader.position ≤ a.attrs.next) (hle : a.attrs.next - a.parser.reader.position ≤ a.parser.reader.rest.length)
    (hfit : attrFits Z d)
    (h : a.parser.reader.rest.drop (a.attrs.next - a.parser.reader.position) = attrBytes Z d ++ t) :
    ∃ k, k ≤ a.attrs.next - a.parser.reader.position + (attrBytes Z d).length ∧
      (drains buffered l d → k = a.attrs.next - a.parser.reader.position + (attrBytes Z d).length) ∧ load Z buffered l a =
      match present buffered l d.value with
      | .ok v => (.ok (some v), a.after (attrBytes Z d).length k)
      | .error e => (.err (e.andPosition (failPos (a.after (attrBytes Z d).length k) a.attrs.next (a.attrs.total - a.attrs.rest))),
          aborted (a.after (attrBytes Z d).length k) (failPos (a.after (attrBytes Z d).length k) a.attrs.next (a.attrs.total - a.attrs.rest))) := by
  have hl1 : (attrBytes Z d).length = (attrBody Z d).length + 1 := rfl
  have hlen : a.attrs.next - a.parser.reader.position + ((attrBytes Z d).length + t.length) = a.parser.reader.rest.length := by
    have := congrArg List.length h
    rw [List.length_drop, List.length_append] at this
    omega
  have e1 : (a.parser.reader.consume (a.attrs.next - a.parser.reader.position + 1)).rest = attrBody Z d ++ t := by
    rw [consume_rest, ← List.drop_drop, h]; rfl
  have f1 : Fine (a.parser.reader.consume (a.attrs.next - a.parser.reader.position + 1)) := hf.consume (by omega)
  obtain ⟨k, k1, k3, k2⟩ := loadImpl_fine buffered l a.attrs.next (a.attrs.total - a.attrs.rest) d hZ
    ⟨{ a.parser with reader := a.parser.reader.consume (a.attrs.next - a.parser.reader.position + 1) }, { a.attrs with rest := m }⟩ t f1 hfit e1
  refine ⟨a.attrs.next - a.parser.reader.position + 1 + k, by omega, fun hd => by have := k3 hd; omega, ?_⟩
  have hm : AP.moved ⟨{ a.parser with reader := a.parser.reader.consume (a.attrs.next - a.parser.reader.position + 1) }, { a.attrs with rest := m }⟩
      (a.parser.reader.position + (a.attrs.next - a.parser.reader.position + 1) + (attrBody Z d).length)
      ((a.parser.reader.consume (a.attrs.next - a.parser.reader.position + 1)).consume k) =
      a.after (attrBytes Z d).length (a.attrs.next - a.parser.reader.position + 1 + k) := by
    simp only [AP.moved, AP.after, consume_consume, hr, Nat.add_sub_cancel, hl1]
    have : a.parser.reader.position + (a.attrs.next - a.parser.reader.position + 1) + (attrBody Z d).length = a.attrs.next + ((attrBody Z d).length + 1) := by omega
    rw [this]
  simp only [consume_position] at k2
  rw [hm] at k2
  have hens : par Parser.ensureContinuable a = (.ok (), a) := by
    simp only [par, M.zoom_apply, Parser.ensureContinuable, hh]
  have hbody : loadBody Z buffered l a.attrs.next (a.attrs.total - a.attrs.rest) a =
      (resOf ((present buffered l d.value).map some), a.after (attrBytes Z d).length (a.attrs.next - a.parser.reader.position + 1 + k)) := by
    rw [loadBody]
    refine (M.bind_val (readNextType_fine (Z := Z) d a t m hf hs hr hn hle h) _).trans ?_
    simp only
    cases hp : present buffered l d.value with
    | ok v => rw [hp] at k2; refine (M.bind_val k2 _).trans rfl
    | error e => rw [hp] at k2; refine (M.bind_fail k2 _).trans rfl
  rw [load, withHealthCheck]
  refine (M.bind_val hens _).trans ?_
  rw [M.get_bind]
  refine (M.bind_val (s1 := a) (a := ()) (by simp [hrt]) _).trans ?_
  simp only [hbody]
  cases hp : present buffered l d.value with
  | ok v => rfl
  | error e =>
    simp only [Except.map, resOf]
    have : position a.attrs.next (a.attrs.total - a.attrs.rest) (a.after (attrBytes Z d).length (a.attrs.next - a.parser.reader.position + 1 + k)) =
      (.ok (failPos (a.after (attrBytes Z d).length (a.attrs.next - a.parser.reader.position + 1 + k)) a.attrs.next (a.attrs.total - a.attrs.rest)),
        a.after (attrBytes Z d).length (a.attrs.next - a.parser.reader.position + 1 + k)) := by
      rw [position]
      refine (M.bind_val (s1 := a.after (attrBytes Z d).length (a.attrs.next - a.parser.reader.position + 1 + k))
        (a := (a.after (attrBytes Z d).length (a.attrs.next - a.parser.reader.position + 1 + k)).parser.synPos) ?_ _).trans rfl
      simp only [par, M.zoom_apply, Parser.position]
      rw [if_neg (by rintro ⟨x, y⟩; exact htop x y)]
    rw [this]
    rfl

theorem load_none {Z : Zlib} {α : Type} (buffered : Bool) (l : Loader α) (a : AP) (hh : a.parser.health = .running)
    (hr : a.attrs.rest = 0) : load Z buffered l a = (.ok none, a) := by
  have hens : par Parser.ensureContinuable a = (.ok (), a) := by
    simp only [par, M.zoom_apply, Parser.ensureContinuable, hh]
  rw [load, withHealthCheck]
  refine (M.bind_val hens _).trans ?_
  rw [M.get_bind]
  refine (M.bind_val (s1 := a) (a := ()) (by simp [hr]) _).trans ?_
  have : loadBody Z buffered l a.attrs.next (a.attrs.total - a.attrs.rest) a = (.ok none, a) := by
    rw [loadBody]
    refine (M.bind_val (s1 := a) (a := none) ?_ _).trans rfl
    rw [readNextType, M.get_bind, if_pos hr]
    rfl
  simp only [this]

/-- The attribute `b`, with the bytes `enc b`, is loaded as `view b`. -/
def LoadsOne (Z : Zlib) (α : Type) {β : Type} (buffered : Bool) (enc : β → Bytes) (view : β → DAttr) (b : β) : Prop :=
  ∀ (l : Loader α) (a : AP) (t : Bytes) (m : Nat), Fine a.parser.reader → (a.parser.reader.seekable = true ∨ a.attrs.next = a.parser.reader.position) →
    a.parser.health = .running → a.attrs.rest = m + 1 → a.attrs.rest ≤ a.attrs.total → (a.parser.started ≠ [] → a.parser.toplevel ≠ 0) →
    a.parser.reader.position ≤ a.attrs.next → a.attrs.next - a.parser.reader.position ≤ a.parser.reader.rest.length →
    a.parser.reader.rest.drop (a.attrs.next - a.parser.reader.position) = enc b ++ t →
    ∃ k, k ≤ a.attrs.next - a.parser.reader.position + (enc b).length ∧
      (drains buffered l (view b) → k = a.attrs.next - a.parser.reader.position + (enc b).length) ∧ load Z buffered l a =
      match present buffered l (view b).value with
      | .ok v => (.ok (some v), a.after (enc b).length k)
      | .error e => (.err (e.andPosition (failPos (a.after (enc b).length k) a.attrs.next (a.attrs.total - a.attrs.rest))),
          aborted (a.after (enc b).length k) (failPos (a.after (enc b).length k) a.attrs.next (a.attrs.total - a.attrs.rest)))

/-- Loading with a sequence of loaders none of which fails. -/
theorem loadEach_each {Z : Zlib} {α β : Type} (buffered : Bool) (enc : β → Bytes) (view : β → DAttr) : ∀ (ls : List (Loader α)) (ds : List β) (a : AP) (t : Bytes)
    (vals : List (Option α)), presentAll buffered ls ((ds.map view).map DAttr.value) = some vals →
    Fine a.parser.reader →
    (a.parser.reader.seekable = true ∨ a.attrs.next = a.parser.reader.position ∧ drainsAll buffered ls (ds.map view)) →
    a.parser.health = .running → a.attrs.rest = ds.length → a.attrs.rest ≤ a.attrs.total →
    (a.parser.started ≠ [] → a.parser.toplevel ≠ 0) → a.parser.reader.position ≤ a.attrs.next →
    a.attrs.next - a.parser.reader.position ≤ a.parser.reader.rest.length → (∀ d ∈ ds.take ls.length, LoadsOne Z α buffered enc view d) →
    a.parser.reader.rest.drop (a.attrs.next - a.parser.reader.position) = ds.flatMap enc ++ t →
    ∃ k at', k ≤ a.attrs.next - a.parser.reader.position + (ds.flatMap enc).length ∧
      (a.parser.reader.seekable = true ∨ k = (ds.flatMap enc).length) ∧
      loadEach Z buffered ls a = (.ok vals, ⟨{ a.parser with reader := a.parser.reader.consume k }, at'⟩) := by
  intro ls
  induction ls with
  | nil =>
    intro ds a t vals hv _ hs _ _ _ _ _ _ _ _
    simp only [presentAll, Option.some.injEq] at hv
    subst hv
    exact ⟨0, a.attrs, by omega, hs.imp_right fun ⟨_, h⟩ => by have h : ds.map view = [] := h; rw [show ds = [] from by simpa using h]; rfl, by rw [consume_zero]; rfl⟩
  | cons l ls ih =>
    intro ds a t vals hv hf hs hh hr hrt htop hn hle hfit h
    cases ds with
    | nil =>
      simp only [List.map_nil, presentAll, Option.map_eq_some_iff] at hv
      obtain ⟨vs, hv1, rfl⟩ := hv
      obtain ⟨k, at', h1, h3, h2⟩ := ih [] a t vs hv1 hf (hs.imp_right fun ⟨h, _⟩ => ⟨h, by cases ls <;> simp [drainsAll]⟩)
        hh hr hrt htop hn hle (by simp) h
      refine ⟨k, at', h1, h3, ?_⟩
      rw [loadEach]
      refine (M.bind_val (load_none buffered l a hh hr) _).trans ?_
      refine (M.bind_val h2 _).trans rfl
    | cons d ds =>
      simp only [List.map_cons, presentAll] at hv
      cases hp : present buffered l (view d).value with
      | error e => rw [hp] at hv; simp at hv
      | ok v =>
        rw [hp] at hv
        simp only [Option.map_eq_some_iff] at hv
        obtain ⟨vs, hv1, rfl⟩ := hv
        simp only [List.flatMap_cons, List.append_assoc] at h
        have hlen : a.attrs.next - a.parser.reader.position + ((enc d).length + ((ds.flatMap enc).length + t.length)) = a.parser.reader.rest.length := by
          have := congrArg List.length h
          simp only [List.length_drop, List.length_append] at this
          omega
        obtain ⟨k, k1, k3, k2⟩ := hfit d (by simp) l a (ds.flatMap enc ++ t) ds.length hf (hs.imp_right And.left) hh (by simpa using hr) hrt htop hn hle h
        rw [hp] at k2
        simp only at k2
        obtain ⟨j, at', j1, j3, j2⟩ := ih ds (a.after (enc d).length k) t vs hv1 (hf.consume (by omega))
          (hs.imp_right fun ⟨h1, h2, h3⟩ => ⟨by have := k3 h2; simp only [after, consume_position]; omega, h3⟩) hh
          (by simp only [after, hr, List.length_cons, Nat.add_sub_cancel]) (by simp only [after]; omega) htop
          (by simp only [after, consume_position]; omega) (by simp only [after, consume_position, consume_rest, List.length_drop]; omega)
          (fun x hx => hfit x (by simp only [List.length_cons, List.take_succ_cons, List.mem_cons]; exact .inr hx)) (by
            simp only [after, consume_position, consume_rest, List.drop_drop]
            rw [show k + (a.attrs.next + (enc d).length - (a.parser.reader.position + k)) =
              a.attrs.next - a.parser.reader.position + (enc d).length by omega, ← List.drop_drop, h, List.drop_left])
        simp only [after, consume_consume, consume_position] at j1 j2
        refine ⟨k + j, at', ?_, ?_, ?_⟩
        · simp only [List.flatMap_cons, List.length_append]; omega
        · rcases hs with hs | ⟨h1, h2, _⟩
          · exact .inl hs
          · refine j3.imp_right fun j3 => ?_
            have := k3 h2
            simp only [List.flatMap_cons, List.length_append]; omega
        · rw [loadEach]
          refine (M.bind_val k2 _).trans ?_
          refine (M.bind_val j2 _).trans rfl

theorem loadsOne_fine {Z : Zlib} {α : Type} (buffered : Bool) (d : DAttr) (hZ : d.enc = .zlib → Z.Restores (arrayData d.value)) (hfit : attrFits Z d) :
    LoadsOne Z α buffered (attrBytes Z) id d :=
  fun l a t m h1 h2 h3 h4 h5 h6 h7 h8 h9 => load_fine buffered l d hZ a t m h1 h2 h3 h4 h5 h6 h7 h8 hfit h9

theorem loadEach_fine {Z : Zlib} (hZ : Z.Lawful) {α : Type} (buffered : Bool) : ∀ (ls : List (Loader α)) (ds : List DAttr) (a : AP) (t : Bytes)
    (vals : List (Option α)), presentAll buffered ls (ds.map DAttr.value) = some vals →
    Fine a.parser.reader →
    (a.parser.reader.seekable = true ∨ a.attrs.next = a.parser.reader.position ∧ drainsAll buffered ls ds) →
    a.parser.health = .running → a.attrs.rest = ds.length → a.attrs.rest ≤ a.attrs.total →
    (a.parser.started ≠ [] → a.parser.toplevel ≠ 0) → a.parser.reader.position ≤ a.attrs.next →
    a.attrs.next - a.parser.reader.position ≤ a.parser.reader.rest.length → (∀ d ∈ ds, attrFits Z d) →
    a.parser.reader.rest.drop (a.attrs.next - a.parser.reader.position) = ds.flatMap (attrBytes Z) ++ t →
    ∃ k at', k ≤ a.attrs.next - a.parser.reader.position + (ds.flatMap (attrBytes Z)).length ∧
      (a.parser.reader.seekable = true ∨ k = (ds.flatMap (attrBytes Z)).length) ∧
      loadEach Z buffered ls a = (.ok vals, ⟨{ a.parser with reader := a.parser.reader.consume k }, at'⟩) :=
  fun ls ds a t vals hv h1 h2 h3 h4 h5 h6 h7 h8 h9 h10 => loadEach_each buffered (attrBytes Z) id ls ds a t vals (by simpa using hv) h1 (by simpa using h2)
    h3 h4 h5 h6 h7 h8 (fun d hd => loadsOne_fine buffered d (fun _ => hZ.roundtrip _) (h9 d (List.mem_of_mem_take hd))) h10

end AP
end Fbx
