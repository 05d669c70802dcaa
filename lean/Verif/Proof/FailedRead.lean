import Verif.Proof.Failed
import Verif.Proof.ReadDocument

/-!
# Reading what failed `append_*` calls leave
-/

namespace Fbx
open Spec Reader
open Writer (Append)

namespace AP

/-- Loading from the body `b` of an attribute of type and value `d` whose header declares `len` bytes. -/
def BodyLoads (Z : Zlib) (α : Type) (buffered : Bool) (d : AttrValue) (len : Nat) (b : Bytes) : Prop :=
  ∀ (l : Loader α) (start idx : Nat) (a : AP) (t : Bytes), Fine a.parser.reader → a.parser.reader.rest = b ++ t →
    ∃ k, k ≤ b.length ∧ loadImpl Z buffered d.type_ l start idx a = (resOf (present buffered l d),
      a.moved (a.parser.reader.position + len) (a.parser.reader.consume k))

theorem readNextType_gen (v : AttrValue) (b : Bytes) (a : AP) (t : Bytes) (m : Nat) (hf : Fine a.parser.reader) (hsk : a.parser.reader.seekable = true) (hr : a.attrs.rest = m + 1)
    (hn : a.parser.reader.position ≤ a.attrs.next) (hle : a.attrs.next - a.parser.reader.position ≤ a.parser.reader.rest.length)
    (h : a.parser.reader.rest.drop (a.attrs.next - a.parser.reader.position) = UInt8.ofNat (typeChar v).toNat :: (b ++ t)) :
    readNextType a = (.ok (some v.type_), ⟨{ a.parser with
      reader := a.parser.reader.consume (a.attrs.next - a.parser.reader.position + 1) }, { a.attrs with rest := m }⟩) := by
  have f1 : Fine (a.parser.reader.consume (a.attrs.next - a.parser.reader.position)) := hf.consume hle
  have e1 : (a.parser.reader.consume (a.attrs.next - a.parser.reader.position)).rest =
      UInt8.ofNat (typeChar v).toNat :: (b ++ t) := by
    rw [consume_rest, h]
  rw [readNextType, M.get_bind, if_neg (by omega)]
  have key := io_ok (a := a.withReader (a.parser.reader.consume (a.attrs.next - a.parser.reader.position))) (readU8_fine f1 e1)
  simp only [M.ite_apply]
  split
  · refine (M.bind_val (io_ok (skipTo_fine hf hsk hn (by omega))) _).trans ?_
    refine (M.bind_val key _).trans ?_
    simp only [type_code, withReader_withReader, consume_consume]
    rw [M.modify_bind]
    simp only [withReader, hr, M.pure_apply, Nat.add_sub_cancel]
  · have h0 : a.attrs.next - a.parser.reader.position = 0 := by omega
    rw [h0, consume_zero] at key
    rw [h0]
    refine (M.bind_val key _).trans ?_
    simp only [type_code, withReader_withReader]
    rw [M.modify_bind]
    simp only [withReader, hr, M.pure_apply, Nat.add_sub_cancel, Nat.zero_add]

theorem load_gen {Z : Zlib} {α : Type} {buffered : Bool} {v : AttrValue} {len : Nat} {b : Bytes} (hb : BodyLoads Z α buffered v len b)
    (l : Loader α) (x : α) (hx : present buffered l v = .ok x) (a : AP) (t : Bytes) (m : Nat)
    (hf : Fine a.parser.reader) (hsk : a.parser.reader.seekable = true) (hh : a.parser.health = .running) (hr : a.attrs.rest = m + 1) (hrt : a.attrs.rest ≤ a.attrs.total)
    (hn : a.parser.reader.position ≤ a.attrs.next) (hle : a.attrs.next - a.parser.reader.position ≤ a.parser.reader.rest.length)
    (h : a.parser.reader.rest.drop (a.attrs.next - a.parser.reader.position) = UInt8.ofNat (typeChar v).toNat :: (b ++ t)) :
    ∃ k, k ≤ a.attrs.next - a.parser.reader.position + 1 + b.length ∧ load Z buffered l a = (.ok (some x), a.after (len + 1) k) := by
  have hlen : a.attrs.next - a.parser.reader.position + (b.length + 1 + t.length) = a.parser.reader.rest.length := by
    have := congrArg List.length h
    rw [List.length_drop, List.length_cons, List.length_append] at this
    omega
  have e1 : (a.parser.reader.consume (a.attrs.next - a.parser.reader.position + 1)).rest = b ++ t := by
    rw [consume_rest, ← List.drop_drop, h]; rfl
  have f1 : Fine (a.parser.reader.consume (a.attrs.next - a.parser.reader.position + 1)) := hf.consume (by omega)
  obtain ⟨k, k1, k2⟩ := hb l a.attrs.next (a.attrs.total - a.attrs.rest)
    ⟨{ a.parser with reader := a.parser.reader.consume (a.attrs.next - a.parser.reader.position + 1) }, { a.attrs with rest := m }⟩ t f1 e1
  refine ⟨a.attrs.next - a.parser.reader.position + 1 + k, by omega, ?_⟩
  have hm : AP.moved ⟨{ a.parser with reader := a.parser.reader.consume (a.attrs.next - a.parser.reader.position + 1) }, { a.attrs with rest := m }⟩
      (a.parser.reader.position + (a.attrs.next - a.parser.reader.position + 1) + len)
      ((a.parser.reader.consume (a.attrs.next - a.parser.reader.position + 1)).consume k) =
      a.after (len + 1) (a.attrs.next - a.parser.reader.position + 1 + k) := by
    simp only [AP.moved, AP.after, consume_consume, hr, Nat.add_sub_cancel]
    have : a.parser.reader.position + (a.attrs.next - a.parser.reader.position + 1) + len = a.attrs.next + (len + 1) := by omega
    rw [this]
  simp only [consume_position] at k2
  rw [hm, hx] at k2
  have hens : par Parser.ensureContinuable a = (.ok (), a) := by
    simp only [par, M.zoom_apply, Parser.ensureContinuable, hh]
  have hbody : loadBody Z buffered l a.attrs.next (a.attrs.total - a.attrs.rest) a =
      (.ok (some x), a.after (len + 1) (a.attrs.next - a.parser.reader.position + 1 + k)) := by
    rw [loadBody]
    refine (M.bind_val (readNextType_gen v b a t m hf hsk hr hn hle h) _).trans ?_
    simp only
    refine (M.bind_val k2 _).trans rfl
  rw [load, withHealthCheck]
  refine (M.bind_val hens _).trans ?_
  rw [M.get_bind]
  refine (M.bind_val (s1 := a) (a := ()) (by simp [hrt]) _).trans ?_
  simp only [hbody]

theorem loadEach_done {Z : Zlib} {α : Type} (buffered : Bool) : ∀ (ls : List (Loader α)) (a : AP) (vals : List (Option α)),
    presentAll buffered ls [] = some vals → a.parser.health = .running → a.attrs.rest = 0 → loadEach Z buffered ls a = (.ok vals, a) := by
  intro ls
  induction ls with
  | nil =>
    intro a vals hv _ _
    simp only [presentAll, Option.some.injEq] at hv
    subst hv
    rfl
  | cons l ls ih =>
    intro a vals hv hh hr
    simp only [presentAll, Option.map_eq_some_iff] at hv
    obtain ⟨vs, hv1, rfl⟩ := hv
    rw [loadEach]
    refine (M.bind_val (load_none buffered l a hh hr) _).trans ?_
    refine (M.bind_val (ih a vs hv1 hh hr) _).trans rfl

/-- Loading well-formed attributes and a last one with a body of its own. -/
theorem loadEach_last {Z : Zlib} (hZ : Z.Lawful) {α : Type} {buffered : Bool} {v : AttrValue} {len : Nat} {b : Bytes}
    (hb : BodyLoads Z α buffered v len b) : ∀ (ls : List (Loader α)) (ds : List DAttr) (a : AP) (t : Bytes)
    (vals : List (Option α)), presentAll buffered ls (ds.map DAttr.value ++ [v]) = some vals →
    Fine a.parser.reader → a.parser.reader.seekable = true → a.parser.health = .running → a.attrs.rest = ds.length + 1 → a.attrs.rest ≤ a.attrs.total →
    (a.parser.started ≠ [] → a.parser.toplevel ≠ 0) → a.parser.reader.position ≤ a.attrs.next →
    a.attrs.next - a.parser.reader.position ≤ a.parser.reader.rest.length → (∀ d ∈ ds, attrFits Z d) →
    a.parser.reader.rest.drop (a.attrs.next - a.parser.reader.position) =
      ds.flatMap (attrBytes Z) ++ (UInt8.ofNat (typeChar v).toNat :: (b ++ t)) →
    ∃ k at', k ≤ a.attrs.next - a.parser.reader.position + ((ds.flatMap (attrBytes Z)).length + 1 + b.length) ∧
      loadEach Z buffered ls a = (.ok vals, ⟨{ a.parser with reader := a.parser.reader.consume k }, at'⟩) := by
  intro ls
  induction ls with
  | nil =>
    intro ds a t vals hv _ _ _ _ _ _ _ _ _ _
    simp only [presentAll, Option.some.injEq] at hv
    subst hv
    exact ⟨0, a.attrs, by omega, by rw [consume_zero]; rfl⟩
  | cons l ls ih =>
    intro ds a t vals hv hf hsk hh hr hrt htop hn hle hfit h
    cases ds with
    | nil =>
      simp only [List.map_nil, List.nil_append, presentAll] at hv
      cases hp : present buffered l v with
      | error e => rw [hp] at hv; simp at hv
      | ok x =>
        rw [hp] at hv
        simp only [Option.map_eq_some_iff] at hv
        obtain ⟨vs, hv1, rfl⟩ := hv
        simp only [List.flatMap_nil, List.nil_append] at h
        obtain ⟨k, k1, k2⟩ := load_gen hb l x hp a t 0 hf hsk hh hr hrt hn hle h
        refine ⟨k, (a.after (len + 1) k).attrs, by simp only [List.flatMap_nil, List.length_nil]; omega, ?_⟩
        rw [loadEach]
        refine (M.bind_val k2 _).trans ?_
        refine (M.bind_val (loadEach_done buffered ls (a.after (len + 1) k) vs hv1 hh (by simp [after, hr])) _).trans rfl
    | cons d ds =>
      simp only [List.map_cons, List.cons_append, presentAll] at hv
      cases hp : present buffered l d.value with
      | error e => rw [hp] at hv; simp at hv
      | ok x =>
        rw [hp] at hv
        simp only [Option.map_eq_some_iff] at hv
        obtain ⟨vs, hv1, rfl⟩ := hv
        simp only [List.flatMap_cons, List.append_assoc] at h
        have hlen : a.attrs.next - a.parser.reader.position + ((attrBytes Z d).length + ((ds.flatMap (attrBytes Z)).length + (b.length + t.length + 1))) = a.parser.reader.rest.length := by
          have := congrArg List.length h
          simp only [List.length_drop, List.length_append, List.length_cons] at this
          omega
        obtain ⟨k, k1, -, k2⟩ := load_fine buffered l d (fun _ => hZ.roundtrip _) a (ds.flatMap (attrBytes Z) ++ (UInt8.ofNat (typeChar v).toNat :: (b ++ t))) (ds.length + 1) hf (.inl hsk) hh (by simpa using hr) hrt htop hn hle
          (hfit d (by simp)) h
        rw [hp] at k2
        simp only at k2
        obtain ⟨j, at', j1, j2⟩ := ih ds (a.after (attrBytes Z d).length k) t vs hv1 (hf.consume (by omega)) hsk hh
          (by simp only [after, hr, List.length_cons, Nat.add_sub_cancel]) (by simp only [after]; omega) htop
          (by simp only [after, consume_position]; omega) (by simp only [after, consume_position, consume_rest, List.length_drop]; omega)
          (fun x hx => hfit x (by simp [hx])) (by
            simp only [after, consume_position, consume_rest, List.drop_drop]
            rw [show k + (a.attrs.next + (attrBytes Z d).length - (a.parser.reader.position + k)) =
              a.attrs.next - a.parser.reader.position + (attrBytes Z d).length by omega, ← List.drop_drop, h, List.drop_left])
        simp only [after, consume_consume, consume_position] at j1 j2
        refine ⟨k + j, at', ?_, ?_⟩
        · simp only [List.flatMap_cons, List.length_append]; omega
        · rw [loadEach]
          refine (M.bind_val k2 _).trans ?_
          refine (M.bind_val j2 _).trans rfl

/-- A compressed array with an empty header: only the two bytes of the zlib header are read. -/
theorem loadSeq_empty {Z : Zlib} (hZ : Z.Lawful) {e α : Type} {ty : ElemTy e} {f : e → Bytes} (hcod : Codes ty f)
    (c : Nat → SeqCons e α) (start idx : Nat) (t : Bytes) (a : AP) (hf : Fine a.parser.reader)
    (h : a.parser.reader.rest = leBytes 4 0 ++ (leBytes 4 1 ++ (leBytes 4 0 ++ (Z.encHeader.1 :: Z.encHeader.2 :: t)))) :
    ∃ k, k ≤ 14 ∧ loadSeq Z ty c start idx a = (resOf (feedSeq (c 0) []),
      a.moved (a.parser.reader.position + 12) (a.parser.reader.consume k)) := by
  have hp := hf.position
  rw [h] at hp
  simp only [List.length_append, leBytes_length] at hp
  have f1 : Fine (a.parser.reader.consume 12) := hf.consume (by rw [h]; simp; omega)
  have e1 : (a.parser.reader.consume 12).rest = Z.encHeader.1 :: Z.encHeader.2 :: t := by
    rw [consume_rest, h, ← List.append_assoc, ← List.append_assoc]
    exact List.drop_left' (by simp)
  obtain ⟨s, h1, -⟩ := hZ.roundtrip []
  have g1 : Dec.create Z .zlib (a.parser.reader.consume 12) = (.ok (.zlib s), a.parser.reader.consume 14) := by
    have e2 : ((a.parser.reader.consume 12).consume 1).rest = Z.encHeader.2 :: t := by rw [consume_rest, e1]; rfl
    have f2 : Fine ((a.parser.reader.consume 12).consume 1) := f1.consume (by rw [e1]; simp)
    rw [Dec.create, M.bind_apply, M.mapErr_apply, readU8_fine f1 e1]
    simp only
    rw [M.bind_apply, M.mapErr_apply, readU8_fine f2 e2]
    simp only [h1, M.pure_apply, consume_consume]
  have f3 : Fine (a.parser.reader.consume 14) := hf.consume (by rw [h]; simp; omega)
  have g3 : Dec.Feeds (Z := Z) (.zlib s) (a.parser.reader.consume 14) [] 0 :=
    ⟨[], _, rfl, by simp, .done _ _⟩
  obtain ⟨it', k, k1, k2, k3, k4, k5⟩ := iter_run (Z := Z) hcod (c 0) [] ⟨.zlib s, 0, false, false⟩ _ _ f3 rfl g3
  rw [consume_consume] at k1
  refine ⟨14 + k, by omega, ?_⟩
  rw [loadSeq, M.bind_val (arrHeader_fine 0 .zlib 0 (Z.encHeader.1 :: Z.encHeader.2 :: t) a hf (by decide) (by decide) h), M.bind_val (updateNext_ok (by simp; omega))]
  have hcr : par (M.zoom Parser.reader (fun r p => { p with reader := r }) (Dec.create Z .zlib))
      ((a.withReader (a.parser.reader.consume 12)).moved (a.parser.reader.position + 12 + 0) (a.parser.reader.consume 12)) =
      (.ok (.zlib s), a.moved (a.parser.reader.position + 12 + 0) (a.parser.reader.consume 14)) := by
    simp only [par, M.zoom_apply, moved, withReader, g1]
  simp only [withReader_reader, consume_position]
  rw [M.bind_val hcr]
  cases hfe : feedSeq (c 0) [] with
  | error x =>
    rw [hfe] at k1
    refine (M.bind_fail (s1 := a.moved (a.parser.reader.position + 12) (a.parser.reader.consume (14 + k)))
      (e := x) ?_ _).trans rfl
    simp only [runSeq, moved]
    rw [k1]
    simp [resOf]
  | ok v =>
    rw [hfe] at k1
    refine (M.bind_val (s1 := a.moved (a.parser.reader.position + 12) (a.parser.reader.consume (14 + k)))
      (a := (v, false, false)) ?_ _).trans rfl
    simp only [runSeq, moved]
    rw [k1]
    simp [resOf, k4, k5]

/-- What a failed call leaves is loaded as an empty attribute. -/
theorem bodyLoads_remains {Z : Zlib} (hZ : Z.Lawful) (α : Type) (buffered : Bool) (a : Append) (h : fails Z a = true) :
    ∃ len b, remains Z a = UInt8.ofNat (typeChar (seenAs Z a).value).toNat :: b ∧ BodyLoads Z α buffered (seenAs Z a).value len b := by
  have plain : ∀ (d : DAttr) (rest : Bytes), attrFits Z d →
      BodyLoads Z α buffered d.value (attrBody Z d).length (attrBody Z d ++ rest) := by
    intro d rest hd l start idx a t hf hr
    obtain ⟨k, k1, -, k2⟩ := loadImpl_fine buffered l start idx d (fun _ => hZ.roundtrip _) a (rest ++ t) hf hd (by rw [hr, List.append_assoc])
    exact ⟨k, by rw [List.length_append]; omega, k2⟩
  have zl : ∀ {β : Type} (d : DAttr) (xs : List (Except WErr β)), d.enc = .zlib →
      ∃ r, elementsLeft Z d xs = Z.encHeader.1 :: Z.encHeader.2 :: r := by
    intro β d xs hd
    simp only [elementsLeft, hd]
    split <;> simp [Zlib.encode]
  have arr : ∀ {e : Type} {ty : ElemTy e} {f : e → Bytes} (hcod : Codes ty f) (c : Loader α → Nat → SeqCons e α) (v : AttrValue)
      (hv : ∀ l start idx, loadImpl Z buffered v.type_ l start idx = loadSeq Z ty (c l) start idx)
      (hv2 : ∀ l, present buffered l v = feedSeq (c l 0) []) (r : Bytes),
      BodyLoads Z α buffered v 12 (leBytes 4 0 ++ (leBytes 4 1 ++ (leBytes 4 0 ++ (Z.encHeader.1 :: Z.encHeader.2 :: r)))) := by
    intro e ty f hcod c v hv hv2 r l start idx a t hf hr
    obtain ⟨k, k1, k2⟩ := loadSeq_empty hZ hcod (c l) start idx (r ++ t) a hf (by rw [hr]; simp)
    exact ⟨k, by simp; omega, by rw [hv, hv2]; exact k2⟩
  simp only [seenAs, h, if_true]
  have hdir : ∀ (d : DAttr), (d.enc = .direct) → d.value = emptied d.value → attrFits Z d := by
    intro d hd he
    obtain ⟨v, e⟩ := d
    simp only at hd; subst hd
    simp only at he
    cases v <;> simp_all [emptied, attrFits, arrayCount, arrayPayload, arrayData, utf8]
  cases a
  case arrBool enc xs =>
    cases he : enc.getD .direct with
    | direct =>
      refine ⟨_, _, ?_, plain ⟨.arrBool [], .direct⟩ (elementsLeft Z (denoteBefore (.arrBool enc xs)) xs) (hdir _ rfl rfl)⟩
      simp [remains, opening, denote, he, attrBody, arrayCount, arrayPayload, arrayData, emptied, typeChar, Writer.le_eq]
    | zlib =>
      obtain ⟨r, hr⟩ := zl (denoteBefore (.arrBool enc xs)) xs (by simp [denoteBefore, he])
      refine ⟨_, _, ?_, arr Codes.bool Loader.seqBool (.arrBool []) (fun _ _ _ => rfl) (fun _ => rfl) r⟩
      simp [remains, opening, denote, he, hr, emptied, typeChar, Writer.le_eq]
  case arrI32 enc xs =>
    cases he : enc.getD .direct with
    | direct =>
      refine ⟨_, _, ?_, plain ⟨.arrI32 [], .direct⟩ (elementsLeft Z (denoteBefore (.arrI32 enc xs)) xs) (hdir _ rfl rfl)⟩
      simp [remains, opening, denote, he, attrBody, arrayCount, arrayPayload, arrayData, emptied, typeChar, Writer.le_eq]
    | zlib =>
      obtain ⟨r, hr⟩ := zl (denoteBefore (.arrI32 enc xs)) xs (by simp [denoteBefore, he])
      refine ⟨_, _, ?_, arr Codes.i32 Loader.seqI32 (.arrI32 []) (fun _ _ _ => rfl) (fun _ => rfl) r⟩
      simp [remains, opening, denote, he, hr, emptied, typeChar, Writer.le_eq]
  case arrI64 enc xs =>
    cases he : enc.getD .direct with
    | direct =>
      refine ⟨_, _, ?_, plain ⟨.arrI64 [], .direct⟩ (elementsLeft Z (denoteBefore (.arrI64 enc xs)) xs) (hdir _ rfl rfl)⟩
      simp [remains, opening, denote, he, attrBody, arrayCount, arrayPayload, arrayData, emptied, typeChar, Writer.le_eq]
    | zlib =>
      obtain ⟨r, hr⟩ := zl (denoteBefore (.arrI64 enc xs)) xs (by simp [denoteBefore, he])
      refine ⟨_, _, ?_, arr Codes.i64 Loader.seqI64 (.arrI64 []) (fun _ _ _ => rfl) (fun _ => rfl) r⟩
      simp [remains, opening, denote, he, hr, emptied, typeChar, Writer.le_eq]
  case arrF32 enc xs =>
    cases he : enc.getD .direct with
    | direct =>
      refine ⟨_, _, ?_, plain ⟨.arrF32 [], .direct⟩ (elementsLeft Z (denoteBefore (.arrF32 enc xs)) xs) (hdir _ rfl rfl)⟩
      simp [remains, opening, denote, he, attrBody, arrayCount, arrayPayload, arrayData, emptied, typeChar, Writer.le_eq]
    | zlib =>
      obtain ⟨r, hr⟩ := zl (denoteBefore (.arrF32 enc xs)) xs (by simp [denoteBefore, he])
      refine ⟨_, _, ?_, arr Codes.f32 Loader.seqF32 (.arrF32 []) (fun _ _ _ => rfl) (fun _ => rfl) r⟩
      simp [remains, opening, denote, he, hr, emptied, typeChar, Writer.le_eq]
  case arrF64 enc xs =>
    cases he : enc.getD .direct with
    | direct =>
      refine ⟨_, _, ?_, plain ⟨.arrF64 [], .direct⟩ (elementsLeft Z (denoteBefore (.arrF64 enc xs)) xs) (hdir _ rfl rfl)⟩
      simp [remains, opening, denote, he, attrBody, arrayCount, arrayPayload, arrayData, emptied, typeChar, Writer.le_eq]
    | zlib =>
      obtain ⟨r, hr⟩ := zl (denoteBefore (.arrF64 enc xs)) xs (by simp [denoteBefore, he])
      refine ⟨_, _, ?_, arr Codes.f64 Loader.seqF64 (.arrF64 []) (fun _ _ _ => rfl) (fun _ => rfl) r⟩
      simp [remains, opening, denote, he, hr, emptied, typeChar, Writer.le_eq]
  case binary bs =>
    refine ⟨_, _, ?_, plain ⟨.binary [], .direct⟩ bs (hdir _ rfl rfl)⟩
    simp [remains, opening, denote, attrBody, emptied, typeChar, Writer.le_eq]
  case string s =>
    refine ⟨_, _, ?_, plain ⟨.string "", .direct⟩ (utf8 s) (hdir _ rfl rfl)⟩
    simp [remains, opening, denote, attrBody, emptied, typeChar, Writer.le_eq, utf8]
  case binaryReader chunks e =>
    refine ⟨_, _, ?_, plain ⟨.binary [], .direct⟩ chunks.flatten (hdir _ rfl rfl)⟩
    simp [remains, opening, denote, attrBody, emptied, typeChar, Writer.le_eq]
  case binaryIter xs =>
    refine ⟨_, _, ?_, plain ⟨.binary [], .direct⟩ (before xs) (hdir _ rfl rfl)⟩
    simp [remains, opening, denote, attrBody, emptied, typeChar, Writer.le_eq]
  case stringIter xs =>
    refine ⟨_, _, ?_, plain ⟨.string "", .direct⟩ (fourEach [0, 0, 0, 0] (before xs)) (hdir _ rfl rfl)⟩
    simp [remains, opening, denote, attrBody, emptied, typeChar, Writer.le_eq, utf8]
  all_goals simp [fails, callError] at h

end AP

/-- A call that does not fail is within all limits. -/
theorem callFits_of_ok (Z : Zlib) (a : Append) (h : fails Z a = false) : callFits Z a := by
  have hn : callError Z a = none := by
    simp only [fails] at h
    cases hc : callError Z a with
    | none => rfl
    | some e => rw [hc] at h; cases h
  have hall : ∀ {α : Type} (xs : List (Except WErr α)), firstError xs = none → allOk xs = true := by
    intro α xs
    induction xs with
    | nil => intro _; rfl
    | cons x xs ih => cases x <;> simp_all [firstError, allOk]
  have hlen : ∀ {n : Nat}, lengthError n = none → n < 2 ^ 32 := by
    intro n
    simp only [lengthError]
    split
    · intro _; assumption
    · intro h; cases h
  have harr : ∀ {α : Type} (d : DAttr) (xs : List (Except WErr α)), arrayError Z d xs = none →
      allOk xs = true ∧ arrayCount d.value < 2 ^ 32 ∧ (arrayPayload Z d).length < 2 ^ 32 := by
    intro α d xs he
    simp only [arrayError] at he
    cases hf : firstError xs with
    | some e => rw [hf] at he; cases he
    | none =>
      rw [hf] at he
      simp only at he
      split at he
      · exact ⟨hall xs hf, by assumption, hlen he⟩
      · cases he
  cases a
  case arrBool enc xs => exact harr _ xs hn
  case arrI32 enc xs => exact harr _ xs hn
  case arrI64 enc xs => exact harr _ xs hn
  case arrF32 enc xs => exact harr _ xs hn
  case arrF64 enc xs => exact harr _ xs hn
  case binary bs => exact ⟨trivial, hlen hn⟩
  case string s => exact ⟨trivial, hlen hn⟩
  case binaryReader chunks e =>
    cases e with
    | none => exact ⟨rfl, hlen hn⟩
    | some e => cases hn
  case binaryIter xs =>
    simp only [callError, Option.or_eq_none_iff] at hn
    exact ⟨hall xs hn.1, hlen hn.2⟩
  case stringIter xs =>
    simp only [callError, Option.or_eq_none_iff] at hn
    exact ⟨hall xs hn.1, hlen hn.2⟩
  all_goals exact ⟨trivial, trivial⟩

namespace Parser

theorem flatMap_of_ok (Z : Zlib) (as : List Append) (h : ∀ a ∈ as, fails Z a = false) :
    as.flatMap (adds Z) = (as.map denote).flatMap (attrBytes Z) ∧ as.map (seenAs Z) = as.map denote ∧
      ∀ d ∈ as.map denote, attrFits Z d := by
  induction as with
  | nil => simp
  | cons a as ih =>
    have ha := h a (by simp)
    obtain ⟨h1, h2, h3⟩ := ih (fun x hx => h x (by simp [hx]))
    simp only [List.flatMap_cons, List.map_cons, h1, h2, adds, seenAs, ha, Bool.false_eq_true, if_false, callBytes, List.mem_cons,
      forall_eq_or_imp, true_and]
    exact ⟨(callFits_of_ok Z a ha).2, h3⟩

theorem loads_failed {Z : Zlib} (hZ : Z.Lawful) {α : Type} (buffered : Bool) (as : List Append) (h : ∀ a ∈ as.dropLast, fails Z a = false) :
    Loads Z α true buffered (adds Z) (seenAs Z) as := by
  rcases as.eq_nil_or_concat with rfl | ⟨init, a, rfl⟩
  · intro ls vals hv _ p t n r hs hf hsk hh hc htop hrest
    obtain ⟨k, k1, -, k2⟩ := withAttrs_loadEach hZ buffered ls [] p t vals n r hs (by simpa using hv) hf (.inl hsk) hh hc htop (by simp) (by simpa using hrest)
    exact ⟨k, k1, .inl rfl, k2⟩
  · rw [List.concat_eq_append] at h ⊢
    rw [List.dropLast_concat] at h
    obtain ⟨h1, h2, h3⟩ := flatMap_of_ok Z init h
    intro ls vals hv _ p t n r hs hf hsk hh hc htop hrest
    cases ha : fails Z a with
    | false =>
      obtain ⟨g1, g2, g3⟩ := flatMap_of_ok Z (init ++ [a]) (by simp only [List.mem_append, List.mem_singleton]; rintro x (hx | rfl); exact h x hx; exact ha)
      rw [g2] at hv
      rw [g1] at hrest ⊢
      obtain ⟨k, k1, -, k2⟩ := withAttrs_loadEach hZ buffered ls _ p t vals n r hs hv hf (.inl hsk) hh (by simpa using hc) htop g3 hrest
      exact ⟨k, k1, .inl rfl, k2⟩
    | true =>
      obtain ⟨len, b, hb1, hb2⟩ := AP.bodyLoads_remains hZ α buffered a ha
      have hadd : adds Z a = UInt8.ofNat (typeChar (seenAs Z a).value).toNat :: b := by simp only [adds, ha, if_true, hb1]
      simp only [List.flatMap_append, List.flatMap_cons, List.flatMap_nil, List.append_nil, h1, hadd, List.append_assoc, List.cons_append] at hrest ⊢
      simp only [List.map_append, List.map_cons, List.map_nil] at hv
      have ho : AP.ofParser p = .ok ⟨p, ⟨n.attrCount, n.attrCount, p.reader.position⟩⟩ := by
        simp only [AP.ofParser, hs]
      obtain ⟨k, at', k1, k2⟩ := AP.loadEach_last hZ hb2 ls (init.map denote) ⟨p, ⟨n.attrCount, n.attrCount, p.reader.position⟩⟩ t vals
        (by rw [← h2]; exact hv) hf hsk hh (by simpa using hc)
        (by simp) (fun _ => htop) (by simp) (by simp) h3 (by simpa using hrest)
      refine ⟨k, by simp only [List.length_append, List.length_cons] at k1 ⊢; omega, .inl (by simp), ?_⟩
      simp only [withAttrs, ho, k2]

end Parser
end Fbx
