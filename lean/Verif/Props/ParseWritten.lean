import Verif.Proof.ReadDocument
import Verif.Props.WriterCalls

/-!
# What the parser makes of files left by the writer

`Spec.parseFile` opens the bytes with `AnyParser` on a seekable source and runs a client which pulls events and loads
attributes (`Spec.drive`).
-/

namespace Fbx
open Spec
open Writer (legal session Append)

namespace Parser

theorem footSized_lengths {f : Writer.FooterSpec} (h : footSized f) :
    (footOf f).unknown1.length = 16 ∧ (footOf f).unknown2.length = 4 ∧ (footOf f).unknown3.length = 16 := by
  obtain ⟨h1, h2, h3⟩ := h
  refine ⟨?_, ?_, ?_⟩
  · rcases hu : f.unknown1 with _ | u
    · simp [footOf, hu]
    · simpa [footOf, hu] using h1 u hu
  · rcases hu : f.unknown2 with _ | u
    · simp [footOf, hu]
    · simpa [footOf, hu] using h2 u hu
  · rcases hu : f.unknown3 with _ | u
    · simp [footOf, hu]
    · simpa [footOf, hu] using h3 u hu

theorem supported_ne {v : FbxVersion} (h : supported v.toNat) : v ≠ 0 := by
  rintro rfl
  simp [supported] at h

/-- The document of a session, ready to be parsed. -/
theorem parse_written {Z : Zlib} (hZ : Z.Lawful) {s s' : Sink} {v : FbxVersion} {ops : List Writer.Op} {f : Writer.FooterSpec}
    (hl : legal false ops = true) (h : session Z s v ops f = (.ok (), s')) :
    ∃ F, ops = calls F ∧ supported v.toNat ∧ (F.All (fun _ as => ∀ a ∈ as, intact a) → ∃ t,
      s'.buf = document v.toNat (attrBytes Z) (F.map denote) (footOf f) ++ t ∧
      ∀ (α : Type) (buffered checks : Bool) (plan : Nat → String → Nat → List (Loader α)) (H : Option Handler) (ending : Option IoErr) (cursor limit : Nat) (bs : Bytes),
        planOk buffered plan (F.map denote) 0 →
        (body v.toNat (attrBytes Z) (F.map denote) ++ bs).length < 2 ^ 64 → cursor + (body v.toNat (attrBytes Z) (F.map denote) ++ bs).length ≤ limit →
        (F.All (fun name _ => name ≠ "") ∨ indulgent H) →
        ∃ P : Parser,
          P.reader = ⟨bs, ending, cursor + (body v.toNat (attrBytes Z) (F.map denote)).length,
            (body v.toNat (attrBytes Z) (F.map denote)).length, true, limit⟩ ∧ P.version = v ∧ P.handler = H ∧ Reader.Fine P.reader ∧
          (∀ e ∈ P.log, e.1 = .emptyNodeName) ∧ P.log.length = emptyNames F ∧
          parseFile Z checks H ending cursor limit buffered plan (2 * F.count + 1) (body v.toNat (attrBytes Z) (F.map denote) ++ bs) =
            some (.ok (expected buffered plan (F.map denote) 0 ++ [.fbx (footerResult (readFooter P).1)]), (readFooter P).2)) := by
  obtain ⟨F, h1, h2, h3⟩ := session_document Z s s' v ops f hl h
  refine ⟨F, h1, h2, fun hi => ?_⟩
  obtain ⟨h4, t, h5⟩ := h3 hi
  refine ⟨t, h5, ?_⟩
  intro α buffered checks plan H ending cursor limit bs hp hlen hlim hn
  have := parse_body hZ buffered plan checks H ending cursor limit v (F.map denote) bs h2 h4 hp hlen hlim
    (hn.imp (all_map denote F _).mpr id)
  rwa [count_map, emptyNames_map] at this

/-- The same for a session whose calls are those of a forest. -/
theorem parse_forest {Z : Zlib} (hZ : Z.Lawful) {s s' : Sink} {v : FbxVersion} {F : Forest Append} {f : Writer.FooterSpec}
    (h : session Z s v (calls F) f = (.ok (), s')) (hi : F.All (fun _ as => ∀ a ∈ as, intact a)) :
    supported v.toNat ∧ ∃ t,
      s'.buf = document v.toNat (attrBytes Z) (F.map denote) (footOf f) ++ t ∧
      ∀ (α : Type) (buffered checks : Bool) (plan : Nat → String → Nat → List (Loader α)) (H : Option Handler) (ending : Option IoErr) (cursor limit : Nat) (bs : Bytes),
        planOk buffered plan (F.map denote) 0 →
        (body v.toNat (attrBytes Z) (F.map denote) ++ bs).length < 2 ^ 64 → cursor + (body v.toNat (attrBytes Z) (F.map denote) ++ bs).length ≤ limit →
        (F.All (fun name _ => name ≠ "") ∨ indulgent H) →
        ∃ P : Parser,
          P.reader = ⟨bs, ending, cursor + (body v.toNat (attrBytes Z) (F.map denote)).length,
            (body v.toNat (attrBytes Z) (F.map denote)).length, true, limit⟩ ∧ P.version = v ∧ P.handler = H ∧ Reader.Fine P.reader ∧
          (∀ e ∈ P.log, e.1 = .emptyNodeName) ∧ P.log.length = emptyNames F ∧
          parseFile Z checks H ending cursor limit buffered plan (2 * F.count + 1) (body v.toNat (attrBytes Z) (F.map denote) ++ bs) =
            some (.ok (expected buffered plan (F.map denote) 0 ++ [.fbx (footerResult (readFooter P).1)]), (readFooter P).2) := by
  have hl : legal false (calls F) = true := by
    have := legal_calls F false [] (fun _ _ => rfl)
    rw [List.append_nil] at this
    rw [this]; rfl
  obtain ⟨G, h1, h2, h3⟩ := parse_written hZ hl h
  have := C06_forest_unique _ _ h1
  subst this
  exact ⟨h2, h3 hi⟩

theorem emptyNames_zero {α : Type} (F : Forest α) (h : F.All (fun name _ => name ≠ "")) : emptyNames F = 0 := by
  induction F with
  | nil => rfl
  | cons n as ch r ih1 ih2 => simp only [Forest.All] at h; simp [emptyNames, h.1, ih1 h.2.1, ih2 h.2.2]

end Parser

open Parser

/-! ## C21 Everything written is parsed back -/

/-- Whatever a session of calls wrote, a client that loads every attribute with `DirectLoader` sees exactly the forest
that was written, in document order, with exactly the values written, and then the end of the document. The old
content of the sink does not matter, nor where the source starts, nor the buffering, nor the (indulgent) handler. -/
theorem C21_round_trip (Z : Zlib) (hZ : Z.Lawful) (s s' : Sink) (v : FbxVersion) (ops : List Writer.Op) (f : Writer.FooterSpec)
    (hl : legal false ops = true) (h : session Z s v ops f = (.ok (), s')) (hlen : s'.buf.length < 2 ^ 64)
    (buffered checks : Bool) (H : Option Handler) (hH : indulgent H) (ending : Option IoErr) (cursor limit : Nat)
    (hlim : cursor + s'.buf.length ≤ limit) :
    ∃ F, ops = calls F ∧ (F.All (fun _ as => ∀ a ∈ as, intact a) →
      ∃ footer q, parseFile Z checks H ending cursor limit buffered everything (2 * F.count + 1) s'.buf =
        some (.ok (events (F.map denote) ++ [.fbx footer]), q)) := by
  obtain ⟨F, h1, h2, h3⟩ := parse_written hZ hl h
  refine ⟨F, h1, fun hi => ?_⟩
  obtain ⟨t, ht, hp⟩ := h3 hi
  simp only [ht, document, List.append_assoc] at hlen hlim ⊢
  obtain ⟨P, -, -, -, -, -, -, hP⟩ := hp _ buffered checks everything H ending cursor limit _ (everything_ok _ _ _) hlen hlim (.inr hH)
  exact ⟨_, _, by rw [hP, everything_expected]⟩

/-- Read the events of the example. -/
example : ∃ footer q, parseFile Zlib.stored true none none 0 (2 ^ 64) false everything 7
      (session Zlib.stored exSink 7400 (calls exForest) exFooter).2.buf = some (.ok ([.start "A" 3
        [some (.i32 5), some (.string "xy"), some (.arrI32 [1, 2])], .start "B" 0 [], .end, .end,
        .start "C" 1 [some (.bool true)], .end] ++ [.fbx footer]), q) := by
  obtain ⟨F, h1, h2⟩ := C21_round_trip Zlib.stored Zlib.stored_lawful exSink _ 7400 (calls exForest) exFooter (by decide +kernel)
    (pair_eq (by decide +kernel)) (by decide +kernel) false true none (by intro f hf; cases hf) none 0 (2 ^ 64) (by decide +kernel)
  have := C06_forest_unique _ _ h1
  subst this
  exact h2 (by simp [exForest, Forest.All, intact])

/-! ## C22 No warnings -/

/-- With non-empty names, default padding, the fixed second and third footer field, and a first footer field with
the usual half-bytes (as the default one): no warning is raised, so that no handler can object, and the footer is
fine. For every client, as long as none of its loaders fails. -/
theorem C22_no_warnings (Z : Zlib) (hZ : Z.Lawful) (s s' : Sink) (v : FbxVersion) (F : Forest Append) (f : Writer.FooterSpec)
    (h : session Z s v (calls F) f = (.ok (), s')) (hi : F.All (fun _ as => ∀ a ∈ as, intact a))
    (hlen : s'.buf.length < 2 ^ 64) (hnames : F.All (fun name _ => name ≠ "")) (hf : footSized f)
    (hpad : f.padding = .default) (hu1 : ∀ u, f.unknown1 = some u → usualField1 u) (hu2 : f.unknown2 = none) (hu3 : f.unknown3 = none)
    {α : Type} (buffered checks : Bool) (plan : Nat → String → Nat → List (Loader α)) (hplan : planOk buffered plan (F.map denote) 0)
    (H : Option Handler) (ending : Option IoErr) (cursor limit : Nat) (hlim : cursor + s'.buf.length ≤ limit) :
    ∃ footer q, parseFile Z checks H ending cursor limit buffered plan (2 * F.count + 1) s'.buf =
      some (.ok (expected buffered plan (F.map denote) 0 ++ [.fbx (.ok footer)]), q) ∧ q.log = [] := by
  obtain ⟨h2, t, ht, hp⟩ := parse_forest hZ h hi
  obtain ⟨l1, l2, l3⟩ := footSized_lengths hf
  simp only [ht, document, List.append_assoc] at hlen hlim ⊢
  obtain ⟨P, hr, hv, hH, hfine, -, hlog, hP⟩ := hp _ buffered checks plan H ending cursor limit _ hplan hlen hlim (.inl hnames)
  have hu1' : usualField1 (footOf f).unknown1 := by
    rcases hu : f.unknown1 with _ | u
    · simp only [footOf, hu, Option.getD_none, usualField1]; decide +kernel
    · simpa [footOf, hu] using hu1 u hu
  have hlog : P.log = [] := by rw [emptyNames_zero F hnames] at hlog; exact List.eq_nil_of_length_eq_zero hlog
  have hpad' : (footOf f).padding = none := by simp [footOf, hpad]
  obtain ⟨ft, hft⟩ : ∃ ft : Footer, ft = ⟨(footOf f).unknown1, padLen (footOf f) P.reader.position, [0, 0, 0, 0], v,
      [0xf8, 0x5a, 0x8c, 0x6a, 0xde, 0xf5, 0xd9, 0x7e, 0xec, 0xe9, 0x0c, 0xe3, 0x75, 0x8f, 0x29, 0x0b]⟩ := ⟨_, rfl⟩
  have hpl : padLen (footOf f) P.reader.position = expectedPadding (P.reader.position + 16) := by
    simp only [padLen, hpad', Option.getD_none, l1]; rfl
  have hs : startsWithFooter P.version.toNat P.reader.rest ft := by
    rw [hft]
    refine ⟨l1, ?_, rfl, by rw [hv], rfl, t, ?_⟩
    · simp only [hpl, expectedPadding]; omega
    · rw [hv, hr]
      simp [footer, footOf, hu2, hu3]
  have hodd : footerField1Odd ft.unknown1 = false := (odd_iff _ (by rw [hft]; exact l1)).mpr (by rw [hft]; exact hu1')
  have hpl' : ft.paddingLen = expectedPadding (P.reader.position + 16) := by rw [hft]; exact hpl
  obtain ⟨q, hq⟩ := readFooter_accept (.inr ⟨hodd, hpl'⟩) hfine.position hs
  obtain ⟨-, hq2⟩ := readFooter_inv hq
  refine ⟨ft, q, ?_, ?_⟩
  · rw [hP, hq]; rfl
  · rw [hq2]; simp [hodd, hpl', hlog]

/-- The example raises no warnings, even with a handler that always objects. -/
example : ∃ footer q, parseFile Zlib.stored true (some (fun _ _ _ => some (PErr.ofData .brokenFbxFooter))) none 0 (2 ^ 64) true everything 7
      (session Zlib.stored exSink 7500 (calls exForest) exFooter).2.buf = some (.ok (expected true everything (exForest.map denote) 0 ++ [.fbx (.ok footer)]), q) ∧
      q.log = [] :=
  C22_no_warnings Zlib.stored Zlib.stored_lawful exSink _ 7500 exForest exFooter (pair_eq (by decide +kernel))
    (by simp [exForest, Forest.All, intact]) (by decide +kernel) (by simp [exForest, Forest.All])
    ⟨by simp [exFooter], by simp [exFooter], by simp [exFooter]⟩ rfl (by simp [exFooter]) rfl rfl true true everything (everything_ok _ _ _)
    _ none 0 (2 ^ 64) (by decide +kernel)

/-! ## C07 No marker warnings -/

/-- Parsing a file left by the writer raises neither `MissingNodeEndMarker` nor `ExtraNodeEndMarker`, whatever the
names, the footer and the client; `EmptyNodeName` is raised once per node with an empty name, and all other warnings
concern the footer. -/
theorem C07_no_marker_warnings (Z : Zlib) (hZ : Z.Lawful) (s s' : Sink) (v : FbxVersion) (F : Forest Append) (f : Writer.FooterSpec)
    (h : session Z s v (calls F) f = (.ok (), s')) (hi : F.All (fun _ as => ∀ a ∈ as, intact a))
    (hlen : s'.buf.length < 2 ^ 64)
    {α : Type} (buffered checks : Bool) (plan : Nat → String → Nat → List (Loader α)) (hplan : planOk buffered plan (F.map denote) 0)
    (H : Option Handler) (hH : indulgent H) (ending : Option IoErr) (cursor limit : Nat) (hlim : cursor + s'.buf.length ≤ limit) :
    ∃ r q, parseFile Z checks H ending cursor limit buffered plan (2 * F.count + 1) s'.buf = some (.ok r, q) ∧
      (∀ e ∈ q.log, e.1 ≠ .missingNodeEndMarker ∧ e.1 ≠ .extraNodeEndMarker) ∧
      (q.log.filter (fun e => e.1 = .emptyNodeName)).length = emptyNames F := by
  obtain ⟨h2, t, ht, hp⟩ := parse_forest hZ h hi
  simp only [ht, document, List.append_assoc] at hlen hlim ⊢
  obtain ⟨P, hr, hv, hH, hfine, hlog, hlog2, hP⟩ := hp _ buffered checks plan H ending cursor limit _ hplan hlen hlim (.inr hH)
  refine ⟨_, _, hP, ?_⟩
  have := readFooter_log P
  have : ∃ new, (readFooter P).2.log = new ++ P.log ∧ ∀ e ∈ new, e.1 = .unexpectedFooterField ∨ ∃ a b, e.1 = .invalidFooterPadding a b := by
    simp only [M.wp] at this
    rcases hq : readFooter P with ⟨_ | _ | _, q⟩ <;> rw [hq] at this <;> exact this
  obtain ⟨new, hn1, hn2⟩ := this
  rw [hn1]
  constructor
  · intro e he
    rcases List.mem_append.mp he with he | he
    · rcases hn2 e he with h | ⟨a, b, h⟩ <;> rw [h] <;> simp
    · rw [hlog e he]; simp
  · rw [List.filter_append, List.length_append, ← hlog2]
    have e1 : new.filter (fun e => e.1 = .emptyNodeName) = [] := by
      rw [List.filter_eq_nil_iff]
      intro e he
      rcases hn2 e he with h | ⟨a, b, h⟩ <;> rw [h] <;> simp
    have e2 : P.log.filter (fun e => e.1 = .emptyNodeName) = P.log := by
      rw [List.filter_eq_self]
      intro e he
      simpa using hlog e he
    rw [e1, e2]; simp

/-- Two nodes without a name, one of them without attributes: two warnings, about the names. -/
example : ((parseFile Zlib.stored true none none 0 (2 ^ 64) false (fun _ _ _ => ([] : List (Loader Unit))) 5
      (session Zlib.stored exSink 7400 (calls (.cons "" [.i16 1] (.cons "" [] .nil .nil) .nil)) exFooter).2.buf).map
        (fun x => x.2.log.map Prod.fst)) = some [.emptyNodeName, .emptyNodeName] := by
  decide +kernel

example := C07_no_marker_warnings Zlib.stored Zlib.stored_lawful exSink _ 7400 (.cons "" [.i16 1] (.cons "" [] .nil .nil) .nil) exFooter
  (pair_eq (by decide +kernel)) (by simp [Forest.All, intact]) (by decide +kernel) false true everything (everything_ok _ _ _)
  none (by intro f hf; cases hf) none 0 (2 ^ 64) (by decide +kernel)

/-! ## C17 A rejected `new_node` shows in the file -/

set_option maxRecDepth 10000 in
/-- `new_node("A")`, `append_i32(5)`, a `new_node` that is rejected for its name of 256 bytes, `close_node`, `finalize`:
everything but the rejected call succeeds, and the parser warns about an extra end marker. Without the rejected call
(second part) it does not. -/
theorem C17_rejected_node_shows :
    let w := exOpen (fun _ => none)
    let w1 := (Writer.newNode (String.ofList (List.replicate 256 'a')) w).2
    let parse := fun (w : Writer) => (parseFile Zlib.stored true none none 0 (2 ^ 64) false (fun _ _ _ => ([] : List (Loader Unit))) 3
      (Writer.finalize exFooter (Writer.closeNode w).2).2.sink.buf).map (fun x => x.2.log.map Prod.fst)
    (Writer.closeNode w1).1 = .ok () ∧ (Writer.finalize exFooter (Writer.closeNode w1).2).1 = .ok () ∧
    parse w1 = some [.extraNodeEndMarker] ∧ parse w = some [] := by
  decide +kernel

/-! ## C13 Trailing bytes -/

/-- The parser's result does not depend on the bytes beyond the document: the sink may have held anything. For every
client and footer. -/
theorem C13_trailing (Z : Zlib) (hZ : Z.Lawful) (s s' r r' : Sink) (v : FbxVersion) (F : Forest Append) (f : Writer.FooterSpec)
    (hf : footSized f)
    (h : session Z s v (calls F) f = (.ok (), s')) (k : session Z r v (calls F) f = (.ok (), r'))
    (hi : F.All (fun _ as => ∀ a ∈ as, intact a))
    (hlen : s'.buf.length < 2 ^ 64) (klen : r'.buf.length < 2 ^ 64)
    {α : Type} (buffered checks : Bool) (plan : Nat → String → Nat → List (Loader α)) (hplan : planOk buffered plan (F.map denote) 0)
    (H : Option Handler) (hH : F.All (fun name _ => name ≠ "") ∨ indulgent H) (ending : Option IoErr) (cursor limit : Nat)
    (hlim : cursor + s'.buf.length ≤ limit) (klim : cursor + r'.buf.length ≤ limit) :
    ∃ res q q', parseFile Z checks H ending cursor limit buffered plan (2 * F.count + 1) s'.buf = some (res, q) ∧
      parseFile Z checks H ending cursor limit buffered plan (2 * F.count + 1) r'.buf = some (res, q') := by
  obtain ⟨h2, t, ht, hp⟩ := parse_forest hZ h hi
  obtain ⟨-, u, hu, -⟩ := parse_forest hZ k hi
  obtain ⟨l1, l2, l3⟩ := footSized_lengths hf
  simp only [ht, hu, document, List.append_assoc] at hlen hlim klen klim ⊢
  obtain ⟨P, hr, hv, hH1, hfine, hlog, hlog2, hP⟩ := hp _ buffered checks plan H ending cursor limit _ hplan hlen hlim hH
  obtain ⟨Q, kr, kv, kH1, kfine, klog, klog2, hQ⟩ := hp _ buffered checks plan H ending cursor limit _ hplan klen klim hH
  refine ⟨_, _, (readFooter Q).2, hP, hQ.trans ?_⟩
  have : (readFooter P).1 = (readFooter Q).1 := by
    refine readFooter_alike l1 l2 l3 (p := P) (q := Q) (ft := footOf f) ⟨?_, by rw [hv, kv], ?_, t, u, true, ?_, ?_⟩ (by rw [hv]; exact supported_ne h2)
    · rcases hH with hn | hn
      · rw [emptyNames_zero F hn] at hlog2 klog2
        exact .inr ⟨by rw [hH1, kH1], by rw [List.eq_nil_of_length_eq_zero hlog2, List.eq_nil_of_length_eq_zero klog2]⟩
      · exact .inl ⟨fun g hg => hn g (by rw [← hH1]; exact hg), fun g hg => hn g (by rw [← kH1]; exact hg)⟩
    · rw [hr, hv]
      simp only [List.length_append] at hlen ⊢
      omega
    · rw [hr, hv]
    · rw [hr, kr, hv]
  rw [this]

/-- An empty sink and one that held 1000 bytes. -/
example := C13_trailing Zlib.stored Zlib.stored_lawful ⟨[], 0, fun _ => none⟩ _ ⟨List.replicate 1000 7, 500, fun _ => none⟩ _ 7400 exForest exFooter
  ⟨by simp [exFooter], by simp [exFooter], by simp [exFooter]⟩
  (pair_eq (by decide +kernel)) (pair_eq (by decide +kernel)) (by simp [exForest, Forest.All, intact]) (by decide +kernel) (by decide +kernel)
  false true everything (everything_ok _ _ _) none (.inr (by intro f hf; cases hf)) none 0 (2 ^ 64) (by decide +kernel) (by decide +kernel)

/-! ## C19 Footers -/

/-- Reading back a footer with padding that is default or forced to at most 15 bytes. The padding warning is raised
exactly if the padding is not the one that aligns the following bytes, the field warning exactly if the first field is
unusual. -/
theorem C19_footer_round_trip (Z : Zlib) (hZ : Z.Lawful) (s s' : Sink) (v : FbxVersion) (F : Forest Append) (f : Writer.FooterSpec)
    (h : session Z s v (calls F) f = (.ok (), s')) (hi : F.All (fun _ as => ∀ a ∈ as, intact a))
    (hlen : s'.buf.length < 2 ^ 64) (hf : footSized f) (hpad : ∀ n, f.padding = .forced n → n.toNat ≤ 15)
    (hu2 : f.unknown2 = none) (hu3 : f.unknown3 = none)
    {α : Type} (buffered checks : Bool) (plan : Nat → String → Nat → List (Loader α)) (hplan : planOk buffered plan (F.map denote) 0)
    (H : Option Handler) (hH : indulgent H) (ending : Option IoErr) (cursor limit : Nat) (hlim : cursor + s'.buf.length ≤ limit) :
    ∃ padding q, parseFile Z checks H ending cursor limit buffered plan (2 * F.count + 1) s'.buf =
        some (.ok (expected buffered plan (F.map denote) 0 ++ [.fbx (.ok ⟨(footOf f).unknown1, padding, [0, 0, 0, 0], v,
          [0xf8, 0x5a, 0x8c, 0x6a, 0xde, 0xf5, 0xd9, 0x7e, 0xec, 0xe9, 0x0c, 0xe3, 0x75, 0x8f, 0x29, 0x0b]⟩)]), q) ∧
      padding = (match f.padding with
        | .default => alignPad ((body v.toNat (attrBytes Z) (F.map denote)).length + 16)
        | .forced n => n.toNat) ∧
      ((∃ e ∈ q.log, ∃ a b, e.1 = .invalidFooterPadding a b) ↔ padding ≠ alignPad ((body v.toNat (attrBytes Z) (F.map denote)).length + 16)) ∧
      ((∃ e ∈ q.log, e.1 = .unexpectedFooterField) ↔ ¬ usualField1 (footOf f).unknown1) := by
  obtain ⟨h2, t, ht, hp⟩ := parse_forest hZ h hi
  obtain ⟨l1, l2, l3⟩ := footSized_lengths hf
  simp only [ht, document, List.append_assoc] at hlen hlim ⊢
  obtain ⟨P, hr, hv, hH', hfine, hlog1, hlog, hP⟩ := hp _ buffered checks plan H ending cursor limit _ hplan hlen hlim (.inr hH)
  have hpos : P.reader.position = (body v.toNat (attrBytes Z) (F.map denote)).length := by rw [hr]
  rw [← hpos]
  have hp1 : padLen (footOf f) P.reader.position = (match f.padding with
        | .default => alignPad (P.reader.position + 16)
        | .forced n => n.toNat) := by
    simp only [padLen, l1]
    simp only [footOf]
    cases f.padding <;> rfl
  obtain ⟨ft, hft⟩ : ∃ ft : Footer, ft = ⟨(footOf f).unknown1, padLen (footOf f) P.reader.position, [0, 0, 0, 0], v,
      [0xf8, 0x5a, 0x8c, 0x6a, 0xde, 0xf5, 0xd9, 0x7e, 0xec, 0xe9, 0x0c, 0xe3, 0x75, 0x8f, 0x29, 0x0b]⟩ := ⟨_, rfl⟩
  have hs : startsWithFooter P.version.toNat P.reader.rest ft := by
    rw [hft]
    refine ⟨l1, ?_, rfl, by rw [hv], rfl, t, ?_⟩
    · simp only [hp1]
      cases hpd : f.padding with
      | default => simp only [alignPad]; omega
      | forced n => exact hpad n hpd
    · rw [hv, hr]
      simp [footer, footOf, hu2, hu3]
  obtain ⟨q, hq⟩ := readFooter_accept (.inl (fun g hg => hH g (by rw [← hH']; exact hg))) hfine.position hs
  obtain ⟨-, hq2⟩ := readFooter_inv hq
  have hodd : footerField1Odd ft.unknown1 = true ↔ ¬ usualField1 (footOf f).unknown1 := by
    rw [← odd_iff (footOf f).unknown1 l1, hft]
    simp
  refine ⟨padLen (footOf f) P.reader.position, q, ?_, hp1, ?_, ?_⟩
  · rw [hpos] at hft ⊢; rw [hP, hq, hft]; rfl
  · have hx : ft.paddingLen ≠ expectedPadding (P.reader.position + 16) ↔ padLen (footOf f) P.reader.position ≠ alignPad (P.reader.position + 16) := by
      rw [hft]; exact .rfl
    rw [← hx, hq2]
    constructor
    · rintro ⟨e, he, a, b, hab⟩ hx
      simp only [hx, ne_eq, not_true_eq_false, if_false, List.nil_append, List.mem_append] at he
      rcases he with he | he
      · split at he
        · rw [List.mem_singleton.mp he] at hab; cases hab
        · cases he
      · rw [hlog1 e he] at hab; cases hab
    · intro hx
      simp only [hx, ne_eq, not_false_eq_true, if_true]
      exact ⟨_, List.mem_append_left _ (List.mem_singleton.mpr rfl), _, _, rfl⟩
  · rw [← hodd, hq2]
    constructor
    · rintro ⟨e, he, hab⟩
      simp only [List.mem_append] at he
      rcases he with he | he | he
      · split at he
        · rw [List.mem_singleton.mp he] at hab; cases hab
        · cases he
      · split at he
        · assumption
        · cases he
      · rw [hlog1 e he] at hab; cases hab
    · intro hx
      simp only [hx, if_true]
      exact ⟨_, List.mem_append_right _ (List.mem_append_left _ (List.mem_singleton.mpr rfl)), rfl⟩

/-- A footer with forced padding of 3 bytes and an unusual first field. -/
def exFooter3 : Writer.FooterSpec := ⟨some (List.replicate 16 0x55), .forced 3, none, none⟩

example := C19_footer_round_trip Zlib.stored Zlib.stored_lawful exSink _ 7400 exForest exFooter3
  (pair_eq (by decide +kernel)) (by simp [exForest, Forest.All, intact]) (by decide +kernel)
  ⟨by simp [exFooter3], by simp [exFooter3], by simp [exFooter3]⟩ (by simp [exFooter3]) rfl rfl false true everything (everything_ok _ _ _) none
  (by intro f hf; cases hf) none 0 (2 ^ 64) (by decide +kernel)

/-- Both warnings are raised. -/
example : ((parseFile Zlib.stored true none none 0 (2 ^ 64) false (fun _ _ _ => ([] : List (Loader Unit))) 7
      (session Zlib.stored exSink 7400 (calls exForest) exFooter3).2.buf).map (fun x => x.2.log.map Prod.fst)) =
    some [.invalidFooterPadding 15 3, .unexpectedFooterField] := by
  decide +kernel

/-- Padding forced to 16 bytes or more is written but not accepted when reading: `EndFbx` carries `BrokenFbxFooter`. -/
theorem C19_long_padding (Z : Zlib) (hZ : Z.Lawful) (s s' : Sink) (v : FbxVersion) (F : Forest Append) (f : Writer.FooterSpec)
    (h : session Z s v (calls F) f = (.ok (), s')) (hi : F.All (fun _ as => ∀ a ∈ as, intact a))
    (hlen : s'.buf.length < 2 ^ 64) (hf : footSized f) (n : UInt8) (hpad : f.padding = .forced n) (hn : 16 ≤ n.toNat)
    (hu2 : f.unknown2 = none)
    {α : Type} (buffered checks : Bool) (plan : Nat → String → Nat → List (Loader α)) (hplan : planOk buffered plan (F.map denote) 0)
    (H : Option Handler) (hH : indulgent H) (ending : Option IoErr) (cursor limit : Nat) (hlim : cursor + s'.buf.length ≤ limit) :
    ∃ q, parseFile Z checks H ending cursor limit buffered plan (2 * F.count + 1) s'.buf =
        some (.ok (expected buffered plan (F.map denote) 0 ++ [.fbx (.error (PErr.ofData .brokenFbxFooter))]), q) := by
  obtain ⟨h2, t, ht, hp⟩ := parse_forest hZ h hi
  obtain ⟨l1, l2, l3⟩ := footSized_lengths hf
  simp only [ht, document, List.append_assoc] at hlen hlim ⊢
  obtain ⟨P, hr, hv, hH', hfine, hlog1, hlog, hP⟩ := hp _ buffered checks plan H ending cursor limit _ hplan hlen hlim (.inr hH)
  obtain ⟨q, hq⟩ := readFooter_long (p := P) (fun g hg => hH g (by rw [← hH']; exact hg)) hfine (footOf f).unknown1 n.toNat ((footOf f).unknown3 ++ t) l1 hn
    (by rw [hv]; exact supported_ne h2) (by
      rw [hr, hv]
      simp [footer, padLen, footOf, hpad, hu2])
  exact ⟨q, by rw [hP, hq]; rfl⟩

example := C19_long_padding Zlib.stored Zlib.stored_lawful exSink _ 7400 exForest ⟨none, .forced 16, none, none⟩
  (pair_eq (by decide +kernel)) (by simp [exForest, Forest.All, intact]) (by decide +kernel)
  ⟨by simp, by simp, by simp⟩ 16 rfl (by decide) rfl false true everything (everything_ok _ _ _) none
  (by intro f hf; cases hf) none 0 (2 ^ 64) (by decide +kernel)

/-! ## C20 Which footers are accepted -/

/-- After the nodes and the terminator, whatever bytes `bs` follow: the client sees the nodes and then `EndFbx`, never
a panic; the footer is returned as `Ok(footer)` exactly if `bs` begins with a footer with these contents. -/
theorem C20_footer_acceptance (Z : Zlib) (hZ : Z.Lawful) (v : FbxVersion) (hv : supported v.toNat) (F : Forest DAttr)
    (hfit : forestFits v.toNat (attrBytes Z) (attrFits Z) F 27) (bs : List UInt8)
    (hlen : (body v.toNat (attrBytes Z) F ++ bs).length < 2 ^ 64)
    {α : Type} (buffered checks : Bool) (plan : Nat → String → Nat → List (Loader α)) (hplan : planOk buffered plan F 0)
    (H : Option Handler) (hH : indulgent H) (ending : Option IoErr) (cursor limit : Nat)
    (hlim : cursor + (body v.toNat (attrBytes Z) F ++ bs).length ≤ limit) :
    ∃ footer q, parseFile Z checks H ending cursor limit buffered plan (2 * F.count + 1) (body v.toNat (attrBytes Z) F ++ bs) =
        some (.ok (expected buffered plan F 0 ++ [.fbx footer]), q) ∧
      ∀ f, footer = .ok f ↔ startsWithFooter v.toNat bs f := by
  obtain ⟨P, hr, hv', hH', hfine, -, -, hP⟩ := parse_body hZ buffered plan checks H ending cursor limit v F bs hv hfit hplan hlen hlim (.inr hH)
  refine ⟨_, _, hP, fun f => ?_⟩
  have hnp := readFooter_no_panic (p := P) (by rw [hr]; simp only [List.length_append] at hlen ⊢; omega)
  have hb : P.reader.rest = bs := by rw [hr]
  constructor
  · intro hf
    rcases hq : readFooter P with ⟨_ | _ | _, q⟩
    · rw [hq] at hf
      simp only [footerResult, Except.ok.injEq] at hf
      subst hf
      have := (readFooter_inv hq).1
      rwa [hv', hb] at this
    · rw [hq] at hf; cases hf
    · rw [M.wp, hq] at hnp; exact hnp.elim
  · intro hs
    obtain ⟨q, hq⟩ := readFooter_accept (p := P) (f := f) (.inl (fun g hg => hH g (by rw [← hH']; exact hg))) hfine.position (by rw [hv', hb]; exact hs)
    rw [hq]; rfl

/-- An empty document followed by a footer, and by nothing. -/
example := C20_footer_acceptance Zlib.stored Zlib.stored_lawful 7400 (by simp [supported]) .nil trivial
  (footer 7400 (footOf exFooter) 40) (by decide +kernel) false true everything (everything_ok _ _ _) none
  (by intro f hf; cases hf) none 0 (2 ^ 64) (by decide +kernel)
example := C20_footer_acceptance Zlib.stored Zlib.stored_lawful 7400 (by simp [supported]) .nil trivial
  [] (by decide +kernel) false true everything (everything_ok _ _ _) none
  (by intro f hf; cases hf) none 0 (2 ^ 64) (by decide +kernel)

/-! ## C32 Unread attributes -/

/-- Which attributes are loaded, and with which loaders, does not influence the events of a written document: every
client none of whose loaders fails sees the same events, including the footer. -/
theorem C32_unread_attributes (Z : Zlib) (hZ : Z.Lawful) (s s' : Sink) (v : FbxVersion) (F : Forest Append) (f : Writer.FooterSpec)
    (h : session Z s v (calls F) f = (.ok (), s')) (hi : F.All (fun _ as => ∀ a ∈ as, intact a)) (hf : footSized f)
    (hlen : s'.buf.length < 2 ^ 64) (ending : Option IoErr) (cursor limit : Nat) (hlim : cursor + s'.buf.length ≤ limit) :
    ∃ footer, ∀ (α : Type) (buffered checks : Bool) (plan : Nat → String → Nat → List (Loader α)) (H : Option Handler),
      planOk buffered plan (F.map denote) 0 → indulgent H →
      ∃ obs q, parseFile Z checks H ending cursor limit buffered plan (2 * F.count + 1) s'.buf = some (.ok obs, q) ∧
        obs.map Obs.bare = (events (F.map denote)).map Obs.bare ++ [.fbx footer] := by
  obtain ⟨h2, t, ht, hp⟩ := parse_forest hZ h hi
  obtain ⟨l1, l2, l3⟩ := footSized_lengths hf
  simp only [ht, document, List.append_assoc] at hlen hlim ⊢
  obtain ⟨P, hr, hv, hH1, hfine, hlog, hlog2, hP⟩ := hp _ false true everything none ending cursor limit _ (everything_ok _ _ _) hlen hlim (.inr (by intro g hg; cases hg))
  refine ⟨footerResult (readFooter P).1, fun α buffered checks plan H hplan hH => ?_⟩
  obtain ⟨Q, kr, kv, kH1, kfine, klog, klog2, hQ⟩ := hp _ buffered checks plan H ending cursor limit _ hplan hlen hlim (.inr hH)
  refine ⟨_, _, hQ, ?_⟩
  have : (readFooter P).1 = (readFooter Q).1 := by
    refine readFooter_alike l1 l2 l3 (p := P) (q := Q) (ft := footOf f) ⟨?_, by rw [hv, kv], ?_, t, t, true, ?_, ?_⟩ (by rw [hv]; exact supported_ne h2)
    · exact .inl ⟨fun g hg => (by rw [hH1] at hg; cases hg), fun g hg => hH g (by rw [← kH1]; exact hg)⟩
    · rw [hr, hv]
      simp only [List.length_append] at hlen ⊢
      omega
    · rw [hr, hv]
    · rw [hr, kr, hv]
  simp [expected_bare, this, Obs.bare]

example := C32_unread_attributes Zlib.stored Zlib.stored_lawful exSink _ 7400 exForest exFooter
  (pair_eq (by decide +kernel)) (by simp [exForest, Forest.All, intact]) ⟨by simp [exFooter], by simp [exFooter], by simp [exFooter]⟩
  (by decide +kernel) none 0 (2 ^ 64) (by decide +kernel)

/-- A plan that loads the first attribute of every other node, as a type, fits. -/
example : planOk true (fun k _ _ => if k % 2 = 0 then [typeLoader] else []) (exForest.map denote) 0 := by
  simp [exForest, Forest.map, planOk, denote, presentAll, present, typeLoader, Forest.count]

end Fbx
