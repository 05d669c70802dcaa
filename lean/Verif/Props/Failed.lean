import Verif.Proof.FailedRead
import Verif.Props.ParseWritten

/-!
# C54: failed `append_*` calls are not undone
-/

namespace Fbx
open Spec
open Writer (Append append)
open Parser

/-! ## What a failed call leaves -/

/-- On a working device, in any state with an open node: a call that fails nevertheless counts as an attribute of the
node, and leaves the type code, an empty header, and everything written before the error. -/
theorem C54_failed_append (Z : Zlib) (w : Writer) (hf : w.sink.fault = fun _ => none) (n : OpenNode) (r : List OpenNode)
    (ho : w.opened = n :: r) (hn : n.header.numAttrs + 1 < 2 ^ 64) (a : Append) (hp : w.sink.pos + volume Z a < 2 ^ 64)
    (e : WErr) (w' : Writer) (h : append Z a w = (.err e, w')) :
    w'.opened = { n with header := { n.header with numAttrs := n.header.numAttrs + 1 } } :: r ∧ w'.version = w.version ∧
    w'.sink.pos = w.sink.pos + (remains Z a).length ∧ w'.sink.buf = Sink.store w.sink.buf w.sink.pos (remains Z a) := by
  have hfail : fails Z a = true := by
    have := C10_append_errors Z w hf n r ho hn a hp
    rw [h] at this
    simp only [fails]
    cases hc : callError Z a with
    | none => rw [hc] at this; cases this
    | some e => rfl
  have := Writer.append_left Z hf ho hn a hp hfail
  rw [h] at this
  simp only at this
  subst this
  exact ⟨rfl, rfl, rfl, rfl⟩

/-- An array of which the second element fails: the type code, a header of zeros and the first element. -/
example : (append Zlib.stored (.arrI32 none [.ok 7, .error (.attributeTooLong 0)]) (exOpen fun _ => none)).1 = .err (.attributeTooLong 0) ∧
    ((exOpen fun _ => none).opened.map (·.header.numAttrs)) = [1] ∧
    ((append Zlib.stored (.arrI32 none [.ok 7, .error (.attributeTooLong 0)]) (exOpen fun _ => none)).2.opened.map (·.header.numAttrs)) = [2] ∧
    remains Zlib.stored (.arrI32 none [.ok 7, .error (.attributeTooLong 0)]) = [0x69, 0, 0, 0, 0, 0, 0, 0, 0, 0, 0, 0, 0, 7, 0, 0, 0] := by
  decide +kernel

/-! ## The file of a client that ignores these errors -/

/-- A client that goes on after failed `append_*` calls can finish the file: it is the document in which every failed
call has left its remains. -/
theorem C54_file (Z : Zlib) (s : Sink) (hs : s.fault = fun _ => none) (v : FbxVersion) (hv : supported v.toNat) (F : Forest Append)
    (f : Writer.FooterSpec) (hfit : forestFits v.toNat (adds Z) (modest Z) F 27)
    (hlen : (document v.toNat (adds Z) F (footOf f)).length < 2 ^ 63) :
    (carelessSession Z s v (calls F) f).1 = .ok () ∧
    (carelessSession Z s v (calls F) f).2.buf = document v.toNat (adds Z) F (footOf f) ++
      s.buf.drop (document v.toNat (adds Z) F (footOf f)).length := by
  rw [Writer.careless_session Z s hs v hv F f hfit hlen]
  exact ⟨rfl, rfl⟩

/-- If no call fails, that is the file of C04. -/
example (Z : Zlib) (a : Append) (h : fails Z a = false) : adds Z a = callBytes Z a := by simp [adds, h]

/-- A careless session: an array that fails, a compressed one that fails after an attribute that does not, and a string
that fails. -/
def exCareless : Forest Append :=
  .cons "A" [.arrI32 none [.ok 7, .error (.attributeTooLong 0)]]
    (.cons "B" [.i32 5, .arrI64 (some .zlib) [.ok 7, .error (.attributeTooLong 0)]] .nil .nil)
    (.cons "C" [.binaryIter [.ok 1, .error (.attributeTooLong 0)]] .nil .nil)

theorem exCareless_fits : forestFits 7400 (adds Zlib.stored) (modest Zlib.stored) exCareless 27 := by
  have h1 : modest Zlib.stored (.arrI32 none [.ok 7, .error (.attributeTooLong 0)]) := ⟨by decide +kernel, fun _ => trivial⟩
  have h2 : modest Zlib.stored (.i32 5) := ⟨by decide +kernel, fun _ => trivial⟩
  have h3 : modest Zlib.stored (.arrI64 (some .zlib) [.ok 7, .error (.attributeTooLong 0)]) := ⟨by decide +kernel, fun _ => trivial⟩
  have h4 : modest Zlib.stored (.binaryIter [.ok 1, .error (.attributeTooLong 0)]) := ⟨by decide +kernel, fun _ => trivial⟩
  refine ⟨by decide +kernel, by simpa using h1, by decide +kernel, fun _ => by decide +kernel,
    ⟨by decide +kernel, by simpa using ⟨h2, h3⟩, by decide +kernel, fun _ => by decide +kernel, trivial, trivial⟩,
    ⟨by decide +kernel, by simpa using h4, by decide +kernel, fun _ => by decide +kernel, trivial, trivial⟩⟩

example : (carelessSession Zlib.stored exSink 7400 (calls exCareless) exFooter).1 = .ok () :=
  (C54_file Zlib.stored exSink rfl 7400 (by simp [supported]) exCareless exFooter exCareless_fits (by decide +kernel)).1

/-! ## What a reader makes of it -/

/-- If only the last call of every node failed, the file is read, with every client none of whose loaders fails, as
if every failed call had written an empty array, string or binary; no warning is raised, so that no handler can object. -/
theorem C54_reads_empty (Z : Zlib) (hZ : Z.Lawful) (s : Sink) (hs : s.fault = fun _ => none) (v : FbxVersion) (hv : supported v.toNat)
    (F : Forest Append) (f : Writer.FooterSpec) (hfit : forestFits v.toNat (adds Z) (modest Z) F 27)
    (hlen : (document v.toNat (adds Z) F (footOf f)).length < 2 ^ 63) (hlast : failsLast Z F) (hnames : F.All (fun name _ => name ≠ ""))
    (hf : footSized f) (hpad : f.padding = .default) (hu1 : ∀ u, f.unknown1 = some u → usualField1 u) (hu2 : f.unknown2 = none)
    (hu3 : f.unknown3 = none) {α : Type} (buffered checks : Bool) (plan : Nat → String → Nat → List (Loader α))
    (hplan : planOk buffered plan (F.map (seenAs Z)) 0) (H : Option Handler) (ending : Option IoErr) (cursor limit : Nat)
    (hlen2 : (carelessSession Z s v (calls F) f).2.buf.length < 2 ^ 64)
    (hlim : cursor + (carelessSession Z s v (calls F) f).2.buf.length ≤ limit) :
    ∃ footer q, parseFile Z checks H ending cursor limit buffered plan (2 * F.count + 1) (carelessSession Z s v (calls F) f).2.buf =
      some (.ok (expected buffered plan (F.map (seenAs Z)) 0 ++ [.fbx (.ok footer)]), q) ∧ q.log = [] := by
  have ht := (C54_file Z s hs v hv F f hfit hlen).2
  obtain ⟨l1, l2, l3⟩ := footSized_lengths hf
  generalize s.buf.drop (document v.toNat (adds Z) F (footOf f)).length = t at ht
  simp only [ht, document, List.append_assoc] at hlen2 hlim ⊢
  obtain ⟨P, hr, hPv, hH, hfine, -, hlog, hP⟩ := parse_nodes (Z := Z) (adds Z) (seenAs Z) (modest Z) (Writer.adds_ne Z) true buffered plan checks H ending
    cursor limit v F _ hv hfit hplan (.inl rfl) (Writer.All_imp (fun _ as h => loads_failed hZ buffered as h) F hlast) hlen2 (fun _ => hlim) (.inl hnames)
  have hu1' : usualField1 (footOf f).unknown1 := by
    rcases hu : f.unknown1 with _ | u
    · simp only [footOf, hu, Option.getD_none, usualField1]; decide +kernel
    · simpa [footOf, hu] using hu1 u hu
  have hlog : P.log = [] := by rw [emptyNames_zero F hnames] at hlog; exact List.eq_nil_of_length_eq_zero hlog
  have hpad' : (footOf f).padding = none := by simp [footOf, hpad]
  obtain ⟨ft, hft⟩ : ∃ ft : Footer, ft = ⟨(footOf f).unknown1, padLen (footOf f) P.reader.position, [0, 0, 0, 0], v,
      [0xf8, 0x5a, 0x8c, 0x6a, 0xde, 0xf5, 0xd9, 0x7e, 0xec, 0xe9, 0x0c, 0xe3, 0x75, 0x8f, 0x29, 0x0b]⟩ := ⟨_, rfl⟩
  have hpl : padLen (footOf f) P.reader.position = expectedPadding (P.reader.position + 16) := by
    simp only [padLen, hpad', Option.getD_none, l1]; rfl
  have hs : startsWithFooter P.version.toNat P.reader.rest ft := by
    rw [hft]
    refine ⟨l1, ?_, rfl, by rw [hPv], rfl, t, ?_⟩
    · simp only [hpl, expectedPadding]; omega
    · rw [hPv, hr]
      simp [footer, footOf, hu2, hu3]
  have hodd : footerField1Odd ft.unknown1 = false := (odd_iff _ (by rw [hft]; exact l1)).mpr (by rw [hft]; exact hu1')
  have hpl' : ft.paddingLen = expectedPadding (P.reader.position + 16) := by rw [hft]; exact hpl
  obtain ⟨q, hq⟩ := readFooter_accept (.inr ⟨hodd, hpl'⟩) hfine.position hs
  obtain ⟨-, hq2⟩ := readFooter_inv hq
  refine ⟨ft, q, ?_, ?_⟩
  · refine hP.trans ?_; rw [hq]; rfl
  · rw [hq2]; simp [hodd, hpl', hlog]

/-- The example, read with a handler that always objects: three empty attributes which nobody wrote. -/
example : ∃ footer q, parseFile Zlib.stored true (some (fun _ _ _ => some (PErr.ofData .brokenFbxFooter))) none 0 (2 ^ 64) false everything 7
      (carelessSession Zlib.stored exSink 7400 (calls exCareless) exFooter).2.buf = some (.ok ([.start "A" 1 [some (.arrI32 [])],
        .start "B" 2 [some (.i32 5), some (.arrI64 [])], .end, .end, .start "C" 1 [some (.binary [])], .end] ++ [.fbx (.ok footer)]), q) ∧
      q.log = [] :=
  C54_reads_empty Zlib.stored Zlib.stored_lawful exSink rfl 7400 (by simp [supported]) exCareless exFooter exCareless_fits (by decide +kernel)
    ⟨by decide +kernel, ⟨by decide +kernel, trivial, trivial⟩, ⟨by decide +kernel, trivial, trivial⟩⟩ (by simp [exCareless, Forest.All])
    ⟨by simp [exFooter], by simp [exFooter], by simp [exFooter]⟩ rfl (by simp [exFooter]) rfl rfl false true everything (everything_ok _ _ _)
    _ none 0 (2 ^ 64) (by decide +kernel) (by decide +kernel)

/-! ## Attributes appended after a failed one -/

/-- A binary that fails after two bytes, followed by a string. -/
def exForged : Forest Append :=
  .cons "A" [.binaryIter [.ok 0x43, .ok 0x59, .error (.attributeTooLong 0)], .string "x"] .nil .nil

/-- The nodes a client saw, with their attributes, and the number of warnings; `none` if parsing failed. -/
def nodesSeen (r : Option (Res PErr (List (Obs AttrValue)) × Parser)) : Option (List (String × List (Option AttrValue)) × Nat) :=
  match r with
  | some (.ok l, q) => some (l.filterMap (fun | .start name _ vs => some (name, vs) | _ => none), q.log.length)
  | _ => none

/-- What was appended after a failed call is not read back (so `failsLast` cannot be omitted from `C54_reads_empty`): the
bytes left by the failed call are read as an attribute instead. Here the reader finds `true` where the string `"x"` was
appended successfully, without any warning. -/
theorem C54_forged :
    exForged = .cons "A" [.binaryIter [.ok 0x43, .ok 0x59, .error (.attributeTooLong 0)], .string "x"] .nil .nil ∧
    fails Zlib.stored (.binaryIter [.ok 0x43, .ok 0x59, .error (.attributeTooLong 0)]) = true ∧ fails Zlib.stored (.string "x") = false ∧
    (carelessSession Zlib.stored exSink 7400 (calls exForged) exFooter).1 = .ok () ∧
    nodesSeen (parseFile Zlib.stored true none none 0 (2 ^ 64) false everything 3
      (carelessSession Zlib.stored exSink 7400 (calls exForged) exFooter).2.buf) = some ([("A", [some (.binary []), some (.bool true)])], 0) := by
  refine ⟨rfl, ?_, ?_, ?_, ?_⟩ <;> decide +kernel

end Fbx
