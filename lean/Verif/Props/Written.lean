import Verif.Proof.Written
import Verif.Props.Draft
import Verif.Props.ParseWritten

/-!
# C82: what was written is there, whatever failed

A client of the writer makes any calls and goes on whatever they return. It notes what they returned (`Spec/Written.lean`). If
`finalize` succeeds then a reader finds the nodes the client knows to be there, and no others.
-/

namespace Fbx
open Spec
open Writer (Append Op results_draft results_tells ofDraft_begun begun_file new_ok_iff finalize_draft prudent_loads Tells encLeaves markFlag
  viewFlag)

/-- The file of a client's calls. -/
theorem tells_written (Z : Zlib) (s s1 : Sink) (hs : s.fault = fun _ => none) (v : FbxVersion) (w : Writer) (hn : Writer.new s v = (.ok w, s1))
    (ops : List Op) (rs : List (Res WErr Unit)) (t : Writer.Session) (h : results Z ⟨w, false⟩ ops = some (rs, t))
    (hr : 27 + (ops.map (need Z v.toNat)).sum + 500 ≤ 2 ^ 64) :
    Tells Z v.toNat ((Draft.begun v.toNat s.buf).acts Z v.toNat ops).2 ((⟨.nil, []⟩ : Record).notes (ops.zip rs)) := by
  obtain ⟨-, hw, -⟩ := (new_ok_iff s hs v w s1).mp hn
  subst hw
  rw [← ofDraft_begun] at h
  exact results_tells Z v ops (Draft.begun v.toNat s.buf) false ⟨.nil, []⟩ ⟨fun _ h => (by cases h), fun _ h => (by cases h)⟩
    (fun h => by cases h) (by rw [begun_file]; omega)
    ⟨⟨.nil, rfl, by simp [Draft.begun, Parser.marked], trivial⟩, trivial⟩ rs t h

theorem map_viewFlag (F : Forest (Append × Bool)) : F.map viewFlag = (F.map Prod.fst).map denote := by
  induction F with
  | nil => rfl
  | cons n as ch r ih1 ih2 => simp only [Forest.map, ih1, ih2, List.map_map]; rfl

/-- **C82** (`finalize`). It succeeds if and only if the client knows of no node that is still open. -/
theorem C82_finalize (Z : Zlib) (s s1 : Sink) (hs : s.fault = fun _ => none) (v : FbxVersion) (w : Writer) (hn : Writer.new s v = (.ok w, s1))
    (ops : List Op) (rs : List (Res WErr Unit)) (t : Writer.Session) (h : results Z ⟨w, false⟩ ops = some (rs, t)) (f : Writer.FooterSpec)
    (hr : 27 + (ops.map (need Z v.toNat)).sum + 500 ≤ 2 ^ 64) (hf : footSized f) :
    (Writer.finalize f t.writer).1 = .ok () ↔ ((⟨.nil, []⟩ : Record).notes (ops.zip rs)).open = [] := by
  obtain ⟨h1, -⟩ := C76_finalize Z s s1 hs v w hn ops rs t h f hr hf
  have ht := (tells_written Z s s1 hs v w hn ops rs t h hr).begun
  rw [h1]
  generalize ((Draft.begun v.toNat s.buf).acts Z v.toNat ops).2 = d at *
  generalize ((⟨.nil, []⟩ : Record).notes (ops.zip rs)).open = o at *
  simp only [Draft.finalized]
  cases hu : d.unfinished with
  | nil => rw [hu] at ht; cases o with
    | nil => simp
    | cons => exact ht.elim
  | cons u us => rw [hu] at ht; cases o with
    | nil => exact ht.elim
    | cons => simp

/-- **C82** (reading). A client that reads the finalized file sees the nodes the calls and their results speak of, in their
places, with the number of `append_*` calls made for each, whether these failed or not; and the values of those attributes it
loads, as long as it does not load any at or behind the first that failed in its node. The file ends regularly. The only
warnings are about empty names and superfluous end markers. -/
theorem C82_reads (Z : Zlib) (hZ : Z.Lawful) (s s1 : Sink) (hs : s.fault = fun _ => none) (v : FbxVersion) (w : Writer)
    (hn : Writer.new s v = (.ok w, s1)) (ops : List Op) (rs : List (Res WErr Unit)) (t : Writer.Session)
    (h : results Z ⟨w, false⟩ ops = some (rs, t)) (f : Writer.FooterSpec)
    (hr : 27 + (ops.map (need Z v.toNat)).sum + 500 ≤ 2 ^ 64) (hf : footSized f)
    (hpad : f.padding = .default) (hu1 : ∀ u, f.unknown1 = some u → usualField1 u) (hu2 : f.unknown2 = none) (hu3 : f.unknown3 = none)
    (hfin : (Writer.finalize f t.writer).1 = .ok ()) (file : Bytes) (hfile : (Writer.finalize f t.writer).2.sink.buf = file)
    (hlen : file.length < 2 ^ 64)
    {α : Type} (buffered checks : Bool) (plan : Nat → String → Nat → List (Loader α))
    (hplan : planOk buffered plan ((written ops rs).map denote) 0) (hpr : prudent Z plan (written ops rs) 0)
    (H : Option Handler) (hH : indulgent H) (ending : Option IoErr) (cursor limit : Nat) (hlim : cursor + file.length ≤ limit) :
    ∃ footer q, parseFile Z checks H ending cursor limit buffered plan (2 * (written ops rs).count + 1) file =
        some (.ok (expected buffered plan ((written ops rs).map denote) 0 ++ [.fbx (.ok footer)]), q) ∧
      ∀ e ∈ q.log, e.1 = .emptyNodeName ∨ e.1 = .extraNodeEndMarker := by
  obtain ⟨hsup, -, -⟩ := (new_ok_iff s hs v w s1).mp hn
  obtain ⟨h1, h2⟩ := C76_finalize Z s s1 hs v w hn ops rs t h f hr hf
  obtain ⟨⟨F, hF, hfinished, hfit⟩, -⟩ := tells_written Z s s1 hs v w hn ops rs t h hr
  rw [hfile] at h2
  rw [hfin] at h1
  have hF : F.map Prod.fst = written ops rs := hF
  have hview : F.map viewFlag = (written ops rs).map denote := by rw [← hF]; exact map_viewFlag F
  have hcount : F.count = (written ops rs).count := by rw [← hF, Forest.count_map]
  generalize hd : ((Draft.begun v.toNat s.buf).acts Z v.toNat ops).2 = d at *
  have hu : d.unfinished = [] := by
    simp only [Draft.finalized] at h1
    cases hu : d.unfinished with
    | nil => rfl
    | cons u us => rw [hu] at h1; simp at h1
  obtain ⟨l1, l2, l3⟩ := Parser.footSized_lengths hf
  have hs23 : signature.length = 23 := by decide
  obtain ⟨bs, hbs⟩ : ∃ bs, bs = footer v.toNat (footOf f) (d.finished.length + headerSize v.toNat) ++
    d.behind.drop (marker v.toNat ++ footer v.toNat (footOf f) (d.finished.length + headerSize v.toNat)).length := ⟨_, rfl⟩
  have hfile' : file = Parser.bodyMarked v.toNat (encLeaves Z) markFlag F ++ bs := by
    rw [h2]
    simp only [Draft.finalized, hu, List.isEmpty_nil, if_true]
    rw [Parser.bodyMarked, ← hfinished, hbs]
    simp only [List.append_assoc]
  have hbl : (Parser.bodyMarked v.toNat (encLeaves Z) markFlag F).length = d.finished.length + headerSize v.toNat := by
    rw [Parser.bodyMarked, ← hfinished]; simp [marker]
  rw [hfile'] at hlen hlim ⊢
  obtain ⟨P, hPr, hPv, hPH, hfine, hlog, hP⟩ := Parser.parse_marked (Z := Z) (encLeaves Z) viewFlag markFlag
    (fun b => List.ne_nil_of_length_pos (Writer.leaves_ne Z b.1)) buffered plan checks H ending cursor limit v F bs hsup hfit
    (by rw [hview]; exact hplan) (prudent_loads hZ buffered plan F 0 (by rw [hF]; exact hpr)) hlen hlim hH
  rw [hcount, hview] at hP
  have hpos : P.reader.position = d.finished.length + headerSize v.toNat := by rw [hPr]; exact hbl
  have hu1' : usualField1 (footOf f).unknown1 := by
    rcases hu : f.unknown1 with _ | u
    · simp only [footOf, hu, Option.getD_none, usualField1]; decide +kernel
    · simpa [footOf, hu] using hu1 u hu
  have hpad' : (footOf f).padding = none := by simp [footOf, hpad]
  obtain ⟨ft, hft⟩ : ∃ ft : Footer, ft = ⟨(footOf f).unknown1, padLen (footOf f) P.reader.position, [0, 0, 0, 0], v,
      [0xf8, 0x5a, 0x8c, 0x6a, 0xde, 0xf5, 0xd9, 0x7e, 0xec, 0xe9, 0x0c, 0xe3, 0x75, 0x8f, 0x29, 0x0b]⟩ := ⟨_, rfl⟩
  have hpl : padLen (footOf f) P.reader.position = Parser.expectedPadding (P.reader.position + 16) := by
    simp only [padLen, hpad', Option.getD_none, l1]; rfl
  have hst : startsWithFooter P.version.toNat P.reader.rest ft := by
    rw [hft]
    refine ⟨l1, ?_, rfl, by rw [hPv], rfl, d.behind.drop (marker v.toNat ++ footer v.toNat (footOf f) (d.finished.length + headerSize v.toNat)).length, ?_⟩
    · simp only [hpl, Parser.expectedPadding]; omega
    · rw [hPv, hpos]
      have : P.reader.rest = bs := by rw [hPr]
      rw [this, hbs]
      simp [footer, footOf, hu2, hu3]
  have hodd : Parser.footerField1Odd ft.unknown1 = false := (Parser.odd_iff _ (by rw [hft]; exact l1)).mpr (by rw [hft]; exact hu1')
  have hpl' : ft.paddingLen = Parser.expectedPadding (P.reader.position + 16) := by rw [hft]; exact hpl
  obtain ⟨q, hq⟩ := Parser.readFooter_accept (.inr ⟨hodd, hpl'⟩) hfine.position hst
  obtain ⟨-, hq2⟩ := Parser.readFooter_inv hq
  refine ⟨ft, q, ?_, ?_⟩
  · rw [hP, hq]; rfl
  · rw [hq2]; simpa [hodd, hpl'] using hlog

/-- **C82** (structure). In particular a reader that loads no attributes sees the names, the numbers of attributes and the nesting,
whichever calls failed. -/
theorem C82_structure (Z : Zlib) (hZ : Z.Lawful) (s s1 : Sink) (hs : s.fault = fun _ => none) (v : FbxVersion) (w : Writer)
    (hn : Writer.new s v = (.ok w, s1)) (ops : List Op) (rs : List (Res WErr Unit)) (t : Writer.Session)
    (h : results Z ⟨w, false⟩ ops = some (rs, t)) (f : Writer.FooterSpec)
    (hr : 27 + (ops.map (need Z v.toNat)).sum + 500 ≤ 2 ^ 64) (hf : footSized f)
    (hpad : f.padding = .default) (hu1 : ∀ u, f.unknown1 = some u → usualField1 u) (hu2 : f.unknown2 = none) (hu3 : f.unknown3 = none)
    (hfin : (Writer.finalize f t.writer).1 = .ok ()) (file : Bytes) (hfile : (Writer.finalize f t.writer).2.sink.buf = file)
    (hlen : file.length < 2 ^ 64) (checks : Bool) (H : Option Handler) (hH : indulgent H) (ending : Option IoErr) (cursor limit : Nat)
    (hlim : cursor + file.length ≤ limit) :
    ∃ footer q, parseFile Z checks H ending cursor limit false (fun _ _ _ => []) (2 * (written ops rs).count + 1) file =
        some (.ok (shapeOf (written ops rs) ++ [.fbx (.ok footer)]), q) := by
  obtain ⟨footer, q, h1, -⟩ := C82_reads Z hZ s s1 hs v w hn ops rs t h f hr hf hpad hu1 hu2 hu3 hfin file hfile hlen (α := Unit) false checks
    (fun _ _ _ => []) (by
      generalize written ops rs = F
      generalize 0 = k
      induction F generalizing k with
      | nil => trivial
      | cons n as ch r ih1 ih2 => exact ⟨rfl, ih1 _, ih2 _⟩) (by
      generalize written ops rs = F
      generalize 0 = k
      induction F generalizing k with
      | nil => trivial
      | cons n as ch r ih1 ih2 => exact ⟨by simp, ih1 _, ih2 _⟩) H hH ending cursor limit hlim
  refine ⟨footer, q, ?_⟩
  rw [h1]
  congr 4
  generalize written ops rs = F
  generalize 0 = k
  induction F generalizing k with
  | nil => rfl
  | cons n as ch r ih1 ih2 => simp only [Forest.map, expected, shapeOf, ih1, ih2, presentAll, Option.getD_some, List.length_map]

/-- Several of these calls fail: a refused name, a failing iterator, a `close_node` too many. -/
def exWrittenCalls : List Op := exDraftCalls.dropLast

/-- What they return. -/
def exWrittenResults : List (Res WErr Unit) :=
  [.ok (), .ok (), .err (.nodeNameTooLong 256), .ok (), .err (.userDefined 9), .ok (), .ok (), .ok (), .err .noNodesToClose]

/-- The client knows: a node with one attribute, in it a node with two (the first of which failed). -/
example : written exWrittenCalls exWrittenResults = .cons "A" [.i32 5]
    (.cons "B" [.arrI32 none [.ok 1, .error (.userDefined 9)], .bool true] .nil .nil) .nil := rfl

/-- A reader that loads the attributes of `A` only does not touch the one that failed. -/
example : prudent Zlib.stored (fun _ name n => if name = "A" then List.replicate n directLoader else []) (written exWrittenCalls exWrittenResults) 0 ∧
    planOk false (fun _ name n => if name = "A" then List.replicate n directLoader else [])
      ((written exWrittenCalls exWrittenResults).map denote) 0 :=
  ⟨⟨by simp [fails, callError, intact], ⟨by simp, trivial, trivial⟩, trivial⟩, ⟨rfl, ⟨rfl, trivial, trivial⟩, trivial⟩⟩

/-- And that is what a reader sees. -/
example : ∃ w s1 t, Writer.new exSink 7400 = (.ok w, s1) ∧ results Zlib.stored ⟨w, false⟩ exWrittenCalls = some (exWrittenResults, t) ∧
    (Writer.finalize exFooter t.writer).1 = .ok () ∧
    ∃ footer q, parseFile Zlib.stored true none none 0 (2 ^ 64) false (fun _ _ _ => ([] : List (Loader Unit))) 5 (Writer.finalize exFooter t.writer).2.sink.buf =
      some (.ok [.start "A" 1 [], .start "B" 2 [], .end, .end, .fbx (.ok footer)], q) := by
  obtain ⟨w, s1, hw⟩ : ∃ w s1, Writer.new exSink 7400 = (.ok w, s1) := ⟨_, _, rfl⟩
  have h1 : (match Writer.new exSink 7400 with
    | (.ok w, _) => (results Zlib.stored ⟨w, false⟩ exWrittenCalls).map (fun x => (x.1, (Writer.finalize exFooter x.2.writer).1,
      decide ((Writer.finalize exFooter x.2.writer).2.sink.buf.length < 2000)))
    | _ => none) = some (exWrittenResults, .ok (), true) := by decide +kernel
  rw [hw] at h1
  simp only [Option.map_eq_some_iff, Prod.mk.injEq, decide_eq_true_eq] at h1
  obtain ⟨⟨rs, t⟩, h1, h2, h3, h4⟩ := h1
  simp only at h2 h3 h4
  subst h2
  refine ⟨w, s1, t, hw, h1, h3, ?_⟩
  exact C82_structure Zlib.stored Zlib.stored_lawful exSink s1 rfl 7400 w hw exWrittenCalls _ t h1 exFooter (by decide +kernel)
    (by simp [footSized, exFooter]) rfl (by simp [exFooter]) rfl rfl h3 _ rfl (by omega) true none (by intro f hf; cases hf) none 0 (2 ^ 64) (by omega)

/-! ## Superfluous end markers -/

/-- A node with an attribute, in which a child was refused. -/
def exRefusedCalls : List Op := [.newNode "A", .append (.i32 5), .newNode (String.ofList (List.replicate 256 'x')), .closeNode]

/-- The kinds of the warnings raised when the file of these calls is read, and whether `finalize` succeeded. -/
def exRefused : Option (Res WErr Unit × List Warning) :=
  match Writer.new exSink 7400 with
  | (.ok w, _) => (results Zlib.stored ⟨w, false⟩ exRefusedCalls).bind fun x =>
    (parseFile Zlib.stored true none none 0 (2 ^ 64) false (fun _ _ _ => ([] : List (Loader Unit))) 3
      (Writer.finalize exFooter x.2.writer).2.sink.buf).map fun y => ((Writer.finalize exFooter x.2.writer).1, y.2.log.map (·.1))
  | _ => none

/-- Although no call that is reported as successful asked for it, the file has an end marker the reader warns about. -/
theorem C82_extra_marker : exRefused = some (.ok (), [.extraNodeEndMarker]) := by decide +kernel

end Fbx
