import Verif.Proof.DraftLayout
import Verif.Props.WriterCalls

/-!
# C76: the results of the calls and the content of the device are decided by the calls

`Spec/Draft.lean` says what the calls of the writer mean without a device. Here: the writer on a working device does the same,
for every sequence of calls, whichever of them fail.
-/

namespace Fbx
open Spec
open Writer (Append Op session results_draft results_some ofDraft_begun begun_file new_ok_iff finalize_draft acts_calls acts_then
  acts_attrs file_grown grown fits_names leaves_produced headerSize_pos)

/-- **C76** (the calls). On a working device, a client that makes any calls, going on whatever they return, gets the results of
the specification, and the device then holds what the specification says, byte by byte. -/
theorem C76_calls (Z : Zlib) (s s1 : Sink) (hs : s.fault = fun _ => none) (v : FbxVersion) (w : Writer) (hn : Writer.new s v = (.ok w, s1))
    (ops : List Op) (hr : roomFor Z v.toNat ops) (rs : List (Res WErr Unit)) (t : Writer.Session)
    (h : results Z ⟨w, false⟩ ops = some (rs, t)) :
    let d := (Draft.begun v.toNat s.buf).acts Z v.toNat ops
    rs = d.1 ∧ t.writer.sink.buf = d.2.file v.toNat ++ d.2.behind := by
  obtain ⟨-, hw, -⟩ := (new_ok_iff s hs v w s1).mp hn
  subst hw
  rw [← ofDraft_begun] at h
  obtain ⟨h1, h2, -⟩ := results_draft Z v ops (Draft.begun v.toNat s.buf) false ⟨fun _ h => (by cases h), fun _ h => (by cases h)⟩
    (fun h => by cases h) (by rw [begun_file]; exact hr) rs t h
  exact ⟨h1, by rw [h2]; rfl⟩

/-- Calls of which several fail: a refused name, a failing iterator, a `close_node` too many; one node is left open. -/
def exDraftCalls : List Op :=
  [.newNode "A", .append (.i32 5), .newNode (String.ofList (List.replicate 256 'x')), .newNode "B",
    .append (.arrI32 none [.ok 1, .error (.userDefined 9)]), .append (.bool true), .closeNode, .closeNode, .closeNode, .newNode "C"]

/-- What the client sees of them: the results, and the first bytes of the device. -/
def exDraftSeen : Option (List (Res WErr Unit) × Bytes) :=
  match Writer.new exSink 7400 with
  | (.ok w, _) => (results Zlib.stored ⟨w, false⟩ exDraftCalls).map (fun x => (x.1, (x.2.writer.sink.buf.drop 27).take 40))
  | _ => none

example : exDraftSeen = some
    ([.ok (), .ok (), .err (.nodeNameTooLong 256), .ok (), .err (.userDefined 9), .ok (), .ok (), .ok (), .err .noNodesToClose, .ok ()],
      [92, 0, 0, 0, 1, 0, 0, 0, 5, 0, 0, 0, 1, 65, 73, 5, 0, 0, 0,
        79, 0, 0, 0, 2, 0, 0, 0, 19, 0, 0, 0, 1, 66, 105, 0, 0, 0, 0, 0, 0]) := by decide +kernel

/-- The specification says the same. -/
example : (let d := (Draft.begun 7400 [1, 2, 3]).acts Zlib.stored 7400 exDraftCalls
    (d.1, ((d.2.file 7400 ++ d.2.behind).drop 27).take 40)) =
    ([.ok (), .ok (), .err (.nodeNameTooLong 256), .ok (), .err (.userDefined 9), .ok (), .ok (), .ok (), .err .noNodesToClose, .ok ()],
      [92, 0, 0, 0, 1, 0, 0, 0, 5, 0, 0, 0, 1, 65, 73, 5, 0, 0, 0,
        79, 0, 0, 0, 2, 0, 0, 0, 19, 0, 0, 0, 1, 66, 105, 0, 0, 0, 0, 0, 0]) := by decide +kernel

example : roomFor Zlib.stored 7400 exDraftCalls := by unfold roomFor; decide +kernel

/-- A footer takes less than 475 bytes. -/
theorem footer_short (version : Nat) (f : Writer.FooterSpec) (hf : footSized f) (pos : Nat) : (footer version (footOf f) pos).length < 475 := by
  obtain ⟨f1, f2, f3⟩ := hf
  have g1 : (footOf f).unknown1.length = 16 := by
    simp only [footOf]; cases hu : f.unknown1 with
    | none => rfl
    | some u => exact f1 u hu
  have g2 : (footOf f).unknown2.length = 4 := by
    simp only [footOf]; cases hu : f.unknown2 with
    | none => rfl
    | some u => exact f2 u hu
  have g3 : (footOf f).unknown3.length = 16 := by
    simp only [footOf]; cases hu : f.unknown3 with
    | none => rfl
    | some u => exact f3 u hu
  have g4 : padLen (footOf f) pos < 256 := by
    simp only [padLen, footOf]
    cases hu : f.padding with
    | default => simp only [Option.getD_none, alignPad]; omega
    | forced n => simp only [Option.getD_some]; exact n.toNat_lt
  simp [footer, g1, g2, g3]
  omega

/-- **C76** (`finalize`). So does `finalize` after them. -/
theorem C76_finalize (Z : Zlib) (s s1 : Sink) (hs : s.fault = fun _ => none) (v : FbxVersion) (w : Writer) (hn : Writer.new s v = (.ok w, s1))
    (ops : List Op) (rs : List (Res WErr Unit)) (t : Writer.Session) (h : results Z ⟨w, false⟩ ops = some (rs, t)) (f : Writer.FooterSpec)
    (hr : 27 + (ops.map (need Z v.toNat)).sum + 500 ≤ 2 ^ 64) (hf : footSized f) :
    let d := (Draft.begun v.toNat s.buf).acts Z v.toNat ops
    (Writer.finalize f t.writer).1 = (d.2.finalized v.toNat f).1 ∧ (Writer.finalize f t.writer).2.sink.buf = (d.2.finalized v.toNat f).2 := by
  obtain ⟨-, hw, -⟩ := (new_ok_iff s hs v w s1).mp hn
  subst hw
  rw [← ofDraft_begun] at h
  obtain ⟨-, h2, h3⟩ := results_draft Z v ops (Draft.begun v.toNat s.buf) false ⟨fun _ h => (by cases h), fun _ h => (by cases h)⟩
    (fun h => by cases h) (by rw [begun_file]; omega) rs t h
  rw [begun_file] at h3
  intro d
  rw [h2]
  refine finalize_draft v _ f ?_
  have hlen := footer_short v.toNat f hf ((d.2.file v.toNat).length + headerSize v.toNat)
  have g5 : headerSize v.toNat ≤ 25 := by simp only [headerSize, width]; split <;> omega
  have g6 : (d.2.file v.toNat).length ≤ 27 + (ops.map (need Z v.toNat)).sum := h3
  have hm : (marker v.toNat).length = headerSize v.toNat := by simp [marker]
  simp only [List.length_append, hm]
  change (d.2.file v.toNat).length + (headerSize v.toNat + (footer v.toNat (footOf f) ((d.2.file v.toNat).length + headerSize v.toNat)).length) < _
  omega

/-- **C76** (the calls can be made). Calls in an order the borrow checker accepts can all be made, whichever of them fail, as long as
no name is refused. -/
theorem C76_accepted (Z : Zlib) (s s1 : Sink) (hs : s.fault = fun _ => none) (v : FbxVersion) (w : Writer) (hn : Writer.new s v = (.ok w, s1))
    (ops : List Op) (hr : roomFor Z v.toNat ops) (hl : Writer.legal false ops = true)
    (hname : ∀ name, Op.newNode name ∈ ops → (utf8 name).length < 256) : ∃ x, results Z ⟨w, false⟩ ops = some x := by
  obtain ⟨-, hw, -⟩ := (new_ok_iff s hs v w s1).mp hn
  subst hw
  rw [← ofDraft_begun]
  exact results_some Z v ops _ false ⟨fun _ h => (by cases h), fun _ h => (by cases h)⟩ (fun h => by cases h)
    (by rw [begun_file]; exact hr) hl hname

/-- **C76** (the two specifications agree). The calls that write a forest, made on the specification without a device, all succeed and
give the layout of the document. -/
theorem C76_layout (Z : Zlib) (v : Nat) (old : List UInt8) (F : Forest Append)
    (hF : forestFits v (leaves Z) (fun a => fails Z a = false) F 27) :
    let d := (Draft.begun v old).acts Z v (calls F)
    d.1 = List.replicate (calls F).length (.ok ()) ∧ d.2.unfinished = [] ∧
      ∀ f, d.2.finalized v f = (.ok (), document v (leaves Z) F (footOf f) ++ old.drop (document v (leaves Z) F (footOf f)).length) := by
  have h := acts_calls Z v F (Draft.begun v old) (by rw [begun_file]; exact hF)
  rw [begun_file] at h
  intro d
  have hd : d = _ := h
  rw [hd]
  have hg : grown (Draft.begun v old) F.isNil (nodes v (leaves Z) F 27) =
      ⟨signature ++ le 4 v ++ nodes v (leaves Z) F 27, [], (old.drop 27).drop (nodes v (leaves Z) F 27).length⟩ := by
    simp only [grown, Draft.begun, Draft.add, becomesParent, ite_self]
  rw [hg]
  refine ⟨rfl, rfl, fun f => ?_⟩
  have hl : (signature ++ le 4 v).length = 27 := by simp [signature]
  have hm : (marker v).length = headerSize v := by simp [marker]
  have hb : (body v (leaves Z) F).length = (signature ++ le 4 v ++ nodes v (leaves Z) F 27).length + headerSize v := by
    simp only [body, List.length_append, hm]
  simp only [Draft.finalized, List.isEmpty_nil, if_true, document, hb]
  generalize footer v (footOf f) ((signature ++ le 4 v ++ nodes v (leaves Z) F 27).length + headerSize v) = ft
  simp only [body]
  generalize nodes v (leaves Z) F 27 = N at *
  refine Prod.ext rfl ?_
  simp only [List.append_assoc, List.length_append, List.drop_drop]
  simp only [List.length_append] at hl
  have e : 27 + (N.length + ((marker v).length + ft.length)) = signature.length + ((le 4 v).length + (N.length + ((marker v).length + ft.length))) := by
    omega
  rw [← e, Nat.add_assoc]

/-- A node that ends beyond what 32-bit offsets can say is left out: after the calls for the forest `F` and for one more node without
children, the last `close_node` fails, and `finalize` then succeeds, leaving the document of `F` alone. -/
theorem C76_left_out (Z : Zlib) (s s1 : Sink) (hs : s.fault = fun _ => none) (v : FbxVersion) (w : Writer) (hn : Writer.new s v = (.ok w, s1))
    (hv : v.toNat < 7500) (F : Forest Append) (hF : forestFits v.toNat (leaves Z) (fun a => fails Z a = false) F 27)
    (name : String) (hname : (utf8 name).length < 256) (as : List Append) (has : ∀ a ∈ as, fails Z a = false)
    (f : Writer.FooterSpec) (hf : footSized f)
    (ops : List Op) (hops : ops = calls F ++ Op.newNode name :: (as.map Op.append ++ [Op.closeNode]))
    (hr : 27 + (ops.map (need Z v.toNat)).sum + 500 ≤ 2 ^ 64)
    (hbig : 2 ^ 32 ≤ 27 + (nodes v.toNat (leaves Z) F 27).length + (as.flatMap (leaves Z)).length) :
    ∃ n t, results Z ⟨w, false⟩ ops = some (List.replicate ((calls F).length + 1 + as.length) (.ok ()) ++ [.err (.fileTooLarge n)], t) ∧
      (Writer.finalize f t.writer).1 = .ok () ∧
      document v.toNat (leaves Z) F (footOf f) <+: (Writer.finalize f t.writer).2.sink.buf := by
  have hroom : roomFor Z v.toNat ops := by simp only [roomFor]; omega
  have hlegal : Writer.legal false ops = true := by
    rw [hops, legal_calls _ _ _ (fun _ _ => rfl)]
    simp only [Writer.legal, legal_attrs]
  have hnames : ∀ nm, Op.newNode nm ∈ ops → (utf8 nm).length < 256 := by
    intro nm h
    rw [hops, List.mem_append] at h
    rcases h with h | h
    · exact fits_names F _ hF nm h
    · simp only [List.mem_cons, List.mem_append, List.mem_map, reduceCtorEq, and_false, exists_false, or_false,
        Op.newNode.injEq, List.not_mem_nil] at h
      subst h; exact hname
  obtain ⟨⟨rs, t⟩, hres⟩ := C76_accepted Z s s1 hs v w hn ops hroom hlegal hnames
  obtain ⟨h1, -⟩ := C76_calls Z s s1 hs v w hn ops hroom rs t hres
  obtain ⟨h2, h3⟩ := C76_finalize Z s s1 hs v w hn ops rs t hres f hr hf
  -- the specification
  have h := acts_calls Z v.toNat F (Draft.begun v.toNat s.buf) (by rw [begun_file]; exact hF)
  rw [begun_file] at h
  have hg : grown (Draft.begun v.toNat s.buf) F.isNil (nodes v.toNat (leaves Z) F 27) =
      ⟨signature ++ le 4 v.toNat ++ nodes v.toNat (leaves Z) F 27, [], (s.buf.drop 27).drop (nodes v.toNat (leaves Z) F 27).length⟩ := by
    simp only [grown, Draft.begun, Draft.add, becomesParent, ite_self]
  rw [hg] at h
  have hl : (signature ++ le 4 v.toNat ++ nodes v.toNat (leaves Z) F 27).length = 27 + (nodes v.toNat (leaves Z) F 27).length := by
    simp [signature]; omega
  have hdoc : document v.toNat (leaves Z) F (footOf f) = signature ++ le 4 v.toNat ++ nodes v.toNat (leaves Z) F 27 ++
      (marker v.toNat ++ footer v.toNat (footOf f) ((signature ++ le 4 v.toNat ++ nodes v.toNat (leaves Z) F 27).length + headerSize v.toNat)) := by
    have hm : (marker v.toNat).length = headerSize v.toNat := by simp [marker]
    rw [← hm, ← List.length_append, ← List.append_assoc]
    rfl
  generalize hP : signature ++ le 4 v.toNat ++ nodes v.toNat (leaves Z) F 27 = P at *
  generalize (s.buf.drop 27).drop (nodes v.toNat (leaves Z) F 27).length = B at *
  have hnew : ∀ B, Draft.act Z v.toNat ⟨P, [], B⟩ (.newNode name) = (.ok (), ⟨P, [⟨utf8 name, [], 0, [], false⟩],
      B.drop (headerSize v.toNat + (utf8 name).length)⟩) := by
    intro B
    simp only [Draft.act]
    rw [if_neg (by omega)]
    rfl
  have hclose : ∀ B, ∃ n B', Draft.act Z v.toNat ⟨P, [⟨utf8 name, as.flatMap (leaves Z), as.length, [], false⟩], B⟩ .closeNode =
      (.err (.fileTooLarge n), ⟨P, [], B'⟩) := by
    intro B
    simp only [Draft.act]
    rw [if_pos]
    · exact ⟨_, _, rfl⟩
    · refine ⟨hv, ?_⟩
      simp only [Draft.file, shownAfter, Unfinished.shown, List.length_append]
      omega
  obtain ⟨n, B', hc⟩ := hclose ((B.drop (headerSize v.toNat + (utf8 name).length)).drop (as.flatMap (leaves Z)).length)
  have hall : (Draft.begun v.toNat s.buf).acts Z v.toNat ops =
      (List.replicate ((calls F).length + 1 + as.length) (.ok ()) ++ [.err (.fileTooLarge n)], ⟨P, [], B'⟩) := by
    rw [hops, acts_then h]
    simp only [Draft.acts, hnew]
    rw [acts_then (acts_attrs Z v.toNat P [] as has _ _)]
    simp only [List.nil_append, Nat.zero_add, Draft.acts, hc, Prod.mk.injEq, and_true]
    rw [Nat.add_assoc, ← List.replicate_append_replicate, Nat.add_comm 1, List.replicate_succ, List.append_assoc, List.cons_append]
  rw [hall] at h1 h2 h3
  refine ⟨n, t, by rw [hres, h1], h2, ?_⟩
  rw [h3]
  rw [hdoc]
  exact List.prefix_append _ _

/-- A binary of 2^32 - 1 bytes, which `append_binary_direct` accepts, is such a node. -/
example (bs : Bytes) (h : bs.length = 2 ^ 32 - 1) :
    let F : Forest Append := .cons "A" [.i32 5] .nil .nil
    let ops := calls F ++ Op.newNode "B" :: ([Append.binary bs].map Op.append ++ [Op.closeNode])
    forestFits 7400 (leaves Zlib.stored) (fun a => fails Zlib.stored a = false) F 27 ∧ (utf8 "B").length < 256 ∧
      (∀ a ∈ [Append.binary bs], fails Zlib.stored a = false) ∧ footSized exFooter ∧
      27 + (ops.map (need Zlib.stored 7400)).sum + 500 ≤ 2 ^ 64 ∧
      2 ^ 32 ≤ 27 + (nodes 7400 (leaves Zlib.stored) F 27).length + ([Append.binary bs].flatMap (leaves Zlib.stored)).length := by
  have hfail : fails Zlib.stored (.binary bs) = false := by
    simp [fails, callError, lengthError, h]
  have hle : (leaves Zlib.stored (.binary bs)).length = 5 + bs.length := by
    simp only [leaves, hfail]
    simp [callBytes, attrBytes, attrBody, denote]; omega
  have hvol : volume Zlib.stored (.binary bs) = 5 + bs.length := by
    simp [volume, attrBytes, attrBody, denote, denoteBefore]; omega
  refine ⟨by simp only [forestFits]; decide +kernel, by decide +kernel, by simpa using hfail, ?_, ?_, ?_⟩
  · exact ⟨fun _ h => (by cases h), fun _ h => (by cases h), fun _ h => (by cases h)⟩
  · simp only [calls, List.map_append, List.map_cons, List.map_nil, List.sum_append, List.sum_cons, List.sum_nil, need, hvol, h]
    decide +kernel
  · simp only [List.flatMap_cons, List.flatMap_nil, List.append_nil, hle, h]
    omega

end Fbx
