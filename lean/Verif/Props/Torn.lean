import Verif.Proof.TornRun
import Verif.Proof.DriveRuns
import Verif.Props.Crash

/-!
# Interrupted writing, continued (C62)

`Verif/Props/Crash.lean` says what a reader sees of a session that broke off between two top-level nodes, inside one or
in `finalize`. The theorems here say one thing of all sessions, whatever calls were made and whichever of them failed: as
long as `finalize` has not been called, no reader takes what is on the device for a document. In particular a failure
while the closing of a top-level node rewrites its header is included.
-/

namespace Fbx
open Spec Parser Crash

namespace Torn

theorem new_fault {s s0 : Sink} {v : FbxVersion} {w0 : Writer} (h : Writer.new s v = (.ok w0, s0)) (hw : wholeFields s) :
    wholeFields w0.sink := by
  have h1 : ∀ (p : Nat) (t : Sink), wholeFields t → wholeFields (Sink.seek p t).2 := by
    intro p t ht
    unfold Sink.seek
    split <;> exact fun i k hi => ht (i + 1) k hi
  have h2 : ∀ (bs : Bytes) (t : Sink), wholeFields t → wholeFields (Sink.writeAll bs t).2 := by
    intro bs t ht
    unfold Sink.writeAll
    split
    · exact ht
    · split
      · exact fun i k hi => ht (i + 1) k hi
      · split <;> exact fun i k hi => ht (i + 1) k hi
  simp only [Writer.new] at h
  by_cases hv : v.major = 7
  · simp only [hv, ne_eq, not_true_eq_false, if_false] at h
    split at h
    · rename_i s1 h3
      rw [M.mapErr_ok_iff] at h3
      simp only [Prod.mk.injEq, Res.ok.injEq] at h
      obtain ⟨rfl, -⟩ := h
      rw [M.bind_ok_iff] at h3
      obtain ⟨_, t1, e1, h3⟩ := h3
      rw [M.bind_ok_iff] at h3
      obtain ⟨_, t2, e2, e3⟩ := h3
      have g1 := h1 0 _ hw
      rw [e1] at g1
      have g2 := h2 magic _ g1
      rw [e2] at g2
      have g3 := h2 (leBytes 4 v.toNat) _ g2
      rw [e3] at g3
      exact g3
    · simp at h
    · simp at h
  · simp [hv] at h

/-- A new writer on an empty device. -/
theorem new_start {s s0 : Sink} {v : FbxVersion} {w0 : Writer} (hs : s.buf = []) (hw : wholeFields s)
    (h : Writer.new s v = (.ok w0, s0)) : Writer.TW v (signature ++ le 4 v.toNat) w0 ∧ w0.opened = [] := by
  have hc := (Writer.new_ok_iff s.clear rfl v _ _).mp (Writer.new_calm _ _ _ _ h)
  obtain ⟨-, h1, -⟩ := hc
  have hb : w0.sink.buf = signature ++ le 4 v.toNat := by
    have := congrArg (fun w => w.sink.buf) h1
    simpa [Writer.clear, Sink.clear, Writer.At, hs] using this
  have hp : w0.sink.pos = (signature ++ le 4 v.toNat).length := congrArg (fun w => w.sink.pos) h1
  have ho : w0.opened = [] := congrArg (fun w => w.opened) h1
  have hv : w0.version = v := congrArg (fun w => w.version) h1
  have hh : w0.heads = [] := by simp [Writer.heads, ho]
  exact ⟨⟨hv, new_fault h hw, by rw [Writer.AtEnd, hp, hb], (by rw [hh]; intro p hp; cases hp), [], Writer.Leads.nil _, .inl ⟨hh, by simpa using hb⟩⟩, ho⟩

/-- What an interrupted session leaves: less than a signature and a version, or these and a torn body. -/
theorem left {Z : Zlib} {s : Sink} (hs : s.buf = []) (hw : wholeFields s) {v : FbxVersion} {d : Bytes}
    (hd : d = (Writer.new s v).2.buf ∨ ∃ w0 s0 ops, Writer.new s v = (.ok w0, s0) ∧ topNamed 0 ops ∧ d = (Writer.run Z ops w0).2.sink.buf)
    (hlen : d.length < 2 ^ 64) :
    d <+: signature ++ le 4 v.toNat ∨ ∃ Y, d = signature ++ le 4 v.toNat ++ Y ∧ Fbx.Torn (headWidth v) 27 Y := by
  rcases hd with hd | ⟨w0, s0, ops, hn, ht, hd⟩
  · rw [hd]
    exact .inl (Writer.new_extends hs v).1
  · obtain ⟨hw0, ho⟩ := new_start hs hw hn
    subst hd
    exact .inr (Writer.TW.run (head_length _) ops hw0 (by rw [ho]; exact ht) hlen)

end Torn

/-- However a writing session on an empty device went – the creation of the writer failed, or any calls were made on it up
to the end or to the first that failed – as long as `finalize` was not called, no client of a parser of what is on the
device is ever told that the document has ended. Top-level nodes must have names, and a device that fails in the middle of
a field of a header must have stored none or all of that field. -/
theorem C62_unfinished (Z : Zlib) {s : Sink} (hs : s.buf = []) (hw : wholeFields s) {v : FbxVersion} {d : Bytes}
    (hd : d = (Writer.new s v).2.buf ∨ ∃ w0 s0 ops, Writer.new s v = (.ok w0, s0) ∧ topNamed 0 ops ∧ d = (Writer.run Z ops w0).2.sink.buf)
    (hlen : d.length + 2 ^ 32 ≤ 2 ^ 64) {checks : Bool} {ending : Option IoErr} {cursor limit : Nat} (hlim : cursor + d.length ≤ limit)
    {p : Parser} (hp : anyParser checks true d ending cursor limit = .ok p) {h : History α} {c : Client}
    (hr : Runs Z ⟨p, none⟩ h c) : ∀ x ∈ h, x.2.isEndFbx = false := by
  obtain ⟨a, b, e, f, tail, w, h1, h2, h3⟩ := (anyParser_ok_iff (by omega)).mp hp
  have hl : d.length = 27 + tail.length := by
    rw [h1, List.length_append, List.length_append, show signature.length = 23 by decide]; simp
  have hsz : Sized tail := by simp only [Sized, headerLen]; omega
  have hS := head_length v.toNat
  refine torn_never h3 hsz (by omega) ?_ hr
  rcases Torn.left hs hw hd (by omega) with hl' | ⟨Y, hY, ht⟩
  · have : tail = [] := List.length_eq_zero_iff.mp (by have := hl'.length_le; omega)
    subst this
    exact .short (by simp)
  · have he : signature ++ [a, b, e, f] ++ tail = signature ++ le 4 v.toNat ++ Y := h1.symm.trans hY
    obtain ⟨e1, e2⟩ := List.append_inj he (by rw [hS]; simp [show signature.length = 23 by decide])
    have hwv : w = v := by
      obtain ⟨a', b', c', d', h4, h32⟩ := le_le32 v.toNat (UInt32.toNat_lt v)
      exact header_unique (bytes := d) ⟨a, b, e, f, tail, h1, h2⟩ ⟨a', b', c', d', Y, by rw [hY, h4], h32.symm⟩
    rw [e2, hwv]
    exact ht

/-- As above, and nothing is loaded as a tree either. -/
theorem C62_unfinished_tree (Z : Zlib) {s : Sink} (hs : s.buf = []) (hw : wholeFields s) {v : FbxVersion} {d : Bytes}
    (hd : d = (Writer.new s v).2.buf ∨ ∃ w0 s0 ops, Writer.new s v = (.ok w0, s0) ∧ topNamed 0 ops ∧ d = (Writer.run Z ops w0).2.sink.buf)
    (hlen : d.length + 2 ^ 32 ≤ 2 ^ 64) {checks : Bool} {ending : Option IoErr} {cursor limit : Nat} (hlim : cursor + d.length ≤ limit)
    (r : FbxVersion × Tree × Except PErr Footer) : anyTree Z checks true d ending cursor limit ≠ .ok r := by
  obtain ⟨w, t, footer⟩ := r
  intro h
  obtain ⟨p, q, F, hp, hdr, -⟩ := C52_document Z hlen h _ (Nat.lt_succ_self _)
  obtain ⟨hr, -⟩ := drive_runs false everything _ 0 [] (events F.plain) _ q footer none hdr
  have hr' : Runs Z ⟨p, none⟩ ((.setHandler (fun _ _ _ => none), .done) :: hist false everything 0 (events F.plain ++ [.fbx footer])) ⟨q, none⟩ :=
    Runs.cons rfl (fun x h => by cases h) hr
  obtain ⟨k, hk⟩ := hist_append (α := AttrValue) false everything (events F.plain) 0
  have := C62_unfinished Z hs hw hd hlen hlim hp hr' (.next, .event (.endFbx footer)) (by rw [hk]; simp [hist])
  cases this

/-! ## Concrete cases -/

/-- A node with a child: when it is closed, the fields of its header are the operations 40 to 43. -/
def exTornOps : List Writer.Op :=
  [.newNode "a", .newNode "b", .append (.string (String.ofList (List.replicate 224 'x'))), .closeNode, .closeNode]

theorem exTornOps_named : topNamed 0 exTornOps := ⟨fun _ => by decide, fun h => (by cases h), trivial⟩

/-- What is on the device if operation `n` stores `k` bytes and fails. -/
def exTorn (n k : Nat) : Bytes := (Writer.run Zlib.stored exTornOps (exBegun (exFailing n k))).2.sink.buf

theorem exBegun_new (n k : Nat) (h : (Writer.new (exFailing n k) 7400).1 matches .ok _ := by decide +kernel) :
    Writer.new (exFailing n k) 7400 = (.ok (exBegun (exFailing n k)), (Writer.new (exFailing n k) 7400).2) := by
  unfold exBegun
  revert h
  rcases Writer.new (exFailing n k) 7400 with ⟨_ | _ | _, s'⟩ <;> simp

theorem exFailing_whole (n : Nat) {k : Nat} (h : k = 0 ∨ 8 ≤ k) : wholeFields (exFailing n k) := by
  intro i j hi
  simp only [exFailing] at hi
  split at hi
  · cases hi; exact h
  · cases hi

/-- The device fails in the middle of the rewriting of the header of the top-level node: after the end offset. -/
example (r) : anyTree Zlib.stored true true (exTorn 41 0) none 0 (2 ^ 64) ≠ .ok r :=
  C62_unfinished_tree Zlib.stored rfl (exFailing_whole 41 (.inl rfl)) (v := 7400) (.inr ⟨_, _, _, exBegun_new 41 0, exTornOps_named, rfl⟩) (by decide +kernel)
    (by decide +kernel) r
/-- It fails when the whole end offset is stored. -/
example {p : Parser} (hp : anyParser true true (exTorn 40 8) none 0 (2 ^ 64) = .ok p) {h : History α} {c : Client}
    (hr : Runs Zlib.stored ⟨p, none⟩ h c) : ∀ x ∈ h, x.2.isEndFbx = false :=
  C62_unfinished Zlib.stored rfl (exFailing_whole 40 (.inr (Nat.le_refl 8))) (v := 7400) (.inr ⟨_, _, _, exBegun_new 40 8, exTornOps_named, rfl⟩)
    (by decide +kernel) (by decide +kernel) hp hr
example : (Writer.run Zlib.stored exTornOps (exBegun (exFailing 40 8))).1 = .err (.io (.other 0)) ∧
    (anyParser true true (exTorn 40 8) none 0 (2 ^ 64)).isOk := by decide +kernel
/-- It fails in the signature. -/
example (r) : anyTree Zlib.stored true true (Writer.new (exFailing 1 8) 7400).2.buf none 0 (2 ^ 64) ≠ .ok r :=
  C62_unfinished_tree Zlib.stored rfl (exFailing_whole 1 (.inr (Nat.le_refl 8))) (v := 7400) (.inl rfl) (by decide +kernel) (by decide +kernel) r

/-- A tree without a proper footer. -/
def exUnsound : Res AnyTreeError (FbxVersion × Tree × Except PErr Footer) → Bool
  | .ok (_, _, .error _) => true
  | _ => false
/-- The names of the nodes in the order of their starts, and `none` for the end of a node or of the document. -/
def exNames : Res PErr (List (Obs AttrValue)) × Parser → Option (List (Option String))
  | (.ok os, _) => some (os.map fun o => match o with | .start name _ _ => some name | _ => none)
  | _ => none

/-- The defect: if the device stores a part of the end offset only – the first of its four bytes – then a tree can be
loaded although `finalize` was never called, and in the tree the child is no child: the top-level node ends before it, and
what is on the device is read as two top-level nodes. -/
theorem C62_torn_field : (∃ i, (exFailing 40 1).fault i = some ⟨1, .other 0⟩) ∧ topNamed 0 exTornOps ∧
    (∃ w0 s0, Writer.new (exFailing 40 1) 7400 = (.ok w0, s0) ∧ exTorn 40 1 = (Writer.run Zlib.stored exTornOps w0).2.sink.buf) ∧
    (∃ v t e, anyTree Zlib.stored true true (exTorn 40 1) none 0 (2 ^ 64) = .ok (v, t, .error e)) ∧
    (parseFile Zlib.stored true none none 0 (2 ^ 64) false everything 9 (exTorn 40 1)).map exNames =
      some (some [some "a", none, some "b", none, none]) := by
  refine ⟨⟨40, rfl⟩, exTornOps_named, ⟨_, _, exBegun_new 40 1, rfl⟩, ?_, by decide +kernel⟩
  have h : exUnsound (anyTree Zlib.stored true true (exTorn 40 1) none 0 (2 ^ 64)) = true := by decide +kernel
  generalize anyTree Zlib.stored true true (exTorn 40 1) none 0 (2 ^ 64) = x at h ⊢
  rcases x with ⟨v, t, e | g⟩ | _ | _
  · exact ⟨v, t, e, rfl⟩
  all_goals cases h

end Fbx
