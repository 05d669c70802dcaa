import Verif.Proof.ShortWrites
import Verif.Props.WriterLayout

/-! # C71: writing does not depend on how the device splits its writes -/

namespace Fbx
open Spec
variable {D : WriteSchedule}

/-- **C71** (devices that work). A device stores the bytes it is given in pieces, or is interrupted before it stores any, but goes on. Then any
session ends: it has the result it has on a device that stores everything at once, and leaves the same content and cursor. -/
theorem C71_session (hr : Responsive D) (hw : Working D) (Z : Zlib) (s : Sink) (hs : s.fault = fun _ => none) (v : FbxVersion) (ops : List Writer.Op)
    (f : Writer.FooterSpec) : EndsAs (fun fuel => Pieces.session D Z fuel s v ops f) (Writer.session Z s v ops f) := by
  obtain ⟨fault, h1, h2⟩ := Pieces.withNew_mimics hr v ((Pieces.run_mimics hr Z ops).bind fun _ => Pieces.finalize_mimics hr f) s
  rw [calm_of_working hw h1, ← hs] at h2
  exact h2

/-- **C71** for `finalize_and_flush`. -/
theorem C71_flushed (hr : Responsive D) (hw : Working D) (Z : Zlib) (s : Sink) (hs : s.fault = fun _ => none) (v : FbxVersion) (ops : List Writer.Op)
    (f : Writer.FooterSpec) : EndsAs (fun fuel => Pieces.flushedSession D Z fuel s v ops f) (Writer.flushedSession Z s v ops f) := by
  obtain ⟨fault, h1, h2⟩ := Pieces.withNew_mimics hr v ((Pieces.run_mimics hr Z ops).bind fun _ => Pieces.finalizeAndFlush_mimics hr f) s
  rw [calm_of_working hw h1, ← hs] at h2
  exact h2

/-- **C71** for `write_tree`. -/
theorem C71_tree (hr : Responsive D) (hw : Working D) (Z : Zlib) (s : Sink) (hs : s.fault = fun _ => none) (v : FbxVersion) (t : Tree)
    (f : Writer.FooterSpec) : EndsAs (fun fuel => Pieces.treeSession D Z fuel s v t f) (Writer.treeSession Z s v t f) := by
  obtain ⟨fault, h1, h2⟩ := Pieces.withNew_mimics hr v ((Pieces.writeTree_mimics hr Z t).bind fun _ => Pieces.finalize_mimics hr f) s
  rw [calm_of_working hw h1, ← hs] at h2
  exact h2

/-- **C71** (any device). Whatever the device does — store a part of the bytes, store nothing, fail at any operation, also in the middle of a
`write_all` — unless it is interrupted for ever, the session ends, as on a device of the rest of this model, which stores everything at once but may
fail at any operation after storing any part. So what is proved of all such devices holds here. Its errors are errors which the device
reports. -/
theorem C71_failing (hr : Responsive D) (Z : Zlib) (s : Sink) (v : FbxVersion) (ops : List Writer.Op) (f : Writer.FooterSpec) :
    ∃ fault, (∀ i x, fault i = some x → Tells D x.error) ∧ EndsAs (fun fuel => Pieces.session D Z fuel s v ops f) (Writer.session Z ⟨s.buf, s.pos, fault⟩ v ops f) := by
  obtain ⟨fault, h', h⟩ := Pieces.withNew_mimics hr v ((Pieces.run_mimics hr Z ops).bind fun _ => Pieces.finalize_mimics hr f) s
  exact ⟨fault, h', h⟩

/-- **C71** (any device), for `finalize_and_flush`. -/
theorem C71_failing_flushed (hr : Responsive D) (Z : Zlib) (s : Sink) (v : FbxVersion) (ops : List Writer.Op) (f : Writer.FooterSpec) :
    ∃ fault, (∀ i x, fault i = some x → Tells D x.error) ∧ EndsAs (fun fuel => Pieces.flushedSession D Z fuel s v ops f) (Writer.flushedSession Z ⟨s.buf, s.pos, fault⟩ v ops f) := by
  obtain ⟨fault, h', h⟩ := Pieces.withNew_mimics hr v ((Pieces.run_mimics hr Z ops).bind fun _ => Pieces.finalizeAndFlush_mimics hr f) s
  exact ⟨fault, h', h⟩

/-- **C71** (any device), for `write_tree`. -/
theorem C71_failing_tree (hr : Responsive D) (Z : Zlib) (s : Sink) (v : FbxVersion) (t : Tree) (f : Writer.FooterSpec) :
    ∃ fault, (∀ i x, fault i = some x → Tells D x.error) ∧ EndsAs (fun fuel => Pieces.treeSession D Z fuel s v t f) (Writer.treeSession Z ⟨s.buf, s.pos, fault⟩ v t f) := by
  obtain ⟨fault, h', h⟩ := Pieces.withNew_mimics hr v ((Pieces.writeTree_mimics hr Z t).bind fun _ => Pieces.finalize_mimics hr f) s
  exact ⟨fault, h', h⟩

/-- **C71** (calls after errors). A user who goes on after errors sees, call by call, what they see on a device of the rest of this model, with
some failure schedule, with errors which the device reports; with no failures if the device works. The writer and the content of the device are the same in the end. -/
theorem C71_calls (hr : Responsive D) (Z : Zlib) (w : Writer) (i : Nat) (ops : List Writer.Op) :
    ∃ fault, (∀ i x, fault i = some x → Tells D x.error) ∧ (Working D → fault = fun _ => none) ∧
      let r := attempts Z ops ⟨⟨w.sink.buf, w.sink.pos, fault⟩, w.version, w.opened⟩
      ∃ fuel₀ w', (∀ fuel ≥ fuel₀, attemptsOn D Z fuel ops (w, i) = some (r.1, w')) ∧
        (∀ fuel y, attemptsOn D Z fuel ops (w, i) = some y → y = (r.1, w')) ∧
        w'.sink.buf = r.2.sink.buf ∧ w'.sink.pos = r.2.sink.pos ∧ w'.version = r.2.version ∧ w'.opened = r.2.opened := by
  obtain ⟨xs, w', l, h1, ⟨⟨f0, h2⟩, h2'⟩, h3⟩ := Pieces.attempts_mimics hr Z ops w i
  refine ⟨prep l fun _ => none, prep_due h3, fun hw => calm_of_working hw (prep_due h3), ?_⟩
  have h := h1 fun _ => none
  simp only [Writer.faulty, Sink.faulty] at h
  simp only [h]
  exact ⟨f0, w', h2, h2', rfl, rfl, rfl, rfl⟩

/-- **C71** (documents). Whatever the device does: if all calls of a session succeed, they are those of a document and the device holds this
document, followed by what it held beyond. -/
theorem C71_document (hr : Responsive D) (Z : Zlib) (s s' : Sink) (v : FbxVersion) (ops : List Writer.Op) (f : Writer.FooterSpec)
    (hl : Writer.legal false ops = true) (fuel : Nat) (h : Pieces.session D Z fuel s v ops f = some (.ok (), s')) :
    ∃ F, ops = calls F ∧ supported v.toNat ∧ (F.All (fun _ as => ∀ a ∈ as, intact a) →
      (let doc := document v.toNat (callBytes Z) F (footOf f)
       s'.buf = doc ++ s.buf.drop doc.length ∧ s'.pos = doc.length)) := by
  obtain ⟨fault, -, f0, t, -, h1, h2, h3⟩ := C71_failing hr Z s v ops f
  have e := h1 fuel _ h
  simp only [Prod.mk.injEq] at e
  obtain ⟨e1, rfl⟩ := e
  rcases hs : Writer.session Z ⟨s.buf, s.pos, fault⟩ v ops f with ⟨x, r⟩
  rw [hs] at e1 h2 h3
  simp only at e1 h2 h3
  subst e1
  obtain ⟨F, k1, k2, k3⟩ := C06_layout Z _ _ v ops f hl hs
  refine ⟨F, k1, k2, fun hi => ?_⟩
  rw [h2, h3]
  exact k3 hi

/-! ## Examples -/

/-- Every other operation is interrupted, the others store one, two or three bytes. -/
def exPieces : WriteSchedule := fun i => if i % 2 = 0 then .interrupted else .takes (i % 3)

theorem exPieces_responsive : Responsive exPieces := fun i => ⟨1 - i % 2, by
  unfold exPieces
  rw [if_neg (by omega)]
  simp⟩

theorem exPieces_working : Working exPieces := fun i => by
  unfold exPieces
  by_cases h : i % 2 = 0
  · exact .inl (if_pos h)
  · exact .inr ⟨_, if_neg h⟩

/-- A session on this device, in pieces of one to three bytes: the document is the one a device leaves that stores everything at once. -/
example : (Pieces.session exPieces Zlib.stored 400 exSink 7400 (calls exForest) exFooter).map (fun y => (y.1, y.2.buf)) =
    some (.ok (), (Writer.session Zlib.stored exSink 7400 (calls exForest) exFooter).2.buf) := by
  decide +kernel

example := C71_session exPieces_responsive exPieces_working Zlib.stored exSink rfl 7400 (calls exForest) exFooter

/-- The same device, which fails at the 40th operation, or stores nothing. -/
def exBroken (how : WriteStep) : WriteSchedule := fun i => if i = 39 then how else exPieces i

theorem exBroken_responsive (how : WriteStep) : Responsive (exBroken how) := fun i => ⟨i + 41, by
  unfold exBroken exPieces
  rw [if_neg (by omega), if_neg (by omega)]
  simp⟩

/-- The file header, one field of a node header and half of the next: the failure came in the middle of a `write_all`. -/
example : (Pieces.session (exBroken (.fails (.other 7))) Zlib.stored 400 ⟨[], 0, fun _ => none⟩ 7400 (calls exForest) exFooter).map (fun y => (y.1, y.2.buf.length)) =
    some (.err (.io (.other 7)), 33) ∧
    (Pieces.session (exBroken .nothing) Zlib.stored 400 ⟨[], 0, fun _ => none⟩ 7400 (calls exForest) exFooter).map (fun y => (y.1, y.2.buf.length)) =
    some (.err (.io (.other 0)), 33) := by
  decide +kernel

example := C71_failing (exBroken_responsive (.fails (.other 7))) Zlib.stored exSink 7400 (calls exForest) exFooter
example := C71_calls (exBroken_responsive (.fails (.other 7))) Zlib.stored ⟨exSink, 7400, []⟩ 0 (calls exForest)
example := fun s' h => C71_document exPieces_responsive Zlib.stored exSink s' 7400 (calls exForest) exFooter (by decide +kernel) 400 h

end Fbx
