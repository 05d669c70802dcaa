import Verif.Model.Flush
import Verif.Props.ParseWritten

/-!
# C66: `finalize_and_flush`
-/

namespace Fbx
open Spec Writer

/-- What `finalize_and_flush` does after the calls. -/
theorem flushed_session (Z : Zlib) (s : Sink) (v : FbxVersion) (ops : List Op) (f : FooterSpec) :
    flushedSession Z s v ops f = match session Z s v ops f with
      | (.ok (), s') => match Sink.flush s' with
        | (.ok (), s'') => (.ok (), s'')
        | (.err e, s'') => (.err (.io e), s'')
        | (.panic p, s'') => (.panic p, s'')
      | r => r := by
  unfold flushedSession session
  rcases new s v with ⟨r, s1⟩
  cases r with
  | ok w =>
    have e : (do run Z ops; finalizeAndFlush f : M WErr Writer Unit) = ((do run Z ops; finalize f : M WErr Writer Unit) >>= fun _ => io Sink.flush) := by
      simp only [finalizeAndFlush, M.bind_assoc']
    simp only [e]
    rcases hr : (do run Z ops; finalize f : M WErr Writer Unit) w with ⟨r, w'⟩
    show ((M.bind _ _ w).1, (M.bind _ _ w).2.sink) = _
    simp only [M.bind, hr]
    cases r with
    | ok x =>
      simp only [io, M.mapErr, M.zoom]
      rcases Sink.flush w'.sink with ⟨r, s2⟩
      cases r <;> rfl
    | err e => rfl
    | panic p => rfl
  | err e => rfl
  | panic p => rfl

/-- **C66** (bytes). A session that ends with `finalize_and_flush` leaves the same bytes as the one that ends with `finalize`, whatever happens. -/
theorem C66_same_bytes (Z : Zlib) (s : Sink) (v : FbxVersion) (ops : List Op) (f : FooterSpec) :
    (flushedSession Z s v ops f).2.buf = (session Z s v ops f).2.buf := by
  rw [flushed_session]
  rcases session Z s v ops f with ⟨r, s'⟩
  cases r with
  | ok x =>
    simp only [Sink.flush]
    cases s'.fault 0 <;> rfl
  | err e => rfl
  | panic p => rfl

/-- **C66** (results). It fails if `finalize` or anything before fails, with that error and without flushing; otherwise it fails exactly if
flushing fails, with an I/O error. -/
theorem C66_results (Z : Zlib) (s : Sink) (v : FbxVersion) (ops : List Op) (f : FooterSpec) :
    match session Z s v ops f with
    | (.ok (), s') => (s'.fault 0 = none ∧ (flushedSession Z s v ops f).1 = .ok ()) ∨
        (s'.fault 0 ≠ none ∧ ∃ e, (flushedSession Z s v ops f).1 = .err (.io e))
    | r => flushedSession Z s v ops f = r := by
  rw [flushed_session]
  rcases session Z s v ops f with ⟨r, s'⟩
  cases r with
  | ok x =>
    simp only [Sink.flush]
    cases hf : s'.fault 0 with
    | none => exact .inl ⟨rfl, rfl⟩
    | some k => exact .inr ⟨by simp, _, rfl⟩
  | err e => rfl
  | panic p => rfl

/-- **C66** (a failing flush). Also if only flushing fails, the content is that of the complete document. -/
theorem C66_flush_failed (Z : Zlib) (s : Sink) (v : FbxVersion) (F : Forest Append) (f : FooterSpec) (hF : F.All (fun _ as => ∀ a ∈ as, intact a))
    {s' : Sink} (h : session Z s v (calls F) f = (.ok (), s')) :
    document v.toNat (callBytes Z) F (footOf f) <+: (flushedSession Z s v (calls F) f).2.buf := by
  rw [C66_same_bytes, h]
  have hl : legal false (calls F) = true := by
    have := legal_calls F false [] (fun _ _ => rfl)
    rw [List.append_nil] at this
    exact this.trans rfl
  obtain ⟨G, h1, h2, h3⟩ := C06_layout Z s s' v _ f hl h
  have := C06_forest_unique _ _ h1
  subst this
  obtain ⟨h4, -⟩ := h3 hF
  rw [h4]
  exact List.prefix_append _ _

/-! ## Examples -/

/-- A device with a fault at operation `n`. -/
def exFlushSink (n : Nat) : Sink := ⟨[], 0, fun i => if i = n then some ⟨0, .other 0⟩ else none⟩
/-- The number of operations of an empty session is 14: if the next one fails, only flushing fails. -/
example : (match (session Zlib.stored (exFlushSink 14) 7400 [] { unknown1 := none, padding := .default, unknown2 := none, unknown3 := none }).1,
      (flushedSession Zlib.stored (exFlushSink 14) 7400 [] { unknown1 := none, padding := .default, unknown2 := none, unknown3 := none }).1 with
    | .ok (), .err _ => true
    | _, _ => false) = true := by decide +kernel

end Fbx
