import Verif.Proof.Buffered
import Verif.Proof.Memory
import Verif.Proof.Handler

namespace Fbx
variable {α : Type} {Z : Zlib}
open Reader Parser Spec

namespace AP

theorem loadBuf_eq (a : AP) (w : Setting) (l : BufLoader α) : loadBuf Z w l a = match a.parser.health with
    | .finished => (.err (PErr.ofOp .alreadyFinished), a)
    | .aborted pos => (.err ⟨.op .alreadyAborted, some pos⟩, a)
    | .running => if a.attrs.rest ≤ a.attrs.total then match loadBodyBuf Z w l a.attrs.next (a.attrs.total - a.attrs.rest) a with
        | (.ok v, a') => (.ok v, a')
        | (.panic x, a') => (.panic x, a')
        | (.err e, a') => match position a.attrs.next (a.attrs.total - a.attrs.rest) a' with
          | (.ok pos, a'') => (.err (e.andPosition pos), { a'' with parser := a''.parser.setAborted pos })
          | (.err e', a'') => (.err e', a'')
          | (.panic x, a'') => (.panic x, a'')
      else (.panic .attrIndexUnderflow, a) := by
  unfold loadBuf withHealthCheck
  refine (M.bind_apply _ _ _).trans ?_
  simp only [par, M.zoom_apply, Parser.ensureContinuable]
  cases a.parser.health with
  | finished => rfl
  | aborted pos => rfl
  | running =>
    simp only
    refine (M.bind_apply _ _ _).trans ?_
    simp only [M.get]
    refine (M.bind_apply _ _ _).trans ?_
    by_cases hc : a.attrs.rest ≤ a.attrs.total
    · simp only [M.assert, hc, decide_true, if_true]
      have he : (M.pure () { parser := a.parser, attrs := a.attrs } : Res PErr Unit × AP) = (.ok (), a) := rfl
      rw [he]
      simp only
      rcases loadBodyBuf Z w l a.attrs.next (a.attrs.total - a.attrs.rest) a with ⟨_ | e | _, a'⟩
      · rfl
      · simp only
        rcases position a.attrs.next (a.attrs.total - a.attrs.rest) a' with ⟨_ | _ | _, _⟩ <;> rfl
      · rfl
    · simp only [M.assert, hc, decide_false, if_false, Bool.false_eq_true]
      rfl

/-- A string or binary data in front of the reader. -/
theorem loadBodyBuf_special {a : AP} {w : Setting} {l : BufLoader α} {c : UInt8} {n : Nat} {data : Bytes} {t : AttrType} {k : Nat → BufCons α}
    (hrest : a.attrs.rest ≠ 0) (hat : a.attrs.next = a.parser.reader.position) (hr : Room a.parser.reader)
    (hcap : a.parser.reader.position + a.parser.reader.rest.length + 2 ^ 32 ≤ 2 ^ 64)
    (hb : a.parser.reader.rest = c :: (le 4 n ++ data)) (hlt : n < 2 ^ 32) (ht : AttrType.fromTypeCode c = some t)
    (hk : ∀ start idx, loadImplBuf Z w t l start idx = loadSpecialBuf w k) (hp : Polite 0 (k n)) (start idx : Nat) :
    ∃ taken r, loadBodyBuf Z w l start idx a = ((match r with | .ok v => .ok (some v) | .error e => .err e),
        ⟨{ a.parser with reader := a.parser.reader.consume (5 + taken.length) }, ⟨a.attrs.total, a.attrs.rest - 1, a.attrs.next + 5 + n⟩⟩) ∧
      Served (fun e => ∃ i, w.plan i = .fail e) (if data.length < n then a.parser.reader.ending else none) (k n) (data.take n) taken r := by
  have h4 : (le 4 n).length = 4 := by simp [le]
  have hlen : a.parser.reader.rest.length = 5 + data.length := by rw [hb, List.length_cons, List.length_append, h4]; omega
  have hty : readNextType a = (.ok (some t), ⟨{ a.parser with reader := a.parser.reader.consume 1 }, { a.attrs with rest := a.attrs.rest - 1 }⟩) := by
    unfold readNextType
    refine (M.bind_apply _ _ _).trans ?_
    simp only [M.get]
    rw [if_neg hrest, if_neg (by omega)]
    refine (M.bind_apply _ _ _).trans ?_
    refine (M.bind_val (io_ok (readU8_head hr hb)) _).trans ?_
    simp only [ht]
    rfl
  unfold loadBodyBuf
  rw [M.bind_val hty]
  simp only [hk]
  generalize hB : (⟨{ a.parser with reader := a.parser.reader.consume 1 }, { a.attrs with rest := a.attrs.rest - 1 }⟩ : AP) = B
  have hBr : B.parser.reader = a.parser.reader.consume 1 := by rw [← hB]
  have hrest1 : (a.parser.reader.consume 1).rest = le 4 n ++ data := by simp [hb]
  have hle : fromLe (B.parser.reader.rest.take 4) = n := by
    rw [hBr, hrest1, List.take_append_of_le_length (by omega), List.take_of_length_le (by omega), Writer.le_eq]
    exact fromLe_leBytes hlt
  have hspecial : ∃ taken r, loadSpecialBuf w k B = (M.ofExcept r () |>.1, ⟨{ a.parser with reader := a.parser.reader.consume (5 + taken.length) }, ⟨a.attrs.total, a.attrs.rest - 1, a.attrs.next + 5 + n⟩⟩) ∧
      Served (fun e => ∃ i, w.plan i = .fail e) (if data.length < n then a.parser.reader.ending else none) (k n) (data.take n) taken r := by
    have hB4 : 4 ≤ B.parser.reader.rest.length := by rw [hBr, hrest1, List.length_append, h4]; omega
    have hBp : B.parser.reader.position = a.parser.reader.position + 1 := by rw [hBr]; rfl
    have hd : (w.dev (B.parser.reader.consume 4)).reader = a.parser.reader.consume 5 := by
      show B.parser.reader.consume 4 = _
      rw [hBr, consume_consume]
    have hr5 : (a.parser.reader.consume 5).rest = data := by
      rw [consume_rest, hb]
      show List.drop 4 (le 4 n ++ data) = data
      rw [List.drop_append_of_le_length (by omega), List.drop_of_length_le (by omega)]
      rfl
    obtain ⟨taken, r, d', h1, h2, -, h5⟩ := BufCons.served (faults := fun e => ∃ i, w.plan i = .fail e) (k n) hp (Nat.zero_le n) (Nat.zero_le _)
      (w.dev_buffered (B.parser.reader.consume 4)) (by rw [hd]; show a.parser.reader.position + 5 + n < u64Size; rw [show u64Size = 2 ^ 64 from rfl]; omega)
      (fun i e he => ⟨i, he⟩) rfl
    rw [hd] at h2 h5
    rw [hr5] at h5
    refine ⟨taken, r, ?_, ?_⟩
    · unfold loadSpecialBuf
      rw [M.bind_val (io_ok (readLe_exact hB4 (by omega))), hle]
      refine (M.bind_val (updateNext_ok (by simp; omega)) _).trans ?_
      simp only [moved, withReader, h1]
      rw [consume_consume] at h2
      have e : (B.parser.reader.consume 4).position + n = a.attrs.next + 5 + n := by
        show B.parser.reader.position + 4 + n = _
        omega
      rw [e, ← hB]
      cases r <;> simp only [M.ofExcept, M.pure, M.throw, h2]
    · have : Dev.final n (a.parser.reader.consume 5) = if data.length < n then a.parser.reader.ending else none := by
        unfold Dev.final
        rw [hr5]
        rfl
      rw [this] at h5
      exact h5
  obtain ⟨taken, r, h1, h2⟩ := hspecial
  refine ⟨taken, r, ?_, h2⟩
  cases r with
  | ok v => rw [M.bind_val h1]; rfl
  | error e => rw [bind_err h1]

end AP
end Fbx
