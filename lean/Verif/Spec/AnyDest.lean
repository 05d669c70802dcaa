import Verif.Model.AnyDest
import Verif.Spec.ShortWrites

/-! # Arbitrary destinations: specification vocabulary -/

namespace Fbx.Spec

/-- What a destination (`W: Write + Seek`) in the state `d` promises. It has a content and a cursor (which may be spread over several
places, such as a file and a buffer). Operations fail only with the failures `P` (which tell the error and, of a write, how many bytes are
stored), or because of the offsets a device can have. The states are those with `I`, which all operations keep. -/
structure Sound {δ : Type} (D : Dest δ) (I : δ → Prop) (P : Fault → Prop) (content : δ → Bytes) (cursor : δ → Nat) : Prop where
  /-- writing nothing does nothing -/
  empty : ∀ d, D.writeAll [] d = (.ok (), d)
  /-- `write_all` stores the bytes at the cursor, which it moves; if it fails it may have done so with some of the first bytes -/
  writeAll : ∀ d bs, I d → bs ≠ [] → ∃ r d', D.writeAll bs d = (r, d') ∧ I d' ∧
    ((r = .ok () ∧ cursor d + bs.length < 2 ^ 64 ∧ content d' = Sink.store (content d) (cursor d) bs ∧ cursor d' = cursor d + bs.length) ∨
     (∃ f, r = .err f.error ∧ P f ∧ cursor d' = cursor d + (bs.take f.stored).length ∧
        content d' = if bs.take f.stored = [] then content d else Sink.store (content d) (cursor d) (bs.take f.stored)) ∨
     (r = .err (.other 1) ∧ 2 ^ 64 ≤ cursor d + bs.length ∧ content d' = content d ∧ cursor d' = cursor d))
  /-- `seek` moves the cursor or fails -/
  seek : ∀ d p, I d → ∃ r d', D.seek p d = (r, d') ∧ I d' ∧ content d' = content d ∧
    ((r = .ok () ∧ cursor d' = p) ∨ (∃ e, r = .err e ∧ P ⟨0, e⟩ ∧ cursor d' = cursor d))
  /-- `stream_position` tells where the cursor is or fails -/
  tell : ∀ d, I d → ∃ r d', D.tell d = (r, d') ∧ I d' ∧ content d' = content d ∧ cursor d' = cursor d ∧
    (r = .ok (cursor d) ∨ ∃ e, r = .err e ∧ P ⟨0, e⟩)
  /-- `flush` succeeds or fails -/
  flush : ∀ d, I d → ∃ r d', D.flush d = (r, d') ∧ I d' ∧ content d' = content d ∧ cursor d' = cursor d ∧
    (r = .ok () ∨ ∃ e, r = .err e ∧ P ⟨0, e⟩)

/-- What has been written through a `BufWriter`: the content of the device with the bytes held back put where they belong. -/
def _root_.Fbx.BufOut.content (b : BufOut) : Bytes := if b.held = [] then b.inner.buf else Sink.store b.inner.buf b.inner.pos b.held

/-- Where it goes on. -/
def _root_.Fbx.BufOut.cursor (b : BufOut) : Nat := b.inner.pos + b.held.length

/-- A failure of the device at some time, or its error without anything stored. -/
def _root_.Fbx.Sink.reports (s : Sink) (f : Fault) : Prop := ∃ i g, s.fault i = some g ∧ (f = g ∨ f = ⟨0, g.error⟩)

/-- An operation of the device that fails has stored nothing. -/
def _root_.Fbx.Sink.atomic (s : Sink) : Prop := ∀ i f, s.fault i = some f → f.stored = 0

/-- What is on the device when the process dies, and what is on it when the `BufWriter` is dropped. -/
def _root_.Fbx.BufOut.leaves (b : BufOut) (c : Bytes) : Prop := c = b.inner.buf ∨ c = b.drop.buf

/-- The results of calls of a writer one after the other, as `attempts`, on any destination. -/
def attemptsAt {δ : Type} (D : Dest δ) (Z : Zlib) : List Writer.Op → WriterOn δ → List (Res WErr Unit) × WriterOn δ
  | [], w => ([], w)
  | o :: os, w => match AnyDest.exec D Z o w with
    | (.panic p, w') => ([.panic p], w')
    | (x, w') => (x :: (attemptsAt D Z os w').1, (attemptsAt D Z os w').2)

end Fbx.Spec
