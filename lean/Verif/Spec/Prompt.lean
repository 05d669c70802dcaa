import Verif.Model.Flush
import Verif.Model.TreeIO
import Verif.Spec.Write

/-! # How failures of the device are reported -/

namespace Fbx
namespace Spec

/-- An error which comes from the device or a reader. -/
def ofDevice : WErr → Prop
  | .io _ => True
  | .compression _ => True
  | _ => False

/-- A call returned `r` and took the device from `s` to `s'`. Either some operations of the device were done, none of which failed, and
the result is no error of the device, unless the device is full, or the error is one of `own` (which the client handed in). Or the last of
the operations done is one which failed, the first one to do so, and the result is its error, as an I/O error, or, if `packing`, as a
compression error. -/
def Prompt {α : Type} (packing : Prop) (own : WErr → Prop) (r : Res WErr α) (s s' : Sink) : Prop :=
  (∃ n, s'.fault = (fun i => s.fault (i + n)) ∧ (∀ i, i < n → s.fault i = none) ∧
    ∀ e, r = .err e → ofDevice e → e = .io (.other 1) ∨ (packing ∧ e = .compression (.other 1)) ∨ own e) ∨
  (∃ n, s'.fault = (fun i => s.fault (i + (n + 1))) ∧ (∀ i, i < n → s.fault i = none) ∧ ∃ x, s.fault n = some x ∧
    (r = .err (.io x.error) ∨ (packing ∧ r = .err (.compression x.error))))

/-- The errors which the client hands in, as items of an iterator or through a reader. -/
def handedIn : Writer.Op → WErr → Prop
  | .append (.arrBool _ items), e => .error e ∈ items
  | .append (.arrI32 _ items), e => .error e ∈ items
  | .append (.arrI64 _ items), e => .error e ∈ items
  | .append (.arrF32 _ items), e => .error e ∈ items
  | .append (.arrF64 _ items), e => .error e ∈ items
  | .append (.binaryIter items), e => .error e ∈ items
  | .append (.stringIter items), e => .error e ∈ items
  | .append (.binaryReader _ ending), e => ∃ x, ending = some x ∧ e = .io x
  | _, _ => False

/-- The call appends an array which is to be compressed. -/
def packs : Writer.Op → Prop
  | .append (.arrBool enc _) => enc = some .zlib
  | .append (.arrI32 enc _) => enc = some .zlib
  | .append (.arrI64 enc _) => enc = some .zlib
  | .append (.arrF32 enc _) => enc = some .zlib
  | .append (.arrF64 enc _) => enc = some .zlib
  | _ => False

/-- The same writer on a device which fails as `f` plans. -/
def onDevice (w : Writer) (f : Nat → Option Fault) : Writer := { w with sink := { w.sink with fault := f } }

/-- The call appends an array. -/
def appendsArray : Writer.Append → Prop
  | .arrBool _ _ => True
  | .arrI32 _ _ => True
  | .arrI64 _ _ => True
  | .arrF32 _ _ => True
  | .arrF64 _ _ => True
  | _ => False

/-- How often the elements of an array reach the device before the encoder is finished: each element by itself, or, compressed, the two
bytes of the header, and what the encoder puts out early, if that is anything. -/
def elementWrites (Z : Zlib) (a : DAttr) : Nat :=
  match a.enc with
  | .direct => arrayCount a.value
  | .zlib => if Z.encEarly (arrayData a.value) = [] then 1 else 2

/-- The operation of the device by which the encoder is finished, if it puts out anything: the type code, the question for the position, the
header in three parts and another question come before the elements. -/
def finishing (Z : Zlib) (a : DAttr) : Nat := 6 + elementWrites Z a

/-- All the operations of the device in a call which appends an array: behind the elements, what the encoder puts out when it is finished,
two questions for the position, the way back, the header in three parts, and the way forth. -/
def arrayOperations (Z : Zlib) (a : DAttr) : Nat :=
  finishing Z a + (if a.enc = .zlib ∧ Z.encLate (arrayData a.value) ≠ [] then 1 else 0) + 7

end Spec
end Fbx
