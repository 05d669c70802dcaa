import Verif.Spec.Write

/-!
# Specification: writing that is interrupted

A crash leaves on the device whatever the operations carried out so far have stored. The failure schedule of the
device covers crashes: the operation that is interrupted fails after having stored any part of its bytes, and nothing
is called afterwards.
-/

namespace Fbx.Spec
open Writer

/-- A writer was made on the device `s`, and the calls which write the nodes `F` have all succeeded; `w` is the writer then. -/
def Wrote (Z : Zlib) (s : Sink) (v : FbxVersion) (F : Forest Append) (w : Writer) : Prop :=
  ∃ w0 s0, Writer.new s v = (.ok w0, s0) ∧ Writer.run Z (calls F) w0 = (.ok (), w)

/-- The writer after some more calls, whatever they return: the user may also go on after errors. -/
def goOn (Z : Zlib) (w : Writer) (ops : List Op) : Writer := ops.foldl (fun w o => (exec Z o w).2) w

/-- None of the nodes that were open before the calls is closed: no beginning of the calls has more `close_node`
calls than `new_node` calls. -/
def staysOpen (ops : List Op) : Prop := ∀ i, closes (ops.take i) ≤ opens (ops.take i)

/-- An interrupted write of at most 8 bytes has stored all of its bytes or none: the fields of node headers are not torn
apart. -/
def wholeFields (s : Sink) : Prop := ∀ i f, s.fault i = some f → f.stored = 0 ∨ 8 ≤ f.stored

/-- No node that is started while `depth` nodes are open and which is a top-level node has an empty name. -/
def topNamed : (depth : Nat) → List Op → Prop
  | _, [] => True
  | d, .newNode name :: ops => (d = 0 → name ≠ "") ∧ topNamed (d + 1) ops
  | d, .closeNode :: ops => topNamed (d - 1) ops
  | d, .append _ :: ops => topNamed d ops

end Fbx.Spec
