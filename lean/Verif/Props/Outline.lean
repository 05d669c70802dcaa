import Verif.Proof.Outline
import Verif.Props.ParserHistory

/-!
# C77: what can be seen of a tree is decided by the calls

`Spec/Outline.lean` says what the mutating calls of the tree API mean without links between nodes. Here: the tree does the same, for
every sequence of calls, including those which are refused (panic).
-/

namespace Fbx
open Spec Tree

/-- **C77**. A client that makes any calls on a new tree, going on after refused ones, gets the answers of the specification, and can see
of every node then what the specification says. (Unless a node is inserted next to its own descendant, see C43.) -/
theorem C77_calls (ops : List TreeOp) (as : List Answer) (o : Rows) (h : Rows.begun.acts ops = some (as, o)) :
    let r := callAll ops Tree.empty
    r.1 = as ∧ r.2.size = o.nodes.length ∧ r.2.root = 0 ∧ ∀ i, i < o.nodes.length → seen r.2 i = o.view i := by
  obtain ⟨h1, h2⟩ := depicts_empty.calls ops h
  refine ⟨h1, h2.size, ?_, fun i hi => h2.view (by rw [h2.size]; exact hi)⟩
  rw [h2.root, acts_root _ h]
  rfl

/-- **C77** (from any tree). The same holds from every well-formed tree, such as a loaded one: there is an outline which shows the same
of every node, and the calls then go by it. -/
theorem C77_from (t : Tree) (hw : WF t) : ∃ o : Rows, t.size = o.nodes.length ∧ t.root = o.root ∧ (∀ i, i < t.size → seen t i = o.view i) ∧
    ∀ (ops : List TreeOp) (as : List Answer) (o' : Rows), o.acts ops = some (as, o') → (callAll ops t).1 = as ∧ (callAll ops t).2.size = o'.nodes.length ∧
      ∀ i, i < o'.nodes.length → seen (callAll ops t).2 i = o'.view i := by
  obtain ⟨o, h⟩ := depicts_some hw
  refine ⟨o, h.size, h.root, fun i hi => h.view hi, fun ops as o' ha => ?_⟩
  obtain ⟨h1, h2⟩ := h.calls ops ha
  exact ⟨h1, h2.size, fun i hi => h2.view (by rw [h2.size]; exact hi)⟩

/-- Calls that build, move, refuse and edit. -/
def exEdits : List TreeOp :=
  [.appendNew 0 "A", .appendNew 1 "B", .createNode "C", .append 1 2, .insertAfter 3 2, .insertNewBefore 2 "D", .appendAttribute 2 (.bool true),
    .appendAttribute 0 (.bool true), .prependNew 9 "E", .setAttribute 2 0 (.i16 3), .detach 1, .insertBefore 5 1, .insertNewAfter 0 "F", .prepend 4 0,
    .takeAttributes 2]

example : (Rows.begun.acts exEdits).map Prod.fst = some [.node 1, .node 2, .node 3, .refused, .done, .node 4, .done, .refused, .refused,
    .old (some (.bool true)), .done, .done, .refused, .done, .taken [.i16 3]] := by decide +kernel
example : (callAll exEdits Tree.empty).1 = [.node 1, .node 2, .node 3, .refused, .done, .node 4, .done, .refused, .refused,
    .old (some (.bool true)), .done, .done, .refused, .done, .taken [.i16 3]] := by decide +kernel
/-- The node 1 is loose, and has a sibling and two children. -/
example : (Rows.begun.acts exEdits).map (fun x => x.2.view 1) = some ⟨some "A", [], none, none, some 5, some 2, some 3, [2, 3]⟩ := by decide +kernel
/-- Without the insertion next to a descendant there is always an answer: the only excluded calls are these. -/
example : Rows.begun.acts [.appendNew 0 "A", .appendNew 1 "B", .insertAfter 0 2] = none := by decide +kernel

end Fbx
