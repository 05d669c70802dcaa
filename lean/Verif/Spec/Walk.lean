import Verif.Spec.Tree

/-! # Programs that edit a tree while they traverse it

`DepthFirstTraverseSubtree` does not borrow the tree: it is given the tree at each call, so that the tree may be edited between the calls. -/

namespace Fbx

/-- Edits that add nodes or change attributes, but leave the existing nodes where they are. -/
def TreeOp.adds : TreeOp → Bool
  | .createNode _ | .appendNew _ _ | .prependNew _ _ | .insertNewAfter _ _ | .insertNewBefore _ _ => true
  | .appendAttribute _ _ | .setAttribute _ _ _ | .takeAttributes _ | .setAttributes _ _ => true
  | .append _ _ | .prepend _ _ | .insertAfter _ _ | .insertBefore _ _ | .detach _ => false

/-- The node that an edit takes out of its place. -/
def TreeOp.moved : TreeOp → Option Nat
  | .append c _ | .prepend c _ | .insertAfter c _ | .insertBefore c _ | .detach c => some c
  | _ => none

namespace Tree

/-- The tree, the traversal, and what `next_forward` and `next_backward` have yielded, each in the order of the calls. -/
structure Walk where
  tree : Tree
  cursors : Cursors
  front : List Trav
  back : List Trav

/-- The program calls `next_forward`. -/
inductive Walk.Forward : Walk → Walk → Prop where
  | mk {w : Walk} {x : Option Trav} {c : Cursors} : nextForward w.tree w.cursors = (.ok x, c) →
      Forward w ⟨w.tree, c, w.front ++ x.toList, w.back⟩

/-- The program calls `next_backward`. -/
inductive Walk.Backward : Walk → Walk → Prop where
  | mk {w : Walk} {x : Option Trav} {c : Cursors} : nextBackward w.tree w.cursors = (.ok x, c) →
      Backward w ⟨w.tree, c, w.front, w.back ++ x.toList⟩

/-- The program edits the tree. -/
inductive Walk.Edit (op : TreeOp) : Walk → Walk → Prop where
  | mk {w : Walk} {u : Tree} : run op w.tree = (.ok (), u) → Edit op w ⟨u, w.cursors, w.front, w.back⟩

/-- What a program that traverses the subtree of `i` in both directions, and adds nodes and changes attributes of the tree on the way, can get to. -/
inductive Walked (t : Tree) (i : Nat) : Walk → Prop where
  | start : Walked t i ⟨t, traverse i, [], []⟩
  | forward {w w' : Walk} : Walked t i w → w.Forward w' → Walked t i w'
  | backward {w w' : Walk} : Walked t i w → w.Backward w' → Walked t i w'
  | edit {w w' : Walk} {op : TreeOp} : Walked t i w → op.adds = true → w.Edit op w' → Walked t i w'

/-- The node an item is about. -/
def Trav.node : Trav → Nat
  | .opn i => i
  | .cls i => i

end Tree
end Fbx
