import Verif.Spec.Outline
import Verif.Spec.TreeIO

/-!
# Specification: documents and trees without links

The nodes of a document numbered in the order of the file, and the document below the root of a tree.
-/

namespace Fbx.Spec

/-- The numbers of the nodes at the top of a forest, if its nodes are numbered from `n` on in document order. -/
def Forest.tops {α : Type} : Forest α → (n : Nat) → List Nat
  | .nil, _ => []
  | .cons _ _ children rest, n => n :: rest.tops (n + 1 + children.count)

/-- Names and attributes in document order. -/
def Forest.flat {α : Type} : Forest α → List (String × List α)
  | .nil => []
  | .cons name attrs children rest => (name, attrs) :: (children.flat ++ rest.flat)

/-- The numbers of the children of node `i`, if the nodes are numbered from `n` on in document order. -/
def Forest.under {α : Type} : Forest α → (n i : Nat) → List Nat
  | .nil, _, _ => []
  | .cons _ _ children rest, n, i =>
    if i = n then children.tops (n + 1)
    else if i < n + 1 + children.count then children.under (n + 1) i
    else rest.under (n + 1 + children.count) i

/-- The tree of a document: the root is node 0, the nodes of the document are numbered in document order, and there are no others. -/
def Rows.ofForest (F : Forest AttrValue) : Rows where
  nodes := ("", []) :: F.flat
  below i := if i = 0 then F.tops 1 else F.under 1 i
  loose := [[0]]
  root := 0

/-- The documents of some nodes, down to depth `depth`. -/
def Rows.forestAt (o : Rows) : (depth : Nat) → List Nat → Forest AttrValue
  | 0, _ => .nil
  | depth + 1, is => is.foldr (fun i rest => .cons ((o.nodes[i]?.map Prod.fst).getD "") (o.attrsOf i) (o.forestAt depth (o.below i)) rest) .nil

/-- The document below the root. (No node is deeper than there are nodes.) -/
def Rows.document (o : Rows) : Forest AttrValue := o.forestAt o.nodes.length (o.below o.root)

end Fbx.Spec
