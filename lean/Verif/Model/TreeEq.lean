import Verif.Model.Tree

/-!
# The `==` of `Tree`

`tree/v7400.rs:50` derives `PartialEq`: arena, interner and root id are compared. `indextree::Arena` and its nodes derive `PartialEq` too
(all links and the data); `StringInterner` compares the interned strings in the order of their symbols.
-/

namespace Fbx

/-- `indextree::Node` (derived `PartialEq`) with `tree/v7400/node/data.rs:9`. Stamps are not modelled: no node is ever removed. -/
def NodeRec.eq (a b : NodeRec) : Bool :=
  a.parent == b.parent && a.prev == b.prev && a.next == b.next && a.first == b.first && a.last == b.last &&
    (a.sym == b.sym && AttrValue.sliceEq AttrValue.eq a.attrs b.attrs)

/-- `tree/v7400.rs:50` the derived `PartialEq` of `Tree`. -/
def Tree.eq (t u : Tree) : Bool :=
  (t.size == u.size && (List.range t.size).all (fun i => (t.nodes i).eq (u.nodes i))) && t.names == u.names && t.root == u.root

end Fbx
