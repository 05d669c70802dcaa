import Verif.Spec.Tree
import Verif.Props.Low

/-! # What `==` of trees means -/

namespace Fbx

/-- Two lists of attributes of the same length, equal one by one. -/
inductive SameValues : List AttrValue → List AttrValue → Prop where
  | nil : SameValues [] []
  | cons {a b : AttrValue} {l r : List AttrValue} : sameValue a b → SameValues l r → SameValues (a :: l) (b :: r)

mutual
/-- Two documents with the same names and the same structure, whose attributes are equal one by one. -/
inductive SameDoc : Rose → Rose → Prop where
  | mk {name : String} {l r : List AttrValue} {ks ms : List Rose} : SameValues l r → SameDocs ks ms → SameDoc (.node name l ks) (.node name r ms)
/-- The same for lists of documents. -/
inductive SameDocs : List Rose → List Rose → Prop where
  | nil : SameDocs [] []
  | cons {a b : Rose} {l r : List Rose} : SameDoc a b → SameDocs l r → SameDocs (a :: l) (b :: r)
end

/-- The same call, with equal attributes. -/
inductive SameOp : TreeOp → TreeOp → Prop where
  | createNode {n : String} : SameOp (.createNode n) (.createNode n)
  | append {c p : Nat} : SameOp (.append c p) (.append c p)
  | prepend {c p : Nat} : SameOp (.prepend c p) (.prepend c p)
  | insertAfter {c b : Nat} : SameOp (.insertAfter c b) (.insertAfter c b)
  | insertBefore {c b : Nat} : SameOp (.insertBefore c b) (.insertBefore c b)
  | appendNew {p : Nat} {n : String} : SameOp (.appendNew p n) (.appendNew p n)
  | prependNew {p : Nat} {n : String} : SameOp (.prependNew p n) (.prependNew p n)
  | insertNewAfter {b : Nat} {n : String} : SameOp (.insertNewAfter b n) (.insertNewAfter b n)
  | insertNewBefore {b : Nat} {n : String} : SameOp (.insertNewBefore b n) (.insertNewBefore b n)
  | detach {c : Nat} : SameOp (.detach c) (.detach c)
  | appendAttribute {i : Nat} {v w : AttrValue} : sameValue v w → SameOp (.appendAttribute i v) (.appendAttribute i w)
  | setAttribute {i k : Nat} {v w : AttrValue} : sameValue v w → SameOp (.setAttribute i k v) (.setAttribute i k w)
  | takeAttributes {i : Nat} : SameOp (.takeAttributes i) (.takeAttributes i)
  | setAttributes {i : Nat} {vs ws : List AttrValue} : SameValues vs ws → SameOp (.setAttributes i vs) (.setAttributes i ws)

/-- Two programs that make the same calls with equal attributes. -/
inductive SameOps : List TreeOp → List TreeOp → Prop where
  | nil : SameOps [] []
  | cons {a b : TreeOp} {l r : List TreeOp} : SameOp a b → SameOps l r → SameOps (a :: l) (b :: r)

/-- Makes several calls; calls after one that panics are not made. -/
def Tree.runs : List TreeOp → TM Unit
  | [] => M.pure ()
  | op :: ops => M.bind (Tree.run op) (fun _ => Tree.runs ops)

end Fbx
