import Verif.Spec.Tree

/-!
# Specification: trees without links

A tree as the lists of its siblings. What the mutating calls of the tree API mean, and what can be seen of a node; there are no
links between nodes to be kept consistent, and no interned names.
-/

namespace Fbx.Spec

/-- Nodes with their names and attributes, the children of each node, and the groups of siblings without a parent. -/
structure Rows where
  nodes : List (String × List AttrValue)
  below : Nat → List Nat
  loose : List (List Nat)
  root : Nat

/-- What a call returns to the client; a panic is a refusal. -/
inductive Answer where
  | done
  | node (id : Nat)
  | old (v : Option AttrValue)
  | taken (vs : List AttrValue)
  | refused
  deriving DecidableEq

namespace Rows

/-- The tree of `Tree::default`: the root alone. -/
def begun : Rows := ⟨[("", [])], fun _ => [], [[0]], 0⟩

/-- Changes all lists of siblings. -/
def everywhere (f : List Nat → List Nat) (o : Rows) : Rows := { o with below := fun p => f (o.below p), loose := o.loose.map f }

/-- The node `c` is in no list. -/
def takenOut (c : Nat) (o : Rows) : Rows := o.everywhere (fun l => l.filter (· ≠ c))

/-- Changes the children of `p`. -/
def atNode (p : Nat) (f : List Nat → List Nat) (o : Rows) : Rows := { o with below := fun i => if i = p then f (o.below i) else o.below i }

/-- `c` right after `b`. -/
def rightOf (b c : Nat) (l : List Nat) : List Nat := l.flatMap (fun x => if x = b then [b, c] else [x])

/-- `c` right before `b`. -/
def leftOf (b c : Nat) (l : List Nat) : List Nat := l.flatMap (fun x => if x = b then [c, b] else [x])

/-- A new node with this name, in no place. -/
def born (name : String) (o : Rows) : Rows := { o with nodes := o.nodes ++ [(name, [])] }

/-- A group of its own for `c`. -/
def alone (c : Nat) (o : Rows) : Rows := { o with loose := o.loose ++ [[c]] }

/-- Changes the attributes of node `i`. -/
def edit (i : Nat) (f : List AttrValue → List AttrValue) (o : Rows) : Rows :=
  { o with nodes := o.nodes.modify i (fun x => (x.1, f x.2)) }

/-- The attributes of a node. -/
def attrsOf (i : Nat) (o : Rows) : List AttrValue := match o.nodes[i]? with
  | some x => x.2
  | none => []

/-- `p` is `c`, or at most `n` generations below it. -/
def inside (o : Rows) : (n : Nat) → (c p : Nat) → Bool
  | 0, c, p => c == p
  | n + 1, c, p => c == p || (o.below c).any (fun d => inside o n d p)

/-- `p` is `c` or a descendant of it. -/
def holds (o : Rows) (c p : Nat) : Bool := o.inside o.nodes.length c p

/-- A call: what it returns, and the tree after it. `none`: `insert_after` and `insert_before` next to a descendant make a cycle,
see C43. -/
def act (o : Rows) : TreeOp → Option (Answer × Rows)
  | .createNode name => some (.node o.nodes.length, (o.born name).alone o.nodes.length)
  | .append c p =>
    if c < o.nodes.length ∧ p < o.nodes.length ∧ o.holds c p = false then some (.done, (o.takenOut c).atNode p (fun l => l ++ [c]))
    else some (.refused, o)
  | .prepend c p =>
    if c < o.nodes.length ∧ p < o.nodes.length ∧ o.holds c p = false then some (.done, (o.takenOut c).atNode p (fun l => c :: l))
    else some (.refused, o)
  | .insertAfter c b | .insertBefore c b => -- sic, see C44
    if c < o.nodes.length ∧ b < o.nodes.length ∧ c ≠ b then
      if o.holds c b then none else some (.done, (o.takenOut c).everywhere (rightOf b c))
    else some (.refused, o)
  | .appendNew p name =>
    if p < o.nodes.length then some (.node o.nodes.length, (o.born name).atNode p (fun l => l ++ [o.nodes.length]))
    else some (.refused, (o.born name).alone o.nodes.length)
  | .prependNew p name =>
    if p < o.nodes.length then some (.node o.nodes.length, (o.born name).atNode p (fun l => o.nodes.length :: l))
    else some (.refused, (o.born name).alone o.nodes.length)
  | .insertNewAfter b name =>
    if b = o.root then some (.refused, o)
    else if b < o.nodes.length then some (.node o.nodes.length, (o.born name).everywhere (rightOf b o.nodes.length))
    else some (.refused, (o.born name).alone o.nodes.length)
  | .insertNewBefore b name =>
    if b = o.root then some (.refused, o)
    else if b < o.nodes.length then some (.node o.nodes.length, (o.born name).everywhere (leftOf b o.nodes.length))
    else some (.refused, (o.born name).alone o.nodes.length)
  | .detach c => if c < o.nodes.length then some (.done, (o.takenOut c).alone c) else some (.refused, o)
  | .appendAttribute i v =>
    if i ≠ o.root ∧ i < o.nodes.length then some (.done, o.edit i (fun vs => vs ++ [v])) else some (.refused, o)
  | .setAttribute i k v =>
    if i < o.nodes.length then some (.old (o.attrsOf i)[k]?, o.edit i (fun vs => vs.set k v)) else some (.refused, o)
  | .takeAttributes i => if i < o.nodes.length then some (.taken (o.attrsOf i), o.edit i (fun _ => [])) else some (.refused, o)
  | .setAttributes i vs => if i < o.nodes.length then some (.done, o.edit i (fun _ => vs)) else some (.refused, o)

/-- All calls. -/
def acts (o : Rows) : List TreeOp → Option (List Answer × Rows)
  | [] => some ([], o)
  | op :: ops =>
    match o.act op with
    | none => none
    | some (a, o') => (o'.acts ops).map (fun x => (a :: x.1, x.2))

end Rows

/-- What can be asked about a node. -/
structure View where
  name : Option String
  attrs : List AttrValue
  parent : Option Nat
  prev : Option Nat
  next : Option Nat
  first : Option Nat
  last : Option Nat
  children : List Nat
  deriving DecidableEq

/-- The parent of a node. -/
def Rows.parentOf (o : Rows) (i : Nat) : Option Nat := (List.range o.nodes.length).find? (fun p => (o.below p).contains i)

/-- The node and its siblings. -/
def Rows.row (o : Rows) (i : Nat) : List Nat := match o.parentOf i with
  | some p => o.below p
  | none => (o.loose.find? (fun l => l.contains i)).getD []

/-- A node as seen in the outline. -/
def Rows.view (o : Rows) (i : Nat) : View where
  name := o.nodes[i]?.map Prod.fst
  attrs := o.attrsOf i
  parent := o.parentOf i
  prev := ((o.row i).takeWhile (· ≠ i)).getLast?
  next := ((o.row i).dropWhile (· ≠ i)).tail.head?
  first := (o.below i).head?
  last := (o.below i).getLast?
  children := o.below i

/-- A node as seen by the API: `name`, `attributes`, `parent`, `previous_sibling`, `next_sibling`, `first_child`, `last_child`, `children`. -/
def seen (t : Tree) (i : Nat) : View where
  name := t.name? i
  attrs := (t.nodes i).attrs
  parent := (t.nodes i).parent
  prev := (t.nodes i).prev
  next := (t.nodes i).next
  first := (t.nodes i).first
  last := (t.nodes i).last
  children := t.children i

/-- What a call of the model gave. -/
def answered {α : Type} (f : α → Answer) (x : Res Empty α × Tree) : Answer × Tree :=
  (match x.1 with
    | .ok a => f a
    | _ => .refused, x.2)

/-- A call of the tree API, with its answer. -/
def call : TreeOp → Tree → Answer × Tree
  | .createNode n, t => answered .node (Tree.createNode n t)
  | .append c p, t => answered (fun _ => .done) (Tree.append c p t)
  | .prepend c p, t => answered (fun _ => .done) (Tree.prepend c p t)
  | .insertAfter c b, t => answered (fun _ => .done) (Tree.insertAfter c b t)
  | .insertBefore c b, t => answered (fun _ => .done) (Tree.insertBefore c b t)
  | .appendNew p n, t => answered .node (Tree.appendNew p n t)
  | .prependNew p n, t => answered .node (Tree.prependNew p n t)
  | .insertNewAfter b n, t => answered .node (Tree.insertNewAfter b n t)
  | .insertNewBefore b n, t => answered .node (Tree.insertNewBefore b n t)
  | .detach c, t => answered (fun _ => .done) (Tree.detach c t)
  | .appendAttribute i v, t => answered (fun _ => .done) (Tree.appendAttribute i v t)
  | .setAttribute i k v, t => answered .old (Tree.setAttribute i k v t)
  | .takeAttributes i, t => answered .taken (Tree.takeAttributes i t)
  | .setAttributes i vs, t => answered (fun _ => .done) (Tree.setAttributes i vs t)

/-- All calls, going on after refusals. -/
def callAll : List TreeOp → Tree → List Answer × Tree
  | [], t => ([], t)
  | op :: ops, t => ((call op t).1 :: (callAll ops (call op t).2).1, (callAll ops (call op t).2).2)

end Fbx.Spec
