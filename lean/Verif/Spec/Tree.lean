import Verif.Model.Tree

/-! # Well-formed trees and the documents they represent -/

namespace Fbx
namespace Tree

/-- A list of siblings belongs to a node (its children), or is one of the groups of nodes without a parent. -/
abbrev Owner := Nat ⊕ Nat

/-- The nodes of `l` are siblings in this order: their parent is `par`, and the links between neighbours are right.
`p` precedes the first and `n` follows the last. -/
def Seg (t : Tree) (par : Option Nat) : Option Nat → List Nat → Option Nat → Prop
  | _, [], _ => True
  | p, c :: cs, n => (t.nodes c).parent = par ∧ (t.nodes c).prev = p ∧ (t.nodes c).next = cs.head?.or n ∧ Seg t par (some c) cs n

/-- The arena consists of the sibling lists `ch`, and all links agree with them. -/
structure Linked (t : Tree) (ch : Owner → List Nat) : Prop where
  /-- only existing nodes -/
  valid : ∀ o c, c ∈ ch o → c < t.size
  /-- only existing nodes have children -/
  owner : ∀ i c, c ∈ ch (.inl i) → i < t.size
  /-- every node is in a list -/
  all : ∀ c, c < t.size → ∃ o, c ∈ ch o
  /-- in one list only -/
  once : ∀ o o' c, c ∈ ch o → c ∈ ch o' → o = o'
  /-- and only once -/
  nodup : ∀ o, (ch o).Nodup
  /-- parent and sibling links -/
  seg : ∀ o, Seg t o.getLeft? none (ch o) none
  /-- first child -/
  first : ∀ i, i < t.size → (t.nodes i).first = (ch (.inl i)).head?
  /-- last child -/
  last : ∀ i, i < t.size → (t.nodes i).last = (ch (.inl i)).getLast?
  /-- finitely many groups -/
  finite : ∃ k, ∀ j, k ≤ j → ch (.inr j) = []

/-- Node `i` has exactly `n` proper ancestors. -/
inductive Depth (t : Tree) : Nat → Nat → Prop where
  | top {i : Nat} : (t.nodes i).parent = none → Depth t 0 i
  | step {n i p : Nat} : (t.nodes i).parent = some p → Depth t n p → Depth t (n + 1) i

/-- `a` is `i` or an ancestor of `i`. -/
inductive Anc (t : Tree) (a : Nat) : Nat → Prop where
  | refl : Anc t a a
  | step {i p : Nat} : (t.nodes i).parent = some p → Anc t a p → Anc t a i

/-- Well-formed trees: consistent links, no cycles, and every name is interned once. -/
structure WF (t : Tree) : Prop where
  linked : ∃ ch, Linked t ch
  acyclic : ∀ i, i < t.size → ∃ n, Depth t n i
  names : t.names.Nodup
  syms : ∀ i, i < t.size → (t.nodes i).sym < t.names.length
  root : t.root < t.size

/-- Names, attributes and the set of nodes are the same. -/
structure Same (t u : Tree) : Prop where
  size : u.size = t.size
  names : u.names = t.names
  root : u.root = t.root
  sym : ∀ j, (u.nodes j).sym = (t.nodes j).sym
  attrs : ∀ j, (u.nodes j).attrs = (t.nodes j).attrs

/-- `u` is `t` with the node `c` taken out of its place and put below `dest`, whose children are now `kids`;
nothing else changed. -/
structure Moved (t u : Tree) (c : Nat) (dest : Option Nat) (kids : List Nat) : Prop where
  wf : WF u
  same : Same t u
  parent : ∀ j, (u.nodes j).parent = if j = c then dest else (t.nodes j).parent
  kids : ∀ p, dest = some p → u.children p = kids
  others : ∀ i, i < t.size → dest ≠ some i → u.children i = (t.children i).filter (· ≠ c)

/-- `u` is `t` with one more node, a leaf without attributes put below `dest`, whose children are now `kids`;
nothing else changed. -/
structure Grown (t u : Tree) (name : String) (dest : Option Nat) (kids : List Nat) : Prop where
  wf : WF u
  size : u.size = t.size + 1
  root : u.root = t.root
  name : u.name? t.size = some name
  attrs : (u.nodes t.size).attrs = []
  leaf : u.children t.size = []
  parent : (u.nodes t.size).parent = dest
  old : ∀ i, i < t.size → u.name? i = t.name? i ∧ (u.nodes i).attrs = (t.nodes i).attrs ∧ (u.nodes i).parent = (t.nodes i).parent
  kids : ∀ p, dest = some p → u.children p = kids
  others : ∀ i, i < t.size → dest ≠ some i → u.children i = t.children i

/-- The root is the same node, nodes stay, and they keep their names. -/
structure Keeps (t u : Tree) : Prop where
  root : u.root = t.root
  size : t.size ≤ u.size
  names : ∀ i, i < t.size → u.name? i = t.name? i

end Tree

/-- The mutating calls of the tree API. -/
inductive TreeOp where
  | createNode (name : String)
  | append (c p : Nat)
  | prepend (c p : Nat)
  | insertAfter (c b : Nat)
  | insertBefore (c b : Nat)
  | appendNew (p : Nat) (name : String)
  | prependNew (p : Nat) (name : String)
  | insertNewAfter (b : Nat) (name : String)
  | insertNewBefore (b : Nat) (name : String)
  | detach (c : Nat)
  | appendAttribute (i : Nat) (v : AttrValue)
  | setAttribute (i k : Nat) (v : AttrValue)
  | takeAttributes (i : Nat)
  | setAttributes (i : Nat) (vs : List AttrValue)

namespace Tree

/-- Forgets the result. -/
def done {α : Type} (m : TM α) : TM Unit := M.bind m (fun _ => M.pure ())

/-- Makes a call. -/
def run : TreeOp → TM Unit
  | .createNode n => done (createNode n)
  | .append c p => append c p
  | .prepend c p => prepend c p
  | .insertAfter c b => insertAfter c b
  | .insertBefore c b => insertBefore c b
  | .appendNew p n => done (appendNew p n)
  | .prependNew p n => done (prependNew p n)
  | .insertNewAfter b n => done (insertNewAfter b n)
  | .insertNewBefore b n => done (insertNewBefore b n)
  | .detach c => detach c
  | .appendAttribute i v => appendAttribute i v
  | .setAttribute i k v => done (setAttribute i k v)
  | .takeAttributes i => done (takeAttributes i)
  | .setAttributes i vs => setAttributes i vs

/-- Nothing is inserted next to one of its own descendants. -/
def Legal (t : Tree) : TreeOp → Prop
  | .insertAfter c b => ¬ Anc t c b
  | .insertBefore c b => ¬ Anc t c b
  | _ => True

/-- The trees that programs can make from the empty one with calls that return. -/
inductive Reachable : Tree → Prop where
  | empty : Reachable Tree.empty
  | step {t u : Tree} {op : TreeOp} : Reachable t → Legal t op → run op t = (.ok (), u) → Reachable u

end Tree

/-- Documents: a node with its name, its attributes and its children. -/
inductive Rose where
  | node (name : String) (attrs : List AttrValue) (kids : List Rose)

namespace Tree

mutual
/-- Node `i` of the tree represents the document `r`. -/
inductive Rep (t : Tree) : Nat → Rose → Prop where
  | mk {i : Nat} {name : String} {kids : List Rose} : t.name? i = some name → RepList t (t.children i) kids →
      Rep t i (.node name (t.nodes i).attrs kids)
/-- The nodes of a list represent the documents of a list. -/
inductive RepList (t : Tree) : List Nat → List Rose → Prop where
  | nil : RepList t [] []
  | cons {i : Nat} {is : List Nat} {r : Rose} {rs : List Rose} : Rep t i r → RepList t is rs → RepList t (i :: is) (r :: rs)
end

mutual
/-- The Euler tour of the subtree of a node: `Open`, the tours of its children in order, `Close`. -/
inductive Tour (t : Tree) : Nat → List Trav → Prop where
  | mk {i : Nat} {l : List Trav} : TourList t (t.children i) l → Tour t i (.opn i :: (l ++ [.cls i]))
/-- The Euler tours of a list of nodes, one after the other. -/
inductive TourList (t : Tree) : List Nat → List Trav → Prop where
  | nil : TourList t [] []
  | cons {i : Nat} {is : List Nat} {l m : List Trav} : Tour t i l → TourList t is m → TourList t (i :: is) (l ++ m)
end

/-- The calls of a `DepthFirstTraverseSubtree`. -/
inductive Step where
  | forward | backward | openForward | closeForward | openBackward | closeBackward | peekForward | peekBackward

/-- Whether an item is an `Open`. -/
def Trav.isOpen : Trav → Bool
  | .opn _ => true
  | .cls _ => false

/-- What a call yields when the items `l` are left, and the items left afterwards. -/
def Step.ofList : Step → List Trav → Option Trav × List Trav
  | .forward, l => (l.head?, l.tail)
  | .backward, l => (l.getLast?, l.dropLast)
  | .openForward, l => let m := l.dropWhile (fun x => !x.isOpen); (m.head?, m.tail)
  | .closeForward, l => let m := l.dropWhile (fun x => x.isOpen); (m.head?, m.tail)
  | .openBackward, l => let m := l.reverse.dropWhile (fun x => !x.isOpen); (m.head?, m.tail.reverse)
  | .closeBackward, l => let m := l.reverse.dropWhile (fun x => x.isOpen); (m.head?, m.tail.reverse)
  | .peekForward, l => (l.head?, l)
  | .peekBackward, l => (l.getLast?, l)

/-- What a sequence of calls yields, and the items left. -/
def Step.ofLists : List Step → List Trav → List (Option Trav) × List Trav
  | [], l => ([], l)
  | s :: ss, l =>
    let r := s.ofList l
    let q := Step.ofLists ss r.2
    (r.1 :: q.1, q.2)

/-- Makes a call; the node ids yielded by the `open` and `close` calls are shown as items. -/
def Step.call (t : Tree) : Step → M Empty Cursors (Option Trav)
  | .forward => nextForward t
  | .backward => nextBackward t
  | .openForward => M.bind (nextOpenForward t) (fun x => M.pure (x.map .opn))
  | .closeForward => M.bind (nextCloseForward t) (fun x => M.pure (x.map .cls))
  | .openBackward => M.bind (nextOpenBackward t) (fun x => M.pure (x.map .opn))
  | .closeBackward => M.bind (nextCloseBackward t) (fun x => M.pure (x.map .cls))
  | .peekForward => fun c => (.ok (Tree.peekForward c), c)
  | .peekBackward => fun c => (.ok (Tree.peekBackward c), c)

/-- Makes several calls. -/
def Step.calls (t : Tree) : List Step → M Empty Cursors (List (Option Trav))
  | [] => M.pure []
  | s :: ss => M.bind (s.call t) (fun x => M.bind (Step.calls t ss) (fun xs => M.pure (x :: xs)))

end Tree
end Fbx
