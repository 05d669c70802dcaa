import Verif.Model.Low

/-!
# `src/tree/v7400.rs`, `src/tree/v7400/node/*.rs` and the parts of `indextree` 4 and `string_interner` they use

The arena is modelled at the level of its pointers (parent, siblings, first and last child). Node ids are
arena indices; the crate never removes nodes, so indextree's stamps are not modelled.
-/

namespace Fbx

/-- `indextree::Node<NodeData>` with `node/data.rs:10-15`. -/
structure NodeRec where
  parent : Option Nat
  prev : Option Nat
  next : Option Nat
  first : Option Nat
  last : Option Nat
  /-- interned name symbol -/
  sym : Nat
  attrs : List AttrValue

/-- `tree/v7400.rs:50-57` `Tree`: arena (`nodes`, `size`), interner (`names`: symbol = index) and root. -/
structure Tree where
  nodes : Nat → NodeRec
  size : Nat
  names : List String
  root : Nat

/-- Tree operations: no errors, only panics. -/
abbrev TM (α : Type) := M Empty Tree α

namespace Tree

/-! ## Interner and arena -/

/-- `StringInterner::get`. -/
def lookup (names : List String) (name : String) : Option Nat := names.findIdx? (· = name)

/-- `StringInterner::get_or_intern`. -/
def intern (names : List String) (name : String) : Nat × List String :=
  match lookup names name with
  | some i => (i, names)
  | none => (names.length, names ++ [name])

/-- Updates one arena slot. -/
def upd (t : Tree) (i : Nat) (f : NodeRec → NodeRec) : Tree :=
  { t with nodes := fun j => if j = i then f (t.nodes j) else t.nodes j }

/-- `Arena::new_node`. -/
def newNode (t : Tree) (sym : Nat) (attrs : List AttrValue) : Nat × Tree :=
  (t.size,
    { t with
      nodes := fun j => if j = t.size then ⟨none, none, none, none, none, sym, attrs⟩ else t.nodes j
      size := t.size + 1 })

/-- The dependency indextree (not in `/repo`), its `relations.rs`, `connect_neighbors`. -/
def connect (parent prev next : Option Nat) (t : Tree) : Tree :=
  let pf := match parent with
    | some p => (t.nodes p).first
    | none => none
  let pl := match parent with
    | some p => (t.nodes p).last
    | none => none
  let (t, pf) := match prev with
    | some a => (t.upd a (fun n => { n with next := next }), pf.or (some a))
    | none => (t, next)
  let (t, pl) := match next with
    | some b => (t.upd b (fun n => { n with prev := prev }), pl.or (some b))
    | none => (t, prev)
  match parent with
  | some p => t.upd p (fun n => { n with first := pf, last := pl })
  | none => t

/-- indextree `NodeId::detach` (`SiblingsRange::detach_from_siblings`, then `rewrite_parents(None)`). -/
def detachRaw (id : Nat) (t : Tree) : Tree :=
  let n := t.nodes id
  let t := t.upd id (fun n => { n with prev := none, next := none })
  let t := connect n.parent n.prev n.next t
  t.upd id (fun n => { n with parent := none })

/-- The dependency indextree (not in `/repo`), its `relations.rs`, `insert_with_neighbors` for one detached node, including the consistency
checks whose failure makes the callers panic. -/
def insertWith (new : Nat) (parent prev next : Option Nat) : TM Unit := fun t =>
  if prev = some new ∨ next = some new ∨ parent = some new then (.panic .indextree, t)
  else
    let t := t.upd new (fun n => { n with parent := parent })
    let t := connect parent prev (some new) t
    (.ok (), connect parent (some new) next t)

/-- `self.ancestors(arena).any(|a| a == x)`, starting with the node itself. -/
def hasAncestor (t : Tree) (x : Nat) : (fuel : Nat) → Nat → Bool
  | 0, _ => false
  | fuel + 1, id =>
    if id = x then true
    else match (t.nodes id).parent with
      | some p => hasAncestor t x fuel p
      | none => false

/-- indextree `append`/`prepend` preconditions: valid, distinct, and not an ancestor. -/
def checkChild (child parent : Nat) : TM Unit := fun t =>
  if t.size ≤ child ∨ t.size ≤ parent then (.panic .badNodeId, t)
  else if hasAncestor t child t.size parent then (.panic .indextree, t)
  else (.ok (), t)

/-- indextree `insert_after`/`insert_before` preconditions: valid and distinct. -/
def checkSibling (new base : Nat) : TM Unit := fun t =>
  if t.size ≤ new ∨ t.size ≤ base then (.panic .badNodeId, t)
  else if new = base then (.panic .indextree, t)
  else (.ok (), t)

/-- indextree `NodeId::append`. -/
def appendRaw (child parent : Nat) : TM Unit := do
  checkChild child parent
  M.modify (detachRaw child)
  let t ← M.get
  insertWith child (some parent) (t.nodes parent).last none

/-- indextree `NodeId::prepend`. -/
def prependRaw (child parent : Nat) : TM Unit := do
  checkChild child parent
  M.modify (detachRaw child)
  let t ← M.get
  insertWith child (some parent) none (t.nodes parent).first

/-- indextree `NodeId::insert_after`. -/
def insertAfterRaw (new base : Nat) : TM Unit := do
  checkSibling new base
  M.modify (detachRaw new)
  let t ← M.get
  insertWith new (t.nodes base).parent (some base) (t.nodes base).next

/-- indextree `NodeId::insert_before`. -/
def insertBeforeRaw (new base : Nat) : TM Unit := do
  checkSibling new base
  M.modify (detachRaw new)
  let t ← M.get
  insertWith new (t.nodes base).parent (t.nodes base).prev (some base)

/-! ## The public API of `Tree` -/

/-- `tree/v7400.rs:331-344` `Tree::default`, also `tree/v7400/loader.rs:137-152` `Loader::default`. -/
def empty : Tree where
  nodes _ := ⟨none, none, none, none, none, 0, []⟩
  size := 1
  names := [""]
  root := 0

/-- `get_or_intern` followed by `new_node` (`tree/v7400.rs:126-131`). -/
def createWith (name : String) (attrs : List AttrValue) : TM Nat := fun t =>
  let (sym, names) := intern t.names name
  let (id, t) := newNode { t with names } sym attrs
  (.ok id, t)

/-- `tree/v7400.rs:126-131` `create_node`. -/
def createNode (name : String) : TM Nat := createWith name []

/-- `tree/v7400.rs:142-144` `append`. -/
def append (newLastChild parent : Nat) : TM Unit := appendRaw newLastChild parent

/-- `tree/v7400.rs:155-157` `prepend`. -/
def prepend (newFirstChild parent : Nat) : TM Unit := prependRaw newFirstChild parent

/-- `tree/v7400.rs:167-171` `insert_after`. -/
def insertAfter (newNext prevSibling : Nat) : TM Unit := insertAfterRaw newNext prevSibling

/-- `tree/v7400.rs:181-185` `insert_before`: calls indextree's `insert_after`. -/
def insertBefore (newPrev nextSibling : Nat) : TM Unit := insertAfterRaw newPrev nextSibling

/-- `tree/v7400.rs:192-198` `append_new`. -/
def appendNew (parent : Nat) (name : String) : TM Nat := do
  let id ← createWith name []
  appendRaw id parent
  pure id

/-- `tree/v7400.rs:205-211` `prepend_new`. -/
def prependNew (parent : Nat) (name : String) : TM Nat := do
  let id ← createWith name []
  prependRaw id parent
  pure id

/-- `tree/v7400.rs:219,233,266`: the assertions that a node is not the root. -/
def assertNotRoot (id : Nat) : TM Unit := fun t =>
  if id = t.root then (.panic .rootAssert, t) else (.ok (), t)

/-- `tree/v7400.rs:218-225` `insert_new_after`. -/
def insertNewAfter (sibling : Nat) (name : String) : TM Nat := do
  assertNotRoot sibling
  let id ← createWith name []
  insertAfterRaw id sibling
  pure id

/-- `tree/v7400.rs:232-239` `insert_new_before`. -/
def insertNewBefore (sibling : Nat) (name : String) : TM Nat := do
  assertNotRoot sibling
  let id ← createWith name []
  insertBeforeRaw id sibling
  pure id

/-- `tree/v7400.rs:247-249` `detach`. -/
def detach (id : Nat) : TM Unit := fun t =>
  if t.size ≤ id then (.panic .badNodeId, t) else (.ok (), detachRaw id t)

/-- `arena.get_mut(id).expect("Invalid node ID")`. -/
def assertValid (id : Nat) : TM Unit := fun t =>
  if t.size ≤ id then (.panic .badNodeId, t) else (.ok (), t)

/-- `tree/v7400.rs:256-269` `append_attribute`. -/
def appendAttribute (id : Nat) (v : AttrValue) : TM Unit := do
  assertNotRoot id
  assertValid id
  M.modify (fun t => t.upd id (fun n => { n with attrs := n.attrs ++ [v] }))

/-- `tree/v7400.rs:277-280` `get_attribute_mut` used to overwrite the attribute; returns the old value. -/
def setAttribute (id i : Nat) (v : AttrValue) : TM (Option AttrValue) := do
  assertValid id
  let t ← M.get
  M.modify (fun t => t.upd id (fun n => { n with attrs := n.attrs.set i v }))
  pure (t.nodes id).attrs[i]?

/-- `tree/v7400.rs:289-292` `take_attributes_vec`. -/
def takeAttributes (id : Nat) : TM (List AttrValue) := do
  assertValid id
  let t ← M.get
  M.modify (fun t => t.upd id (fun n => { n with attrs := [] }))
  pure (t.nodes id).attrs

/-- `tree/v7400.rs:301-305` `set_attributes_vec`. -/
def setAttributes (id : Nat) (vs : List AttrValue) : TM Unit := do
  assertValid id
  M.modify (fun t => t.upd id (fun n => { n with attrs := vs }))

/-! ## Handles (`tree/v7400/node/handle.rs`) -/

/-- `handle.rs:72-74` `name` (`tree/v7400.rs:104-108`; `none` is the panic on an unknown symbol). -/
def name? (t : Tree) (id : Nat) : Option String := t.names[(t.nodes id).sym]?

/-- `handle.rs:212-215`: the ids a `Children` iterator yields, by following `next_sibling`. -/
def chain (t : Tree) : (fuel : Nat) → Option Nat → List Nat
  | 0, _ => []
  | _ + 1, none => []
  | fuel + 1, some id => id :: chain t fuel (t.nodes id).next

/-- `handle.rs:86-92` `children`. -/
def children (t : Tree) (id : Nat) : List Nat := chain t t.size (t.nodes id).first

/-- `handle.rs:96-101,239-243` `children_by_name`. -/
def childrenByName (t : Tree) (id : Nat) (name : String) : List Nat :=
  match lookup t.names name with
  | none => []
  | some sym => (children t id).filter (fun c => (t.nodes c).sym = sym)

/-- `handle.rs:106-108` `first_child_by_name`. -/
def firstChildByName (t : Tree) (id : Nat) (name : String) : Option Nat :=
  (childrenByName t id name).head?

/-- `handle.rs:167-181`: comparison of names and attributes of two nodes. -/
def localEq (t u : Tree) (i j : Nat) : Res Empty Bool :=
  match name? t i, name? u j with
  | some a, some b =>
    if a ≠ b then .ok false
    else
      let l := (t.nodes i).attrs
      let r := (u.nodes j).attrs
      if l.length ≠ r.length then .ok false
      else .ok ((List.zip l r).all (fun (x, y) => x.strictEq y))
  | _, _ => .panic .badSymbol

/-- `handle.rs:182-197`: comparison of two sibling chains, including the recursion into children. -/
def siblingsEq (t u : Tree) : (fuel : Nat) → Option Nat → Option Nat → Res Empty Bool
  | 0, _, _ => .panic .fuel
  | _ + 1, none, none => .ok true
  | _ + 1, some _, none => .ok false
  | _ + 1, none, some _ => .ok false
  | fuel + 1, some i, some j =>
    match localEq t u i j with
    | .panic p => .panic p
    | .err e => .err e
    | .ok false => .ok false
    | .ok true =>
      match siblingsEq t u fuel (t.nodes i).first (u.nodes j).first with
      | .panic p => .panic p
      | .err e => .err e
      | .ok false => .ok false
      | .ok true => siblingsEq t u fuel (t.nodes i).next (u.nodes j).next

/-- `handle.rs:165-198` `nodes_strict_eq`, `handle.rs:120-122` `NodeHandle::strict_eq`. -/
def nodesStrictEq (t u : Tree) (i j : Nat) : Res Empty Bool :=
  match localEq t u i j with
  | .ok true => siblingsEq t u (t.size + 1) (t.nodes i).first (u.nodes j).first
  | r => r

/-- `tree/v7400.rs:317-319` `Tree::strict_eq`. -/
def strictEq (t u : Tree) : Res Empty Bool := nodesStrictEq t u t.root u.root

/-! ## Depth-first traversal -/

/-- `tree/v7400.rs:396-402` `DepthFirstTraversed`. -/
inductive Trav where
  | opn (id : Nat)
  | cls (id : Nat)
  deriving DecidableEq, Repr

/-- `tree/v7400.rs:454-473` `DepthFirstTraversed::next`. -/
def travNext (t : Tree) : Trav → Option Trav
  | .opn c => match (t.nodes c).first with
    | some d => some (.opn d)
    | none => some (.cls c)
  | .cls c => match (t.nodes c).next with
    | some d => some (.opn d)
    | none => match (t.nodes c).parent with
      | some d => some (.cls d)
      | none => none

/-- `tree/v7400.rs:482-501` `DepthFirstTraversed::prev`. -/
def travPrev (t : Tree) : Trav → Option Trav
  | .cls c => match (t.nodes c).last with
    | some d => some (.cls d)
    | none => some (.opn c)
  | .opn c => match (t.nodes c).prev with
    | some d => some (.cls d)
    | none => match (t.nodes c).parent with
      | some d => some (.opn d)
      | none => none

/-- `tree/v7400.rs:518-521`: the two cursors. -/
abbrev Cursors := Option (Trav × Trav)

/-- `tree/v7400.rs:526-533` `with_root_id`. -/
def traverse (root : Nat) : Cursors := some (.opn root, .cls root)

/-- `tree/v7400.rs:537-548` `next_forward`. -/
def nextForward (t : Tree) : M Empty Cursors (Option Trav) := fun c =>
  match c with
  | none => (.ok none, none)
  | some (f, b) =>
    if f = b then (.ok (some f), none)
    else match travNext t f with
      | some f' => (.ok (some f), some (f', b))
      | none => (.panic .traverse, c)

/-- `tree/v7400.rs:552-563` `next_backward`. -/
def nextBackward (t : Tree) : M Empty Cursors (Option Trav) := fun c =>
  match c with
  | none => (.ok none, none)
  | some (f, b) =>
    if f = b then (.ok (some b), none)
    else match travPrev t b with
      | some b' => (.ok (some b), some (f, b'))
      | none => (.panic .traverse, c)

/-- `tree/v7400.rs:568-578` `peek_forward`, `peek_backward`. -/
def peekForward (c : Cursors) : Option Trav := c.map Prod.fst
/-- `tree/v7400.rs:575-578` `peek_backward`. -/
def peekBackward (c : Cursors) : Option Trav := c.map Prod.snd

/-- The loops of `tree/v7400.rs:582-628`: steps until an event accepted by `sel`. -/
def nextWhere (step : M Empty Cursors (Option Trav)) (sel : Trav → Option Nat) :
    (fuel : Nat) → M Empty Cursors (Option Nat)
  | 0 => M.panic .fuel
  | fuel + 1 => do
    match ← step with
    | none => pure none
    | some e => match sel e with
      | some id => pure (some id)
      | none => nextWhere step sel fuel

/-- `tree/v7400.rs:433-438` `node_id_open`. -/
def selOpen : Trav → Option Nat
  | .opn i => some i
  | .cls _ => none
/-- `tree/v7400.rs:441-448` `node_id_close`. -/
def selClose : Trav → Option Nat
  | .cls i => some i
  | .opn _ => none

/-- `tree/v7400.rs:582-589` `next_open_forward`. -/
def nextOpenForward (t : Tree) := nextWhere (nextForward t) selOpen (2 * t.size + 2)
/-- `tree/v7400.rs:594-601` `next_close_forward`. -/
def nextCloseForward (t : Tree) := nextWhere (nextForward t) selClose (2 * t.size + 2)
/-- `tree/v7400.rs:607-614` `next_open_backward`. -/
def nextOpenBackward (t : Tree) := nextWhere (nextBackward t) selOpen (2 * t.size + 2)
/-- `tree/v7400.rs:620-627` `next_close_backward`. -/
def nextCloseBackward (t : Tree) := nextWhere (nextBackward t) selClose (2 * t.size + 2)

end Tree
end Fbx
