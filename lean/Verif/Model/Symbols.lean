import Verif.Model.TreeIO
import Verif.Spec.Tree

/-!
# The limit of the interner

`tree/v7400/node/name.rs:9,17-19`: a name symbol is a `SymbolU32`, which string-interner 0.14 makes of the index of the name. There is none for
the index `u32::MAX`, and `get_or_intern` panics (`expect_valid_symbol`) if there is no symbol for a new name. The functions of
`Verif/Model/Tree.lean` and `Verif/Model/TreeIO.lean` which intern names are written here once more, with this panic; `limit` is the number of
symbols there are.
-/

namespace Fbx

/-- `tree/v7400/node/name.rs:17-19`: how many symbols there are. -/
def symbolCount : Nat := 2 ^ 32 - 1

namespace Tree

/-- `StringInterner::get_or_intern`; `none` is the panic. -/
def internWithin (limit : Nat) (names : List String) (name : String) : Option (Nat × List String) :=
  match lookup names name with
  | some i => some (i, names)
  | none => if names.length < limit then some (names.length, names ++ [name]) else none

/-- `tree/v7400.rs:126-131`: `get_or_intern` followed by `new_node`. -/
def createWithin (limit : Nat) (name : String) (attrs : List AttrValue) : TM Nat := fun t =>
  match internWithin limit t.names name with
  | none => (.panic .tooManyNames, t)
  | some (sym, names) =>
    let (id, t) := newNode { t with names } sym attrs
    (.ok id, t)

/-- `tree/v7400.rs:192-198` `append_new`. -/
def appendNewWithin (limit parent : Nat) (name : String) : TM Nat := do
  let id ← createWithin limit name []
  appendRaw id parent
  pure id

/-- `tree/v7400.rs:205-211` `prepend_new`. -/
def prependNewWithin (limit parent : Nat) (name : String) : TM Nat := do
  let id ← createWithin limit name []
  prependRaw id parent
  pure id

/-- `tree/v7400.rs:218-225` `insert_new_after`. -/
def insertNewAfterWithin (limit sibling : Nat) (name : String) : TM Nat := do
  assertNotRoot sibling
  let id ← createWithin limit name []
  insertAfterRaw id sibling
  pure id

/-- `tree/v7400.rs:232-239` `insert_new_before`. -/
def insertNewBeforeWithin (limit sibling : Nat) (name : String) : TM Nat := do
  assertNotRoot sibling
  let id ← createWithin limit name []
  insertBeforeRaw id sibling
  pure id

/-- Makes a call (`tree/v7400.rs:126-305`); the calls which intern no name are the same. -/
def runWithin (limit : Nat) : TreeOp → TM Unit
  | .createNode n => done (createWithin limit n [])
  | .appendNew p n => done (appendNewWithin limit p n)
  | .prependNew p n => done (prependNewWithin limit p n)
  | .insertNewAfter b n => done (insertNewAfterWithin limit b n)
  | .insertNewBefore b n => done (insertNewBeforeWithin limit b n)
  | op => run op

end Tree

namespace Load

/-- `loader.rs:102-134` `add_node`: the name is interned first (`loader.rs:115`). -/
def addNodeWithin (limit : Nat) (Z : Zlib) (parent : Nat) (name : String) : M LoadError St Nat := fun s =>
  match Tree.internWithin limit s.tree.names name with
  | none => (.panic .tooManyNames, s)
  | some (sym, names) =>
    let tree := { s.tree with names }
    match AP.ofParser s.parser with
    | .panic p => (.panic p, s)
    | .err e => (.err (.parser e), s)
    | .ok ap => match collectAttrs Z (ap.attrs.rest + 1) [] ap with
      | (.panic p, ap') => (.panic p, { s with parser := ap'.parser })
      | (.err e, ap') => (.err (.parser e), { s with parser := ap'.parser })
      | (.ok attrs, ap') =>
        let (id, tree) := Tree.newNode tree sym attrs
        match Tree.appendRaw id parent tree with
        | (.ok (), tree') => (.ok id, { s with parser := ap'.parser, tree := tree' })
        | (.panic p, tree') => (.panic p, { s with parser := ap'.parser, tree := tree' })
        | (.err e, _) => nomatch e

/-- `loader.rs:58-94`: the event loop. -/
def loopWithin (limit : Nat) (Z : Zlib) : (fuel : Nat) → M LoadError St (Except PErr Footer)
  | 0 => M.panic .fuel
  | fuel + 1 => fun s =>
    match s.stack with
    | [] => (.panic .loaderStack, s)
    | top :: below =>
      match Parser.nextEvent s.parser with
      | (.panic p, p') => (.panic p, { s with parser := p' })
      | (.err e, p') => (.err (.parser e), { s with parser := p' })
      | (.ok (.startNode name _), p') =>
        match addNodeWithin limit Z top name { s with parser := p' } with
        | (.ok id, s') => loopWithin limit Z fuel { s' with stack := id :: s'.stack }
        | (.err e, s') => (.err e, s')
        | (.panic p, s') => (.panic p, s')
      | (.ok .endNode, p') => loopWithin limit Z fuel { s with parser := p', stack := below }
      | (.ok (.endFbx footer), p') =>
        if below = [] then (.ok footer, { s with parser := p', stack := below })
        else (.panic .loaderStack, { s with parser := p', stack := below })

/-- `loader.rs:47-99` `Loader::load` (after `loader.rs:137-152` `Loader::default`, which interns the empty name: there is a symbol for it). -/
def loadWithin (limit : Nat) (Z : Zlib) (p : Parser) : Res LoadError (Tree × Except PErr Footer) × Parser :=
  if p.isUsed then (.err .badParser, p)
  else match loopWithin limit Z (2 * p.reader.rest.length + 2) ⟨p, Tree.empty, [0]⟩ with
    | (.ok footer, s) => (.ok (s.tree, footer), s.parser)
    | (.err e, s) => (.err e, s.parser)
    | (.panic x, s) => (.panic x, s.parser)

end Load

/-- `tree/any.rs:33-64` `AnyTree::from_reader` / `from_seekable_reader`. -/
def anyTreeWithin (limit : Nat) (Z : Zlib) (checks seekable : Bool) (bytes : Bytes) (ending : Option IoErr)
    (cursor seekLimit : Nat) : Res AnyTreeError (FbxVersion × Tree × Except PErr Footer) :=
  match anyParser checks seekable bytes ending cursor seekLimit with
  | .err e => .err (.parserCreation e)
  | .panic p => .panic p
  | .ok p =>
    match (Load.loadWithin limit Z (p.setHandler (fun _ _ _ => none))).1 with
    | .ok (t, f) => .ok (p.version, t, f)
    | .err e => .err (.load e)
    | .panic x => .panic x

end Fbx
