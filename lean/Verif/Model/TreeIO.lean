import Verif.Model.Tree
import Verif.Model.Loaders
import Verif.Model.Writer

/-!
# Loading a tree from a parser (`tree/v7400/loader.rs`, `tree/any.rs`) and writing it (`writer/v7400/binary.rs`)
-/

namespace Fbx

/-- `tree/v7400/error.rs:9-18` `LoadError`. -/
inductive LoadError where
  | badParser
  | parser (e : PErr)
  deriving DecidableEq, Repr

namespace Load

/-- `.into_iter(repeat(DirectLoader)).collect::<Result<Vec<_>, _>>()` (`loader.rs:114-117`); one pull per
attribute and a last one. -/
def collectAttrs (Z : Zlib) : (fuel : Nat) → (acc : List AttrValue) → M PErr AP (List AttrValue)
  | 0, acc => pure acc.reverse
  | fuel + 1, acc => do
    match ← AP.load Z false directLoader with
    | none => pure acc.reverse
    | some v => collectAttrs Z fuel (v :: acc)

/-- Loader state: parser, tree under construction, stack of open nodes (innermost first). -/
structure St where
  parser : Parser
  tree : Tree
  stack : List Nat

/-- `loader.rs:102-134` `add_node`. -/
def addNode (Z : Zlib) (parent : Nat) (name : String) : M LoadError St Nat := fun s =>
  let (sym, names) := Tree.intern s.tree.names name
  let tree := { s.tree with names }
  match AP.ofParser s.parser with
  | .panic p => (.panic p, s)
  | .err e => (.err (.parser e), s)
  | .ok ap => match collectAttrs Z (ap.attrs.rest + 1) [] ap with
    | (.panic p, ap') => (.panic p, { s with parser := ap'.parser })
    | (.err e, ap') => (.err (.parser e), { s with parser := ap'.parser })
    | (.ok attrs, ap') =>
      let (id, tree) := Tree.newNode tree sym attrs
      match Tree.appendRaw id parent tree with
      | (.ok (), tree') => (.ok id, { s with parser := ap'.parser, tree := tree' })
      | (.panic p, tree') => (.panic p, { s with parser := ap'.parser, tree := tree' })
      | (.err e, _) => nomatch e

/-- `loader.rs:58-94`: the event loop; each iteration handles one event. -/
def loop (Z : Zlib) : (fuel : Nat) → M LoadError St (Except PErr Footer)
  | 0 => M.panic .fuel
  | fuel + 1 => fun s =>
    match s.stack with
    | [] => (.panic .loaderStack, s)
    | top :: below =>
      match Parser.nextEvent s.parser with
      | (.panic p, p') => (.panic p, { s with parser := p' })
      | (.err e, p') => (.err (.parser e), { s with parser := p' })
      | (.ok (.startNode name _), p') =>
        match addNode Z top name { s with parser := p' } with
        | (.ok id, s') => loop Z fuel { s' with stack := id :: s'.stack }
        | (.err e, s') => (.err e, s')
        | (.panic p, s') => (.panic p, s')
      | (.ok .endNode, p') => loop Z fuel { s with parser := p', stack := below }
      | (.ok (.endFbx footer), p') =>
        if below = [] then (.ok footer, { s with parser := p', stack := below })
        else (.panic .loaderStack, { s with parser := p', stack := below })

/-- `loader.rs:47-99` `Loader::load`. The fuel exceeds the number of events a parser can emit. -/
def load (Z : Zlib) (p : Parser) : Res LoadError (Tree × Except PErr Footer) × Parser :=
  if p.isUsed then (.err .badParser, p)
  else match loop Z (2 * p.reader.rest.length + 2) ⟨p, Tree.empty, [0]⟩ with
    | (.ok footer, s) => (.ok (s.tree, footer), s.parser)
    | (.err e, s) => (.err e, s.parser)
    | (.panic x, s) => (.panic x, s.parser)

end Load

/-- `tree/any/error.rs`: errors of `AnyTree`. -/
inductive AnyTreeError where
  | parserCreation (e : AnyError)
  | load (e : LoadError)
  deriving DecidableEq, Repr

/-- `tree/any.rs:33-64` `AnyTree::from_reader` / `from_seekable_reader`; the handler only logs. -/
def anyTree (Z : Zlib) (checks seekable : Bool) (bytes : Bytes) (ending : Option IoErr)
    (cursor seekLimit : Nat) : Res AnyTreeError (FbxVersion × Tree × Except PErr Footer) :=
  match anyParser checks seekable bytes ending cursor seekLimit with
  | .err e => .err (.parserCreation e)
  | .panic p => .panic p
  | .ok p =>
    match (Load.load Z (p.setHandler (fun _ _ _ => none))).1 with
    | .ok (t, f) => .ok (p.version, t, f)
    | .err e => .err (.load e)
    | .panic x => .panic x

namespace Writer

/-- `binary.rs:318-347`, `macros.rs:107-125`: the append call for an attribute value. -/
def appendOf : AttrValue → Append
  | .bool v => .bool v
  | .i16 v => .i16 v
  | .i32 v => .i32 v
  | .i64 v => .i64 v
  | .f32 v => .f32 v
  | .f64 v => .f64 v
  | .arrBool v => .arrBool none (v.map .ok)
  | .arrI32 v => .arrI32 none (v.map .ok)
  | .arrI64 v => .arrI64 none (v.map .ok)
  | .arrF32 v => .arrF32 none (v.map .ok)
  | .arrF64 v => .arrF64 none (v.map .ok)
  | .binary v => .binary v
  | .string v => .string v

/-- `binary.rs:317-347`: the loop over attributes. -/
def appendAll (Z : Zlib) : List AttrValue → M WErr Writer Unit
  | [] => pure ()
  | v :: vs => do
    append Z (appendOf v)
    appendAll Z vs

/-- `binary.rs:307-369`: the loops of `write_tree`. `opening = true` is the head of the outer loop with
`current = id`; `opening = false` is the part of the inner loop that closes `id`. -/
def writeTreeLoop (Z : Zlib) (t : Tree) : (fuel : Nat) → (opening : Bool) → (id : Nat) → M WErr Writer Unit
  | 0, _, _ => M.panic .fuel
  | fuel + 1, true, id =>
    match t.name? id with
    | none => M.panic .badSymbol
    | some name => do
      newNode name
      appendAll Z (t.nodes id).attrs
      match (t.nodes id).first with
      | some c => writeTreeLoop Z t fuel true c
      | none => writeTreeLoop Z t fuel false id
  | fuel + 1, false, id => do
    closeNode
    match (t.nodes id).next with
    | some s => writeTreeLoop Z t fuel true s
    | none => match (t.nodes id).parent with
      | none => M.panic .writeTreeRoot
      | some p => if p = t.root then pure () else writeTreeLoop Z t fuel false p

/-- `binary.rs:307-369` `write_tree`. -/
def writeTree (Z : Zlib) (t : Tree) : M WErr Writer Unit :=
  match (t.nodes t.root).first with
  | none => pure ()
  | some c => writeTreeLoop Z t (2 * t.size + 1) true c

end Writer
end Fbx
