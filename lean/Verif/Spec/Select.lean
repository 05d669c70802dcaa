import Verif.Spec.Reference
import Verif.Model.TreeIO

/-! # Clients that leave nodes out

A client of the pull parser which decides for every node whether it goes into it or leaves it with `skip_current_node`, and what such a
client has to see, from the bytes. -/

namespace Fbx.Spec

/-- What a client decides when it is told of a node: to leave it at once, or to load the values of its attributes and to go on into the
node, or to leave it, depending on them. -/
inductive Choice where
  | leave
  | load (enter : List AttrValue → Bool)

/-- The client decides by the parts it has kept so far (the nodes it went into and their ends), the name of the node and its number of
attributes. -/
abbrev Policy := List Part → String → Nat → Choice

/-- The client goes into the node. -/
def Policy.enters (policy : Policy) (kept : List Part) (name : String) (attrs : List AttrValue) : Bool :=
  match policy kept name attrs.length with
  | .leave => false
  | .load enter => enter attrs

/-! ## The client -/

/-- The client calls `next_event` at most `n` times, until the document ends. It returns what it kept, and what it was told of the footer
if it got there. -/
def select (Z : Zlib) (buffered : Bool) (policy : Policy) : (n : Nat) → (kept : List Part) → M PErr Parser (List Part × Option (Except PErr Footer))
  | 0, kept => pure (kept, none)
  | n + 1, kept => do
    match ← Parser.nextEvent with
    | .startNode name m =>
      match policy kept name m with
      | .leave => do
        Parser.skipCurrentNode
        select Z buffered policy n kept
      | .load enter => do
        let values ← withAttrs (loadEach Z buffered (List.replicate m directLoader))
        if enter (values.filterMap id) then select Z buffered policy n (kept ++ [.node name (values.filterMap id)])
        else do
          Parser.skipCurrentNode
          select Z buffered policy n kept
    | .endNode => select Z buffered policy n (kept ++ [.end])
    | .endFbx footer => pure (kept, some footer)

/-- The client opens the file with `AnyParser` and sets a handler for warnings, if it has one. `none` if the file cannot be opened. -/
def selectFile (Z : Zlib) (checks : Bool) (h : Option Handler) (ending : Option IoErr) (cursor limit : Nat) (buffered : Bool) (policy : Policy) (n : Nat)
    (bytes : Bytes) : Option (Res PErr (List Part × Option (Except PErr Footer)) × Parser) :=
  match anyParser checks true bytes ending cursor limit with
  | .ok p => some (select Z buffered policy n [] { p with handler := h })
  | _ => none

/-! ## What it has to see -/

/-- What the innermost open node declares as its end, and what lies ahead there; `none` if that is behind. -/
def Ahead.leave (a : Ahead) : Option Ahead := match a.opened with
  | [] => none
  | n :: outer => if n.endOff < a.pos then none else some { a.move (n.endOff - a.pos) with opened := outer }

/-- How a selection ends. -/
inductive Stop where
  /-- at the end of the document, and what lies ahead then: the footer -/
  | footer (at_ : Ahead)
  /-- with an error -/
  | error (e : PErr)
  /-- with a panic: the overflow in node headers of version 7.5 and later, or a node which ends before its attributes -/
  | panic (x : Panic)
  /-- there is more -/
  | more (at_ : Ahead)

/-- What is selected from a file: the parts, the warnings (newest first), and how it ends. -/
structure Selection where
  parts : List Part
  warnings : List (Warning × SynPos)
  stop : Stop

/-- After more warnings. -/
def Selection.warned (r : Selection) (ws : List (Warning × SynPos)) : Selection := { r with warnings := r.warnings ++ ws }

/-- What is selected by `n` answers of the table `Ahead.next`, when the parts `kept` have been selected. -/
def selecting (Z : Zlib) (e : Ending) (checks : Bool) (policy : Policy) : (n : Nat) → (kept : List Part) → Ahead → Selection
  | 0, kept, a => ⟨kept, [], .more a⟩
  | n + 1, kept, a => match a.next checks with
    | (.starts name count, w, b) => match policy kept name count with
      | .leave => match b.leave with
        | none => ⟨kept, w.toList, .panic .skipBackward⟩
        | some c => (selecting Z e checks policy n kept c).warned w.toList
      | .load enter =>
        let r := attributesHere Z e count b
        match r.error with
        | some x => ⟨kept, r.warnings ++ w.toList, .error x⟩
        | none =>
          if enter r.values then (selecting Z e checks policy n (kept ++ [.node name r.values]) r.ahead).warned (r.warnings ++ w.toList)
          else match r.ahead.leave with
            | none => ⟨kept, r.warnings ++ w.toList, .panic .skipBackward⟩
            | some c => (selecting Z e checks policy n kept c).warned (r.warnings ++ w.toList)
    | (.ends, w, b) => (selecting Z e checks policy n (kept ++ [.end]) b).warned w.toList
    | (.finishes, _, b) => ⟨kept, [], .footer b⟩
    | (.fails k, w, b) => ⟨kept, w.toList, .error ⟨k, some b.here⟩⟩
    | (.overflows, w, _) => ⟨kept, w.toList, .panic .attrEndOverflow⟩

/-- What the client makes of a selection: its result `x` and the warnings on record, `log` before (newest first). -/
def Selects (v : FbxVersion) (r : Selection) (log : List (Warning × SynPos)) (x : Res PErr (List Part × Option (Except PErr Footer)) × Parser) : Prop :=
  match r.stop with
  | .footer b => ∃ footer, x.1 = .ok (r.parts, some footer) ∧ footerSays v.toNat b footer (r.warnings ++ log) x.2.log
  | .error e => x.1 = .err e ∧ x.2.log = r.warnings ++ log
  | .panic y => x.1 = .panic y
  | .more b => x.1 = .ok (r.parts, none) ∧ x.2.log = r.warnings ++ log ∧ look x.2 = b

/-! ## Documents -/

/-- The document without the nodes which the client leaves out. -/
def prune (policy : Policy) : (kept : List Part) → Forest AttrValue → Forest AttrValue
  | _, .nil => .nil
  | kept, .cons name attrs children rest =>
    if policy.enters kept name attrs then
      let inside := prune policy (kept ++ [.node name attrs]) children
      .cons name attrs inside (prune policy (kept ++ partsOf (.cons name attrs inside .nil)) rest)
    else prune policy kept rest

/-- The document without the nodes that have certain names. -/
def without (unwanted : String → Bool) : Forest AttrValue → Forest AttrValue
  | .nil => .nil
  | .cons name attrs children rest => if unwanted name then without unwanted rest else .cons name attrs (without unwanted children) (without unwanted rest)

/-! ## A filter: a program that writes what it keeps -/

/-- How the program fails: reading or writing. -/
inductive FilterErr where
  | parser (e : PErr)
  | writer (e : WErr)

/-- A call on the parser. -/
def onParser {α : Type} (m : M PErr Parser α) : M FilterErr (Parser × Writer) α := fun s =>
  match m s.1 with
  | (.ok x, p) => (.ok x, p, s.2)
  | (.err e, p) => (.err (.parser e), p, s.2)
  | (.panic x, p) => (.panic x, p, s.2)

/-- Calls on the writer. -/
def onWriter {α : Type} (m : M WErr Writer α) : M FilterErr (Parser × Writer) α := fun s =>
  match m s.2 with
  | (.ok x, w) => (.ok x, s.1, w)
  | (.err e, w) => (.err (.writer e), s.1, w)
  | (.panic x, w) => (.panic x, s.1, w)

/-- The calls on the writer that repeat a part: `new_node` and an append for each value, or `close_node`. -/
def Part.calls : Part → List Writer.Op
  | .node name attrs => .newNode name :: attrs.map (fun v => .append (Writer.appendOf v))
  | .end => [.closeNode]

/-- The program: it pulls events, leaves nodes out, and writes at once what it keeps. At the end of the document it finalizes the file,
with a footer that depends on the footer of the document. `false` if it did not get there within `n` events. -/
def filter (Z Z' : Zlib) (buffered : Bool) (policy : Policy) (foot : Except PErr Footer → Writer.FooterSpec) :
    (n : Nat) → (kept : List Part) → M FilterErr (Parser × Writer) Bool
  | 0, _ => pure false
  | n + 1, kept => do
    match ← onParser Parser.nextEvent with
    | .startNode name m =>
      match policy kept name m with
      | .leave => do
        onParser Parser.skipCurrentNode
        filter Z Z' buffered policy foot n kept
      | .load enter => do
        let values ← onParser (withAttrs (loadEach Z buffered (List.replicate m directLoader)))
        if enter (values.filterMap id) then do
          onWriter (Writer.run Z' (Part.node name (values.filterMap id)).calls)
          filter Z Z' buffered policy foot n (kept ++ [.node name (values.filterMap id)])
        else do
          onParser Parser.skipCurrentNode
          filter Z Z' buffered policy foot n kept
    | .endNode => do
      onWriter (Writer.run Z' Part.end.calls)
      filter Z Z' buffered policy foot n (kept ++ [.end])
    | .endFbx footer => do
      onWriter (Writer.finalize (foot footer))
      pure true

/-- The whole program: it opens the file, creates the writer on the sink `s` for version `v`, and copies what it keeps. The result, and the
sink then; `none` if the file cannot be opened. -/
def filterFile (Z Z' : Zlib) (checks : Bool) (h : Option Handler) (ending : Option IoErr) (cursor limit : Nat) (buffered : Bool) (policy : Policy)
    (foot : Except PErr Footer → Writer.FooterSpec) (n : Nat) (bytes : Bytes) (s : Sink) (v : FbxVersion) : Option (Res FilterErr Bool × Sink) :=
  match anyParser checks true bytes ending cursor limit with
  | .ok p => match Writer.new s v with
    | (.ok w, _) =>
      let r := filter Z Z' buffered policy foot n [] ({ p with handler := h }, w)
      some (r.1, r.2.2.sink)
    | (.err e, s') => some (.err (.writer e), s')
    | (.panic x, s') => some (.panic x, s')
  | _ => none

/-- The result of a session with the writer, as a result of the program. -/
def asFilter : Res WErr Unit → Res FilterErr Bool
  | .ok _ => .ok true
  | .err e => .err (.writer e)
  | .panic x => .panic x

end Fbx.Spec
