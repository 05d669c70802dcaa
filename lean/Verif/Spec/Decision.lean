import Verif.Spec.History
import Verif.Spec.Header
import Verif.Spec.Read

/-! # What `next_event` has to answer, from the bytes ahead

A table over the file format: no parser state machine, no handlers, no I/O, just the open nodes, the offset in the file
and the bytes that follow. -/

namespace Fbx.Spec

/-- What lies ahead: the width of the numbers of the node headers, the open nodes (innermost first), the number of top
level nodes so far, the offset in the file, the bytes which follow and the error with which the source ends. -/
structure Ahead where
  width : Nat
  opened : List Started
  top : Nat
  pos : Nat
  bytes : Bytes
  eof : IoErr
  deriving DecidableEq

/-- The answers. -/
inductive Verdict where
  /-- a node with this name and this number of attributes starts -/
  | starts (name : String) (attrs : Nat)
  /-- the innermost open node ends -/
  | ends
  /-- the document ends, the footer follows -/
  | finishes
  /-- an error -/
  | fails (k : ErrKind)
  /-- the end of the attributes is beyond the range of `u64` in a build with overflow checks: a panic -/
  | overflows
  deriving DecidableEq

/-- The path of open nodes, outermost first: index among the siblings and name. -/
def pathOf (top : Nat) : List Started → List (Nat × String)
  | [] => []
  | n :: outer => pathOf top outer ++ [((match outer with | [] => top | m :: _ => m.kids) - 1, n.name)]

namespace Ahead

/-- `k` bytes further. -/
def move (a : Ahead) (k : Nat) : Ahead := { a with pos := a.pos + k, bytes := a.bytes.drop k }

/-- The position reported here. -/
def here (a : Ahead) : SynPos :=
  ⟨a.pos, match a.opened with | [] => 0 | n :: _ => n.startOff, pathOf a.top a.opened, none⟩

/-- The attributes of the innermost open node which were not read are passed over. -/
def pass (a : Ahead) : Ahead := match a.opened with
  | [] => a
  | n :: _ => a.move (n.attrEnd - a.pos)

/-- The number of children the next node's parent has had. -/
def siblings (a : Ahead) : Nat := match a.opened with
  | [] => a.top
  | n :: _ => n.kids

/-- One more open node. -/
def enter (a : Ahead) (n : Started) : Ahead := match a.opened with
  | [] => { a with opened := [n], top := a.top + 1 }
  | m :: outer => { a with opened := n :: { m with kids := m.kids + 1 } :: outer }

/-- A node header which is not the end marker was found at `a`. -/
def start (a : Ahead) (checks : Bool) : Verdict × Option (Warning × SynPos) × Ahead :=
  let h := headerAt a.width a.bytes
  let b := a.move (3 * a.width + 1)
  let w := if h.nameLen = 0 then
      some (Warning.emptyNodeName, (⟨b.pos, a.pos, pathOf a.top a.opened ++ [(a.siblings, "")], none⟩ : SynPos))
    else none
  if b.bytes.length < h.nameLen then (.fails (.io a.eof), w, b.move b.bytes.length)
  else
    let c := b.move h.nameLen
    match stringOfUtf8 (b.bytes.take h.nameLen) with
    | none => (.fails (.data .invalidNodeNameEncoding), w, c)
    | some name =>
      if 2 ^ 64 ≤ c.pos + h.bytelenAttrs ∧ checks = true then (.overflows, w, c)
      else (.starts name h.numAttrs, w,
        c.enter ⟨a.pos, h.endOffset, h.numAttrs, (c.pos + h.bytelenAttrs) % 2 ^ 64, name, 0⟩)

/-- A node header or an end marker has to follow. -/
def header (a : Ahead) (checks : Bool) : Verdict × Option (Warning × SynPos) × Ahead :=
  if a.bytes.length < 3 * a.width + 1 then (.fails (.io a.eof), none, a.move a.bytes.length)
  else if headerAt a.width a.bytes = .nodeEnd then
    let b := a.move (3 * a.width + 1)
    match a.opened with
    | [] => (.finishes, none, b)
    | n :: outer =>
      let c := { b with opened := outer }
      if n.endOff ≠ b.pos then (.fails (.data (.nodeLengthMismatch n.endOff (some b.pos))), none, c)
      -- a marker has no business in a node with attributes and without children
      else (.ends, if n.attrCount ≠ 0 ∧ n.kids = 0 then some (.extraNodeEndMarker, c.here) else none, c)
  else a.start checks

/-- The answer, the warning (there is at most one) and what lies ahead then. -/
def next (a : Ahead) (checks : Bool) : Verdict × Option (Warning × SynPos) × Ahead :=
  let b := a.pass
  match b.opened with
  | [] => b.header checks
  | n :: outer =>
    if n.endOff < b.pos then (.fails (.data (.nodeLengthMismatch n.endOff none)), none, b)
    else if n.endOff = b.pos then
      -- a node with children or without attributes has to have a marker
      (.ends, if n.kids ≠ 0 ∨ n.attrCount = 0 then some (.missingNodeEndMarker, b.here) else none, { b with opened := outer })
    else b.header checks

end Ahead

/-- What lies ahead of a parser. -/
def look (p : Parser) : Ahead :=
  ⟨headWidth p.version, p.started, p.toplevel, p.reader.position, p.reader.rest, p.reader.ending.getD .unexpectedEof⟩

/-- A node declared by the header `k` bytes after the beginning of `bytes`, which start at offset 27 of the file. -/
def Declared (w : Nat) (bytes : Bytes) (n : Started) : Prop :=
  ∃ k, n.startOff = headerLen + k ∧
    3 * w + 1 + (headerAt w (bytes.drop k)).nameLen ≤ (bytes.drop k).length ∧
    n.endOff = (headerAt w (bytes.drop k)).endOffset ∧
    n.attrCount = (headerAt w (bytes.drop k)).numAttrs ∧
    stringOfUtf8 (((bytes.drop k).drop (3 * w + 1)).take (headerAt w (bytes.drop k)).nameLen) = some n.name ∧
    n.attrEnd = (n.startOff + (3 * w + 1) + (headerAt w (bytes.drop k)).nameLen + (headerAt w (bytes.drop k)).bytelenAttrs) % 2 ^ 64

instance (bs : List UInt8) : Decidable (usualField1 bs) := inferInstanceAs (Decidable (_ = _))

/-- What the `EndFbx` event has to say about the footer in front, and the warnings then on record (newest first). -/
def footerSays (version : Nat) (b : Ahead) (footer : Except PErr Footer) (before after : List (Warning × SynPos)) : Prop :=
  let odd : List (Warning × SynPos) := if 16 ≤ b.bytes.length ∧ ¬ usualField1 (b.bytes.take 16) then
    [(.unexpectedFooterField, ⟨b.pos, b.pos, [], none⟩)] else []
  let pad := (16 - (b.pos + 16) % 16) % 16
  (∀ f, footer = .ok f ↔ startsWithFooter version b.bytes f) ∧
  (∀ f, footer = .ok f → after = (if f.paddingLen ≠ pad then [(.invalidFooterPadding pad f.paddingLen, ⟨b.pos + 16, b.pos, [], none⟩)] else []) ++
    odd ++ before) ∧
  (∀ e, footer = .error e → after = odd ++ before ∧ e.pos = none ∧ (e.kind = .io b.eof ∨ e.kind = .data .brokenFbxFooter) ∧
    (b.bytes.length < 160 → e.kind = .io b.eof) ∧ (176 ≤ b.bytes.length → e.kind = .data .brokenFbxFooter))

/-- `next_event` does what the table says: the result `o` and the state `t` it leads to from `s`. -/
def Answers {α : Type} (s : Client) (o : Outcome α) (t : Client) : Verdict × Option (Warning × SynPos) × Ahead → Prop
  | (.starts name n, w, b) => o = .event (.startNode name n) ∧ t.parser.log = w.toList ++ s.parser.log ∧ look t.parser = b ∧
      t.parser.health = .running
  | (.ends, w, b) => o = .event .endNode ∧ t.parser.log = w.toList ++ s.parser.log ∧ look t.parser = b ∧ t.parser.health = .running
  | (.finishes, w, b) => w = none ∧ t.parser.health = .finished ∧
      ∃ footer, o = .event (.endFbx footer) ∧ footerSays s.parser.version.toNat b footer s.parser.log t.parser.log
  | (.fails k, w, b) => o = .err ⟨k, some b.here⟩ ∧ t.parser.log = w.toList ++ s.parser.log ∧ look t.parser = b ∧
      t.parser.health = .aborted b.here
  | (.overflows, _, _) => o = .panic .attrEndOverflow

/-- The source can seek to the end of the attributes of the innermost open node. -/
def canPass (p : Parser) : Prop :=
  ∀ n outer, p.started = n :: outer → p.reader.cursor + (n.attrEnd - p.reader.position) ≤ p.reader.seekLimit

end Fbx.Spec
