import Verif.Spec.Reference

/-! # What a file says, from any source

The tables `Ahead.next`, `attributes` and `reading` are about sources which can seek wherever they are told to. Here is what
becomes of them with sources which cannot seek, or not that far. -/

namespace Fbx.Spec

/-- How a source is moved forward over bytes which nobody reads. -/
inductive Skipping where
  /-- The bytes are read and thrown away: the offset in the file is not updated. -/
  | reads
  /-- The source seeks, as far as the offset `far` in the file. -/
  | seeks (far : Nat)
  deriving DecidableEq

namespace Ahead

/-- Moves forward over `k` bytes: the error, if any, and what lies ahead then.

Seeking is done in parts of at most `2 ^ 63 - 1` bytes. It may go beyond the end of the file, while thrown away bytes have to be
there only if the source ends with an error: at the end of the file there is nothing left to be thrown away. -/
def skip (m : Skipping) (e : Ending) (k : Nat) (a : Ahead) : Option IoErr × Ahead :=
  match m with
  | .reads => (if a.bytes.length < k then e else none, { a with bytes := a.bytes.drop k })
  | .seeks far =>
    if k = 0 ∨ a.pos + k ≤ far then (none, a.move k)
    else (some .invalidSeek, a.move ((far - a.pos) / (2 ^ 63 - 1) * (2 ^ 63 - 1)))

/-- The distance to the end of the attributes of the innermost open node. -/
def unread (a : Ahead) : Nat := match a.opened with
  | [] => 0
  | n :: _ => n.attrEnd - a.pos

/-- What `next_event` has to answer after the attributes. -/
def resume (a : Ahead) (checks : Bool) : Verdict × Option (Warning × SynPos) × Ahead :=
  match a.opened with
  | [] => a.header checks
  | n :: outer =>
    if n.endOff < a.pos then (.fails (.data (.nodeLengthMismatch n.endOff none)), none, a)
    else if n.endOff = a.pos then
      (.ends, if n.kids ≠ 0 ∨ n.attrCount = 0 then some (.missingNodeEndMarker, a.here) else none, { a with opened := outer })
    else a.header checks

/-- What `next_event` has to answer: the counterpart of `Ahead.next`. -/
def nextFrom (m : Skipping) (e : Ending) (a : Ahead) (checks : Bool) : Verdict × Option (Warning × SynPos) × Ahead :=
  match a.skip m e a.unread with
  | (some x, b) => (.fails (.io x), none, b)
  | (none, b) => b.resume checks

end Ahead

/-- `load_next` does what the table says: the counterpart of `LoadAnswers`. -/
def LoadAnswersFrom (Z : Zlib) (m : Skipping) (e : Ending) (s : Client) (a : Attrs) (o : Outcome AttrValue) (t : Client) : Prop :=
  let idx := some (a.total - a.rest)
  match (look s.parser).skip m e (a.next - (look s.parser).pos) with
  | (some x, here) =>
    let pos : SynPos := { here.here with compPos := a.next, attrIdx := idx }
    o = .err ⟨.io x, some pos⟩ ∧ look t.parser = here ∧ t.parser.log = s.parser.log ∧ t.parser.health = .aborted pos
  | (none, here) =>
    let l := attrInFront Z e here.bytes
    let pos : SynPos := { (here.move l.read).here with compPos := a.next, attrIdx := idx }
    look t.parser = here.move l.read ∧ match l.answer with
    | .ok v => o = .value v ∧ t.parser.log = (if l.odd then [(.incorrectBool, pos)] else []) ++ s.parser.log ∧
        t.parser.health = .running ∧ t.attrs = some ⟨a.total, a.rest - 1, here.pos + l.len⟩
    | .error k => o = .err ⟨k, some pos⟩ ∧ t.parser.log = s.parser.log ∧ t.parser.health = .aborted pos

/-- The last `n` of the `total` attributes of a node: the counterpart of `attributes`. -/
def attributesFrom (Z : Zlib) (m : Skipping) (e : Ending) (total : Nat) : (n next : Nat) → Ahead → Attributes
  | 0, _, a => ⟨[], [], none, a⟩
  | n + 1, next, a =>
    match a.skip m e (next - a.pos) with
    | (some x, here) => ⟨[], [], some ⟨.io x, some { here.here with compPos := next, attrIdx := some (total - (n + 1)) }⟩, here⟩
    | (none, here) =>
      let l := attrInFront Z e here.bytes
      let b := here.move l.read
      let pos : SynPos := { b.here with compPos := next, attrIdx := some (total - (n + 1)) }
      match l.answer with
      | .error k => ⟨[], [], some ⟨k, some pos⟩, b⟩
      | .ok v =>
        let r := attributesFrom Z m e total n (here.pos + l.len) b
        ⟨v :: r.values, r.warnings ++ (if l.odd then [(.incorrectBool, pos)] else []), r.error, r.ahead⟩

/-- The first `n` parts of what lies ahead: the counterpart of `reading`. -/
def readingFrom (Z : Zlib) (m : Skipping) (e : Ending) (checks : Bool) : (n : Nat) → Ahead → Reading
  | 0, a => ⟨[], [], .more a⟩
  | n + 1, a => match a.nextFrom m e checks with
    | (.starts name count, w, b) =>
      let r := attributesFrom Z m e count count b.pos b
      match r.error with
      | some x => ⟨[], r.warnings ++ w.toList, .error x⟩
      | none => (readingFrom Z m e checks n r.ahead).after (.node name r.values) (r.warnings ++ w.toList)
    | (.ends, w, b) => (readingFrom Z m e checks n b).after .end w.toList
    | (.finishes, _, b) => ⟨[], [], .footer b⟩
    | (.fails k, w, b) => ⟨[], w.toList, .error ⟨k, some b.here⟩⟩
    | (.overflows, _, _) => ⟨[], [], .overflow⟩

/-- The body of a file: the counterpart of `readBody`. -/
def readBodyFrom (Z : Zlib) (m : Skipping) (e : Ending) (checks : Bool) (v : FbxVersion) (body : Bytes) : Reading :=
  readingFrom Z m e checks (2 * body.length + 1) (bodyStart v e body)

/-- The way to skip of a source whose body begins at the offset `cursor` of the device and which can seek up to the offset
`limit` of the device, or not at all. -/
def skippingOf (seekable : Bool) (cursor limit : Nat) : Skipping := if seekable then .seeks (limit + headerLen - cursor) else .reads

end Fbx.Spec
