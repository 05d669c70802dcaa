import Verif.Spec.AnyLoader
import Verif.Spec.Handler

/-! # What any client sees of a file

A machine which knows the bytes of the file and what the client has done so far, and nothing else. The tables `Ahead.nextFrom` and
`inFrontFor` say what there is in front; here is what the calls of the pull parser make of it, with any warning handlers. -/

namespace Fbx.Spec


/-- What does not change: the version of the file, whether the build has overflow checks, how the source skips and how it ends. -/
structure Setting where
  version : FbxVersion
  checks : Bool
  skips : Skipping
  ends : Ending

/-- Where a client stands. -/
structure Standing where
  /-- what lies ahead -/
  ahead : Ahead
  /-- running, finished, or stopped by an error at some position -/
  health : Health
  /-- something has been read -/
  used : Bool
  /-- the warning handler -/
  handler : Option Handler
  /-- the warnings so far, newest first -/
  warned : List (Warning × SynPos)
  /-- the attribute reader: number of attributes, number of those left, offset of the next one -/
  attrs : Option Attrs

/-! ## The footer -/

/-- The footer in front, or the error, and how many bytes are read: 16 bytes, at most 15 zeros, 4 zeros, the version, 120 zeros, the fixed
tail. The tail begins at the first byte which is not zero, where it can begin. -/
def footerFound (version : Nat) (eof : IoErr) (bs : Bytes) : Except ErrKind Footer × Nat :=
  if bs.length < 160 then (.error (.io eof), bs.length)
  else match ((bs.drop 144).take 16).findIdx? (fun b => b ≠ 0) with
    | none => (.error (.data .brokenFbxFooter), 160)
    | some n =>
      if (bs.drop 16).take (n + 128) ≠ List.replicate n 0 ++ [0, 0, 0, 0] ++ le 4 version ++ List.replicate 120 0 then (.error (.data .brokenFbxFooter), 160)
      else if bs.length < 160 + n then (.error (.io eof), bs.length)
      else if (bs.drop (144 + n)).take 16 ≠ [0xf8, 0x5a, 0x8c, 0x6a, 0xde, 0xf5, 0xd9, 0x7e, 0xec, 0xe9, 0x0c, 0xe3, 0x75, 0x8f, 0x29, 0x0b] then
        (.error (.data .brokenFbxFooter), 160 + n)
      else (.ok ⟨bs.take 16, n, [0, 0, 0, 0], UInt32.ofNat version, (bs.drop (144 + n)).take 16⟩, 160 + n)

/-- What the end event says about the footer, the warnings then, and how many bytes are read. -/
def footerHeard (h : Option Handler) (version : Nat) (b : Ahead) (log : List (Warning × SynPos)) :
    Except PErr Footer × List (Warning × SynPos) × Nat :=
  let odd : Option (Warning × SynPos) := if 16 ≤ b.bytes.length ∧ ¬ usualField1 (b.bytes.take 16) then
    some (.unexpectedFooterField, ⟨b.pos, b.pos, [], none⟩) else none
  match objection h log odd with
  | some k => (.error ⟨k, some ⟨b.pos, b.pos, [], none⟩⟩, odd.toList ++ log, 16)
  | none => match footerFound version b.eof b.bytes with
    | (.error k, n) => (.error ⟨k, none⟩, odd.toList ++ log, n)
    | (.ok f, n) =>
      let pad := (16 - (b.pos + 16) % 16) % 16
      let w : Option (Warning × SynPos) := if f.paddingLen ≠ pad then some (.invalidFooterPadding pad f.paddingLen, ⟨b.pos + 16, b.pos, [], none⟩) else none
      (match objection h (odd.toList ++ log) w with
        | some k => .error ⟨k, some ⟨b.pos + 16, b.pos, [], none⟩⟩
        | none => .ok f, w.toList ++ (odd.toList ++ log), n)

/-! ## The calls -/

/-- What lies ahead when the handler objects to a warning of `next_event`, if `a` was ahead after the attributes: an empty name is noticed
after the header; a missing end marker, before the node is left; a superfluous end marker, after the node is left. -/
def Ahead.noticed (a : Ahead) : Warning → Ahead
  | .emptyNodeName => a.move (3 * a.width + 1)
  | .missingNodeEndMarker => a
  | _ => { a.move (3 * a.width + 1) with opened := a.opened.tail }

namespace Standing
variable {α : Type}

/-- An error which stops the parser. -/
def stop (s : Standing) (k : ErrKind) (pos : SynPos) : Outcome α × Standing := (.err ⟨k, some pos⟩, { s with health := .aborted pos })

/-- `next_event`. -/
def next (f : Setting) (s : Standing) : Outcome α × Standing :=
  let s : Standing := { s with attrs := none }
  match s.health with
  | .finished => (.err ⟨.op .alreadyFinished, none⟩, s)
  | .aborted pos => (.err ⟨.op .alreadyAborted, some pos⟩, s)
  | .running =>
    let x := s.ahead.nextFrom f.skips f.ends f.checks
    let s' : Standing := { s with warned := x.2.1.toList ++ s.warned }
    match objection s.handler s.warned x.2.1 with
    | some k =>
      let b := match x.2.1 with
        | some (w, _) => (s.ahead.skip f.skips f.ends s.ahead.unread).2.noticed w
        | none => s.ahead
      ({ s' with ahead := b } : Standing).stop k b.here
    | none =>
      let b := x.2.2
      let s' : Standing := { s' with ahead := b }
      match x.1 with
      | .starts name n => (.event (.startNode name n), { s' with used := true, attrs := some ⟨n, n, b.pos⟩ })
      | .ends => (.event .endNode, { s' with used := true })
      | .finishes =>
        let r := footerHeard s.handler f.version.toNat b s.warned
        (.event (.endFbx r.1), { s' with ahead := b.move r.2.2, used := true, health := .finished, warned := r.2.1 })
      | .fails k => s'.stop k b.here
      | .overflows => (.panic .attrEndOverflow, s')

/-- `load_next`, if there is an attribute reader. -/
def load (Z : Zlib) (f : Setting) (buffered : Bool) (l : Loader α) (s : Standing) : Option (Outcome α × Standing) :=
  match s.attrs with
  | none => none
  | some a => some (match s.health with
    | .finished => (.err ⟨.op .alreadyFinished, none⟩, s)
    | .aborted pos => (.err ⟨.op .alreadyAborted, some pos⟩, s)
    | .running =>
      if a.rest = 0 then (.noValue, s)
      else match s.ahead.skip f.skips f.ends (a.next - s.ahead.pos) with
        | (some x, here) => ({ s with ahead := here } : Standing).stop (.io x) { here.here with compPos := a.next, attrIdx := some (a.total - a.rest) }
        | (none, here) =>
          let x := inFrontFor Z f.ends buffered l here.bytes
          let b := here.move x.read
          let pos : SynPos := { b.here with compPos := a.next, attrIdx := some (a.total - a.rest) }
          let w : Option (Warning × SynPos) := if x.odd then some (.incorrectBool, pos) else none
          let s' : Standing := { s with ahead := b, warned := w.toList ++ s.warned }
          let failed : Standing := { s' with attrs := some { a with rest := if typed here.bytes then a.rest - 1 else a.rest } }
          match objection s.handler s.warned w with
          | some k => failed.stop k pos
          | none => match x.answer with
            | .error k => failed.stop k pos
            | .ok v => (.value v, { s' with attrs := some ⟨a.total, a.rest - 1, here.pos + x.len⟩ }))

/-- `skip_current_node`. -/
def skip (f : Setting) (s : Standing) : Outcome α × Standing :=
  match s.ahead.opened with
  | [] => (.panic .skipRoot, s)
  | n :: outer =>
    if n.endOff < s.ahead.pos then (.panic .skipBackward, s)
    else
      let r := ({ s.ahead with opened := outer } : Ahead).skip f.skips f.ends (n.endOff - s.ahead.pos)
      (match r.1 with
        | none => .done
        | some x => .err ⟨.io x, none⟩, { s with ahead := r.2, used := true, attrs := none })

/-- Any call; `none` if it is not available. -/
def call (Z : Zlib) (f : Setting) (s : Standing) : Call α → Option (Outcome α × Standing)
  | .next => some (s.next f)
  | .load b l => s.load Z f b l
  | .skip => some (s.skip f)
  | .setHandler h => some (.done, { s with handler := some h, attrs := none })

end Standing

/-! ## Clients -/

/-- What a client can see between the calls: the version, the depth, the name of the innermost open node, the position, whether the parser
is in use, the warnings (newest first), and the number of all attributes and of those left if there is an attribute reader. -/
structure Glance where
  version : FbxVersion
  depth : Nat
  name : Option String
  position : SynPos
  used : Bool
  warned : List (Warning × SynPos)
  attrs : Option (Nat × Nat)
  deriving DecidableEq

/-- A client: it stops, or it makes a call and goes on depending on the outcome and on what it can see then. -/
inductive Routine (α : Type) where
  | stop
  | call (c : Call α) (k : Outcome α → Glance → Routine α)

/-- A client which makes some calls, whatever happens. -/
def Routine.ofCalls {α : Type} : List (Call α) → Routine α
  | [] => .stop
  | c :: cs => .call c (fun _ _ => ofCalls cs)

/-- What is seen of a parser and its attribute reader. -/
def _root_.Fbx.Client.glance (s : Client) : Glance :=
  ⟨s.parser.version, s.parser.depth, s.parser.currentNodeName, s.parser.synPos, s.parser.isUsed, s.parser.log, s.attrs.map (fun a => (a.total, a.rest))⟩

/-- What is seen of the machine. -/
def Standing.glance (f : Setting) (s : Standing) : Glance :=
  ⟨f.version, s.ahead.opened.length, s.ahead.opened.head?.map Started.name, s.ahead.here, s.used, s.warned, s.attrs.map (fun a => (a.total, a.rest))⟩

/-- What a client observes with a parser: the outcomes of the calls, and what it can see after each of them. It ends with a panic, or
with a call which is not available. -/
def Routine.observe {α : Type} (Z : Zlib) : Routine α → Client → List (Outcome α × Option Glance)
  | .stop, _ => []
  | .call c k, s => match s.call Z c with
    | none => []
    | some (.panic x, _) => [(.panic x, none)]
    | some (o, t) => (o, some t.glance) :: (k o t.glance).observe Z t

/-- What a client has to observe, according to the machine. -/
def Routine.expect {α : Type} (Z : Zlib) (f : Setting) : Routine α → Standing → List (Outcome α × Option Glance)
  | .stop, _ => []
  | .call c k, s => match s.call Z f c with
    | none => []
    | some (.panic x, _) => [(.panic x, none)]
    | some (o, t) => (o, some (t.glance f)) :: (k o (t.glance f)).expect Z f t

/-- The beginning: the offset is 27, nothing was read, there is no handler. -/
def Standing.begin (f : Setting) (body : Bytes) : Standing := ⟨bodyStart f.version f.ends body, .running, false, none, [], none⟩

end Fbx.Spec
