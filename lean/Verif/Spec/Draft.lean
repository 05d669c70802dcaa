import Verif.Spec.Failed

/-!
# Specification: a writer without a device

What the calls of the writer mean, whatever their order and whether they fail or not: a document under construction, kept
as a tree of finished and unfinished parts. Nothing is ever overwritten here, and there are no positions to be kept; the file
is what the parts look like one after the other.
-/

namespace Fbx.Spec
open Writer

/-- A node that is being written. -/
structure Unfinished where
  name : List UInt8
  /-- what the `append_*` calls have left -/
  attrs : List UInt8
  /-- how many such calls there were -/
  count : Nat
  /-- its finished child nodes -/
  inner : List UInt8
  /-- a child was begun, or refused -/
  parent : Bool

/-- A document under construction: its finished part, the unfinished nodes, innermost first, and what is on the device
behind them. -/
structure Draft where
  finished : List UInt8
  unfinished : List Unfinished
  behind : List UInt8

/-- What an unfinished node looks like: its header does not know its end yet. -/
def Unfinished.shown (version : Nat) (u : Unfinished) : List UInt8 :=
  header version 0 0 0 u.name.length ++ u.name ++ u.attrs ++ u.inner

/-- The finished part followed by the unfinished nodes. -/
def shownAfter (version : Nat) (finished : List UInt8) : List Unfinished → List UInt8
  | [] => finished
  | u :: outer => shownAfter version finished outer ++ u.shown version

/-- What the draft looks like. -/
def Draft.file (version : Nat) (d : Draft) : List UInt8 := shownAfter version d.finished d.unfinished

/-- A new document on a device with the given content. -/
def Draft.begun (version : Nat) (old : List UInt8) : Draft := ⟨signature ++ le 4 version, [], old.drop 27⟩

/-- What an `append_*` call leaves, whether it fails or not. (A string from characters takes four bytes for each of them,
see C15.) -/
def leaves (Z : Zlib) (a : Append) : List UInt8 :=
  if fails Z a then remains Z a
  else match a with
    | .stringIter xs =>
      UInt8.ofNat 'S'.toNat :: (le 4 (utf8 (String.ofList (oks xs))).length ++ fourEach [0, 0, 0, 0] (oks xs))
    | a => callBytes Z a

/-- An error or its absence as a result. -/
def verdict : Option WErr → Res WErr Unit
  | none => .ok ()
  | some e => .err e

/-- The innermost unfinished node gets a child, or one is refused. -/
def becomesParent : List Unfinished → List Unfinished
  | [] => []
  | u :: outer => { u with parent := true } :: outer

/-- A finished node goes to the finished child nodes of the innermost unfinished one, or of the document. -/
def Draft.add (d : Draft) (bytes : List UInt8) : Draft :=
  match d.unfinished with
  | [] => { d with finished := d.finished ++ bytes }
  | u :: outer => { d with unfinished := { u with inner := u.inner ++ bytes } :: outer }

/-- One call: its result, and the document after it. -/
def Draft.act (Z : Zlib) (version : Nat) (d : Draft) : Op → Res WErr Unit × Draft
  | .newNode name =>
    let outer := becomesParent d.unfinished
    if 255 < (utf8 name).length then (.err (.nodeNameTooLong (utf8 name).length), { d with unfinished := outer })
    else (.ok (), ⟨d.finished, ⟨utf8 name, [], 0, [], false⟩ :: outer, d.behind.drop (headerSize version + (utf8 name).length)⟩)
  | .append a =>
    match d.unfinished with
    | [] => (.ok (), d) -- cannot be called
    | u :: outer =>
      (verdict (callError Z a), ⟨d.finished, { u with attrs := u.attrs ++ leaves Z a, count := u.count + 1 } :: outer,
        d.behind.drop (leaves Z a).length⟩)
  | .closeNode =>
    match d.unfinished with
    | [] => (.err .noNodesToClose, d)
    | u :: outer =>
      let mark := if u.parent ∨ u.count = 0 then marker version else []
      let endOffset := (d.file version).length + mark.length
      let behind := d.behind.drop mark.length
      -- a file with 32-bit offsets cannot hold the node: it is left out, its bytes stay behind
      if version < 7500 ∧ 2 ^ 32 ≤ endOffset then
        (.err (.fileTooLarge endOffset), ⟨d.finished, outer, u.shown version ++ mark ++ behind⟩)
      else
        (.ok (), Draft.add ⟨d.finished, outer, behind⟩
          (header version endOffset u.count u.attrs.length u.name.length ++ u.name ++ u.attrs ++ u.inner ++ mark))

/-- All calls: their results, and the document after them. -/
def Draft.acts (Z : Zlib) (version : Nat) (d : Draft) : List Op → List (Res WErr Unit) × Draft
  | [] => ([], d)
  | o :: os => (((d.act Z version o).1 :: (((d.act Z version o).2).acts Z version os).1), (((d.act Z version o).2).acts Z version os).2)

/-- `finalize`: its result and what is on the device then. -/
def Draft.finalized (version : Nat) (f : FooterSpec) (d : Draft) : Res WErr Unit × List UInt8 :=
  if d.unfinished.isEmpty then
    let bytes := marker version ++ footer version (footOf f) (d.finished.length + headerSize version)
    (.ok (), d.finished ++ bytes ++ d.behind.drop bytes.length)
  else (.err (.unclosedNode d.unfinished.length), d.file version ++ d.behind)

/-- The calls of a client that goes on whatever they return, with what they returned. `none` if the borrow checker does
not accept them: an `append_*` call needs the `AttributesWriter` of a successful `new_node`. -/
def results (Z : Zlib) (s : Session) : List Op → Option (List (Res WErr Unit) × Session)
  | [] => some ([], s)
  | o :: os =>
    match s.step Z o with
    | none => none
    | some (r, s') => (results Z s' os).map (fun x => (r :: x.1, x.2))

/-- A bound on what a call may write. -/
def need (Z : Zlib) (version : Nat) : Op → Nat
  | .newNode name => headerSize version + (utf8 name).length
  | .append a => volume Z a
  | .closeNode => headerSize version

/-- The device can hold everything that may be written. -/
def roomFor (Z : Zlib) (version : Nat) (ops : List Op) : Prop := 27 + (ops.map (need Z version)).sum < 2 ^ 64

end Fbx.Spec
