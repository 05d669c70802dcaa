import Verif.Model.Dump
import Verif.Spec.AnyLoader
import Verif.Spec.Debug

/-! # The outline of a file

What the program `dump-pull-parser-events` is to print: one line for the beginning of each node, for each attribute and for the end of each
node, moved to the right by four spaces for each node around. -/

namespace Fbx.Spec
open Fbx.Dump (Format)

/-- A line, `depth` levels to the right. -/
def outlineLine (depth : Nat) (text : Text) : Text := List.replicate (4 * depth) ' ' ++ text ++ ['\n']

/-- `Node start: "name"`. -/
def startText (S : Dump.Shows) (name : String) : Text := ['N', 'o', 'd', 'e', ' ', 's', 't', 'a', 'r', 't', ':', ' '] ++ S.str name

/-- `Node end`. -/
def endText : Text := ['N', 'o', 'd', 'e', ' ', 'e', 'n', 'd']

/-- `Attribute: …`. -/
def attributeText (text : Text) : Text := ['A', 't', 't', 'r', 'i', 'b', 'u', 't', 'e', ':', ' '] ++ text

/-- `FBX version: 7.4`. -/
def versionText (v : Nat) : Text :=
  ['F', 'B', 'X', ' ', 'v', 'e', 'r', 's', 'i', 'o', 'n', ':', ' '] ++ decimal ↑(v / 1000) ++ ['.'] ++ decimal ↑(v % 1000 / 100)

/-- The number of elements of an array, or of bytes of a string or of binary data. -/
def lengthOf : AttrValue → Option Nat
  | .arrBool x => some x.length
  | .arrI32 x => some x.length
  | .arrI64 x => some x.length
  | .arrF32 x => some x.length
  | .arrF64 x => some x.length
  | .binary x => some x.length
  | .string x => some (utf8 x).length
  | _ => none

/-- `type=ArrI32, len=3`. -/
def summary (t : AttrType) (len : Nat) : Text := ['t', 'y', 'p', 'e', '='] ++ kind t ++ [',', ' ', 'l', 'e', 'n', '='] ++ decimal len

/-- Numbers and booleans are shown; of other values the type and the length. -/
def lengthShown (S : Dump.Shows) (v : AttrValue) : Text := match lengthOf v with
  | none => attrText S.toShows v
  | some len => summary v.type_ len

/-- Numbers and booleans are shown; of other values the type, the length and the contents. -/
def fullShown (S : Dump.Shows) (v : AttrValue) : Text := match lengthOf v with
  | none => attrText S.toShows v
  | some len => summary v.type_ len ++ [',', ' ', 'v', 'a', 'l', 'u', 'e', '='] ++ contentText (content S.toShows v)

/-- What is shown of an attribute. -/
def shown (S : Dump.Shows) : Format → AttrValue → Text
  | .type, v => kind v.type_
  | .length, v => lengthShown S v
  | .full, v => fullShown S v

/-- The lines of `FbxFooter { … }`. -/
def footerLines (f : Footer) : List Text :=
  let bytes (bs : Bytes) : List Text := block ['['] [']'] (bs.map (fun x => [decimal x.toNat]))
  block ['F', 'b', 'x', 'F', 'o', 'o', 't', 'e', 'r', ' ', '{'] ['}']
    [labelled ['u', 'n', 'k', 'n', 'o', 'w', 'n', '1'] (bytes f.unknown1),
     labelled ['p', 'a', 'd', 'd', 'i', 'n', 'g', '_', 'l', 'e', 'n'] [decimal f.paddingLen],
     labelled ['u', 'n', 'k', 'n', 'o', 'w', 'n', '2'] (bytes f.unknown2),
     labelled ['f', 'b', 'x', '_', 'v', 'e', 'r', 's', 'i', 'o', 'n'] (block ['F', 'b', 'x', 'V', 'e', 'r', 's', 'i', 'o', 'n', '('] [')'] [[decimal f.version.toNat]]),
     labelled ['u', 'n', 'k', 'n', 'o', 'w', 'n', '3'] (bytes f.unknown3)]

/-- `footer: FbxFooter { … }` or `footer has an error: …`. -/
def footerText (S : Dump.Shows) : Except PErr Footer → Text
  | .ok f => lines (labelled ['f', 'o', 'o', 't', 'e', 'r'] (footerLines f))
  | .error e => ['f', 'o', 'o', 't', 'e', 'r', ' ', 'h', 'a', 's', ' ', 'a', 'n', ' ', 'e', 'r', 'r', 'o', 'r', ':', ' '] ++ S.error e

/-- The lines at the end of a file. -/
def closingText (S : Dump.Shows) (f : Except PErr Footer) : Text := ['F', 'B', 'X', ' ', 'e', 'n', 'd', '\n'] ++ footerText S f ++ ['\n']

/-! ## Of a document -/

/-- The outline of some nodes, `depth` levels to the right. -/
def forestText (S : Dump.Shows) (fmt : Format) : Forest DAttr → (depth : Nat) → Text
  | .nil, _ => []
  | .cons name attrs children rest, depth =>
    outlineLine depth (startText S name) ++ (attrs.map (fun a => outlineLine (depth + 1) (attributeText (shown S fmt a.value)))).flatten ++
      forestText S fmt children (depth + 1) ++ outlineLine depth endText ++ forestText S fmt rest depth

/-- The number of padding bytes in the footer of a document whose nodes end at the offset `n`. -/
def paddingOf (f : Writer.FooterSpec) (n : Nat) : Nat := match f.padding with
  | .default => alignPad (n + 16)
  | .forced k => k.toNat

/-! ## Of any bytes -/

/-- The attributes of a node as far as they can be loaded: what is shown of each; the warnings, newest first; the error; and what lies
ahead then. -/
structure ShownAttributes where
  shown : List Text
  warnings : List (Warning × SynPos)
  error : Option PErr
  ahead : Ahead

/-- Loads all `count` attributes of a node with a loader. -/
def allWith {α : Type} (Z : Zlib) (m : Skipping) (e : Ending) (l : Loader α) (text : α → Text) (count : Nat) (b : Ahead) : ShownAttributes :=
  let r := attributesFor Z m e false count (List.replicate count l) count b.pos b
  ⟨r.values.filterMap (Option.map text), r.warnings, r.error, r.ahead⟩

/-- The types are found out without reading the contents. -/
def attributesShown (S : Dump.Shows) (Z : Zlib) (m : Skipping) (e : Ending) (count : Nat) (b : Ahead) : Format → ShownAttributes
  | .type => allWith Z m e typeLoader kind count b
  | .length => allWith Z m e directLoader (lengthShown S) count b
  | .full => allWith Z m e directLoader (fullShown S) count b

/-- What comes after the outline. -/
inductive OutlineEnd where
  /-- The footer is in front. -/
  | footer (b : Ahead)
  /-- There is an error at the beginning or at the end of a node. -/
  | error (x : PErr)
  /-- An attribute cannot be loaded. -/
  | badAttribute (x : PErr)
  /-- The end of the attributes of a node is too large a number. -/
  | overflow
  /-- Not finished. -/
  | more

/-- The outline: the text; the warnings, newest first; and what comes then. -/
structure Outline where
  text : Text
  warnings : List (Warning × SynPos)
  close : OutlineEnd

/-- After some text and warnings. -/
def Outline.after (r : Outline) (text : Text) (ws : List (Warning × SynPos)) : Outline := ⟨text ++ r.text, r.warnings ++ ws, r.close⟩

/-- The outline of what lies ahead, as far as it can be read. Each line is as far to the right as there are nodes open around. -/
def outline (S : Dump.Shows) (Z : Zlib) (m : Skipping) (e : Ending) (checks : Bool) (fmt : Format) : (n : Nat) → Ahead → Outline
  | 0, _ => ⟨[], [], .more⟩
  | n + 1, a => match a.nextFrom m e checks with
    | (.starts name count, w, b) =>
      let r := attributesShown S Z m e count b fmt
      let text := outlineLine (b.opened.length - 1) (startText S name) ++ (r.shown.map (fun t => outlineLine b.opened.length (attributeText t))).flatten
      match r.error with
      | some x => ⟨text, r.warnings ++ w.toList, .badAttribute x⟩
      | none => (outline S Z m e checks fmt n r.ahead).after text (r.warnings ++ w.toList)
    | (.ends, w, b) => (outline S Z m e checks fmt n b).after (outlineLine b.opened.length endText) w.toList
    | (.finishes, _, b) => ⟨[], [], .footer b⟩
    | (.fails x, w, b) => ⟨[], w.toList, .error ⟨x, some b.here⟩⟩
    | (.overflows, _, _) => ⟨[], [], .overflow⟩

/-- The program does what the outline says: it prints it, with the closing lines if it gets that far, and ends accordingly. If an
attribute cannot be loaded, the program returns with the error, but in the format with types only it panics. -/
def Prints (S : Dump.Shows) (v : FbxVersion) (fmt : Format) (r : Outline) (before : Text) (log : List (Warning × SynPos))
    (x : Dump.End × List (Warning × SynPos) × Text) : Prop :=
  match r.close with
  | .footer b => ∃ footer, x.1 = .ok ∧ x.2.2 = before ++ r.text ++ closingText S footer ∧ footerSays v.toNat b footer (r.warnings ++ log) x.2.1
  | .error e => x = (.failed e, r.warnings ++ log, before ++ r.text)
  | .badAttribute e => x = (if fmt = .type then .unwrapped e else .failed e, r.warnings ++ log, before ++ r.text)
  | .overflow => x.1 = .panics .attrEndOverflow ∧ x.2.2 = before ++ r.text
  | .more => x = (.stuck, r.warnings ++ log, before ++ r.text)

/-- The ways in which the program may end: without a parser (and nothing is printed); successfully; with an error of the parser; with a
panic about such an error, but only in the format with types alone; with a panic of the library, but only in a build with overflow checks.
It neither loops forever nor does its depth go below zero. -/
def properEnd (fmt : Format) (checks : Bool) (x : Dump.End × List (Warning × SynPos) × Text) : Prop := match x.1 with
  | .ok => True
  | .noParser _ => x.2.2 = []
  | .failed _ => True
  | .unwrapped _ => fmt = .type
  | .panics p => p = .attrEndOverflow ∧ checks = true
  | .underflow => False
  | .stuck => False

end Fbx.Spec
