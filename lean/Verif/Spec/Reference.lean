import Verif.Spec.Attribute
import Verif.Spec.Files

/-! # What a file says

A reader of whole files, made of the tables `Ahead.next` and `attributes`: no parser, no loader, no tree, no handlers, no
I/O, just the bytes of the file. -/

namespace Fbx.Spec

/-- A part of a document: the start of a node with the values of its attributes, or the end of a node. -/
inductive Part where
  | node (name : String) (attrs : List AttrValue)
  | «end»
  deriving DecidableEq

/-- What comes after the parts. -/
inductive Close where
  /-- the end of the document, and what lies ahead then: the footer -/
  | footer (at_ : Ahead)
  /-- an error -/
  | error (e : PErr)
  /-- the overflow in node headers of version 7.5 and later -/
  | overflow
  /-- more parts -/
  | more (at_ : Ahead)
  deriving DecidableEq

/-- What was read: the parts, the warnings (newest first), and what comes then. -/
structure Reading where
  parts : List Part
  warnings : List (Warning × SynPos)
  close : Close

/-- After a part `p` and the warnings `ws`. -/
def Reading.after (r : Reading) (p : Part) (ws : List (Warning × SynPos)) : Reading := ⟨p :: r.parts, r.warnings ++ ws, r.close⟩

/-- The first `n` parts of what lies ahead. `e` is the way the file ends and `checks` tells whether overflows are checked. -/
def reading (Z : Zlib) (e : Ending) (checks : Bool) : (n : Nat) → Ahead → Reading
  | 0, a => ⟨[], [], .more a⟩
  | n + 1, a => match a.next checks with
    | (.starts name count, w, b) =>
      let r := attributesHere Z e count b
      match r.error with
      | some x => ⟨[], r.warnings ++ w.toList, .error x⟩
      | none => (reading Z e checks n r.ahead).after (.node name r.values) (r.warnings ++ w.toList)
    | (.ends, w, b) => (reading Z e checks n b).after .end w.toList
    | (.finishes, _, b) => ⟨[], [], .footer b⟩
    | (.fails k, w, b) => ⟨[], w.toList, .error ⟨k, some b.here⟩⟩
    | (.overflows, _, _) => ⟨[], [], .overflow⟩

/-- The beginning of the body of a file: no open nodes, right after the header of the file. -/
def bodyStart (v : FbxVersion) (e : Ending) (body : Bytes) : Ahead := ⟨headWidth v, [], 0, headerLen, body, e.error⟩

/-- The body of a file. There are fewer than `2 * body.length + 1` parts (`C58_tree`). -/
def readBody (Z : Zlib) (e : Ending) (checks : Bool) (v : FbxVersion) (body : Bytes) : Reading :=
  reading Z e checks (2 * body.length + 1) (bodyStart v e body)

/-- The parts of a forest. -/
def partsOf : Forest AttrValue → List Part
  | .nil => []
  | .cons name attrs children rest => .node name attrs :: (partsOf children ++ .end :: partsOf rest)

/-- What a client sees of a part who loads every attribute with `DirectLoader`. -/
def Part.obs : Part → Obs AttrValue
  | .node name attrs => .start name attrs.length (attrs.map some)
  | .end => .end

/-- The source can seek as far as node headers of the version can tell it to: anywhere in the range of `u64`, or 4 GiB
beyond the end of the file before version 7.5. (`cursor` is the offset where the body begins.) -/
def canSeek (v : FbxVersion) (body : Bytes) (cursor limit : Nat) : Prop :=
  cursor + 2 ^ 64 ≤ limit + headerLen ∨ (v < 7500 ∧ cursor + body.length + 2 ^ 32 ≤ limit)

/-- What a client makes of a reading of a file of version `v`: the result `x` of the client and the state in which it leaves
the parser. It has seen `seen` and there are the warnings `log` (newest first) beforehand. -/
def Sees (v : FbxVersion) (r : Reading) (seen : List (Obs AttrValue)) (log : List (Warning × SynPos)) (x : Res PErr (List (Obs AttrValue)) × Parser) : Prop :=
  match r.close with
  | .footer b => ∃ footer, x.1 = .ok (seen ++ r.parts.map Part.obs ++ [.fbx footer]) ∧ footerSays v.toNat b footer (r.warnings ++ log) x.2.log
  | .error e => x.1 = .err e ∧ x.2.log = r.warnings ++ log
  | .overflow => x.1 = .panic .attrEndOverflow
  | .more b => x.1 = .ok (seen ++ r.parts.map Part.obs) ∧ x.2.log = r.warnings ++ log ∧ look x.2 = b

end Fbx.Spec
