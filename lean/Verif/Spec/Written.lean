import Verif.Spec.Draft
import Verif.Spec.Read

/-!
# Specification: what a client knows about the document it has written

The calls a client made, with what they returned, say which nodes there are: those closed successfully, inside nodes closed
successfully. A node whose `close_node` failed is gone with everything in it; a node that was refused never was.
-/

namespace Fbx.Spec
open Writer

/-- A node that was begun and not closed yet: its name, the `append_*` calls made for it and its nodes closed so far. -/
structure Begun where
  name : String
  attrs : List Append
  children : Forest Append

/-- The nodes closed so far outside of all others, and the nodes not yet closed, innermost first. -/
structure Record where
  closed : Forest Append
  «open» : List Begun

/-- What a client notes after a call, from its result. -/
def Record.note (s : Record) : Op → Res WErr Unit → Record
  | .newNode name, .ok _ => { s with «open» := ⟨name, [], .nil⟩ :: s.open }
  | .newNode _, _ => s
  | .append a, _ =>
    match s.open with
    | [] => s
    | n :: outer => { s with «open» := { n with attrs := n.attrs ++ [a] } :: outer }
  | .closeNode, .ok _ =>
    match s.open with
    | [] => s
    | n :: [] => ⟨s.closed.append (.cons n.name n.attrs n.children .nil), []⟩
    | n :: m :: outer => { s with «open» := { m with children := m.children.append (.cons n.name n.attrs n.children .nil) } :: outer }
  | .closeNode, _ => { s with «open» := s.open.tail }

/-- All its calls. -/
def Record.notes (s : Record) : List (Op × Res WErr Unit) → Record
  | [] => s
  | (o, r) :: rest => (s.note o r).notes rest

/-- The document according to the calls and their results. -/
def written (ops : List Op) (rs : List (Res WErr Unit)) : Forest Append := ((⟨.nil, []⟩ : Record).notes (ops.zip rs)).closed

/-- The client loads an attribute only if it and those before it in its node were appended successfully (and are strings
made of characters only if those take four bytes each, see C15). -/
def prudent {α : Type} (Z : Zlib) (plan : Nat → String → Nat → List (Loader α)) : Forest Append → (k : Nat) → Prop
  | .nil, _ => True
  | .cons name attrs children rest, k =>
    (∀ a ∈ attrs.take (plan k name attrs.length).length, fails Z a = false ∧ intact a) ∧
      prudent Z plan children (k + 1) ∧ prudent Z plan rest (k + 1 + children.count)

/-- What a reader sees who does not load attributes. -/
def shapeOf : Forest Append → List (Obs Unit)
  | .nil => []
  | .cons name attrs children rest => .start name attrs.length [] :: (shapeOf children ++ .end :: shapeOf rest)

end Fbx.Spec
