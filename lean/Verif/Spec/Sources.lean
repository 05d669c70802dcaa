import Verif.Spec.History

/-! # Calls that skip nothing, and cut sources -/

namespace Fbx
variable {α : Type}

/-- The call has nothing to skip in state `s`: the attributes of the innermost node, or the previous attribute, have
been read up to their declared end, and `skip_current_node` is called only at the node's declared end. -/
def Client.caughtUp (s : Client) : Call α → Prop
  | .next => ∀ n outer, s.parser.started = n :: outer → n.attrEnd ≤ s.parser.reader.position
  | .load _ _ => ∀ a, s.attrs = some a → a.rest = 0 ∨ a.next ≤ s.parser.reader.position
  | .skip => ∀ n outer, s.parser.started = n :: outer → n.endOff = s.parser.reader.position
  | .setHandler _ => True

/-- No call of the history has anything to skip. -/
def SkipsNothing (Z : Zlib) (s : Client) (h : History α) : Prop :=
  ∀ a c o b u, h = a ++ (c, o) :: b → Runs Z s a u → u.caughtUp c

/-- The same client on a source that cannot seek. -/
def Client.plain (s : Client) : Client := { s with parser := { s.parser with reader := { s.parser.reader with seekable := false } } }

/-- How many bytes the call has to skip in state `s`, according to the tracked position: up to the declared end of the
innermost node's attributes, of the previous attribute, or of the node. -/
def Client.unread (s : Client) : Call α → Nat
  | .next => match s.parser.started with
    | [] => 0
    | n :: _ => n.attrEnd - s.parser.reader.position
  | .load _ _ => match s.attrs with
    | none => 0
    | some a => if a.rest = 0 then 0 else a.next - s.parser.reader.position
  | .skip => match s.parser.started with
    | [] => 0
    | n :: _ => n.endOff - s.parser.reader.position
  | .setHandler _ => 0

/-- The true offset in the file, when the file has `bytes` after its header: everything taken from the source so far. -/
def Client.offset (bytes : Bytes) (s : Client) : Nat := headerLen + (bytes.length - s.parser.reader.rest.length)

/-- By how much the tracked position is less than the true offset. -/
def Client.lag (bytes : Bytes) (s : Client) : Nat := s.offset bytes - s.parser.reader.position

/-- Length of the terminator of the root's children: an all-zero node header. -/
def terminatorLen (v : FbxVersion) : Nat := if v < 7500 then 13 else 25

end Fbx
