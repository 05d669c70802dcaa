import Verif.Spec.History

/-! # Sources that change between the calls

The source behind the parser may be replaced before every call: bytes may appear, disappear or change, a device may
fail and recover, its cursor may be moved by somebody else. Only what the library keeps itself stays: the position it
has counted and the way it skips. -/

namespace Fbx
variable {α : Type}

/-- What a device shows at some time: the bytes to come, what follows them, where it stands and how far it can seek. -/
structure Showing where
  rest : Bytes
  ending : Option IoErr
  cursor : Nat
  limit : Nat

/-- The client, with the device behind its parser showing something else. -/
def Client.facing (s : Client) (d : Showing) : Client :=
  { s with parser := { s.parser with reader := { s.parser.reader with
      rest := d.rest, ending := d.ending, cursor := d.cursor, seekLimit := d.limit } } }

/-- Like `Runs`, but before each call the device may show anything, as long as there are not so many bytes that the
offset of the last one would exceed `size`. -/
inductive Unsteady (Z : Zlib) (size : Nat) (s : Client) : History α → Client → Prop where
  | nil : Unsteady Z size s [] s
  | snoc {h : History α} {t u : Client} {c : Call α} {o : Outcome α} {d : Showing} : Unsteady Z size s h t → h.calm →
      (d.rest ≠ [] → t.parser.reader.position + d.rest.length ≤ size) → (t.facing d).call Z c = some (o, u) →
      Unsteady Z size s (h ++ [(c, o)]) u

end Fbx
