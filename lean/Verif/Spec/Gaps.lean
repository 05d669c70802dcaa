import Verif.Spec.History

/-! # Bytes which are passed over: specification vocabulary -/

namespace Fbx.Spec
variable {α : Type}

/-- Where a call goes before it reads anything: `next_event` to the end of the attributes of the current node, `load_next` to the next
attribute, `skip_current_node` to the end of the current node. (A running parser has not met the end of the document, and there are no more
attributes left than there are.) -/
def goesTo (s : Client) : Call α → Option Nat
  | .next => if s.parser.health = .running ∧ s.parser.last ≠ some .endFbx then s.parser.started.head?.map Started.attrEnd else none
  | .load _ _ => if s.parser.health = .running then s.attrs.bind (fun a => if 0 < a.rest ∧ a.rest ≤ a.total then some a.next else none) else none
  | .skip => s.parser.started.head?.map Started.endOff
  | .setHandler _ => none

/-- How many bytes the call passes over in this way, on a device which can seek that far. -/
def passes (s : Client) (c : Call α) : Nat :=
  match goesTo s c with
  | none => 0
  | some q => if q < 2 ^ 64 ∧ s.parser.reader.cursor + (q - s.parser.reader.position) ≤ s.parser.reader.seekLimit then q - s.parser.reader.position else 0

/-- A history, with the offsets of the device between which bytes were passed over. -/
inductive Tour (Z : Zlib) (s : Client) : History α → List (Nat × Nat) → Client → Prop where
  | nil : Tour Z s [] [] s
  | snoc {h : History α} {gaps : List (Nat × Nat)} {t u : Client} {c : Call α} {o : Outcome α} : Tour Z s h gaps t → (∀ c' x, (c', .panic x) ∉ h) →
      t.call Z c = some (o, u) → Tour Z s (h ++ [(c, o)]) (gaps ++ [(t.parser.reader.cursor, t.parser.reader.cursor + passes t c)]) u

/-- The offset lies in a gap. -/
def inGap (gaps : List (Nat × Nat)) (i : Nat) : Prop := ∃ g ∈ gaps, g.1 ≤ i ∧ i < g.2

end Fbx.Spec
