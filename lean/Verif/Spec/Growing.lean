import Verif.Spec.Unsteady

/-! # Files that are still being written while they are read -/

namespace Fbx
variable {α : Type}

/-- Like `Runs`, but at each call the device shows only some of the bytes of the file after the place where it stands, with any
ending: those that have been written, or have arrived, by then. The file begins, for the parser, at the offset `start` of the
device. No call comes to the end of what is shown to it. -/
inductive Growing (Z : Zlib) (file : Bytes) (start : Nat) (s : Client) : History α → Client → Prop where
  | nil : Growing Z file start s [] s
  | snoc {h : History α} {t u : Client} {c : Call α} {o : Outcome α} {d : Showing} {later : Bytes} :
      Growing Z file start s h t → h.calm →
      file.drop (t.parser.reader.cursor - start) = d.rest ++ later →
      d.cursor = t.parser.reader.cursor → d.limit = t.parser.reader.seekLimit →
      (t.facing d).call Z c = some (o, u) → u.parser.reader.rest ≠ [] →
      Growing Z file start s (h ++ [(c, o)]) u

/-- The client, with the complete file behind its parser. -/
def Client.complete (s : Client) (file : Bytes) (start : Nat) (ending : Option IoErr) : Client :=
  { s with parser := { s.parser with reader := { s.parser.reader with
      rest := file.drop (s.parser.reader.cursor - start), ending := ending } } }

end Fbx
