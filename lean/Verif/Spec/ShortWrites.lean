import Verif.Model.ShortWrites
import Verif.Spec.TreeIO

/-! # Devices that split writes: specification vocabulary -/

namespace Fbx.Spec

/-- The device does not return `Interrupted` for ever. -/
def Responsive (D : WriteSchedule) : Prop := ∀ i, ∃ j, D (i + j) ≠ .interrupted

/-- The device works: it may store bytes in pieces and be interrupted, but it always goes on. -/
def Working (D : WriteSchedule) : Prop := ∀ i, D i = .interrupted ∨ ∃ k, D i = .takes k

/-- The device reports this error at some time. That it stores nothing is reported by `write_all` as `.other 0` (`ErrorKind::WriteZero`). -/
def Tells (D : WriteSchedule) (e : IoErr) : Prop := (∃ i, D i = .fails e) ∨ ((∃ i, D i = .nothing) ∧ e = .other 0)

/-- On the device the session (given as a function of the fuel) ends, with the result `r.1`, and leaves the content and the cursor of `r.2`; with
less fuel it does not end in another way. -/
def EndsAs (loop : Nat → Option (Res WErr Unit × Sink)) (r : Res WErr Unit × Sink) : Prop :=
  ∃ fuel₀ t, (∀ fuel ≥ fuel₀, loop fuel = some (r.1, t)) ∧ (∀ fuel y, loop fuel = some y → y = (r.1, t)) ∧ t.buf = r.2.buf ∧ t.pos = r.2.pos

/-- The results of calls of a writer one after the other, errors or not, and the writer in the end. It ends with a panic. -/
def attempts (Z : Zlib) : List Writer.Op → Writer → List (Res WErr Unit) × Writer
  | [], w => ([], w)
  | o :: os, w => match Writer.exec Z o w with
    | (.panic p, w') => ([.panic p], w')
    | (x, w') => (x :: (attempts Z os w').1, (attempts Z os w').2)

/-- The same on the device, of which a number of operations have been made. `none`: the fuel was not enough. -/
def attemptsOn (D : WriteSchedule) (Z : Zlib) (fuel : Nat) : List Writer.Op → Writer × Nat → Option (List (Res WErr Unit) × Writer)
  | [], w => some ([], w.1)
  | o :: os, w => match Pieces.exec D Z o fuel w with
    | none => none
    | some (.panic p, w') => some ([.panic p], w'.1)
    | some (x, w') => (attemptsOn D Z fuel os w').map fun y => (x :: y.1, y.2)

end Fbx.Spec
