import Verif.Spec.History

/-! # Warning handlers: specification vocabulary -/

namespace Fbx.Spec
open Parser

/-- Having seen the warnings `log` (newest first), the handler returns `Err(e)` for the warning `w`. -/
def Objects (h : Option Handler) (log : List (Warning × SynPos)) (w : Warning) (pos : SynPos) (e : PErr) : Prop :=
  match h with
  | none => False
  | some f => f log w pos = some e

/-- The error which the handler returns for a warning, if there is a warning and the handler objects to it. -/
def objection (h : Option Handler) (log : List (Warning × SynPos)) (w : Option (Warning × SynPos)) : Option ErrKind :=
  match h, w with
  | some f, some (w, pos) => (f log w pos).map PErr.kind
  | _, _ => none

/-- The warnings `log` extend `base`, and the handler returned `Ok` for each of the new ones. -/
inductive Accepted (h : Option Handler) (base : List (Warning × SynPos)) : List (Warning × SynPos) → Prop where
  | refl : Accepted h base base
  | step {log : List (Warning × SynPos)} {w : Warning} {pos : SynPos} : Accepted h base log → (∀ e, ¬ Objects h log w pos e) →
      Accepted h base ((w, pos) :: log)

/-- The call reports the handler's error `e0` about a warning at `pos`: it fails with that error, carrying the position of
the failure, and the parser is aborted there; or, if the warning is about the footer, the end event carries the error and
the position of the warning. `q` is the parser after the call. -/
def Reports {α : Type} (e0 : PErr) (pos : SynPos) (o : Outcome α) (q : Parser) : Prop :=
  (∃ e at_, o = .err e ∧ e.kind = e0.kind ∧ e.pos = some at_ ∧ q.health = .aborted at_) ∨
  (o = .event (.endFbx (.error ⟨e0.kind, some pos⟩)) ∧ q.health = .finished)

/-- The history sets no warning handler. -/
def NoSet {α : Type} (h : History α) : Prop := ∀ x ∈ h, ∀ f, x.1 ≠ Call.setHandler f

end Fbx.Spec
