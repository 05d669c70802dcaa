import Verif.Model.ShortReads
import Verif.Spec.Chunked
import Verif.Spec.History

/-!
# Clients of a parser whose source splits its reads: specification vocabulary

`observe` is what a client sees of a parser on a source that delivers whatever is asked for; `observeOn` is what it sees on a device with
short and interrupted reads.
-/

namespace Fbx.Spec
variable {α : Type}

/-- A call of a client whose loaders read strings and binaries by `read_to_end`, or not at all. -/
inductive WCall (α : Type) where
  /-- `Parser::next_event` -/
  | next
  /-- `Attributes::load_next`, or `load_next_buffered` -/
  | load (buffered : Bool) (l : Device.WLoader α)
  /-- `Parser::skip_current_node` -/
  | skip
  /-- `Parser::set_warning_handler` -/
  | setHandler (h : Handler)

/-- The call on a source that delivers whatever is asked for. -/
def WCall.call : WCall α → Call α
  | next => .next
  | load b l => .load b l.loader
  | skip => .skip
  | setHandler h => .setHandler h

/-- What a client observes that makes the calls in turn, and its state in the end (with all warnings). It ends with a panic, and with a call
which the borrow checker does not allow: an attribute is loaded although no node has just been started. -/
def observe (Z : Zlib) (s : Client) : List (Call α) → List (Outcome α) × Client
  | [] => ([], s)
  | c :: cs => match s.call Z c with
    | none => ([], s)
    | some (.panic x, t) => ([.panic x], t)
    | some (o, t) => (o :: (observe Z t cs).1, (observe Z t cs).2)

/-- A call on the device, of which a number of reads have been made. `none`: the fuel was not enough; `some none`: the call is not allowed. -/
def callOn (D : Device) (Z : Zlib) (fuel : Nat) (s : Client × Nat) : WCall α → Option (Option (Outcome α × (Client × Nat)))
  | .next => match D.nextEvent fuel (s.1.parser, s.2) with
    | none => none
    | some (.ok ev, (p, i)) => some (some (.event ev, (⟨p, match ev with | .startNode _ _ => attrsOf p | _ => none⟩, i)))
    | some (.err e, (p, i)) => some (some (.err e, (⟨p, none⟩, i)))
    | some (.panic x, (p, i)) => some (some (.panic x, (⟨p, none⟩, i)))
  | .load b l => match s.1.attrs with
    | none => some none
    | some at_ => match D.load Z b l fuel (⟨s.1.parser, at_⟩, s.2) with
      | none => none
      | some (.ok (some v), (a, i)) => some (some (.value v, (⟨a.parser, some a.attrs⟩, i)))
      | some (.ok none, (a, i)) => some (some (.noValue, (⟨a.parser, some a.attrs⟩, i)))
      | some (.err e, (a, i)) => some (some (.err e, (⟨a.parser, some a.attrs⟩, i)))
      | some (.panic x, (a, i)) => some (some (.panic x, (⟨a.parser, some a.attrs⟩, i)))
  | .skip => match D.skipCurrentNode fuel (s.1.parser, s.2) with
    | none => none
    | some (.ok _, (p, i)) => some (some (.done, (⟨p, none⟩, i)))
    | some (.err e, (p, i)) => some (some (.err e, (⟨p, none⟩, i)))
    | some (.panic x, (p, i)) => some (some (.panic x, (⟨p, none⟩, i)))
  | .setHandler h => some (some (.done, (⟨s.1.parser.setHandler h, none⟩, s.2)))

/-- What a client observes on the device, and its state in the end; `none`: the fuel was not enough. -/
def observeOn (D : Device) (Z : Zlib) (fuel : Nat) (s : Client × Nat) : List (WCall α) → Option (List (Outcome α) × Client)
  | [] => some ([], s.1)
  | c :: cs => match callOn D Z fuel s c with
    | none => none
    | some none => some ([], s.1)
    | some (some (.panic x, t)) => some ([.panic x], t.1)
    | some (some (o, t)) => (observeOn D Z fuel t cs).map fun y => (o :: y.1, y.2)

/-- On the device the calls end, the client sees what it sees on the whole source and, unless there was a panic, its state is the same. -/
def SameCalls (D : Device) (Z : Zlib) (s : Client) (i : Nat) (cs : List (WCall α)) : Prop :=
  ∃ fuel₀ t, (∀ fuel ≥ fuel₀, observeOn D Z fuel (s, i) cs = some ((observe Z s (cs.map WCall.call)).1, t)) ∧
    ((∀ x, .panic x ∉ (observe Z s (cs.map WCall.call)).1) → t = (observe Z s (cs.map WCall.call)).2)

/-- The result of opening a file, with the number of reads made. -/
def opened (i : Nat) : Res AnyError Parser → Res AnyError (Parser × Nat)
  | .ok p => .ok (p, i)
  | .err e => .err e
  | .panic x => .panic x

end Fbx.Spec
