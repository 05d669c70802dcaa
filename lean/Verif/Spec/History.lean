import Verif.Model.Attribute
import Verif.Model.Loaders

/-! # Clients of the pull parser: arbitrary sequences of calls -/

namespace Fbx
variable {α : Type}

/-- A call of a client. All the loaders of a client return the same type `α`, which can be any type. -/
inductive Call (α : Type) where
  /-- `Parser::next_event` -/
  | next
  /-- `Attributes::load_next`, or `load_next_buffered`, on the attributes of the node just started -/
  | load (buffered : Bool) (l : Loader α)
  /-- `Parser::skip_current_node` -/
  | skip
  /-- `Parser::set_warning_handler` -/
  | setHandler (h : Handler)

/-- What the client observes. -/
inductive Outcome (α : Type) where
  | event (e : Event)
  | value (v : α)
  | noValue
  | done
  | err (e : PErr)
  | panic (x : Panic)

/-- The state a client holds: the parser and, after the start of a node, its attribute reader. -/
structure Client where
  parser : Parser
  attrs : Option Attrs

/-- The attribute reader of the node just started, if any. -/
def attrsOf (p : Parser) : Option Attrs := match AP.ofParser p with
  | .ok a => some a.attrs
  | _ => none

/-- One call. `none`: the call is not available (there is no attribute reader). Any call on the parser ends the life
of the attribute reader, which borrows the parser. -/
def Client.call (Z : Zlib) (s : Client) : Call α → Option (Outcome α × Client)
  | .next => match Parser.nextEvent s.parser with
    | (.ok ev, p) => some (.event ev, ⟨p, match ev with | .startNode _ _ => attrsOf p | _ => none⟩)
    | (.err e, p) => some (.err e, ⟨p, none⟩)
    | (.panic x, p) => some (.panic x, ⟨p, none⟩)
  | .load b l => match s.attrs with
    | none => none
    | some at_ => match AP.load Z b l ⟨s.parser, at_⟩ with
      | (.ok (some v), a) => some (.value v, ⟨a.parser, some a.attrs⟩)
      | (.ok none, a) => some (.noValue, ⟨a.parser, some a.attrs⟩)
      | (.err e, a) => some (.err e, ⟨a.parser, some a.attrs⟩)
      | (.panic x, a) => some (.panic x, ⟨a.parser, some a.attrs⟩)
  | .skip => match Parser.skipCurrentNode s.parser with
    | (.ok _, p) => some (.done, ⟨p, none⟩)
    | (.err e, p) => some (.err e, ⟨p, none⟩)
    | (.panic x, p) => some (.panic x, ⟨p, none⟩)
  | .setHandler h => some (.done, ⟨s.parser.setHandler h, none⟩)

/-- Observed history: calls with their outcomes, oldest first. -/
abbrev History (α : Type) := List (Call α × Outcome α)

/-- `Runs Z s h t`: from state `s` the history `h` leads to state `t`. Nothing is called after a panic. -/
inductive Runs (Z : Zlib) (s : Client) : History α → Client → Prop where
  | nil : Runs Z s [] s
  | snoc {h : History α} {t u : Client} {c : Call α} {o : Outcome α} : Runs Z s h t → (∀ c' x, (c', .panic x) ∉ h) →
      t.call Z c = some (o, u) → Runs Z s (h ++ [(c, o)]) u

/-- `p` is the parser created by `Parser::from_reader` or `Parser::from_seekable_reader` on a source which has the
given bytes after the header (`parser.rs:40-56,61-73`). -/
def Opens (p : Parser) (bytes : Bytes) : Prop :=
  ∃ checks v ending cursor seekable limit, Parser.create checks v ⟨bytes, ending, cursor, headerLen, seekable, limit⟩ = .ok p

/-- Sizes for which no offset can leave the range of `u64`. -/
def Sized (bytes : Bytes) : Prop := headerLen + bytes.length + 2 ^ 32 ≤ 2 ^ 64

/-- Some calls in a row: the outcomes and the final state (`none` if a call is not available). -/
def Client.session (Z : Zlib) (s : Client) : List (Call α) → Option (List (Outcome α) × Client)
  | [] => some ([], s)
  | c :: cs => match s.call Z c with
    | none => none
    | some (o, t) => match t.session Z cs with
      | none => none
      | some (os, u) => some (o :: os, u)

namespace Call

/-- `next_event` or `load_next`. -/
def reads : Call α → Bool
  | next => true
  | load _ _ => true
  | skip => false
  | setHandler _ => false

def isLoad : Call α → Bool
  | load _ _ => true
  | _ => false

end Call

namespace Outcome

def isStart : Outcome α → Bool
  | event (.startNode _ _) => true
  | _ => false

def isEnd : Outcome α → Bool
  | event .endNode => true
  | _ => false

def isEndFbx : Outcome α → Bool
  | event (.endFbx _) => true
  | _ => false

def isEvent : Outcome α → Bool
  | event _ => true
  | _ => false

def isErr : Outcome α → Bool
  | err _ => true
  | _ => false

def isValue : Outcome α → Bool
  | value _ => true
  | _ => false

end Outcome

namespace History

/-- Number of nodes started. -/
def starts (h : History α) : Nat := h.countP (fun x => x.2.isStart)

/-- Number of nodes ended by an event. -/
def ends (h : History α) : Nat := h.countP (fun x => x.2.isEnd)

/-- Number of nodes left by `skip_current_node` (also when its seek fails). -/
def skips (h : History α) : Nat := h.countP (fun x => match x with
  | (.skip, .done) => true
  | (.skip, .err _) => true
  | _ => false)

/-- Number of events. -/
def events (h : History α) : Nat := h.countP (fun x => x.2.isEvent)

/-- Number of attribute values loaded. -/
def values (h : History α) : Nat := h.countP (fun x => x.2.isValue)

/-- No call of `next_event` or `load_next` has failed. -/
def clean (h : History α) : Prop := ∀ x ∈ h, x.1.reads = true → x.2.isErr = false

/-- Effect of a call on the open nodes, listed innermost first with name, index among the siblings and number of
children started so far, and on the number of top level nodes started. -/
def openStep (st : List (String × Nat × Nat) × Nat) (x : Call α × Outcome α) : List (String × Nat × Nat) × Nat :=
  match x, st with
  | (_, .event (.startNode name _)), ([], top) => ([(name, top, 0)], top + 1)
  | (_, .event (.startNode name _)), ((pn, pi, pk) :: outer, top) => ((name, pk, 0) :: (pn, pi, pk + 1) :: outer, top)
  | (_, .event .endNode), (_ :: outer, top) => (outer, top)
  | (.skip, .done), (_ :: outer, top) => (outer, top)
  | (.skip, .err _), (_ :: outer, top) => (outer, top)
  | _, st => st

/-- The open nodes according to the observed events. -/
def openNodes (h : History α) : List (String × Nat × Nat) × Nat := h.foldl openStep ([], 0)

/-- The path of the open nodes, outermost first: index among the siblings and name. -/
def path (h : History α) : List (Nat × String) := (h.openNodes.1.map (fun n => (n.2.1, n.1))).reverse

end History
end Fbx

namespace Fbx.History
variable {α : Type}

/-- No call has panicked. -/
def calm (h : History α) : Prop := ∀ c x, (c, .panic x) ∉ h

/-- No node that was open before `h` is closed during `h`. -/
def inner (h : History α) : Prop := ∀ a b : History α, h = a ++ b → a.ends + a.skips ≤ a.starts

end Fbx.History
