import Verif.Proof.ShortReads
import Verif.Props.Chunked
import Verif.Props.Attribute
import Verif.Props.Files

/-! # C69: parsing does not depend on how the source splits its reads -/

namespace Fbx
open Spec
variable {α : Type} {D : Device}

/-- **C69** (opening). On a device which does not return `Interrupted` for ever, `AnyParser` ends and returns what it returns on a source that
delivers whatever is asked for: the same parser, or the same error. -/
theorem C69_open (hf : Fair D.sched) (checks seekable : Bool) (bytes : Bytes) (ending : Option IoErr) (cursor limit : Nat) :
    ∃ fuel₀ i, ∀ fuel ≥ fuel₀, D.anyParser fuel checks seekable bytes ending cursor limit =
      some (opened i (anyParser checks seekable bytes ending cursor limit)) :=
  Device.anyParser_follows hf checks seekable bytes ending cursor limit

/-- **C69** (calls). After opening, whatever number `i` of reads have been made: any sequence of calls ends, has the same results — events,
values, errors with their positions, panics — and leaves the parser in the same state, which includes all warnings with their positions. -/
theorem C69_calls (hf : Fair D.sched) (Z : Zlib) {checks seekable : Bool} {bytes : Bytes} {ending : Option IoErr} {cursor limit : Nat} {p : Parser}
    (h : anyParser checks seekable bytes ending cursor limit = .ok p) (i : Nat) (cs : List (WCall α)) : SameCalls D Z ⟨p, none⟩ i cs :=
  Device.observe_follows hf Z cs ⟨p, none⟩ i (Device.anyParser_position h)

/-- **C69** (calls), for a parser in any state that has not read `2 ^ 64` bytes. -/
theorem C69_calls_from (hf : Fair D.sched) (Z : Zlib) (s : Client) (hs : s.parser.reader.position < 2 ^ 64) (i : Nat) (cs : List (WCall α)) :
    SameCalls D Z s i cs :=
  Device.observe_follows hf Z cs s i hs

/-- **C69** (trees). `AnyTree` ends and returns the tree or the error which it returns on a source that delivers whatever is asked for. -/
theorem C69_tree (hf : Fair D.sched) (Z : Zlib) (checks seekable : Bool) (bytes : Bytes) (ending : Option IoErr) (cursor limit : Nat)
    (hlen : bytes.length + 2 ^ 32 ≤ 2 ^ 64) :
    ∃ fuel₀, ∀ fuel ≥ fuel₀, D.anyTree fuel Z checks seekable bytes ending cursor limit = some (anyTree Z checks seekable bytes ending cursor limit) :=
  Device.anyTree_follows hf Z checks seekable bytes ending cursor limit fun h => by
    have := C52_any_tree Z checks seekable bytes ending cursor limit hlen
    rw [h] at this
    cases this.1

/-! ## Examples -/

/-- Every other read is interrupted, the others deliver one, two, … bytes; std's buffers have one to three bytes. -/
def exDevice : Device := ⟨exSchedule, fun i => i % 3, 1⟩

/-- The loader of the tree is one of those to which C69 applies. -/
example : Device.direct.loader = directLoader := rfl

def exSplitCalls : List (WCall AttrValue) := [.next, .load false Device.direct, .load true Device.direct, .load false Device.direct]

/-- What is seen of an outcome: names and values. -/
def brief : Outcome AttrValue → Option (String × Nat ⊕ AttrValue)
  | .event (.startNode n k) => some (.inl (n, k))
  | .value v => some (.inr v)
  | _ => none

/-- Node `A` and its three attributes, with two warnings: in pieces of one to three bytes. -/
example : (observeOn exDevice Zlib.stored 100 (⟨exParser true false 7400 exAttrs, none⟩, 0) exSplitCalls).map (fun y => (y.1.map brief, y.2.parser.log.length)) =
    some ([some (.inl ("A", 3)), some (.inr (.bool false)), some (.inr (.arrBool [false, true])), some (.inr (.string "B"))], 2) := by decide +kernel

example : SameCalls exDevice Zlib.stored ⟨exParser true false 7400 exAttrs, none⟩ 0 exSplitCalls :=
  C69_calls_from exSchedule_fair Zlib.stored _ (by decide) 0 exSplitCalls

example := C69_tree (D := exDevice) exSchedule_fair Zlib.stored true false (signature ++ leBytes 4 7400 ++ exAttrs) none 0 0 (by decide +kernel)
example := C69_open (D := exDevice) exSchedule_fair true false (signature ++ leBytes 4 7400 ++ exAttrs) (some (.other 3)) 0 0

end Fbx
