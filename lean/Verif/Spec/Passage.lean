import Verif.Spec.AnyRead
import Verif.Spec.Read

/-! # Reading a document from a source of any type, event by event -/

namespace Fbx.Spec
variable {ρ α : Type}

/-- The calls of a client that reads a forest: for each node an event, every attribute, the children, and an event again. -/
def perusal (buffered : Bool) : Forest DAttr → List (WCall AttrValue)
  | .nil => []
  | .cons _ attrs children rest =>
    .next :: (attrs.map (fun _ => .load buffered Device.direct) ++ (perusal buffered children ++ .next :: perusal buffered rest))

/-- What it is to be told. -/
def told : Forest DAttr → List (Outcome AttrValue)
  | .nil => []
  | .cons name attrs children rest =>
    .event (.startNode name attrs.length) :: (attrs.map (fun a => .value a.value) ++ (told children ++ .event .endNode :: told rest))

/-- Opening the source in state `x` with `AnyParser::from_seekable_reader` (or `from_reader`) ends with success, the parser is for version `v`, and a
client that makes the calls `cs` is told `os`. -/
def Beholds (S : Source ρ) (tape : ρ → Tape) (Z : Zlib) (checks seekable : Bool) (x : ρ) (v : FbxVersion) (cs : List (WCall α)) (os : List (Outcome α)) : Prop :=
  ∃ fuel₀ p y t, p.version = v ∧ ∀ fuel ≥ fuel₀,
    S.anyParser fuel checks seekable (tape x).rest (tape x).ending (tape x).pos (tape x).limit x = some (.ok (p, y)) ∧
    observeFrom S Z fuel (⟨p, none⟩, y) cs = some (os, t)

end Fbx.Spec
