import Verif.Model.Symbols

/-! # The limit of the interner: specification vocabulary -/

namespace Fbx.Spec
open Tree

/-- The trees which programs can have: the empty one, those loaded from files, and what becomes of them by calls, whatever these return. -/
inductive Had : Tree → Prop where
  | empty : Had Tree.empty
  | loaded {Z : Zlib} {checks seekable : Bool} {bytes : Bytes} {ending : Option IoErr} {cursor limit : Nat} {v : FbxVersion} {t : Tree} {f : Except PErr Footer} :
      anyTree Z checks seekable bytes ending cursor limit = .ok (v, t, f) → Had t
  | call {t u : Tree} {op : TreeOp} {r : Res Empty Unit} : Had t → run op t = (r, u) → Had u

/-- Calls, one after the other, up to a panic. -/
def callsAll (f : TreeOp → TM Unit) : List TreeOp → TM Unit
  | [] => pure ()
  | op :: ops => do
    f op
    callsAll f ops

/-- Nodes with `n` different names are created. -/
def createMany (n : Nat) : List TreeOp := (List.range n).map (fun i => .createNode (String.ofList (List.replicate (i + 1) 'a')))

end Fbx.Spec
