import Verif.Spec.History

/-!
# Where the open nodes start

`Marks Z s l t`: some calls lead from `s` to `t`, none of them refused, and `l` lists where the headers of the nodes
that are open then begin, innermost first. Defined from the calls and their outcomes alone.
-/

namespace Fbx

/-- The size of a node header without the name: three numbers and one byte (`low/v7400/node_header.rs:50-75`). -/
def headSize (version : FbxVersion) : Nat := if version < 7500 then 13 else 25

inductive Marks {α : Type} (Z : Zlib) (s : Client) : List Nat → Client → Prop where
  | nil : Marks Z s [] s
  /-- A node has started: its header and its name are what was read last. -/
  | start {l : List Nat} {t u : Client} {name : String} {n : Nat} : Marks Z s l t →
      t.call Z (.next : Call α) = some (.event (.startNode name n), u) →
      Marks Z s ((u.parser.reader.position - name.utf8ByteSize - headSize u.parser.version) :: l) u
  /-- A node has ended. -/
  | stop {x : Nat} {l : List Nat} {t u : Client} : Marks Z s (x :: l) t →
      t.call Z (.next : Call α) = some (.event .endNode, u) → Marks Z s l u
  /-- A node has been skipped. -/
  | skip {x : Nat} {l : List Nat} {t u : Client} : Marks Z s (x :: l) t →
      t.call Z (.skip : Call α) = some (.done, u) → Marks Z s l u
  /-- An attribute has been read. -/
  | value {l : List Nat} {t u : Client} {b : Bool} {d : Loader α} {v : α} : Marks Z s l t →
      t.call Z (.load b d) = some (.value v, u) → Marks Z s l u
  /-- There was no attribute left. -/
  | noValue {l : List Nat} {t u : Client} {b : Bool} {d : Loader α} : Marks Z s l t →
      t.call Z (.load b d) = some (.noValue, u) → Marks Z s l u
  /-- A warning handler has been set. -/
  | setHandler {l : List Nat} {t u : Client} {h : Handler} : Marks Z s l t →
      t.call Z (.setHandler h : Call α) = some (.done, u) → Marks Z s l u

end Fbx
