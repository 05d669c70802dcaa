import Verif.Spec.TreeIO
import Verif.Spec.Macros

/-! # Programs that write nodes, trees and literals, in any mixture -/

namespace Fbx
open Spec Tree
namespace Writer

/-- A call that a program makes on a writer: a single call, `write_tree`, or `write_v7400_binary!` with an existing writer. -/
inductive Item where
  | op (o : Op)
  | tree (t : Tree)
  | lit (l : Lit)

/-- Makes the calls, each followed by `?`. -/
def runMixed (Z : Zlib) : List Item → M WErr Writer Unit
  | [] => pure ()
  | .op o :: cs => do exec Z o; runMixed Z cs
  | .tree t :: cs => do writeTree Z t; runMixed Z cs
  | .lit l :: cs => do writeMacro Z l; runMixed Z cs

/-- The single calls that calls stand for: those which write the document below the root of the tree, or the document of the literal. -/
inductive Spelled : List Item → List Op → Prop where
  | nil : Spelled [] []
  | op {o : Op} {cs : List Item} {os : List Op} : Spelled cs os → Spelled (.op o :: cs) (o :: os)
  | tree {t : Tree} {F : Forest AttrValue} {cs : List Item} {os : List Op} : WF t → RepList t (t.children t.root) F.roses → Spelled cs os →
      Spelled (.tree t :: cs) (calls (F.map appendOf) ++ os)
  | lit {l : Lit} {cs : List Item} {os : List Op} : Spelled cs os → Spelled (.lit l :: cs) (calls (l.forest.map appendOf) ++ os)

/-- A complete session: `Writer::new`, the calls, `finalize`. -/
def mixedSession (Z : Zlib) (s : Sink) (v : FbxVersion) (cs : List Item) (f : FooterSpec) : Res WErr Unit × Sink :=
  match new s v with
  | (.ok w, _) =>
    let r := (do runMixed Z cs; finalize f : M WErr Writer Unit) w
    (r.1, r.2.sink)
  | (.err e, s') => (.err e, s')
  | (.panic p, s') => (.panic p, s')

end Writer

/-- A document put together from nodes, trees and literals. -/
inductive Plan where
  | nil
  | node (name : String) (attrs : List AttrValue) (kids rest : Plan)
  | tree (t : Tree) (rest : Plan)
  | lit (l : Lit) (rest : Plan)

/-- The calls that write it. -/
def Plan.calls : Plan → List Writer.Item
  | .nil => []
  | .node name attrs kids rest =>
    .op (.newNode name) :: (attrs.map (fun v => .op (.append (Writer.appendOf v))) ++ (kids.calls ++ .op .closeNode :: rest.calls))
  | .tree t rest => .tree t :: rest.calls
  | .lit l rest => .lit l :: rest.calls

/-- The nodes of `F`, then those of `G`. -/
def Spec.Forest.followedBy {α : Type} : Forest α → Forest α → Forest α
  | .nil, G => G
  | .cons n as ch r, G => .cons n as ch (r.followedBy G)

/-- The document that a plan describes: a tree contributes the nodes below its root, at its place. -/
inductive Plan.Describes : Plan → Forest AttrValue → Prop where
  | nil : Describes .nil .nil
  | node {name : String} {attrs : List AttrValue} {kids rest : Plan} {F G : Forest AttrValue} : Describes kids F → Describes rest G →
      Describes (.node name attrs kids rest) (.cons name attrs F G)
  | tree {t : Tree} {rest : Plan} {F G : Forest AttrValue} : RepList t (t.children t.root) F.roses → Describes rest G →
      Describes (.tree t rest) (F.followedBy G)
  | lit {l : Lit} {rest : Plan} {G : Forest AttrValue} : Describes rest G → Describes (.lit l rest) (l.forest.followedBy G)

/-- All trees of the plan satisfy `P`. -/
def Plan.trees (P : Tree → Prop) : Plan → Prop
  | .nil => True
  | .node _ _ kids rest => kids.trees P ∧ rest.trees P
  | .tree t rest => P t ∧ rest.trees P
  | .lit _ rest => rest.trees P

end Fbx
