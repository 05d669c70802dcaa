import Verif.Spec.Mixed
import Verif.Props.Macros

/-!
# C65: `write_tree` and the macro anywhere in a session
-/

namespace Fbx
open Spec Tree Writer
open Forest (plain)

/-- **C65** (calls). Anywhere in a session, with any calls before and after, at any depth, on any device: `write_tree` and `write_v7400_binary!` do
exactly what the single calls for their documents do. -/
theorem C65_anywhere (Z : Zlib) {cs : List Item} {os : List Op} (h : Spelled cs os) : runMixed Z cs = run Z os := by
  induction h with
  | nil => rfl
  | op _ ih => simp only [runMixed, Writer.run, ih]
  | tree ht hF _ ih => simp only [runMixed, Writer.run_append, ih, writeTree_eq ht hF]
  | lit _ ih => simp only [runMixed, Writer.run_append, ih, writeMacro_eq]

/-- **C65** (sessions). A session is the session of the single calls. -/
theorem C65_session (Z : Zlib) {cs : List Item} {os : List Op} (h : Spelled cs os) (s : Sink) (v : FbxVersion) (f : FooterSpec) :
    mixedSession Z s v cs f = session Z s v os f := by
  unfold mixedSession session
  rw [C65_anywhere Z h]
  rfl

theorem calls_followedBy (F G : Forest AttrValue) : calls ((F.followedBy G).map appendOf) = calls (F.map appendOf) ++ calls (G.map appendOf) := by
  induction F with
  | nil => rfl
  | cons n as ch r _ ih => simp only [Forest.followedBy, Forest.map, calls, ih, List.cons_append, List.append_assoc]

theorem spelled_append {a b : List Item} {x y : List Op} (h : Spelled a x) (h' : Spelled b y) : Spelled (a ++ b) (x ++ y) := by
  induction h with
  | nil => exact h'
  | op _ ih => exact .op ih
  | tree h1 h2 _ ih => rw [List.append_assoc]; exact .tree h1 h2 ih
  | lit _ ih => rw [List.append_assoc]; exact .lit ih

theorem spelled_attrs (vs : List AttrValue) : Spelled (vs.map (fun v => .op (.append (appendOf v)))) ((vs.map appendOf).map Op.append) := by
  induction vs with
  | nil => exact .nil
  | cons v vs ih => exact .op ih

theorem plan_spelled {P : Plan} {F : Forest AttrValue} (h : P.Describes F) (hP : P.trees WF) : Spelled P.calls (calls (F.map appendOf)) := by
  induction h with
  | nil => exact .nil
  | node _ _ ih1 ih2 =>
    simp only [Plan.calls, Forest.map, calls]
    exact .op (spelled_append (spelled_attrs _) (spelled_append (ih1 hP.1) (.op (ih2 hP.2))))
  | tree hF _ ih => rw [calls_followedBy]; exact .tree hP.1 hF (ih hP.2)
  | lit _ ih => rw [calls_followedBy]; exact .lit (ih hP)

/-- **C65** (documents). Every plan with trees that programs can build describes exactly one document. -/
theorem C65_describes (P : Plan) (hP : P.trees Reachable) : ∃ F, P.Describes F ∧ ∀ G, P.Describes G → G = F := by
  induction P with
  | nil => exact ⟨.nil, .nil, fun G h => by cases h; rfl⟩
  | node name attrs kids rest ih1 ih2 =>
    obtain ⟨F, h1, h2⟩ := ih1 hP.1
    obtain ⟨G, h3, h4⟩ := ih2 hP.2
    exact ⟨_, .node h1 h3, fun K h => by cases h with | node a b => rw [h2 _ a, h4 _ b]⟩
  | tree t rest ih =>
    obtain ⟨G, h3, h4⟩ := ih hP.2
    obtain ⟨name, F, hn, hF, hr⟩ := root_forest (C43_reachable_well_formed hP.1)
    refine ⟨_, .tree hF h3, fun K h => ?_⟩
    cases h with
    | tree a b => rw [h4 _ b, roses_inj (rep_det.2 _ _ a _ hF)]
  | lit l rest ih =>
    obtain ⟨G, h3, h4⟩ := ih hP
    exact ⟨_, .lit h3, fun K h => by cases h with | lit b => rw [h4 _ b]⟩

theorem trees_mono {A B : Tree → Prop} (h : ∀ t, A t → B t) : ∀ {P : Plan}, P.trees A → P.trees B
  | .nil, _ => trivial
  | .node _ _ _ _, hP => ⟨trees_mono h hP.1, trees_mono h hP.2⟩
  | .tree _ _, hP => ⟨h _ hP.1, trees_mono h hP.2⟩
  | .lit _ rest, hP => trees_mono (P := rest) h hP

/-- **C65** (files). What a session writes for a plan is the file of the document the plan describes. -/
theorem C65_layout (Z : Zlib) {P : Plan} (hP : P.trees Reachable) {F : Forest AttrValue} (hF : P.Describes F) (s s' : Sink) (v : FbxVersion) (f : FooterSpec)
    (h : mixedSession Z s v P.calls f = (.ok (), s')) : supported v.toNat ∧ document v.toNat (attrBytes Z) F.plain (footOf f) <+: s'.buf := by
  rw [C65_session Z (plan_spelled hF (trees_mono (fun _ => C43_reachable_well_formed) hP))] at h
  have hl : legal false (calls (F.map appendOf)) = true := by
    have := legal_calls (F.map appendOf) false [] (fun _ _ => rfl)
    rw [List.append_nil] at this
    exact this.trans rfl
  obtain ⟨G, h1, h2, h3⟩ := C06_layout Z s s' v _ f hl h
  have := C06_forest_unique _ _ h1
  subst this
  refine ⟨h2, ?_⟩
  obtain ⟨h4, -⟩ := h3 (intact_forest _)
  rw [h4]
  have e2 : document v.toNat (callBytes Z) (F.map appendOf) (footOf f) = document v.toNat (attrBytes Z) F.plain (footOf f) := by
    rw [plain, ← Parser.document_map v.toNat appendOf (callBytes Z), ← Parser.document_map v.toNat (fun v => ({ value := v } : DAttr)) (attrBytes Z)]
    simp only [callBytes, denote_appendOf]
  rw [e2]
  exact List.prefix_append _ _

/-- **C65** (round trip). Loading the file gives a tree with the document that the plan describes. -/
theorem C65_round_trip (Z : Zlib) (hZ : Z.Lawful) {P : Plan} (hP : P.trees Reachable) {F : Forest AttrValue} (hF : P.Describes F)
    (s s' : Sink) (v : FbxVersion) (f : FooterSpec) (h : mixedSession Z s v P.calls f = (.ok (), s')) (hlen : s'.buf.length + 2 ^ 32 ≤ 2 ^ 64)
    (checks : Bool) (H : Option Handler) (hH : indulgent H) (ending : Option IoErr) (cursor limit : Nat) (hlim : cursor + s'.buf.length ≤ limit) :
    ∃ u footer q, loadFile Z checks H ending cursor limit s'.buf = some (.ok (u, footer), q) ∧ WF u ∧ Rep u u.root (.node "" [] F.roses) := by
  rw [C65_session Z (plan_spelled hF (trees_mono (fun _ => C43_reachable_well_formed) hP))] at h
  obtain ⟨h2, tl, htl, hp⟩ := Parser.parse_forest hZ h (intact_forest F)
  rw [map_denote] at htl hp
  simp only [htl, document, List.append_assoc] at hlen hlim ⊢
  obtain ⟨P, -, -, -, -, -, -, hP⟩ := hp _ false checks everything H ending cursor limit _ (Parser.everything_ok _ _ _) (by omega) hlim (.inr hH)
  rw [Parser.everything_expected] at hP
  obtain ⟨u, hu1, hu2, hu3⟩ := parse_load (by omega) hP
  exact ⟨u, _, _, hu1, hu2, hu3⟩

/-! ## Examples -/

/-- A node with an attribute that contains the nodes of the example tree between a literal and an empty node. -/
def exPlan : Plan := .node "Top" [.i16 7#16] (.lit (.bare "L" .nil .nil) (.tree exTree (.node "Last" [] .nil .nil))) (.tree exTree .nil)

theorem exPlan_reachable : exPlan.trees Reachable := ⟨⟨exTree_reachable, trivial, trivial⟩, exTree_reachable, trivial⟩

def exPlanDoc : Forest AttrValue :=
  .cons "A" [] (.cons "B" [.i32 5#32, .string "x"] (.cons "C" [] .nil .nil) (.cons "D" [] .nil .nil)) (.cons "E" [] .nil .nil)

theorem exTree_doc : RepList exTree (exTree.children exTree.root) exPlanDoc.roses :=
  .cons (i := 1) (is := [5]) (.mk (by decide) (.cons (i := 2) (is := [4]) (.mk (by decide) (.cons (.mk (by decide) .nil) .nil)) (.cons (.mk (by decide) .nil) .nil)))
    (.cons (.mk (by decide) .nil) .nil)

example : exPlan.Describes (.cons "Top" [.i16 7#16]
    (.cons "L" [] .nil (exPlanDoc.followedBy (.cons "Last" [] .nil .nil))) (exPlanDoc.followedBy .nil)) :=
  .node (.lit (l := .bare "L" .nil .nil) (.tree exTree_doc (.node .nil .nil))) (.tree exTree_doc .nil)
example : ∃ os, Spelled [.op .closeNode, .tree exTree, .op (.newNode "open"), .lit exLit] os :=
  ⟨_, .op (.tree exTree_wf exTree_doc (.op (.lit .nil)))⟩
/-- A session with a node that contains a literal and a tree succeeds. -/
example : (match (mixedSession Zlib.stored exSink 7400 (Plan.node "Top" [.i16 7#16] (.lit (.bare "L" .nil .nil) (.tree (Tree.run (.appendNew 0 "A") Tree.empty).2 .nil)) .nil).calls exFooter).1 with
    | .ok () => true
    | _ => false) = true := by decide +kernel

end Fbx
