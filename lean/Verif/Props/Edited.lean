import Verif.Proof.Edited
import Verif.Props.Outline
import Verif.Props.Reference

/-!
# C78: loading, editing and writing a file is decided by the file and the calls

C58 says which document is in a file, C77 what calls on a tree mean, C09 what is written for a document. Here they are put together,
without the tree: the nodes of a loaded file are numbered in the order of the file (`Rows.ofForest`), the calls go by the outline
(`Rows.acts`), and what is written is the document of the outline (`Rows.document`).
-/

namespace Fbx
open Spec Tree
open Writer (session treeSession appendOf intact_forest le_eq)

theorem rep_forest {t : Tree} {F : Forest AttrValue} (hr : Rep t t.root (.node "" [] F.roses)) : RepList t (t.children t.root) F.roses := by
  generalize hro : Rose.node "" [] F.roses = ro at hr
  generalize hra : t.root = i at hr ⊢
  cases hr with
  | mk hn hk =>
    simp only [Rose.node.injEq] at hro
    rw [hro.2.2]
    exact hk

/-- What is loaded is the outline of the document. -/
theorem load_outline {Z : Zlib} {p q : Parser} {t : Tree} {footer : Except PErr Footer} {F : Forest AttrValue}
    (h : Load.load Z p = (.ok (t, footer), q)) (hr : Rep t t.root (.node "" [] F.roses)) : Depicts t (Rows.ofForest F) := by
  obtain ⟨G, hG⟩ := Load.load_depicts h
  have := hG.rep
  rw [document_ofForest] at this
  have := Forest.roses_inj (rep_det.2 _ _ this _ (rep_forest hr))
  rw [← this]
  exact hG

theorem anyTree_outline {Z : Zlib} {checks sk : Bool} {bytes : Bytes} {ending : Option IoErr} {cursor limit : Nat} {v : FbxVersion} {t : Tree}
    {footer : Except PErr Footer} {F : Forest AttrValue} (h : anyTree Z checks sk bytes ending cursor limit = .ok (v, t, footer))
    (hr : Rep t t.root (.node "" [] F.roses)) : Depicts t (Rows.ofForest F) := by
  unfold anyTree at h
  split at h
  · cases h
  · cases h
  · rename_i p _
    obtain ⟨⟨r, q⟩, hl⟩ : ∃ x, Load.load Z (p.setHandler (fun _ _ _ => none)) = x := ⟨_, rfl⟩
    rw [hl] at h
    simp only at h
    cases r with
    | err e => cases h
    | panic x => cases h
    | ok x =>
      obtain ⟨u, _ | _⟩ := x
      all_goals
        cases h
        exact load_outline hl hr

/-- What is written for a document is loaded as its outline. -/
theorem session_outline {Z : Zlib} (hZ : Z.Lawful) {s s' : Sink} {v : FbxVersion} {F : Forest AttrValue} {f : Writer.FooterSpec}
    (h : session Z s v (calls (F.map appendOf)) f = (.ok (), s')) (hlen : s'.buf.length + 2 ^ 32 ≤ 2 ^ 64)
    (checks : Bool) (ending : Option IoErr) (cursor limit : Nat) (hlim : cursor + s'.buf.length ≤ limit) :
    ∃ u footer, anyTree Z checks true s'.buf ending cursor limit = .ok (v, u, footer) ∧ Depicts u (Rows.ofForest F) := by
  obtain ⟨h2, tl, htl, hp⟩ := Parser.parse_forest hZ h (intact_forest F)
  rw [map_denote] at htl hp
  obtain ⟨p, h3, h4⟩ : ∃ p, anyParser checks true s'.buf ending cursor limit = .ok p ∧ p.version = v := by
    obtain ⟨X, hX⟩ : ∃ X, s'.buf = signature ++ le 4 v.toNat ++ X := ⟨_, by rw [htl, document, body, List.append_assoc, List.append_assoc, List.append_assoc]⟩
    rw [hX] at hlen ⊢
    rw [List.length_append, List.length_append, show (le 4 v.toNat).length = 4 by rw [le_eq]; simp, show signature.length = 23 by decide] at hlen
    exact ⟨_, Parser.open_ok checks v h2 X ending cursor limit (by omega) true, rfl⟩
  have : ∃ u footer q, loadFile Z checks (some (fun _ _ _ => none)) ending cursor limit s'.buf = some (.ok (u, footer), q) ∧ Rep u u.root (.node "" [] F.roses) := by
    simp only [htl, document, List.append_assoc] at hlen hlim ⊢
    obtain ⟨P, -, -, -, -, -, -, hP⟩ := hp _ false checks everything (some (fun _ _ _ => none)) ending cursor limit _ (Parser.everything_ok _ _ _) (by omega) hlim
      (.inr (fun g hg => by cases hg; intro _ _ _; rfl))
    rw [Parser.everything_expected] at hP
    obtain ⟨u, hu1, hu2, hu3⟩ := parse_load (by omega) hP
    exact ⟨u, _, _, hu1, hu3⟩
  obtain ⟨u, footer, q, h5, h6⟩ := this
  have h7 : anyTree Z checks true s'.buf ending cursor limit = .ok (v, u, footer) := by
    simp only [loadFile, h3, Option.some.injEq] at h5
    simp only [anyTree, h3, Parser.setHandler, h5]
    rw [h4]
  exact ⟨u, footer, h7, anyTree_outline h7 h6⟩

theorem Tree.Depicts.written {t : Tree} {o : Rows} (h : Depicts t o) (Z : Zlib) (s : Sink) (v : FbxVersion) (f : Writer.FooterSpec) :
    treeSession Z s v t f = session Z s v (Spec.calls (o.document.map appendOf)) f := Writer.treeSession_eq h.wf h.rep s v f

/-- **C78** (loaded trees). Whatever a loader is given: if it returns a tree, then there is a document such that the nodes of the tree
are numbered in the order of the document, the root being 0, and show the names, attributes, parents, siblings and children they have in
it; there are no other nodes. -/
theorem C78_loaded (Z : Zlib) (p q : Parser) (t : Tree) (footer : Except PErr Footer) (h : Load.load Z p = (.ok (t, footer), q)) :
    ∃ F : Forest AttrValue, t.size = F.count + 1 ∧ t.root = 0 ∧ ∀ i, i < t.size → seen t i = (Rows.ofForest F).view i := by
  obtain ⟨F, hF⟩ := Load.load_depicts h
  refine ⟨F, ?_, hF.root, fun i hi => hF.view hi⟩
  rw [hF.size]
  simp only [Rows.ofForest, List.length_cons, Forest.flat_length]

/-- **C78** (a file is loaded, edited and written). Whatever the bytes after the header of a file, in a source that can seek: if the
reference reader finds the document `F` in it (as far as the footer), then `AnyTree` returns a tree, which shows the outline of `F`. Any
calls on it then have the answers of the specification, and the tree shows what the specification says. Writing it then does exactly what
writing the document of the outline does, whatever the sink, the version, the footer and the implementation of zlib. -/
theorem C78_edited (Z : Zlib) (checks : Bool) {bytes body : Bytes} (ending : Option IoErr) {cursor limit : Nat} {a b c d : UInt8} {v : FbxVersion}
    (hlen : bytes.length + 2 ^ 32 ≤ 2 ^ 64) (hb : bytes = signature ++ [a, b, c, d] ++ body) (hv : v.toNat = le32 a b c d) (hs : supported v.toNat)
    (hsk : canSeek v body (cursor + 27) limit) (at_ : Ahead) (hc : (readBody Z ending checks v body).close = .footer at_) :
    ∃ F t footer, (readBody Z ending checks v body).parts = partsOf F ∧ anyTree Z checks true bytes ending cursor limit = .ok (v, t, footer) ∧
      t.size = F.count + 1 ∧ (∀ i, i < t.size → seen t i = (Rows.ofForest F).view i) ∧
      ∀ (ops : List TreeOp) (as : List Answer) (o : Rows), (Rows.ofForest F).acts ops = some (as, o) →
        (callAll ops t).1 = as ∧ (callAll ops t).2.size = o.nodes.length ∧ (∀ i, i < o.nodes.length → seen (callAll ops t).2 i = o.view i) ∧
        ∀ (Z' : Zlib) (s : Sink) (v' : FbxVersion) (f : Writer.FooterSpec),
          treeSession Z' s v' (callAll ops t).2 f = session Z' s v' (calls (o.document.map appendOf)) f := by
  have := C58_tree Z checks ending hlen hb hv hs hsk
  rw [hc] at this
  obtain ⟨F, t, footer, h1, h2, h3, h4, -⟩ := this
  have hd := anyTree_outline h2 h4
  refine ⟨F, t, footer, h1, h2, ?_, fun i hi => hd.view hi, fun ops as o ha => ?_⟩
  · rw [hd.size]
    simp only [Rows.ofForest, List.length_cons, Forest.flat_length]
  · obtain ⟨k1, k2⟩ := hd.calls ops ha
    exact ⟨k1, k2.size, fun i hi => k2.view (by rw [k2.size]; exact hi), fun Z' s v' f => k2.written Z' s v' f⟩

/-- **C78** (a new tree is edited and written). The same from the tree of `Tree::default`. -/
theorem C78_new (ops : List TreeOp) (as : List Answer) (o : Rows) (h : Rows.begun.acts ops = some (as, o)) (Z : Zlib) (s : Sink) (v : FbxVersion)
    (f : Writer.FooterSpec) : treeSession Z s v (callAll ops Tree.empty).2 f = session Z s v (calls (o.document.map appendOf)) f :=
  (depicts_empty.calls ops h).2.written Z s v f

/-- **C78** (and loaded again). If writing the tree that the calls made succeeds, then what `AnyTree` loads from the file is a tree that
shows the outline of the document of the calls: the nodes below the root, with the ids in the order of the document, and nothing of the
detached nodes, of the attributes of the root, or of the calls that were refused. -/
theorem C78_again (Z : Zlib) (hZ : Z.Lawful) (ops : List TreeOp) (as : List Answer) (o : Rows) (h : Rows.begun.acts ops = some (as, o)) (s s' : Sink)
    (v : FbxVersion) (f : Writer.FooterSpec) (hw : treeSession Z s v (callAll ops Tree.empty).2 f = (.ok (), s')) (hlen : s'.buf.length + 2 ^ 32 ≤ 2 ^ 64)
    (checks : Bool) (ending : Option IoErr) (cursor limit : Nat) (hlim : cursor + s'.buf.length ≤ limit) :
    ∃ u footer, anyTree Z checks true s'.buf ending cursor limit = .ok (v, u, footer) ∧ u.size = o.document.count + 1 ∧
      ∀ i, i < u.size → seen u i = (Rows.ofForest o.document).view i := by
  rw [C78_new ops as o h] at hw
  obtain ⟨u, footer, h1, h2⟩ := session_outline hZ hw hlen checks ending cursor limit hlim
  refine ⟨u, footer, h1, ?_, fun i hi => h2.view hi⟩
  rw [h2.size]
  simp only [Rows.ofForest, List.length_cons, Forest.flat_length]

/-- **C78** (the ids stay). Whatever a tree was loaded from, and however: if writing it succeeds, in whatever version, then the tree that
`AnyTree` loads from the file shows exactly the same of every node, under the same ids. -/
theorem C78_ids (Z : Zlib) (hZ : Z.Lawful) (Z' : Zlib) (p q : Parser) (t : Tree) (footer : Except PErr Footer) (h : Load.load Z' p = (.ok (t, footer), q))
    (s s' : Sink) (v : FbxVersion) (f : Writer.FooterSpec) (hw : treeSession Z s v t f = (.ok (), s')) (hlen : s'.buf.length + 2 ^ 32 ≤ 2 ^ 64)
    (checks : Bool) (ending : Option IoErr) (cursor limit : Nat) (hlim : cursor + s'.buf.length ≤ limit) :
    ∃ u footer, anyTree Z checks true s'.buf ending cursor limit = .ok (v, u, footer) ∧ u.size = t.size ∧ u.root = t.root ∧
      ∀ i, i < t.size → seen u i = seen t i := by
  obtain ⟨F, hF⟩ := Load.load_depicts h
  rw [hF.written, document_ofForest] at hw
  obtain ⟨u, footer, h1, h2⟩ := session_outline hZ hw hlen checks ending cursor limit hlim
  have hsz : u.size = t.size := by rw [h2.size, hF.size]
  refine ⟨u, footer, h1, hsz, by rw [h2.root, hF.root], fun i hi => ?_⟩
  rw [h2.view (by omega), hF.view hi]

/-! ## Examples -/

/-- What the outline of a document shows. -/
def exBranches : Forest AttrValue := .cons "A" [.i16 1] (.cons "B" [] (.cons "C" [] .nil .nil) (.cons "D" [.bool true] .nil .nil)) (.cons "E" [] .nil .nil)

example : (Rows.ofForest exBranches).view 0 = ⟨some "", [], none, none, none, some 1, some 5, [1, 5]⟩ ∧
    (Rows.ofForest exBranches).view 1 = ⟨some "A", [.i16 1], some 0, none, some 5, some 2, some 4, [2, 4]⟩ ∧
    (Rows.ofForest exBranches).view 4 = ⟨some "D", [.bool true], some 1, some 2, none, none, none, []⟩ ∧
    (Rows.ofForest exBranches).view 5 = ⟨some "E", [], some 0, some 1, none, none, none, []⟩ := by decide +kernel

/-- Calls on the loaded tree: `D` goes to the front of the document, a node is new, `B` is detached with `C`. -/
def exChanges : List TreeOp := [.prepend 4 0, .insertNewAfter 5 "F", .detach 2, .appendAttribute 6 (.i32 7), .append 1 0, .append 0 4]

example : ((Rows.ofForest exBranches).acts exChanges).map Prod.fst = some [.done, .node 6, .done, .done, .done, .refused] := by decide +kernel

deriving instance DecidableEq for Forest

example : ((Rows.ofForest exBranches).acts exChanges).map (fun x => x.2.document) =
    some (.cons "D" [.bool true] .nil (.cons "E" [] .nil (.cons "F" [.i32 7] .nil (.cons "A" [.i16 1] .nil .nil)))) := by decide +kernel

def Close.isFooter : Close → Bool
  | .footer _ => true
  | _ => false

/-- The malformed file of C58 has a document. -/
example : ∃ at_, (readBody Zlib.stored none true 7400 exOdd).close = .footer at_ := by
  have hf : Close.isFooter (readBody Zlib.stored none true 7400 exOdd).close = true := by decide +kernel
  cases h : (readBody Zlib.stored none true 7400 exOdd).close with
  | footer at_ => exact ⟨at_, rfl⟩
  | _ => rw [h] at hf; cases hf

/-- A new tree, edited, written and loaded. -/
def exMade : List TreeOp := [.appendNew 0 "A", .appendNew 1 "B", .createNode "C", .prepend 2 0, .appendAttribute 1 (.bool true), .append 3 9]

example : (Rows.begun.acts exMade).map (fun x => (x.1, x.2.document)) =
    some ([.node 1, .node 2, .node 3, .done, .done, .refused], .cons "B" [] .nil (.cons "A" [.bool true] .nil .nil)) := by decide +kernel

example : ∃ s', treeSession Zlib.stored exSink 7400 (callAll exMade Tree.empty).2 exFooter = (.ok (), s') :=
  ⟨_, pair_eq (by decide +kernel)⟩

end Fbx
