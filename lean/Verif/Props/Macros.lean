import Verif.Props.Files
import Verif.Proof.Macros

/-! # C53 The macros, and C05 for conversions -/

namespace Fbx
open Spec Tree Writer
open Forest (plain)

/-- **C53** (trees). For every literal, `tree_v7400!` returns (it never panics) a tree that represents exactly the nodes of the
literal, in order, with their names, attributes and children, below a root without name and attributes. -/
theorem C53_tree_macro (l : Lit) :
    ∃ t, treeMacro l = (.ok (), t) ∧ Reachable t ∧ Rep t t.root (.node "" [] l.forest.roses) := by
  obtain ⟨t, h1, -, h2, h3⟩ := treeMacro_spec l
  exact ⟨t, h1, h2, h3⟩

theorem roses_inj : ∀ {F G : Forest AttrValue}, F.roses = G.roses → F = G
  | .nil, .nil, _ => rfl
  | .nil, .cons _ _ _ _, h => by simp [Forest.roses] at h
  | .cons _ _ _ _, .nil, h => by simp [Forest.roses] at h
  | .cons n as ch r, .cons m bs dh q, h => by
    simp only [Forest.roses, List.cons.injEq, Rose.node.injEq] at h
    obtain ⟨⟨rfl, rfl, h1⟩, h2⟩ := h
    rw [roses_inj h1, roses_inj h2]

/-- **C53** (comparison). Two trees made by the macro are strictly equal exactly if their literals describe the same document,
however it is spelled (brackets or parentheses, commas, slices or vectors). -/
theorem C53_tree_macro_eq (l m : Lit) :
    ∃ b, strictEq (treeMacro l).2 (treeMacro m).2 = .ok b ∧ (b = true ↔ l.forest = m.forest) := by
  obtain ⟨t, h1, h2, -, h3⟩ := treeMacro_spec l
  obtain ⟨u, g1, g2, -, g3⟩ := treeMacro_spec m
  rw [h1, g1]
  obtain ⟨b, k1, k2⟩ := nodesStrictEq_ok h2 g2 h2.root g2.root h3 g3
  refine ⟨b, k1, ?_⟩
  rw [k2]
  simp only [Rose.node.injEq, true_and]
  exact ⟨roses_inj, fun h => by rw [h]⟩

/-- **C53** (files). On every sink (faulty ones included), `write_v7400_binary!` has the same result and writes the same bytes as
`write_tree` has for the tree that `tree_v7400!` makes from the same literal. -/
theorem C53_same_file (l : Lit) (Z : Zlib) (s : Sink) (v : FbxVersion) (f : FooterSpec) :
    macroSession Z s v l f = treeSession Z s v (treeMacro l).2 f := by
  obtain ⟨t, h1, h2, -, h3⟩ := treeMacro_spec l
  rw [h1, treeSession_eq h2 (rep_root h3).2.2, macroSession_eq]

/-- **C53** (bytes). If `write_v7400_binary!` and `finalize` succeed, the sink begins with the document of the literal. -/
theorem C53_layout (l : Lit) (Z : Zlib) (s s' : Sink) (v : FbxVersion) (f : FooterSpec) (h : macroSession Z s v l f = (.ok (), s')) :
    supported v.toNat ∧ (document v.toNat (attrBytes Z) l.forest.plain (footOf f)) <+: s'.buf := by
  rw [macroSession_eq] at h
  have hl : legal false (calls (l.forest.map appendOf)) = true := by
    have := legal_calls (l.forest.map appendOf) false [] (fun _ _ => rfl)
    rw [List.append_nil] at this
    exact this.trans rfl
  obtain ⟨F, h1, h2, h3⟩ := C06_layout Z s s' v _ f hl h
  have := C06_forest_unique _ _ h1
  subst this
  refine ⟨h2, ?_⟩
  obtain ⟨h4, -⟩ := h3 (intact_forest _)
  rw [h4]
  have e2 : document v.toNat (callBytes Z) (l.forest.map appendOf) (footOf f) = document v.toNat (attrBytes Z) l.forest.plain (footOf f) := by
    rw [plain, ← Parser.document_map v.toNat appendOf (callBytes Z), ← Parser.document_map v.toNat (fun v => ({ value := v } : DAttr)) (attrBytes Z)]
    simp only [callBytes, denote_appendOf]
  rw [e2]
  exact List.prefix_append _ _

/-- **C53** (round trip). What `write_v7400_binary!` writes is loaded by `AnyTree` as the tree that `tree_v7400!` makes. -/
theorem C53_round_trip (l : Lit) (Z : Zlib) (hZ : Z.Lawful) (s s' : Sink) (v : FbxVersion) (f : FooterSpec)
    (h : macroSession Z s v l f = (.ok (), s')) (hlen : s'.buf.length + 2 ^ 32 ≤ 2 ^ 64)
    (checks : Bool) (ending : Option IoErr) (cursor limit : Nat) (hlim : cursor + s'.buf.length ≤ limit) :
    ∃ u footer, anyTree Z checks true s'.buf ending cursor limit = .ok (v, u, footer) ∧ strictEq (treeMacro l).2 u = .ok true := by
  rw [C53_same_file] at h
  obtain ⟨t, h1, -, h2, h3⟩ := treeMacro_spec l
  rw [h1] at h ⊢
  exact C23_any_tree Z hZ h2 (rep_root h3).2.1 s s' v f h hlen checks ending cursor limit hlim

/-- The example of the documentation: `Node0: {}, Node1: { Node1_0: {} Node1_1: {} } Node2: [true] {} Node3: (…) {}`. -/
def exLit : Lit :=
  .bare "Node0" .nil (.comma (.bare "Node1" (.bare "Node1_0" .nil (.bare "Node1_1" .nil .nil))
    (.list "Node2" [.bool true, .sliceI32 [1, 2]] .nil (.iter "Node3" [.string "hello", .binary [1, 2, 3]] (.comma .nil) .nil))))

/-- The same with a different spelling. -/
def exLit' : Lit :=
  .list "Node0" [] .nil (.bare "Node1" (.iter "Node1_0" [] .nil (.comma (.bare "Node1_1" .nil .nil)))
    (.comma (.iter "Node2" [.bool true, .arrI32 [1, 2]] .nil (.list "Node3" [.str "hello", .vecU8 [1, 2, 3]] .nil .nil))))

example : exLit.forest = exLit'.forest := rfl

example : ∃ t, treeMacro exLit = (.ok (), t) ∧ Reachable t ∧ Rep t t.root (.node "" [] [.node "Node0" [] [],
    .node "Node1" [] [.node "Node1_0" [] [], .node "Node1_1" [] []], .node "Node2" [.bool true, .arrI32 [1, 2]] [],
    .node "Node3" [.string "hello", .binary [1, 2, 3]] []]) := C53_tree_macro exLit

example : (treeMacro (.bare "A" (.list "B" [.bool true] .nil .nil) .nil)).2.children 1 = [2] := by decide +kernel

example : strictEq (treeMacro exLit).2 (treeMacro exLit').2 = .ok true := by
  obtain ⟨b, h1, h2⟩ := C53_tree_macro_eq exLit exLit'
  rw [h1, h2.mpr rfl]

/-- A literal for a file. -/
def exLit2 : Lit := .list "A" [.bool true, .sliceI32 [1, 2]] (.bare "B" .nil .nil) (.comma (.iter "C" [.string "hello"] .nil .nil))

/-- The file. -/
def exMacroFile : Res WErr Unit × Sink := macroSession Zlib.stored exSink 7500 exLit2 exFooter

theorem exMacroFile_ok : macroSession Zlib.stored exSink 7500 exLit2 exFooter = (.ok (), exMacroFile.2) := pair_eq (by decide +kernel)

theorem exMacroFile_len : exMacroFile.2.buf.length = 384 := by decide +kernel

example := C53_layout _ _ _ _ _ _ exMacroFile_ok

example := C53_round_trip _ _ Zlib.stored_lawful _ _ _ _ exMacroFile_ok (by rw [exMacroFile_len]; decide) true none 0 (2 ^ 64) (by rw [exMacroFile_len]; decide)

/-! ## C05 Conversions -/

/-- **C05** (conversions). The value `From` makes has the type one expects, and the getter of that type returns what was
converted; slices and vectors, and `str` and `String`, are converted alike. -/
theorem C05_from :
    (∀ v, (RustVal.bool v).into.getBool = some v) ∧ (∀ v, (RustVal.i16 v).into.getI16 = some v) ∧
    (∀ v, (RustVal.i32 v).into.getI32 = some v) ∧ (∀ v, (RustVal.i64 v).into.getI64 = some v) ∧
    (∀ v, (RustVal.f32 v).into.getF32 = some v) ∧ (∀ v, (RustVal.f64 v).into.getF64 = some v) ∧
    (∀ v, (RustVal.vecBool v).into.getArrBool = some v ∧ (RustVal.sliceBool v).into = (RustVal.vecBool v).into) ∧
    (∀ v, (RustVal.vecI32 v).into.getArrI32 = some v ∧ (RustVal.sliceI32 v).into = (RustVal.vecI32 v).into) ∧
    (∀ v, (RustVal.vecI64 v).into.getArrI64 = some v ∧ (RustVal.sliceI64 v).into = (RustVal.vecI64 v).into) ∧
    (∀ v, (RustVal.vecF32 v).into.getArrF32 = some v ∧ (RustVal.sliceF32 v).into = (RustVal.vecF32 v).into) ∧
    (∀ v, (RustVal.vecF64 v).into.getArrF64 = some v ∧ (RustVal.sliceF64 v).into = (RustVal.vecF64 v).into) ∧
    (∀ v, (RustVal.string v).into.getString = some v ∧ (RustVal.str v).into = (RustVal.string v).into) ∧
    (∀ v, (RustVal.vecU8 v).into.getBinary = some v ∧ (RustVal.sliceU8 v).into = (RustVal.vecU8 v).into) ∧
    (∀ v, (RustVal.value v).into = v) :=
  ⟨fun _ => rfl, fun _ => rfl, fun _ => rfl, fun _ => rfl, fun _ => rfl, fun _ => rfl, fun _ => ⟨rfl, rfl⟩, fun _ => ⟨rfl, rfl⟩,
    fun _ => ⟨rfl, rfl⟩, fun _ => ⟨rfl, rfl⟩, fun _ => ⟨rfl, rfl⟩, fun _ => ⟨rfl, rfl⟩, fun _ => ⟨rfl, rfl⟩, fun _ => rfl⟩

end Fbx
