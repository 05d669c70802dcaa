import Verif.Proof.Size
import Verif.Proof.Joined
import Verif.Props.AnySource

/-! # C68 A document is no larger than its file

How many bytes the parts of a document take at least is said in `Verif/Spec/Size.lean`. -/

namespace Fbx
open Reader Parser Spec Tree
variable {α : Type} {Z : Zlib}

/-- **C68** (pull parser, any calls). Whatever the bytes and whatever calls are made: the headers and the names of all nodes that were
started fit into the bytes which the parser was given, beside those it has not read yet. -/
theorem C68_names {p : Parser} {bytes : Bytes} (hp : Opens p bytes) (hsz : Sized bytes) {h : History α} {s : Client} (hr : Runs Z ⟨p, none⟩ h s)
    (hn : h.calm) : ((namesOf h).map (nodeSize p.version)).sum + s.parser.reader.rest.length ≤ bytes.length := by
  obtain ⟨hi, hL⟩ := open_inv hp hsz
  have := hr.names hL hi hn
  simp only [hp.state.2.2.2.2.2.2.1] at this
  exact this

/-- **C68** (pull parser, all attributes). Whatever the bytes after the header of a file, in any source: all nodes and values that a client
sees who loads every attribute fit into these bytes. -/
theorem C68_values (Z : Zlib) (checks seekable : Bool) {bytes body : Bytes} (ending : Option IoErr) (cursor limit : Nat) {a b c d : UInt8} {v : FbxVersion}
    (hlen : bytes.length + 2 ^ 32 ≤ 2 ^ 64) (hb : bytes = signature ++ [a, b, c, d] ++ body) (hv : v.toNat = le32 a b c d) (hs : supported v.toNat)
    (H : Option Handler) (hH : indulgent H) (buffered : Bool) (n : Nat) {obs : List (Obs AttrValue)} {q : Parser}
    (h : parseSource seekable Z checks H ending cursor limit buffered everything n bytes = some (.ok obs, q)) :
    (obs.map (obsSize v)).sum ≤ body.length := by
  obtain ⟨x, h1, h2⟩ := C61_client Z checks seekable ending cursor limit hlen hb hv hs H hH buffered n
  rw [h] at h1
  cases h1
  have hz := readingFrom_size Z (skippingOf seekable (cursor + 27) limit) ending checks n (bodyStart v ending body)
  have hw : (bodyStart v ending body).width = headWidth v := rfl
  have hl : (bodyStart v ending body).bytes = body := rfl
  rw [hw, hl, ← parts_obs] at hz
  unfold Sees at h2
  split at h2
  · obtain ⟨f, k1, -⟩ := h2
    simp only [List.nil_append, Res.ok.injEq] at k1
    subst k1
    simp only [List.map_append, List.sum_append, List.map_cons, List.map_nil, List.sum_cons, List.sum_nil, obsSize]
    omega
  · cases h2.1
  · cases h2
  · obtain ⟨k1, -⟩ := h2
    simp only [List.nil_append, Res.ok.injEq] at k1
    subst k1
    omega

theorem roses_count : ∀ F : Forest AttrValue, (F.roses.map Rose.count).sum = F.count
  | .nil => rfl
  | .cons _ _ c r => by
    have h1 := roses_count c
    have h2 := roses_count r
    simp only [Forest.roses, List.map_cons, List.sum_cons, count_node, Forest.count]
    omega

theorem forestSize_count (v : FbxVersion) : ∀ F : Forest AttrValue, (if v < 7500 then 13 else 25) * F.count ≤ forestSize v F
  | .nil => by simp [Forest.count]
  | .cons _ _ c r => by
    have h1 := forestSize_count v c
    have h2 := forestSize_count v r
    simp only [Forest.count, forestSize, nodeSize, Nat.mul_add]
    omega

/-- **C68** (trees). Whatever the bytes of a file, in any source: the tree which `AnyTree` returns has the nodes of its document and no others,
and the header of the file, the nodes with all their names and values, and the mark at the end of the document fit into the file. -/
theorem C68_tree (Z : Zlib) (checks seekable : Bool) {bytes : Bytes} (ending : Option IoErr) (cursor limit : Nat) {v : FbxVersion} {t : Tree}
    {footer : Except PErr Footer} (hlen : bytes.length + 2 ^ 32 ≤ 2 ^ 64) (h : anyTree Z checks seekable bytes ending cursor limit = .ok (v, t, footer)) :
    ∃ F, Rep t t.root (.node "" [] F.roses) ∧ t.size = F.count + 1 ∧ 27 + forestSize v F + (if v < 7500 then 13 else 25) ≤ bytes.length := by
  obtain ⟨p, hp, hj, hpv⟩ : ∃ p, anyParser checks seekable bytes ending cursor limit = .ok p ∧ Joined t ∧ p.version = v := by
    unfold anyTree at h
    split at h
    · cases h
    · cases h
    · rename_i p heq
      split at h
      · rename_i t' f hl
        cases h
        exact ⟨p, heq, Load.load_joined (q := _) (Prod.ext hl rfl), rfl⟩
      · cases h
      · cases h
  obtain ⟨a, b, c, d, body, w, hb, hv, hc⟩ := (anyParser_ok_iff (by omega)).mp hp
  have hs := (C02_parser_versions checks w _).mp ⟨p, hc⟩
  have hwv : w = v := by rw [← hpv, create_eq hc]
  subst hwv
  have hz := readingFrom_size Z (skippingOf seekable (cursor + 27) limit) ending checks (2 * body.length + 1) (bodyStart w ending body)
  have ht := C61_tree Z checks seekable ending cursor limit hlen hb hv hs
  have hw : (bodyStart w ending body).width = headWidth w := rfl
  have hl : (bodyStart w ending body).bytes = body := rfl
  have hbl : bytes.length = 27 + body.length := by rw [hb]; simp [signature]; omega
  rw [hw, hl] at hz
  simp only [readBodyFrom] at ht
  split at ht
  · rename_i at_ heq
    obtain ⟨F, u, f, k1, k2, k3, k4, -⟩ := ht
    rw [h] at k2
    cases k2
    rw [heq, k1, forest_parts] at hz
    refine ⟨F, k4, ?_, ?_⟩
    · rw [hj.count k4, count_node, roses_count]; omega
    · simp only [leftAt, headWidth_size] at hz
      omega
  · rw [h] at ht; cases ht
  · rw [h] at ht; cases ht.1
  · exact ht.elim

/-- **C68** (number of nodes). A tree of `n` nodes, its root included, comes from a file of at least `27 + 13 * n` bytes, or `27 + 25 * n` bytes
from version 7.5 on. -/
theorem C68_nodes (Z : Zlib) (checks seekable : Bool) {bytes : Bytes} (ending : Option IoErr) (cursor limit : Nat) {v : FbxVersion} {t : Tree}
    {footer : Except PErr Footer} (hlen : bytes.length + 2 ^ 32 ≤ 2 ^ 64) (h : anyTree Z checks seekable bytes ending cursor limit = .ok (v, t, footer)) :
    27 + (if v < 7500 then 13 else 25) * t.size ≤ bytes.length := by
  obtain ⟨F, -, h1, h2⟩ := C68_tree Z checks seekable ending cursor limit hlen h
  have := forestSize_count v F
  rw [h1, Nat.mul_add]
  omega

/-! ## Examples -/

example := C68_names (exParser_opens true true 7400 exBody (by decide)) exBody_sized exRuns (calm_of_all (by decide +kernel))
example : namesOf (exClient.history Zlib.stored exCalls) ≠ [] := by decide +kernel

/-- A node `A` with one attribute and the mark at the end: the body of the smallest file with this document. -/
def exTight : Bytes := [43, 0, 0, 0, 1, 0, 0, 0, 2, 0, 0, 0, 1, 65, 67, 1] ++ List.replicate 13 0

def exTightFile : Bytes := signature ++ [0xe8, 0x1c, 0, 0] ++ exTight

/-- The bound is reached. -/
example : 27 + forestSize 7400 (.cons "A" [.bool true] .nil .nil) + 13 = exTightFile.length := by decide +kernel

theorem exTight_tree (seekable : Bool) : ∃ t footer, anyTree Zlib.stored true seekable exTightFile none 0 1000 = .ok (7400, t, footer) := by
  have h := C61_tree Zlib.stored true seekable (body := exTight) none 0 1000 (a := 0xe8) (b := 0x1c) (c := 0) (d := 0) (v := 7400)
    (by decide +kernel) rfl (by decide) (by simp [supported])
  have hc : ∃ a, (readBodyFrom Zlib.stored (skippingOf seekable (0 + 27) 1000) none true 7400 exTight).close = .footer a := by
    cases seekable <;> exact ⟨_, rfl⟩
  obtain ⟨a, ha⟩ := hc
  simp only [ha] at h
  obtain ⟨F, t, footer, -, h2, -⟩ := h
  exact ⟨t, footer, h2⟩

example : ∃ t footer F, anyTree Zlib.stored true false exTightFile none 0 1000 = .ok (7400, t, footer) ∧ Rep t t.root (.node "" [] F.roses) ∧
    t.size = F.count + 1 ∧ 27 + forestSize 7400 F + 13 ≤ exTightFile.length := by
  obtain ⟨t, footer, h⟩ := exTight_tree false
  obtain ⟨F, h1, h2, h3⟩ := C68_tree Zlib.stored true false none 0 1000 (by decide +kernel) h
  exact ⟨t, footer, F, h, h1, h2, h3⟩

example : ∃ t footer, anyTree Zlib.stored true true exTightFile none 0 1000 = .ok (7400, t, footer) ∧ 27 + 13 * t.size ≤ exTightFile.length := by
  obtain ⟨t, footer, h⟩ := exTight_tree true
  exact ⟨t, footer, h, C68_nodes Zlib.stored true true none 0 1000 (by decide +kernel) h⟩

example : ∃ obs q, parseSource false Zlib.stored true none none 0 0 false everything 1 exTightFile = some (.ok obs, q) ∧
    obs = [.start "A" 1 [some (.bool true)]] ∧ (obs.map (obsSize 7400)).sum ≤ exTight.length := by
  obtain ⟨⟨x, q⟩, h, hs⟩ := C61_client Zlib.stored true false (bytes := exTightFile) (body := exTight) none 0 0 (a := 0xe8) (b := 0x1c) (c := 0) (d := 0) (v := 7400)
    (by decide +kernel) rfl (by decide) (by simp [supported]) none (by intro f hf; cases hf) false 1
  have hc : ∃ a, (readingFrom Zlib.stored (skippingOf false (0 + 27) 0) none true 1 (bodyStart 7400 none exTight)).close = .more a := ⟨_, rfl⟩
  have hp : (readingFrom Zlib.stored (skippingOf false (0 + 27) 0) none true 1 (bodyStart 7400 none exTight)).parts = [.node "A" [.bool true]] := by decide +kernel
  obtain ⟨a, ha⟩ := hc
  simp only [Sees, ha, hp] at hs
  rw [hs.1] at h
  exact ⟨_, q, h, rfl, C68_values Zlib.stored true false none 0 0 (a := 0xe8) (b := 0x1c) (c := 0) (d := 0) (by decide +kernel) rfl (by decide)
    (by simp [supported]) none (by intro f hf; cases hf) false 1 h⟩

end Fbx
