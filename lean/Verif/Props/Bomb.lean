import Verif.Proof.Bomb
import Verif.Proof.DeflateBound
import Verif.Proof.DeflateReach
import Verif.Props.Size
import Verif.Props.Inflate

/-! # C87 A document is at most 1032 times as large as its file

C68 is about the parts of a document which are stored as they are. With compressed arrays more can come out of a file than there is in it. How
much space a document takes with all elements of its arrays is said in `Verif/Spec/Bomb.lean`. -/

namespace Fbx
open Reader Parser Spec Tree
variable {Z : Zlib} {c : Nat}

/-- **C87** (compression). However a zlib stream goes on, and wherever it is cut or damaged: not more than 1032 bytes come out for each byte that is
read. -/
theorem C87_zlib (cmf flg : Byte) (early late : Bytes → Bytes) : (Zlib.rfcFor cmf flg early late).Expands 1032 := rfc_expands cmf flg early late

/-- **C87** (pull parser). Whatever the bytes after the header of a file, in any source: if compressed data expands at most by `c`, what a client
sees who loads every attribute takes at most `c` times the size of these bytes. Nothing depends on the numbers of elements and
the lengths which the file claims. -/
theorem C87_values (hZ : Z.Expands c) (hc : 1 ≤ c) (checks seekable : Bool) {bytes body : Bytes} (ending : Option IoErr) (cursor limit : Nat) {w x y z : UInt8}
    {v : FbxVersion} (hlen : bytes.length + 2 ^ 32 ≤ 2 ^ 64) (hb : bytes = signature ++ [w, x, y, z] ++ body) (hv : v.toNat = le32 w x y z)
    (hs : supported v.toNat) (H : Option Handler) (hH : indulgent H) (buffered : Bool) (n : Nat) {obs : List (Obs AttrValue)} {q : Parser}
    (h : parseSource seekable Z checks H ending cursor limit buffered everything n bytes = some (.ok obs, q)) :
    (obs.map (obsFull v)).sum ≤ c * body.length := by
  obtain ⟨x, h1, h2⟩ := C61_client Z checks seekable ending cursor limit hlen hb hv hs H hH buffered n
  rw [h] at h1
  cases h1
  have hz := readingFrom_full hZ hc (skippingOf seekable (cursor + 27) limit) ending checks n (bodyStart v ending body)
  have hw : (bodyStart v ending body).width = headWidth v := rfl
  have hl : (bodyStart v ending body).bytes = body := rfl
  rw [hw, hl, ← parts_obsFull] at hz
  unfold Sees at h2
  split at h2
  · obtain ⟨f, k1, -⟩ := h2
    simp only [List.nil_append, Res.ok.injEq] at k1
    subst k1
    simp only [List.map_append, List.sum_append, List.map_cons, List.map_nil, List.sum_cons, List.sum_nil, obsFull]
    omega
  · cases h2.1
  · cases h2
  · obtain ⟨k1, -⟩ := h2
    simp only [List.nil_append, Res.ok.injEq] at k1
    subst k1
    omega

/-- **C87** (trees). Whatever the bytes of a file, in any source: the tree which `AnyTree` returns takes at most `c` times the size of the file,
all elements of its arrays included. -/
theorem C87_tree (hZ : Z.Expands c) (hc : 1 ≤ c) (checks seekable : Bool) {bytes : Bytes} (ending : Option IoErr) (cursor limit : Nat) {v : FbxVersion} {t : Tree}
    {footer : Except PErr Footer} (hlen : bytes.length + 2 ^ 32 ≤ 2 ^ 64) (h : anyTree Z checks seekable bytes ending cursor limit = .ok (v, t, footer)) :
    ∃ F, Rep t t.root (.node "" [] F.roses) ∧ forestFull v F + c * (27 + (if v < 7500 then 13 else 25)) ≤ c * bytes.length := by
  obtain ⟨p, hp, hpv⟩ : ∃ p, anyParser checks seekable bytes ending cursor limit = .ok p ∧ p.version = v := by
    unfold anyTree at h
    split at h
    · cases h
    · cases h
    · rename_i p heq
      split at h
      · cases h
        exact ⟨p, heq, rfl⟩
      · cases h
      · cases h
  obtain ⟨a, b, a', b', body, w, hb, hv, hcr⟩ := (anyParser_ok_iff (by omega)).mp hp
  have hs := (C02_parser_versions checks w _).mp ⟨p, hcr⟩
  have hwv : w = v := by rw [← hpv, create_eq hcr]
  subst hwv
  have hz := readingFrom_full hZ hc (skippingOf seekable (cursor + 27) limit) ending checks (2 * body.length + 1) (bodyStart w ending body)
  have ht := C61_tree Z checks seekable ending cursor limit hlen hb hv hs
  have hw : (bodyStart w ending body).width = headWidth w := rfl
  have hl : (bodyStart w ending body).bytes = body := rfl
  have hbl : bytes.length = 27 + body.length := by rw [hb]; simp [signature]; omega
  rw [hw, hl] at hz
  simp only [readBodyFrom] at ht
  split at ht
  · rename_i at_ heq
    obtain ⟨F, u, f, k1, k2, k3, k4, -⟩ := ht
    rw [h] at k2
    cases k2
    rw [heq, k1, forest_partsFull] at hz
    refine ⟨F, k4, ?_⟩
    simp only [leftAt, headWidth_size] at hz
    rw [hbl, Nat.mul_add, Nat.mul_add]
    have hm : c * ((if w < 7500 then 13 else 25)) ≤ c * (if w < 7500 then 13 else 25) := Nat.le_refl _
    have := Nat.mul_add c (if w < 7500 then 13 else 25) at_.bytes.length
    omega
  · rw [h] at ht; cases ht
  · rw [h] at ht; cases ht.1
  · exact ht.elim

theorem zeros_data : ∀ n, arrayData (.arrI32 (List.replicate n 0)) = List.replicate (4 * n) 0
  | 0 => rfl
  | n + 1 => by
    have ih := zeros_data n
    simp only [arrayData] at ih ⊢
    rw [List.replicate_succ, List.flatMap_cons, ih]
    rfl

/-- **C87** (the bound is reached). For every `m`, as long as the number of elements fits its field, there is a file of `m + 84` bytes whose document has
an array of `1032 * m` bytes and four more. -/
theorem C87_reached (m : Nat) (hm : 1 + 258 * m < 2 ^ 32) (checks : Bool) (H : Option Handler) (hH : indulgent H) (ending : Option IoErr) :
    ∃ file u footer q, file.length = m + 84 ∧ loadFile Zlib.rfc checks H ending 0 (2 ^ 64) file = some (.ok (u, footer), q) ∧ WF u ∧
      Rep u u.root (.node "" [] (Forest.cons "A" [.arrI32 (List.replicate (1 + 258 * m) 0)] .nil .nil).roses) := by
  obtain ⟨z, h1, h2⟩ := reach m
  have hu : (utf8 "A").length = 1 := by decide +kernel
  have hl : (body (7400 : FbxVersion).toNat Packed.bytes (.cons "A" [⟨.arrI32 (List.replicate (1 + 258 * m) 0), some z⟩] .nil .nil)).length = m + 84 := by
    simp [body, Spec.nodes, Packed.bytes, needsMarker, marker, Writer.le_eq, h1, signature, headerSize, width, hu, Forest.isNil]
    omega
  have hf : forestFits (7400 : FbxVersion).toNat Packed.bytes Packed.fits (.cons "A" [⟨.arrI32 (List.replicate (1 + 258 * m) 0), some z⟩] .nil .nil) 27 := by
    simp [forestFits, Spec.nodes, Packed.bytes, Packed.fits, Packed.isArray, arrayCount, needsMarker, Writer.le_eq, h1, headerSize, width, hu, Forest.isNil]
    omega
  obtain ⟨u, footer, q, k1, k2, k3⟩ := C79_loaded 7400 (by simp [supported]) (.cons "A" [⟨.arrI32 (List.replicate (1 + 258 * m) 0), some z⟩] .nil .nil) hf (by
    refine ⟨fun p hp z' hz' => ?_, trivial, trivial⟩
    simp only [List.mem_cons, List.not_mem_nil, or_false] at hp
    subst hp
    cases hz'
    refine ⟨z, [], by simp, ?_⟩
    rw [zeros_data, show 4 * (1 + 258 * m) = 4 + 1032 * m by omega]
    exact h2) [] (by rw [List.append_nil]; omega) checks H hH ending 0 (2 ^ 64) (by rw [List.append_nil]; omega)
  rw [List.append_nil] at k1
  exact ⟨_, u, footer, q, hl, k1, k2, k3⟩

/-! ## Examples -/

theorem stored_expands : Zlib.stored.Expands 1 := by
  have h : ∀ (s : Zlib.stored.S) (inp out : Bytes), Zlib.stored.Decodes s inp out → out.length ≤ inp.length + (Option.elim (α := Byte) s 0 (fun _ => 1)) := by
    intro s inp out hd
    induction hd with
    | done => exact Nat.zero_le _
    | @need s k b inp out hk _ ih =>
      cases s with
      | some x => cases hk
      | none =>
        cases hk
        exact ih
    | @emit s b s' inp out hk _ ih =>
      cases s with
      | none => cases hk
      | some x =>
        cases hk
        exact Nat.succ_le_succ ih
  intro a b s inp out hs hd
  have := h s inp out hd
  have hn : s = (none : Option Byte) := by
    simp only [Zlib.stored] at hs
    split at hs <;> cases hs
    rfl
  subst hn
  rw [Nat.one_mul]
  exact this

example : ∃ t footer F, anyTree Zlib.stored true false exTightFile none 0 1000 = .ok (7400, t, footer) ∧ Rep t t.root (.node "" [] F.roses) ∧
    forestFull 7400 F + 1 * (27 + 13) ≤ 1 * exTightFile.length := by
  obtain ⟨t, footer, h⟩ := exTight_tree false
  obtain ⟨F, h1, h2⟩ := C87_tree stored_expands (by decide) true false none 0 1000 (by decide +kernel) h
  exact ⟨t, footer, F, h, h1, h2⟩

/-- A file of about a megabyte with about a gigabyte of elements. -/
example := C87_reached 1000000 (by decide) true none (by intro f hf; cases hf) none

/-- The file of C79: compressed arrays, some without checksum. -/
example {obs : List (Obs AttrValue)} {q : Parser}
    (h : parseSource true Zlib.rfc true none none 0 (2 ^ 64) false everything 5 (body 7400 Packed.bytes exPacked) = some (.ok obs, q)) :
    (obs.map (obsFull 7400)).sum ≤ 1032 * ((body 7400 Packed.bytes exPacked).drop 27).length :=
  C87_values (C87_zlib _ _ _ _) (by decide) true true none 0 (2 ^ 64) (by decide +kernel) (w := 0xe8) (x := 0x1c) (y := 0) (z := 0) (by decide +kernel) (by decide)
    (by simp [supported]) none (by intro f hf; cases hf) false 5 h

end Fbx
