import Verif.Props.TreeIO
import Verif.Props.Sources
import Verif.Proof.DriveRuns
import Verif.Spec.Files

/-! # C51, C52 and C33, C47 for trees: whole files -/

namespace Fbx
open Spec Tree Writer
open Forest (plain)

variable {α : Type} {Z : Zlib}

/-! ## C51 The parts of a version -/

/-- **C51**. The raw version is `1000 * major + 100 * minor` and less than 100 more, with `minor` a decimal digit; these
bounds determine both parts, and `major_minor` returns them. -/
theorem C51_decomposition (v : FbxVersion) :
    (1000 * v.major.toNat + 100 * v.minor.toNat ≤ v.toNat ∧ v.toNat < 1000 * v.major.toNat + 100 * v.minor.toNat + 100 ∧ v.minor.toNat < 10) ∧
    v.majorMinor = (v.major, v.minor) ∧
    ∀ a b : Nat, 1000 * a + 100 * b ≤ v.toNat → v.toNat < 1000 * a + 100 * b + 100 → b < 10 → a = v.major.toNat ∧ b = v.minor.toNat := by
  have h1 : v.major.toNat = v.toNat / 1000 := by simp [FbxVersion.major, UInt32.toNat_div]
  have h2 : v.minor.toNat = v.toNat % 1000 / 100 := by simp [FbxVersion.minor, UInt32.toNat_div, UInt32.toNat_mod]
  rw [h1, h2]
  refine ⟨by omega, rfl, ?_⟩
  intro a b
  omega

/-- **C51** (order). Versions are ordered as their raw numbers, hence first by their major and then by their minor part. -/
theorem C51_order (v w : FbxVersion) (h : v ≤ w) :
    v.major < w.major ∨ (v.major = w.major ∧ v.minor ≤ w.minor) := by
  have h1 : ∀ v : FbxVersion, v.major.toNat = v.toNat / 1000 := by intro v; simp [FbxVersion.major, UInt32.toNat_div]
  have h2 : ∀ v : FbxVersion, v.minor.toNat = v.toNat % 1000 / 100 := by intro v; simp [FbxVersion.minor, UInt32.toNat_div, UInt32.toNat_mod]
  rw [UInt32.le_iff_toNat_le] at h
  rw [UInt32.lt_iff_toNat_lt, UInt32.le_iff_toNat_le, ← UInt32.toNat_inj, h1, h1, h2, h2]
  omega

example : FbxVersion.majorMinor 7499 = (7, 4) ∧ FbxVersion.major 6100 = 6 ∧ FbxVersion.minor 6100 = 1 := by decide

/-! ## C52 Loading a tree from any bytes -/

/-- When `AnyParser` returns a parser. -/
theorem anyParser_ok_iff {checks seekable : Bool} {bytes : Bytes} {ending : Option IoErr} {cursor limit : Nat} {p : Parser}
    (hlen : bytes.length < 2 ^ 64) :
    anyParser checks seekable bytes ending cursor limit = .ok p ↔
      ∃ a b c d tail v, bytes = signature ++ [a, b, c, d] ++ tail ∧ v.toNat = le32 a b c d ∧
        Parser.create checks v ⟨tail, ending, cursor + 27, headerLen, seekable, limit⟩ = .ok p := by
  unfold anyParser
  constructor
  · intro h
    cases hl : loadHeader ⟨bytes, ending, cursor, 0, seekable, limit⟩ with
    | mk x r =>
      rw [hl] at h
      cases x with
      | err e => cases h
      | panic x => cases h
      | ok v =>
        obtain ⟨a, b, c, d, tail, h1, h2, h3⟩ := (C01_header_ok_iff _ (by simpa using hlen) _ _).mp hl
        subst h3
        simp only at h h1
        split at h
        · cases h
        · split at h
          · rename_i q hq
            cases h
            exact ⟨a, b, c, d, tail, v, h1, h2, hq⟩
          · cases h
  · rintro ⟨a, b, c, d, tail, v, h1, h2, h3⟩
    have hl := (C01_header_ok_iff ⟨bytes, ending, cursor, 0, seekable, limit⟩ (by simpa using hlen) v _).mpr ⟨a, b, c, d, tail, h1, h2, rfl⟩
    rw [hl]
    have hv : ParserVersion.fromFbxVersion v = some .v7400 := by
      unfold Parser.create at h3
      split at h3
      · cases h3
      · rename_i h; simpa using h
    simp only [hv]
    rw [h3]

/-- The parser `AnyTree` works with. -/
theorem anyTree_open {checks seekable : Bool} {v : FbxVersion} {tail : Bytes} {ending : Option IoErr} {cursor limit : Nat} {p : Parser} (H : Handler)
    (hsz : Sized tail) (h : Parser.create checks v ⟨tail, ending, cursor, headerLen, seekable, limit⟩ = .ok p) :
    CInv (headerLen + tail.length) ⟨p.setHandler H, none⟩ ∧ headerLen + tail.length + 2 ^ 32 ≤ 2 ^ 64 ∧ (p.setHandler H).last = none ∧
      (p.setHandler H).started = [] ∧ p.version = v ∧ supported v.toNat ∧ p.checks = checks := by
  obtain ⟨hi, hL⟩ := open_inv ⟨_, _, _, _, _, _, h⟩ hsz
  have hv := (C02_parser_versions checks v _).mp ⟨p, h⟩
  unfold Parser.create at h
  split at h
  · cases h
  · cases h
    exact ⟨⟨⟨hi.parser.reader, hi.parser.top, hi.parser.ends⟩, hi.last, hi.fin, fun a h => by cases h⟩, hL, rfl, rfl, rfl, hv, rfl⟩

theorem header_unique {bytes : Bytes} {v w : FbxVersion} (h : HeaderOf bytes v) (g : HeaderOf bytes w) : v = w := by
  obtain ⟨a, b, c, d, tail, h1, h2⟩ := h
  obtain ⟨a', b', c', d', tail', g1, g2⟩ := g
  rw [h1, List.append_assoc, List.append_assoc, List.append_cancel_left_eq] at g1
  simp only [List.cons_append, List.cons.injEq] at g1
  obtain ⟨rfl, rfl, rfl, rfl, -⟩ := g1
  exact UInt32.toNat_inj.mp (h2.trans g2.symm)

theorem rep_root {t : Tree} {F : Forest AttrValue} (h : Rep t t.root (.node "" [] F.roses)) :
    t.name? t.root = some "" ∧ (t.nodes t.root).attrs = [] ∧ RepList t (t.children t.root) F.roses := by
  generalize hro : Rose.node "" [] F.roses = ro at h
  generalize hra : t.root = i at h
  cases h with
  | mk hn hk =>
    simp only [Rose.node.injEq] at hro
    refine ⟨by rw [hn, hro.1], hro.2.1.symm, ?_⟩
    rw [hro.2.2]; exact hk

/-- **C52**. Whatever the bytes, the end of the source, the kind of the source and the decompressor: `AnyTree` returns one of
the results that `AnyTreeResult` allows. In particular, it does not panic in builds without overflow checks. -/
theorem C52_any_tree (Z : Zlib) (checks seekable : Bool) (bytes : Bytes) (ending : Option IoErr) (cursor limit : Nat)
    (hlen : bytes.length + 2 ^ 32 ≤ 2 ^ 64) : AnyTreeResult checks bytes (anyTree Z checks seekable bytes ending cursor limit) := by
  unfold anyTree
  cases hp : anyParser checks seekable bytes ending cursor limit with
  | err e =>
    simp only
    have hlen' : bytes.length < 2 ^ 64 := by omega
    unfold anyParser at hp
    cases hl : loadHeader ⟨bytes, ending, cursor, 0, seekable, limit⟩ with
    | mk x r =>
      rw [hl] at hp
      cases x with
      | err e =>
        cases hp
        rintro v ⟨a, b, c, d, tail, h1, h2⟩
        have := (C01_header_ok_iff ⟨bytes, ending, cursor, 0, seekable, limit⟩ (by simpa using hlen') v _).mpr ⟨a, b, c, d, tail, h1, h2, rfl⟩
        rw [hl] at this
        cases this
      | panic x => cases hp
      | ok v =>
        obtain ⟨a, b, c, d, tail, h1, h2, h3⟩ := (C01_header_ok_iff _ (by simpa using hlen') _ _).mp hl
        simp only at hp
        split at hp
        · rename_i hv
          cases hp
          refine ⟨⟨a, b, c, d, tail, h1, h2⟩, fun hs => ?_⟩
          rw [(fromFbxVersion_iff v).mpr hs] at hv
          cases hv
        · split at hp <;> cases hp
  | panic x =>
    exfalso
    rcases C02_any_parser checks seekable bytes ending cursor limit (by omega) with ⟨e, h⟩ | ⟨e, -, h⟩ | ⟨e, -, -, h⟩ <;> rw [hp] at h <;> cases h
  | ok p =>
    simp only
    obtain ⟨a, b, c, d, tail, v, h1, h2, h3⟩ := (anyParser_ok_iff (by omega)).mp hp
    have hh : HeaderOf bytes v := ⟨a, b, c, d, tail, h1, h2⟩
    have hsz : Sized tail := by
      have : bytes.length = 27 + tail.length := by
        rw [h1, List.length_append, List.length_append, show signature.length = 23 by decide]; simp
      simp only [Sized, headerLen]
      omega
    obtain ⟨hi, hL, g1, g2, g3, g4, g5⟩ := anyTree_open (fun _ _ _ => none) hsz h3
    have := Load.load_spec (Z := Z) hL hi g1 g2 _ (Nat.lt_succ_self _)
    generalize drive Z false everything _ 0 [] _ = x at this
    obtain ⟨_ | _ | _, q⟩ := x
    · obtain ⟨F, f, t, -, k1, k2, k3⟩ := this
      rw [k1]
      simp only [AnyTreeResult]
      obtain ⟨k4, k5, -⟩ := rep_root k3
      rw [g3]
      exact ⟨hh, g4, k2, k4, k5⟩
    · rw [this]
      exact ⟨⟨v, hh, g4⟩, fun h => by cases h⟩
    · obtain ⟨k1, k2, k3, k4⟩ := this
      rw [k1]
      refine ⟨k2, g5 ▸ k3, v, hh, g4, ?_⟩
      have k4 : ¬ p.version < 7500 := k4
      rw [g3, UInt32.not_lt, UInt32.le_iff_toNat_le] at k4
      exact k4

/-- **C52** (the document). The tree is that of the document which a client of the pull parser sees that ignores warnings and
loads every attribute with `DirectLoader`; the footer is the one this client gets. -/
theorem C52_document (Z : Zlib) {checks seekable : Bool} {bytes : Bytes} {ending : Option IoErr} {cursor limit : Nat}
    (hlen : bytes.length + 2 ^ 32 ≤ 2 ^ 64) {v : FbxVersion} {t : Tree} {footer : Except PErr Footer}
    (h : anyTree Z checks seekable bytes ending cursor limit = .ok (v, t, footer)) (n : Nat) (hn : 2 * bytes.length < n) :
    ∃ (p q : Parser) (F : Forest AttrValue), anyParser checks seekable bytes ending cursor limit = .ok p ∧
      drive Z false everything n 0 [] (p.setHandler (fun _ _ _ => none)) = (.ok (events F.plain ++ [.fbx footer]), q) ∧
      Rep t t.root (.node "" [] F.roses) := by
  unfold anyTree at h
  cases hp : anyParser checks seekable bytes ending cursor limit with
  | err e => rw [hp] at h; cases h
  | panic e => rw [hp] at h; cases h
  | ok p =>
    rw [hp] at h
    obtain ⟨a, b, c, d, tail, w, h1, h2, h3⟩ := (anyParser_ok_iff (by omega)).mp hp
    have hl : bytes.length = 27 + tail.length := by
      rw [h1, List.length_append, List.length_append, show signature.length = 23 by decide]; simp
    have hsz : Sized tail := by
      simp only [Sized, headerLen]
      omega
    obtain ⟨hi, hL, g1, g2, g3, g4, g5⟩ := anyTree_open (fun _ _ _ => none) hsz h3
    have hrest : p.reader.rest = tail := by
      unfold Parser.create at h3
      split at h3 <;> cases h3
      rfl
    have := Load.load_spec (Z := Z) hL hi g1 g2 n (by show 2 * p.reader.rest.length < n; rw [hrest]; omega)
    rcases hd : drive Z false everything n 0 [] (p.setHandler (fun _ _ _ => none)) with ⟨_ | _ | _, q⟩
    · rw [hd] at this
      obtain ⟨F, f, u, k0, k1, k2, k3⟩ := this
      simp only [k1] at h
      cases h
      exact ⟨p, q, F, rfl, by rw [hd, k0], k3⟩
    · rw [hd] at this
      simp only [this] at h
      cases h
    · rw [hd] at this
      simp only [this.1] at h
      cases h

/-- How a load ended, without the tree. -/
def ending? (r : Res AnyTreeError (FbxVersion × Tree × Except PErr Footer)) : Res AnyTreeError FbxVersion :=
  match r with
  | .ok (v, _) => .ok v
  | .err e => .err e
  | .panic x => .panic x

/-- A tree is loaded from the file written in C23; bytes without a header, with a header of version 6.1, and with a body
that is missing are rejected; and the panic is real. -/
example : ending? (anyTree Zlib.stored true true exWritten.2.buf none 0 (2 ^ 64)) = .ok 7400 ∧
    ending? (anyTree Zlib.stored true false [1, 2, 3] none 0 (2 ^ 64)) = .err (.parserCreation (.header (.io .unexpectedEof))) ∧
    ending? (anyTree Zlib.stored true false (signature ++ [0xd4, 0x17, 0, 0]) none 0 (2 ^ 64)) = .err (.parserCreation (.unsupportedVersion 6100)) ∧
    ending? (anyTree Zlib.stored true false (signature ++ [0xe8, 0x1c, 0, 0]) none 0 (2 ^ 64)) =
      .err (.load (.parser ⟨.io .unexpectedEof, some ⟨27, 0, [], none⟩⟩)) ∧
    ending? (anyTree Zlib.stored true false (signature ++ [0x4c, 0x1d, 0, 0] ++ exOverflow) none 0 (2 ^ 64)) = .panic .attrEndOverflow := by
  refine ⟨?_, by decide +kernel, by decide +kernel, by decide +kernel, by decide +kernel⟩
  obtain ⟨u, f, h, -⟩ := C23_any_tree Zlib.stored Zlib.stored_lawful exTree_reachable (by decide) exSink _ 7400 exFooter exWritten_ok (by rw [exWritten_len]; decide)
    true none 0 (2 ^ 64) (by rw [exWritten_len]; decide)
  rw [h]
  rfl

/-! ## C33 for trees -/

/-- **C33** (trees). If the beginning of a file can be loaded as a tree at all, then so can the whole file, and both trees are
strictly equal: no file that was cut short is taken for one with other nodes or attributes. (Only the footer may be lost.) -/
theorem C33_trees (Z : Zlib) {checks seekable : Bool} {bytes suf : Bytes} {ending ending' : Option IoErr} {cursor limit : Nat}
    (hlen : (bytes ++ suf).length + 2 ^ 32 ≤ 2 ^ 64) {v : FbxVersion} {t : Tree} {footer : Except PErr Footer}
    (h : anyTree Z checks seekable bytes ending' cursor limit = .ok (v, t, footer)) :
    ∃ u footer', anyTree Z checks seekable (bytes ++ suf) ending cursor limit = .ok (v, u, footer') ∧ strictEq t u = .ok true := by
  have hlen0 : bytes.length + 2 ^ 32 ≤ 2 ^ 64 := by rw [List.length_append] at hlen; omega
  have hres := C52_any_tree Z checks seekable bytes ending' cursor limit hlen0
  rw [h] at hres
  obtain ⟨-, -, hwf, hname, hattrs⟩ := hres
  obtain ⟨q, q', F, hq, hd, hrep⟩ := C52_document Z hlen0 h _ (Nat.lt_succ_self _)
  obtain ⟨a, b, c, d, tail, w, h1, h2, h3⟩ := (anyParser_ok_iff (by omega)).mp hq
  have hl : bytes.length = 27 + tail.length := by
    rw [h1, List.length_append, List.length_append, show signature.length = 23 by decide]; simp
  have hsz' : Sized (tail ++ suf) := by
    rw [List.length_append] at hlen
    simp only [Sized, headerLen, List.length_append]
    omega
  have hsz : Sized tail := by
    simp only [Sized, headerLen]
    omega
  -- the whole file
  have hsup := (C02_parser_versions checks w _).mp ⟨q, h3⟩
  obtain ⟨p, hp⟩ := (C02_parser_versions checks w ⟨tail ++ suf, ending, cursor + 27, headerLen, seekable, limit⟩).mpr hsup
  have hpo : anyParser checks seekable (bytes ++ suf) ending cursor limit = .ok p :=
    (anyParser_ok_iff (by omega)).mpr ⟨a, b, c, d, tail ++ suf, w, by rw [h1, List.append_assoc], h2, hp⟩
  obtain ⟨hi, hL, g1, g2, g3, g4, g5⟩ := anyTree_open (fun _ _ _ => none) hsz' hp
  obtain ⟨hi', hL', -, -, g3', -, -⟩ := anyTree_open (fun _ _ _ => none) hsz h3
  have hcut : CRel (Cut suf) ⟨p.setHandler (fun _ _ _ => none), none⟩ ⟨q.setHandler (fun _ _ _ => none), none⟩ := by
    obtain ⟨⟨⟨k1, k2⟩, k3⟩, -⟩ := cut_open hp h3 hsz'
    refine ⟨⟨?_, k2⟩, rfl⟩
    simp only [Parser.setHandler]
    simp only at k1
    rw [k1]
  obtain ⟨hr, hfit⟩ := drive_runs false everything _ 0 [] (events F.plain) _ _ footer none hd
  obtain ⟨k', hk⟩ := hist_append false everything (events F.plain) 0
  have hfit' : ∀ g, Fitting everything 0 (events F.plain ++ [.fbx g]) := by
    obtain ⟨o, f, e1, -, e3⟩ := hfit.last
    obtain ⟨e4, -⟩ := List.append_inj' e1 rfl
    rw [e4]; exact e3
  -- the client sees the same in the whole file
  have hwhole : ∃ g u, Runs Z ⟨p.setHandler (fun _ _ _ => none), none⟩ (hist false everything 0 (events F.plain ++ [.fbx g])) u := by
    rcases cut_runs hL hL' hi hi' hcut hr (hist_calm _ _ _ _) with ⟨u, k1, -⟩ | ⟨a, c, o', b, u, u', o, w, k1, k2, k3, k4, k5, k6, k7, k8, k9⟩
    · exact ⟨footer, u, k1⟩
    · rw [hk] at k1
      have hb : b = [] := by
        rcases List.eq_nil_or_concat b with rfl | ⟨b', y, rfl⟩
        · rfl
        · rw [List.concat_eq_append, ← List.cons_append, ← List.append_assoc] at k1
          have := (List.append_inj' k1 rfl).2
          simp only [hist, List.cons.injEq, and_true] at this
          have := (k9 y (by simp)).2
          subst y
          cases this
      subst hb
      obtain ⟨e1, e2⟩ := List.append_inj' k1 rfl
      simp only [hist, List.cons.injEq, and_true, Prod.mk.injEq] at e2
      obtain ⟨rfl, rfl⟩ := e2
      obtain ⟨g, rfl⟩ := Outcome.endFbx_of (k7 rfl)
      refine ⟨g, w, ?_⟩
      rw [hk, e1]
      refine .snoc k2 ?_ k5
      intro c x hx
      rw [← e1] at hx
      exact hist_calm _ _ _ _ c x hx
  obtain ⟨g, u, hru⟩ := hwhole
  have hdr := runs_drive hL false everything _ [] 0 _ _ none hi hru (hfit' g)
  obtain ⟨x, m1, m2, m3⟩ := Load.load_of_drive hL hi g1 g2 hdr
  refine ⟨x, g, ?_, written_loaded hwf hname hattrs (rep_root hrep).2.2 m2 m3⟩
  unfold anyTree at h ⊢
  rw [hpo]
  rw [hq] at h
  simp only [m1]
  rw [g3]
  have : v = q.version := by
    simp only at h
    split at h <;> cases h
    rfl
  rw [this, g3']

/-- The example file is the beginning of a longer one. -/
example : ∃ t f u f', anyTree Zlib.stored true true exWritten.2.buf none 0 (2 ^ 64) = .ok (7400, t, f) ∧
    anyTree Zlib.stored true true (exWritten.2.buf ++ [1, 2, 3]) none 0 (2 ^ 64) = .ok (7400, u, f') ∧ strictEq t u = .ok true := by
  obtain ⟨t, f, h, -⟩ := C23_any_tree Zlib.stored Zlib.stored_lawful exTree_reachable (by decide) exSink _ 7400 exFooter exWritten_ok (by rw [exWritten_len]; decide)
    true none 0 (2 ^ 64) (by rw [exWritten_len]; decide)
  obtain ⟨u, f', h1, h2⟩ := C33_trees (suf := [1, 2, 3]) (ending := none) Zlib.stored (by rw [List.length_append, exWritten_len]; decide) h
  exact ⟨t, f, u, f', h, h1, h2⟩

/-! ## C47 Rewriting -/

/-- **C47** (rewriting). A tree loaded from a file written by `write_tree` is written exactly as the original tree: same results,
same bytes, on every sink (faulty ones included), in every version and with every footer. -/
theorem C47_rewriting (Z : Zlib) (hZ : Z.Lawful) {t : Tree} (ht : Reachable t) (ha : (t.nodes t.root).attrs = [])
    (s s' : Sink) (v : FbxVersion) (f : FooterSpec) (h : treeSession Z s v t f = (.ok (), s')) (hlen : s'.buf.length + 2 ^ 32 ≤ 2 ^ 64)
    (checks : Bool) (ending : Option IoErr) (cursor limit : Nat) (hlim : cursor + s'.buf.length ≤ limit)
    {w : FbxVersion} {u : Tree} {footer : Except PErr Footer} (hu : anyTree Z checks true s'.buf ending cursor limit = .ok (w, u, footer))
    (Z' : Zlib) (s0 : Sink) (v0 : FbxVersion) (f0 : FooterSpec) : treeSession Z' s0 v0 u f0 = treeSession Z' s0 v0 t f0 := by
  obtain ⟨u', footer', h1, h2⟩ := C23_any_tree Z hZ ht ha s s' v f h hlen checks ending cursor limit hlim
  rw [hu] at h1
  cases h1
  have hres := C52_any_tree Z checks true s'.buf ending cursor limit hlen
  rw [hu] at hres
  exact (C47_equal_trees_same_bytes (C43_reachable_well_formed ht) hres.2.2.1 h2 Z' s0 v0 f0).symm

example (Z' : Zlib) (s0 : Sink) (v0 : FbxVersion) (f0 : FooterSpec) :
    ∃ u f, anyTree Zlib.stored true true exWritten.2.buf none 0 (2 ^ 64) = .ok (7400, u, f) ∧ treeSession Z' s0 v0 u f0 = treeSession Z' s0 v0 exTree f0 := by
  obtain ⟨u, f, h, -⟩ := C23_any_tree Zlib.stored Zlib.stored_lawful exTree_reachable (by decide) exSink _ 7400 exFooter exWritten_ok (by rw [exWritten_len]; decide)
    true none 0 (2 ^ 64) (by rw [exWritten_len]; decide)
  exact ⟨u, f, h, C47_rewriting Zlib.stored Zlib.stored_lawful exTree_reachable (by decide) exSink _ 7400 exFooter exWritten_ok (by rw [exWritten_len]; decide)
    true none 0 (2 ^ 64) (by rw [exWritten_len]; decide) h Z' s0 v0 f0⟩

end Fbx
