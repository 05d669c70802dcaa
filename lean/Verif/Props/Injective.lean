import Verif.Props.ParseWritten
import Verif.Props.TreeIO

/-!
# A file determines the document written to it

Two sessions whose files agree wrote the same document.
-/

namespace Fbx
open Spec
open Forest (plain)
open Writer (legal session Append)

/-- The names, the structure and the values of a document, without the way its arrays are stored. -/
def Spec.Forest.stored (F : Forest DAttr) : Forest AttrValue := F.map (fun d => d.value)

namespace Parser

theorem events_stored : ∀ F : Forest DAttr, events (plain F.stored) = events F := by
  intro F
  induction F with
  | nil => rfl
  | cons n as ch r ih1 ih2 =>
    simp only [plain, Forest.stored, Forest.map, events, List.length_map, List.map_map, Function.comp_def] at *
    rw [ih1, ih2]

theorem le4_inj {a b : Nat} (ha : a < 2 ^ 32) (hb : b < 2 ^ 32) (h : le 4 a = le 4 b) : a = b := by
  simp only [le, List.range, List.range.loop, List.map, List.cons.injEq, and_true] at h
  obtain ⟨h0, h1, h2, h3⟩ := h
  have t : ∀ {x y : Nat}, UInt8.ofNat x = UInt8.ofNat y → x % 256 = y % 256 := by
    intro x y h
    simpa using congrArg UInt8.toNat h
  have h0 := t h0
  have h1 := t h1
  have h2 := t h2
  have h3 := t h3
  simp only [Nat.reducePow] at *
  omega

theorem denote_storage (a b : Append) (Z : Zlib) (x y : Bytes) (hv : (denote a).value = (denote b).value)
    (h : attrBytes Z (denote a) ++ x = attrBytes Z (denote b) ++ y) : denote a = denote b := by
  have key : ∀ (e e' : ArrEnc) (X Y : Bytes), le 4 (match e with | .direct => 0 | .zlib => 1) ++ X =
      le 4 (match e' with | .direct => 0 | .zlib => 1) ++ Y → e = e' := by
    intro e e' X Y h
    have := (List.append_inj h (by simp [le])).1
    cases e <;> cases e' <;> first | rfl | (exact absurd this (by decide))
  cases a <;> cases b <;> simp only [denote, reduceCtorEq, DAttr.mk.injEq, AttrValue.arrBool.injEq, AttrValue.arrI32.injEq,
    AttrValue.arrI64.injEq, AttrValue.arrF32.injEq, AttrValue.arrF64.injEq] at hv ⊢ <;>
    first
    | exact ⟨hv, trivial⟩
    | (refine ⟨hv, ?_⟩
       simp only [attrBytes, attrBody, denote, arrayCount, hv, List.cons_append, List.append_assoc, List.cons.injEq, true_and] at h
       exact key _ _ _ _ (List.append_cancel_left h))

theorem attrs_storage (Z : Zlib) : ∀ (as bs : List Append) (x y : Bytes),
    as.map (fun a => (denote a).value) = bs.map (fun a => (denote a).value) →
    (as.map denote).flatMap (attrBytes Z) ++ x = (bs.map denote).flatMap (attrBytes Z) ++ y → as.map denote = bs.map denote := by
  intro as
  induction as with
  | nil => intro bs x y h; cases bs with
    | nil => intro _; rfl
    | cons => cases h
  | cons a as ih =>
    intro bs x y h hb
    cases bs with
    | nil => cases h
    | cons b bs =>
      simp only [List.map_cons, List.cons.injEq, List.flatMap_cons, List.append_assoc] at *
      have e := denote_storage a b Z _ _ h.1 hb
      refine ⟨e, ih bs x y h.2 ?_⟩
      rw [e] at hb
      exact List.append_cancel_left hb

theorem nodes_storage (Z : Zlib) (v : Nat) : ∀ (F G : Forest Append) (off : Nat) (x y : Bytes),
    (F.map denote).stored = (G.map denote).stored →
    nodes v (attrBytes Z) (F.map denote) off ++ x = nodes v (attrBytes Z) (G.map denote) off ++ y →
    F.map denote = G.map denote ∧ x = y := by
  intro F
  induction F with
  | nil =>
    intro G off x y h hb
    cases G with
    | nil => exact ⟨rfl, hb⟩
    | cons => cases h
  | cons n as ch r ih1 ih2 =>
    intro G off x y h hb
    cases G with
    | nil => cases h
    | cons n' as' ch' r' =>
      simp only [Forest.stored, Forest.map, List.map_map, Forest.cons.injEq, Function.comp_def] at h
      obtain ⟨rfl, h2, h3, h4⟩ := h
      simp only [Forest.map, nodes, List.append_assoc] at hb
      have hb := (List.append_inj hb (by simp [header, le])).2
      have hb := List.append_cancel_left hb
      have e1 := attrs_storage Z as as' _ _ h2 hb
      rw [e1] at hb
      obtain ⟨e2, hb⟩ := ih1 ch' _ _ _ h3 (List.append_cancel_left hb)
      rw [e2] at hb
      obtain ⟨e3, hb⟩ := ih2 r' _ _ _ h4 (List.append_cancel_left hb)
      exact ⟨by rw [Forest.map, Forest.map, e1, e2, e3], hb⟩

end Parser

open Parser

/-- C70: if the file left by one successful session is the beginning of the file left by another, then the two sessions
declared the same version and wrote the same document: the same names, structure and values, with the same storage of
the arrays. -/
theorem C70_same_document (Z : Zlib) (hZ : Z.Lawful) (s s' r r' : Sink) (v v' : FbxVersion) (F F' : Forest Append)
    (f f' : Writer.FooterSpec) (h : session Z s v (calls F) f = (.ok (), s')) (h' : session Z r v' (calls F') f' = (.ok (), r'))
    (hi : F.All (fun _ as => ∀ a ∈ as, intact a)) (hi' : F'.All (fun _ as => ∀ a ∈ as, intact a))
    (hlen : r'.buf.length < 2 ^ 64) (hpre : s'.buf <+: r'.buf) :
    v = v' ∧ F.map denote = F'.map denote := by
  obtain ⟨-, t, ht, hp⟩ := parse_forest hZ h hi
  obtain ⟨-, t', ht', hp'⟩ := parse_forest hZ h' hi'
  obtain ⟨u, hu⟩ := hpre
  obtain ⟨bs, hbs⟩ : ∃ bs, r'.buf = body v.toNat (attrBytes Z) (F.map denote) ++ bs :=
    ⟨_, by rw [← hu, ht, document]; simp only [List.append_assoc]; rfl⟩
  obtain ⟨bs', hbs'⟩ : ∃ bs, r'.buf = body v'.toNat (attrBytes Z) (F'.map denote) ++ bs :=
    ⟨_, by rw [ht', document]; simp only [List.append_assoc]; rfl⟩
  have hb := hbs.symm.trans hbs'
  simp only [body, List.append_assoc] at hb
  obtain ⟨e, hb⟩ := List.append_inj (List.append_cancel_left hb) (by simp [le])
  have e := UInt32.toNat.inj (le4_inj v.toNat_lt v'.toNat_lt e)
  subst e
  refine ⟨rfl, (nodes_storage Z v.toNat F F' 27 _ _ ?_ hb).1⟩
  · obtain ⟨P, -, -, -, -, -, -, hP⟩ := hp AttrValue false false everything none none 0 r'.buf.length bs (everything_ok _ _ _)
      (by rw [← hbs]; exact hlen) (by rw [← hbs]; omega) (.inr (by intro f h; cases h))
    obtain ⟨P', -, -, -, -, -, -, hP'⟩ := hp' AttrValue false false everything none none 0 r'.buf.length bs' (everything_ok _ _ _)
      (by rw [← hbs']; exact hlen) (by rw [← hbs']; omega) (.inr (by intro f h; cases h))
    rw [← hbs, everything_expected] at hP
    rw [← hbs', everything_expected] at hP'
    simp only [parseFile] at hP hP'
    cases ha : anyParser false true r'.buf none 0 r'.buf.length with
    | err e => rw [ha] at hP; cases hP
    | panic x => rw [ha] at hP; cases hP
    | ok p =>
      rw [ha] at hP hP'
      simp only [Option.some.injEq] at hP hP'
      have e := drive_unique (Z := Z) (buffered := false) (plan := everything) (m := 2 * F.count + 1) (n := 2 * F'.count + 1) (k := 0)
        (seen := []) (p := { p with handler := none }) (by rw [hP]; exact ⟨_, _, rfl⟩) (by rw [hP']; exact ⟨_, _, rfl⟩)
      rw [hP, hP'] at e
      have e := (Prod.mk.inj e).1
      simp only [Res.ok.injEq] at e
      rw [← events_stored (F.map denote), ← events_stored (F'.map denote)] at e
      exact (events_inj _ _ _ _ _ _ (by intro _ _ _ h; cases h) (by intro _ _ _ h; cases h) e).1

/-- C70, for the footer: on devices that were empty, files that are equal also have the same footer fields and the same
number of padding bytes. -/
theorem C70_same_footer (Z : Zlib) (hZ : Z.Lawful) (s s' r r' : Sink) (v v' : FbxVersion) (F F' : Forest Append)
    (f f' : Writer.FooterSpec) (h : session Z s v (calls F) f = (.ok (), s')) (h' : session Z r v' (calls F') f' = (.ok (), r'))
    (hi : F.All (fun _ as => ∀ a ∈ as, intact a)) (hi' : F'.All (fun _ as => ∀ a ∈ as, intact a))
    (hs : s.buf = []) (hr : r.buf = []) (hf : footSized f) (hf' : footSized f')
    (hlen : r'.buf.length < 2 ^ 64) (heq : s'.buf = r'.buf) :
    (footOf f).unknown1 = (footOf f').unknown1 ∧ (footOf f).unknown2 = (footOf f').unknown2 ∧
      (footOf f).unknown3 = (footOf f').unknown3 ∧
      (∀ n n', f.padding = .forced n → f'.padding = .forced n' → n = n') ∧
      (∀ n, f.padding = .forced n → f'.padding = .default →
        n.toNat = alignPad ((body v.toNat (attrBytes Z) (F.map denote)).length + 16)) := by
  obtain ⟨rfl, e⟩ := C70_same_document Z hZ s s' r r' v v' F F' f f' h h' hi hi' hlen (heq ▸ List.prefix_refl _)
  have exact_buf : ∀ {s s' : Sink} {F : Forest Append} {f : Writer.FooterSpec}, session Z s v (calls F) f = (.ok (), s') →
      F.All (fun _ as => ∀ a ∈ as, intact a) → s.buf = [] →
      s'.buf = document v.toNat (attrBytes Z) (F.map denote) (footOf f) := by
    intro s s' F f h hi hs
    have hl : legal false (calls F) = true := by
      have := legal_calls F false [] (fun _ _ => rfl)
      rw [List.append_nil] at this
      rw [this]; rfl
    obtain ⟨G, h1, -, h3⟩ := C06_layout Z s s' v _ f hl h
    cases C06_forest_unique _ _ h1
    rw [(h3 hi).1, hs, List.drop_nil, List.append_nil]
    exact document_map v.toNat denote (attrBytes Z) F (footOf f)
  have a := exact_buf h hi hs
  have b := exact_buf h' hi' hr
  obtain ⟨l1, l2, l3⟩ := footSized_lengths hf
  obtain ⟨k1, k2, k3⟩ := footSized_lengths hf'
  rw [a, b, ← e, document, document] at heq
  have heq := List.append_cancel_left heq
  generalize (body v.toNat (attrBytes Z) (F.map denote)).length = m at heq ⊢
  have hp : padLen (footOf f) m = padLen (footOf f') m := by
    have := congrArg List.length heq
    simp only [footer, List.length_append, List.length_replicate, l1, l2, l3, k1, k2, k3] at this
    simp only [le, List.length_map] at this
    omega
  simp only [footer, hp, List.append_assoc] at heq
  obtain ⟨e1, heq⟩ := List.append_inj heq (by rw [l1, k1])
  obtain ⟨e2, heq⟩ := List.append_inj (List.append_cancel_left heq) (by rw [l2, k2])
  refine ⟨e1, e2, List.append_cancel_left (List.append_cancel_left heq), ?_, ?_⟩
  · intro n n' hn hn'
    simp only [padLen, footOf, hn, hn', Option.getD_some] at hp
    exact UInt8.toNat.inj hp
  · intro n hn hn'
    simp only [padLen, footOf, hn, hn', Option.getD_some, Option.getD_none] at hp
    rw [hp]
    have : (footOf f').unknown1.length = 16 := k1
    simp only [footOf] at this
    rw [this]

/-- Bytes given whole and no encoding asked for; the footer asks for the default padding. -/
def exSame1 : Forest Append := .cons "A" [.binary [1, 2], .arrI32 none [.ok 7]] .nil .nil
/-- The same bytes from an iterator and the direct encoding asked for. -/
def exSame2 : Forest Append := .cons "A" [.binaryIter [.ok 1, .ok 2], .arrI32 (some .direct) [.ok 7]] .nil .nil
/-- A footer that asks for as much padding as the alignment of these documents needs. -/
def exSameFooter : Writer.FooterSpec := ⟨none, .forced 2, none, none⟩

/-- The hypotheses are met by sessions that differ in their calls and in the padding they ask for. -/
theorem exSame : (session Zlib.stored ⟨[], 0, fun _ => none⟩ 7400 (calls exSame1) exFooter).1 = .ok () ∧
    (session Zlib.stored ⟨[], 0, fun _ => none⟩ 7400 (calls exSame2) exSameFooter).1 = .ok () ∧
    (session Zlib.stored ⟨[], 0, fun _ => none⟩ 7400 (calls exSame1) exFooter).2.buf =
      (session Zlib.stored ⟨[], 0, fun _ => none⟩ 7400 (calls exSame2) exSameFooter).2.buf ∧
    (session Zlib.stored ⟨[], 0, fun _ => none⟩ 7400 (calls exSame2) exSameFooter).2.buf.length < 2 ^ 64 := by
  decide +kernel

example := C70_same_document Zlib.stored Zlib.stored_lawful _ _ _ _ 7400 7400 exSame1 exSame2 exFooter exSameFooter
  (pair_eq exSame.1) (pair_eq exSame.2.1) (by simp [exSame1, Forest.All, intact]) (by simp [exSame2, Forest.All, intact])
  exSame.2.2.2 (by rw [exSame.2.2.1]; exact List.prefix_refl _)

example := C70_same_footer Zlib.stored Zlib.stored_lawful _ _ _ _ 7400 7400 exSame1 exSame2 exFooter exSameFooter
  (pair_eq exSame.1) (pair_eq exSame.2.1) (by simp [exSame1, Forest.All, intact]) (by simp [exSame2, Forest.All, intact])
  rfl rfl (by simp [footSized, exFooter]) (by simp [footSized, exSameFooter]) exSame.2.2.2 exSame.2.2.1

/-- The storage of an array is part of the file: the same values stored otherwise give another file, even with a
compressor that leaves its input as it is. -/
example : (session Zlib.stored ⟨[], 0, fun _ => none⟩ 7400 (calls (.cons "A" [.arrI32 none [.ok 7]] .nil .nil)) exFooter).2.buf ≠
    (session Zlib.stored ⟨[], 0, fun _ => none⟩ 7400 (calls (.cons "A" [.arrI32 (some .zlib) [.ok 7]] .nil .nil)) exFooter).2.buf := by
  decide +kernel

end Fbx
