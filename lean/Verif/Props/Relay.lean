import Verif.Props.AnyDest
import Verif.Props.BufRead
import Verif.Spec.Relay

/-! # C96: from one stream to another -/

namespace Fbx
open Spec Tree
variable {ρ ρ' δ : Type} {S : Source ρ} {J : ρ → Prop} {tape : ρ → Tape} {S' : Source ρ'} {J' : ρ' → Prop} {tape' : ρ' → Tape}
variable {D : Dest δ} {I : δ → Prop} {P : Fault → Prop} {content : δ → Bytes} {cursor : δ → Nat}

/-- **C96** (loading has one result). Whatever the source is: loading from it ends, with one result. -/
theorem C96_loads (hS : Delivers S J tape) (Z : Zlib) (checks seekable : Bool) (x : ρ) (hx : J x) (hlen : (tape x).rest.length + 2 ^ 32 ≤ 2 ^ 64) :
    ∃ r, Loads S tape Z checks seekable x r ∧ ∀ r', Loads S tape Z checks seekable x r' → r' = r := by
  obtain ⟨f, hf⟩ := C95_tree hS Z checks seekable x hx hlen
  refine ⟨_, ⟨f, hf⟩, fun r' ⟨g, hg⟩ => ?_⟩
  have h1 := hf (max f g) (Nat.le_max_left _ _)
  rw [hg (max f g) (Nat.le_max_right _ _)] at h1
  injection h1

/-- What is written by a well-formed tree is loaded again. -/
theorem relay_wf (hS : Delivers S J tape) (hD : Sound D I P content cursor) (Z : Zlib) (hZ : Z.Lawful) {t : Tree} (ht : WF t)
    (hn : t.name? t.root = some "") (ha : (t.nodes t.root).attrs = []) {d d' : δ} (hd : I d) {v : FbxVersion} {f : Writer.FooterSpec}
    (h : AnyDest.treeSession D Z d v t f = (.ok (), d')) (hlen : (content d').length + 2 ^ 32 ≤ 2 ^ 64)
    {x : ρ} (hx : J x) (hxr : (tape x).rest = content d') (hlim : (tape x).pos + (content d').length ≤ (tape x).limit) (checks : Bool) :
    ∃ u footer, Loads S tape Z checks true x (.ok (v, u, footer)) ∧ strictEq t u = .ok true ∧ WF u := by
  obtain ⟨fault, -, h2⟩ := C93_any_tree hD Z d hd v t f
  rw [h] at h2
  obtain ⟨h3, h4, -, -⟩ := h2
  rcases hs : Writer.treeSession Z ⟨content d, cursor d, fault⟩ v t f with ⟨y, s'⟩
  rw [hs] at h3 h4
  simp only at h3 h4
  subst h3
  rw [h4] at hlen hxr hlim
  obtain ⟨u, footer, q, k1, k2, k3, p, k4, k5⟩ := wf_round_trip hZ ht hn ha hs hlen checks (some (fun _ _ _ => none))
    (fun g hg => by cases hg; intro _ _ _; rfl) (tape x).ending (tape x).pos (tape x).limit hlim
  refine ⟨u, footer, ?_, k3, k2⟩
  have e : anyTree Z checks true (tape x).rest (tape x).ending (tape x).pos (tape x).limit = .ok (v, u, footer) := by
    rw [hxr]
    simp only [loadFile, k4, Option.some.injEq] at k1
    simp only [anyTree, k4, Parser.setHandler, k1]
    rw [k5]
  obtain ⟨g, hg⟩ := C95_tree hS Z checks true x hx (by rw [hxr]; exact hlen)
  exact ⟨g, fun fuel hf => by rw [hg fuel hf, e]⟩

/-- **C96** (write, then load). A tree is written to a destination of any type, which may fail at any time, and all calls succeed. Then a source of
any type that stands for what the destination contains gives a strictly equal tree. -/
theorem C96_round_trip (hS : Delivers S J tape) (hD : Sound D I P content cursor) (Z : Zlib) (hZ : Z.Lawful) {t : Tree} (ht : Reachable t)
    (ha : (t.nodes t.root).attrs = []) {d d' : δ} (hd : I d) {v : FbxVersion} {f : Writer.FooterSpec}
    (h : AnyDest.treeSession D Z d v t f = (.ok (), d')) (hlen : (content d').length + 2 ^ 32 ≤ 2 ^ 64)
    {x : ρ} (hx : J x) (hxr : (tape x).rest = content d') (hlim : (tape x).pos + (content d').length ≤ (tape x).limit) (checks : Bool) :
    ∃ u footer, Loads S tape Z checks true x (.ok (v, u, footer)) ∧ strictEq t u = .ok true := by
  obtain ⟨u, footer, h1, h2, -⟩ := relay_wf hS hD Z hZ (C43_reachable_well_formed ht) ht.root ha hd h hlen hx hxr hlim checks
  exact ⟨u, footer, h1, h2⟩

/-- **C96** (copying). A tree is loaded from a source of any type, seekable or not, and written to a destination of any type, in any version. If both
succeed, then a source that stands for what the destination contains gives a strictly equal tree; and wherever that one is written to, the result and the
bytes are those of the first tree. -/
theorem C96_copy (hS : Delivers S J tape) (hS' : Delivers S' J' tape') (hD : Sound D I P content cursor) (Z : Zlib) (hZ : Z.Lawful)
    {checks seekable : Bool} {x : ρ} (hx : J x) (hlenx : (tape x).rest.length + 2 ^ 32 ≤ 2 ^ 64) {w : FbxVersion} {t : Tree} {footer : Except PErr Footer}
    (hl : Loads S tape Z checks seekable x (.ok (w, t, footer))) {d d' : δ} (hd : I d) {v : FbxVersion} {f : Writer.FooterSpec}
    (h : AnyDest.treeSession D Z d v t f = (.ok (), d')) (hlen : (content d').length + 2 ^ 32 ≤ 2 ^ 64)
    {x' : ρ'} (hx' : J' x') (hxr : (tape' x').rest = content d') (hlim : (tape' x').pos + (content d').length ≤ (tape' x').limit) (checks' : Bool) :
    ∃ u footer', Loads S' tape' Z checks' true x' (.ok (v, u, footer')) ∧ strictEq t u = .ok true ∧
      ∀ (Z0 : Zlib) (s0 : Sink) (v0 : FbxVersion) (f0 : Writer.FooterSpec), Writer.treeSession Z0 s0 v0 u f0 = Writer.treeSession Z0 s0 v0 t f0 := by
  have hw : WF t ∧ t.name? t.root = some "" ∧ (t.nodes t.root).attrs = [] := by
    obtain ⟨g, hg⟩ := C95_tree hS Z checks seekable x hx hlenx
    obtain ⟨g', hg'⟩ := hl
    have e := hg (max g g') (Nat.le_max_left _ _)
    rw [hg' (max g g') (Nat.le_max_right _ _)] at e
    injection e with e
    have := C52_any_tree Z checks seekable (tape x).rest (tape x).ending (tape x).pos (tape x).limit hlenx
    rw [← e] at this
    exact this.2.2
  obtain ⟨u, footer', h1, h2, h3⟩ := relay_wf hS' hD Z hZ hw.1 hw.2.1 hw.2.2 hd h hlen hx' hxr hlim checks'
  exact ⟨u, footer', h1, h2, fun Z0 s0 v0 f0 => (C47_equal_trees_same_bytes hw.1 h3 h2 Z0 s0 v0 f0).symm⟩

/-- **C96** (`BufWriter`, then `BufReader`). A tree is written with `write_tree` and `finalize_and_flush` through a `BufWriter` of any capacity to a
file, which may fail at any operation. If both succeed, then loading the file through a `BufReader` of any capacity, whatever the pieces in which the
file delivers its bytes, gives a strictly equal tree. -/
theorem C96_buffered (Z : Zlib) (hZ : Z.Lawful) {t : Tree} (ht : Reachable t) (ha : (t.nodes t.root).attrs = []) (cap : Nat) (s : Sink)
    (v : FbxVersion) (f : Writer.FooterSpec) {b : BufOut} (h : AnyDest.flushedTreeSession BufOut.dest Z (BufOut.create cap s) v t f = (.ok (), b))
    (hlen : b.inner.buf.length + 2 ^ 32 ≤ 2 ^ 64)
    {plan : Schedule} (hf : Fair plan) (bufs : Disk → Nat) (copyBuf cap' : Nat) (checks : Bool) (ending : Option IoErr) (limit calls : Nat)
    (hlim : b.inner.buf.length ≤ limit) :
    ∃ u footer, Loads ((Disk.source bufs copyBuf).bufReader cap') (bufTape diskTape) Z checks true (⟨b.inner.buf, 0, ending, limit, plan, calls⟩, [])
      (.ok (v, u, footer)) ∧ strictEq t u = .ok true := by
  obtain ⟨u, footer, h1, h2⟩ := C93_tree Z hZ ht ha cap s v f h hlen checks ending 0 limit (by omega)
  obtain ⟨g, hg⟩ := C95_buffered_tree hf bufs copyBuf cap' Z checks true b.inner.buf 0 ending limit calls hlen
  refine ⟨u, footer, ⟨g, fun fuel hf => ?_⟩, h2⟩
  have := hg fuel hf
  rw [List.drop_zero, h1] at this
  exact this

/-! ## Examples -/

/-- Loading has one result, also from a broken file. -/
example := C96_loads (C95_bufreader (C95_file exSchedule_fair (fun d => d.calls % 3) 1) 5) Zlib.stored true true
  (⟨[1, 2, 3], 0, none, 100, exSchedule, 0⟩, []) ⟨rfl, Nat.le_refl _, List.nil_prefix⟩ (by decide +kernel)

/-- The tree of C23 is written through a `BufWriter`. -/
def exRelay : Res WErr Unit × BufOut := AnyDest.flushedTreeSession BufOut.dest Zlib.stored (BufOut.create 512 exSink) 7400 exTree exFooter

theorem exRelay_ok : exRelay.1 = .ok () := by decide +kernel

theorem exRelay_eq : exRelay = (.ok (), exRelay.2) := by rw [← exRelay_ok]

theorem exRelay_length : exRelay.2.inner.buf.length ≤ 5000 := by decide +kernel

/-- It is read through a `BufReader`. -/
example : ∃ u footer, Loads ((Disk.source (fun d => d.calls % 3) 1).bufReader 5) (bufTape diskTape) Zlib.stored true true
    (⟨exRelay.2.inner.buf, 0, none, 5000, exSchedule, 0⟩, []) (.ok (7400, u, footer)) ∧ strictEq exTree u = .ok true := by
  have hl := exRelay_length
  have h := exRelay_eq
  generalize exRelay.2 = b at h hl ⊢
  unfold exRelay at h
  exact C96_buffered Zlib.stored Zlib.stored_lawful exTree_reachable (by decide) 512 exSink 7400 exFooter h (by omega)
    exSchedule_fair (fun d => d.calls % 3) 1 5 true none 5000 0 hl

/-- The same tree, written with `finalize` alone: what device and buffer contain. -/
def exRelayed : Res WErr Unit × BufOut := AnyDest.treeSession BufOut.dest Zlib.stored (BufOut.create 512 exSink) 7400 exTree exFooter

theorem exRelayed_ok : exRelayed.1 = .ok () := by decide +kernel

theorem exRelayed_eq : exRelayed = (.ok (), exRelayed.2) := by rw [← exRelayed_ok]

theorem exRelayed_length : exRelayed.2.content.length ≤ 5000 := by decide +kernel

/-- A disk with the given bytes. -/
def exRelayDisk (bytes : Bytes) : Disk := ⟨bytes, 0, none, 5000, exSchedule, 0⟩

theorem exRelayDisk_rest (bytes : Bytes) : (diskTape (exRelayDisk bytes)).rest = bytes := rfl

theorem exRelayed_loads : ∃ u footer, Loads (Disk.source (fun d => d.calls % 3) 1) diskTape Zlib.stored true true (exRelayDisk exRelayed.2.content) (.ok (7400, u, footer)) ∧
    strictEq exTree u = .ok true := by
  obtain ⟨I, hI, hD⟩ := C93_bufwriter 512 exSink
  have hl := exRelayed_length
  have h := exRelayed_eq
  generalize exRelayed.2 = b at h hl ⊢
  unfold exRelayed at h
  exact C96_round_trip (C95_file exSchedule_fair (fun d => d.calls % 3) 1) hD Zlib.stored Zlib.stored_lawful exTree_reachable (by decide) hI
    h (by omega) (x := exRelayDisk b.content) rfl (exRelayDisk_rest _) (by show 0 + _ ≤ 5000; omega) true

/-- That tree is copied to another `BufWriter` in the newer version, and read from there. -/
example : ∃ t : Tree, strictEq exTree t = .ok true ∧
    ∀ b, AnyDest.treeSession BufOut.dest Zlib.stored (BufOut.create 8 exSink) 7500 t exFooter = (.ok (), b) → b.content.length ≤ 5000 →
      ∃ u footer, Loads (Disk.source (fun d => d.calls % 3) 1) diskTape Zlib.stored false true (exRelayDisk b.content) (.ok (7500, u, footer)) ∧
        strictEq t u = .ok true := by
  obtain ⟨t, footer, hl, ht⟩ := exRelayed_loads
  refine ⟨t, ht, fun b h hb => ?_⟩
  obtain ⟨I, hI, hD⟩ := C93_bufwriter 8 exSink
  have hlen := exRelayed_length
  generalize exRelayed.2 = b0 at hl hlen
  obtain ⟨u, footer', h1, h2, -⟩ := C96_copy (C95_file exSchedule_fair (fun d => d.calls % 3) 1) (C95_file exSchedule_fair (fun d => d.calls % 3) 1) hD
    Zlib.stored Zlib.stored_lawful rfl (by rw [exRelayDisk_rest]; omega) hl hI h (by omega) (x' := exRelayDisk b.content) rfl (exRelayDisk_rest _)
    (by show 0 + _ ≤ 5000; omega) false
  exact ⟨u, footer', h1, h2⟩

/-- The original is written in that version, too. -/
example : (AnyDest.treeSession BufOut.dest Zlib.stored (BufOut.create 8 exSink) 7500 exTree exFooter).1 = .ok () := by decide +kernel

end Fbx
