import Verif.Props.Shaky
import Verif.Props.Passage
import Verif.Spec.Mishaps

/-! # C99: from one stream to another, whatever fails -/

namespace Fbx
open Spec Tree
variable {ρ ρ' δ α : Type} {S : Source ρ} {J : ρ → Prop} {tape : ρ → Tape} {S' : Source ρ'} {J' : ρ' → Prop} {tape' : ρ' → Tape}
variable {D : Dest δ} {I : δ → Prop} {P : Fault → Prop} {content : δ → Bytes} {cursor : δ → Nat} {Z : Zlib}

/-- What is written by a well-formed tree is in the destination. -/
theorem written_wf (hD : Sound D I P content cursor) (hZ : Z.Lawful) {t : Tree} (ht : WF t) (hn : t.name? t.root = some "")
    (ha : (t.nodes t.root).attrs = []) {d d' : δ} (hd : I d) {v : FbxVersion} {f : Writer.FooterSpec}
    (h : AnyDest.treeSession D Z d v t f = (.ok (), d')) (hlen : (content d').length + 2 ^ 32 ≤ 2 ^ 64) (checks : Bool) (ending : Option IoErr)
    (pos limit : Nat) (hlim : pos + (content d').length ≤ limit) :
    ∃ u footer, anyTree Z checks true (content d') ending pos limit = .ok (v, u, footer) ∧ strictEq t u = .ok true ∧ WF u := by
  obtain ⟨fault, -, h2⟩ := C93_any_tree hD Z d hd v t f
  rw [h] at h2
  obtain ⟨h3, h4, -, -⟩ := h2
  rcases hs : Writer.treeSession Z ⟨content d, cursor d, fault⟩ v t f with ⟨y, s'⟩
  rw [hs] at h3 h4
  simp only at h3 h4
  subst h3
  rw [h4] at hlen hlim ⊢
  obtain ⟨u, footer, q, k1, k2, k3, p, k4, k5⟩ := wf_round_trip hZ ht hn ha hs hlen checks (some (fun _ _ _ => none))
    (fun g hg => by cases hg; intro _ _ _; rfl) ending pos limit hlim
  refine ⟨u, footer, ?_, k3, k2⟩
  simp only [loadFile, k4, Option.some.injEq] at k1
  simp only [anyTree, k4, Parser.setHandler, k1]
  rw [k5]

/-- Loading from a source that fails at any time. -/
theorem loads_shaky (hS : Shaky S J tape) {checks seekable : Bool} {x : ρ} (hx : J x) (hlen : (tape x).rest.length + 2 ^ 32 ≤ 2 ^ 64)
    {v : FbxVersion} {u : Tree} {footer : Except PErr Footer}
    (h : anyTree Z checks seekable (tape x).rest (tape x).ending (tape x).pos (tape x).limit = .ok (v, u, footer)) :
    ∃ r, Loads S tape Z checks seekable x r ∧ ((∃ e, r = .err e) ∨ ∃ g, r = .ok (v, u, g) ∧ (g = footer ∨ ∃ e, g = .error e)) := by
  obtain ⟨f0, y, h1, h2⟩ := C98_tree hS Z checks seekable x hx hlen
  rw [h] at h2
  refine ⟨y, ⟨f0, h1⟩, ?_⟩
  rcases h2 with rfl | h2
  · exact .inr ⟨_, rfl, .inl rfl⟩
  · cases h2 with
    | error _ e => exact .inl ⟨e, rfl⟩
    | footer _ _ _ e => exact .inr ⟨_, rfl, .inr ⟨e, rfl⟩⟩

/-- **C99** (write, then load). A tree is written to a destination of any type, which may fail at any time, and all calls succeed. Then loading from a
source of any type that stands for what the destination contains, and of which any operation may fail, ends with an error or with a strictly equal
tree. -/
theorem C99_round_trip (hS : Shaky S J tape) (hD : Sound D I P content cursor) (Z : Zlib) (hZ : Z.Lawful) {t : Tree} (ht : Reachable t)
    (ha : (t.nodes t.root).attrs = []) {d d' : δ} (hd : I d) {v : FbxVersion} {f : Writer.FooterSpec}
    (h : AnyDest.treeSession D Z d v t f = (.ok (), d')) (hlen : (content d').length + 2 ^ 32 ≤ 2 ^ 64)
    {x : ρ} (hx : J x) (hxr : (tape x).rest = content d') (hlim : (tape x).pos + (content d').length ≤ (tape x).limit) (checks : Bool) :
    ∃ r, Loads S tape Z checks true x r ∧ ((∃ e, r = .err e) ∨ ∃ u footer, r = .ok (v, u, footer) ∧ strictEq t u = .ok true) := by
  obtain ⟨u, footer, h1, h2, -⟩ := written_wf hD hZ (C43_reachable_well_formed ht) ht.root ha hd h hlen checks (tape x).ending (tape x).pos (tape x).limit hlim
  obtain ⟨r, h3, h4⟩ := loads_shaky hS hx (by rw [hxr]; exact hlen) (by rw [hxr]; exact h1)
  exact ⟨r, h3, h4.imp id fun ⟨g, h5, _⟩ => ⟨u, g, h5, h2⟩⟩

/-- **C99** (copying). A tree is loaded from a source of which any operation may fail, and written to a destination that may fail at any time. If both
succeed, then the tree is that of the document in the source; and loading again, from a source that stands for what the destination contains, and of
which any operation may fail, ends with an error or with a strictly equal tree. -/
theorem C99_copy (hS : Shaky S J tape) (hS' : Shaky S' J' tape') (hD : Sound D I P content cursor) (Z : Zlib) (hZ : Z.Lawful)
    {checks seekable : Bool} {x : ρ} (hx : J x) (hlenx : (tape x).rest.length + 2 ^ 32 ≤ 2 ^ 64) {w : FbxVersion} {t : Tree} {footer : Except PErr Footer}
    (hl : Loads S tape Z checks seekable x (.ok (w, t, footer))) {d d' : δ} (hd : I d) {v : FbxVersion} {f : Writer.FooterSpec}
    (h : AnyDest.treeSession D Z d v t f = (.ok (), d')) (hlen : (content d').length + 2 ^ 32 ≤ 2 ^ 64)
    {x' : ρ'} (hx' : J' x') (hxr : (tape' x').rest = content d') (hlim : (tape' x').pos + (content d').length ≤ (tape' x').limit) (checks' : Bool) :
    (∃ footer', anyTree Z checks seekable (tape x).rest (tape x).ending (tape x).pos (tape x).limit = .ok (w, t, footer')) ∧
    ∃ r, Loads S' tape' Z checks' true x' r ∧ ((∃ e, r = .err e) ∨ ∃ u footer', r = .ok (v, u, footer') ∧ strictEq t u = .ok true) := by
  obtain ⟨g, hg⟩ := hl
  obtain ⟨footer', h1, -⟩ := C98_no_wrong_tree hS Z checks seekable x hx hlenx g w t footer hg
  refine ⟨⟨footer', h1⟩, ?_⟩
  have hw := C52_any_tree Z checks seekable (tape x).rest (tape x).ending (tape x).pos (tape x).limit hlenx
  rw [h1] at hw
  obtain ⟨-, -, hw1, hw2, hw3⟩ := hw
  obtain ⟨u, footer'', h3, h4, -⟩ := written_wf hD hZ hw1 hw2 hw3 hd h hlen checks' (tape' x').ending (tape' x').pos (tape' x').limit hlim
  obtain ⟨r, h5, h6⟩ := loads_shaky hS' hx' (by rw [hxr]; exact hlen) (by rw [hxr]; exact h3)
  exact ⟨r, h5, h6.imp id fun ⟨g, h7, _⟩ => ⟨u, g, h7, h4⟩⟩

/-- The first calls have the first outcomes. -/
theorem observe_prefix (Z : Zlib) : ∀ (as bs : List (Call α)) (s : Client), (observe Z s as).1 <+: (observe Z s (as ++ bs)).1
  | [], _, _ => List.nil_prefix
  | a :: as, bs, s => by
    simp only [List.cons_append, observe]
    rcases s.call Z a with _ | ⟨o, t⟩
    · exact List.nil_prefix
    · cases o with
      | panic x => exact List.prefix_rfl
      | _ => exact List.cons_prefix_cons.2 ⟨rfl, observe_prefix Z as bs t⟩

theorem perusal_truthful (b : Bool) : ∀ (F : Forest DAttr), ∀ c ∈ perusal b F, c.truthful ∧ c.skips = false
  | .nil, c, hc => by cases hc
  | .cons name attrs children rest, c, hc => by
    simp only [perusal, List.mem_cons, List.mem_append, List.mem_map] at hc
    rcases hc with rfl | ⟨_, _, rfl⟩ | hc | rfl | hc
    · exact ⟨trivial, rfl⟩
    · exact ⟨C98_direct.2, rfl⟩
    · exact perusal_truthful b children c hc
    · exact ⟨trivial, rfl⟩
    · exact perusal_truthful b rest c hc

/-- What a client is told by a source that fails at any time. -/
theorem glimpses_of (hS : Shaky S J tape) {x : ρ} (hx : J x) {checks seekable : Bool} {v : FbxVersion} {cs : List (WCall α)} {os : List (Outcome α)}
    (hc : ∀ c ∈ cs, c.truthful ∧ c.skips = false) {p : Parser} (hp : anyParser checks seekable (tape x).rest (tape x).ending (tape x).pos (tape x).limit = .ok p)
    (hv : p.version = v) (ho : (observe Z ⟨p, none⟩ (cs.map WCall.call)).1 = os) : Glimpses S tape Z checks seekable x v cs os := by
  obtain ⟨f0, z, h1, h2⟩ := C98_calls (α := α) hS Z checks seekable x hx
  rcases h2 with h2 | ⟨y, rfl, h2⟩
  · exact ⟨f0, z, h1, .inl h2⟩
  · rcases h2 p hp cs (fun c h => (hc c h).1) with ⟨f1, t, h3, -⟩ | ⟨before, c, after, bs, o, o', t, k1, k2, k3, k4, -, k6⟩
    · refine ⟨max f0 f1, _, fun fuel hf => h1 fuel (by omega), .inr ⟨p, y, _, t, by rw [hp]; rfl, hv, fun fuel hf => h3 fuel (by omega), .inl ho⟩⟩
    · obtain ⟨f1, ls, u, h3, h4⟩ := k6 (hc c (by rw [k1]; simp)).2 fun c' h => (hc c' (by rw [k1]; simp [h])).2
      obtain ⟨rest, hr⟩ := observe_prefix Z ((before ++ [c]).map WCall.call) (after.map WCall.call) ⟨p, none⟩
      rw [k3, ← List.map_append, show before ++ [c] ++ after = cs by rw [k1]; simp, ho] at hr
      refine ⟨max f0 f1, _, fun fuel hf => h1 fuel (by omega), .inr ⟨p, y, _, u, by rw [hp]; rfl, hv, fun fuel hf => h3 fuel (by omega),
        .inr ⟨bs, o, rest, o', ls, ?_, rfl, k4, h4⟩⟩⟩
      rw [← hr]; simp

/-- **C99** (write, then read). A forest is written, call by call, to a destination of any type, which may fail at any time; all calls succeed. Then a
client that reads the document from a source that stands for what the destination contains, and of which any operation may fail, is told exactly the nodes
and the values that were written, in their order; or an error when opening; or a beginning of it, then of the error (which may be in the place of the footer),
and then only that the parser does not go on. -/
theorem C99_passage (hS : Shaky S J tape) (hD : Sound D I P content cursor) (Z : Zlib) (hZ : Z.Lawful) {d d' : δ} (hd : I d) {v : FbxVersion}
    {ops : List Writer.Op} {f : Writer.FooterSpec} (hl : Writer.legal false ops = true) (h : AnyDest.session D Z d v ops f = (.ok (), d'))
    (hlen : (content d').length < 2 ^ 64) {x : ρ} (hx : J x) (hxr : (tape x).rest = content d')
    (hlim : (tape x).pos + (content d').length ≤ (tape x).limit) (checks buffered : Bool) :
    ∃ F, ops = calls F ∧ (F.All (fun _ as => ∀ a ∈ as, intact a) →
      ∃ footer, Glimpses S tape Z checks true x v (perusal buffered (F.map denote) ++ [.next]) (told (F.map denote) ++ [.event (.endFbx footer)])) := by
  obtain ⟨fault, -, h2⟩ := C93_any hD Z d hd v ops f
  rw [h] at h2
  obtain ⟨h3, h4, -, -⟩ := h2
  rcases hs : Writer.session Z ⟨content d, cursor d, fault⟩ v ops f with ⟨y, s'⟩
  rw [hs] at h3 h4
  simp only at h3 h4
  subst h3
  rw [h4] at hlen hxr hlim
  obtain ⟨F, k1, k2⟩ := C21_round_trip Z hZ _ _ v ops f hl hs hlen buffered checks none (by intro f hf; cases hf) (tape x).ending (tape x).pos (tape x).limit hlim
  refine ⟨F, k1, fun hi => ?_⟩
  obtain ⟨footer, q, k3⟩ := k2 hi
  subst k1
  obtain ⟨hv, t, ht, -⟩ := Parser.parse_forest hZ hs hi
  refine ⟨footer, ?_⟩
  rw [← hxr] at k3
  change parseSource true Z checks none _ _ _ buffered everything _ _ = _ at k3
  unfold parseSource at k3
  split at k3
  case h_2 => cases k3
  case h_1 p hp =>
    obtain ⟨hv1, hv2⟩ := opened_of hv (document_starts (hxr.trans ht)) (by rw [hxr]; exact hlen) hp
    have e : { p with handler := none } = p := by cases p; simp only at hv2; subst hv2; rfl
    simp only [e, Option.some.injEq] at k3
    obtain ⟨hr, -⟩ := drive_runs (Z := Z) buffered everything _ 0 [] (events (F.map denote)) p q footer none (by rw [k3]; rfl)
    have ho := observe_runs _ hr (hist_calm _ _ _ _)
    obtain ⟨k', m1, m2⟩ := hist_everything buffered (F.map denote) 0 [.fbx footer]
    rw [m1, m2] at ho
    refine glimpses_of hS hx (fun c hc => ?_) hp hv1 (by rw [List.map_append]; exact congrArg Prod.fst ho)
    rcases List.mem_append.1 hc with hc | hc
    · exact perusal_truthful _ _ c hc
    · rcases List.mem_singleton.1 hc with rfl; exact ⟨trivial, rfl⟩

/-- **C99** (`BufWriter`, then `BufReader`). A tree is written with `write_tree` and `finalize_and_flush` through a `BufWriter` of any capacity to a
file, which may fail at any operation. If both succeed, then loading the file through a `BufReader` of any capacity, whatever the pieces in which the file
delivers its bytes, and whichever operations fail, ends with an error or with a strictly equal tree. -/
theorem C99_buffered (Z : Zlib) (hZ : Z.Lawful) {t : Tree} (ht : Reachable t) (ha : (t.nodes t.root).attrs = []) (cap : Nat) (s : Sink)
    (v : FbxVersion) (f : Writer.FooterSpec) {b : BufOut} (h : AnyDest.flushedTreeSession BufOut.dest Z (BufOut.create cap s) v t f = (.ok (), b))
    (hlen : b.inner.buf.length + 2 ^ 32 ≤ 2 ^ 64)
    {plan : Schedule} (hf : Fair plan) (bufs : Disk → Nat) (copyBuf cap' : Nat) (faults : Nat → Option IoErr) (checks : Bool) (ending : Option IoErr)
    (limit calls : Nat) (hlim : b.inner.buf.length ≤ limit) :
    ∃ r, Loads ((Faulty.source (Disk.source bufs copyBuf) faults).bufReader cap') (bufTape fun x => diskTape x.1) Z checks true
        ((⟨b.inner.buf, 0, ending, limit, plan, calls⟩, 0), []) r ∧
      ((∃ e, r = .err e) ∨ ∃ u footer, r = .ok (v, u, footer) ∧ strictEq t u = .ok true) := by
  obtain ⟨u, footer, h1, h2⟩ := C93_tree Z hZ ht ha cap s v f h hlen checks ending 0 limit (by omega)
  obtain ⟨r, h3, h4⟩ := loads_shaky (Z := Z) (checks := checks) (seekable := true)
    (C98_bufreader (C98_faulty (C98_steady (C95_file hf bufs copyBuf)) faults) cap')
    (x := ((⟨b.inner.buf, 0, ending, limit, plan, calls⟩, 0), [])) ⟨rfl, Nat.zero_le _, List.nil_prefix⟩ hlen h1
  exact ⟨r, h3, h4.imp id fun ⟨g, h5, _⟩ => ⟨u, g, h5, h2⟩⟩

/-! ## Examples -/

/-- A file which delivers its bytes in pieces, and of which some operations fail. -/
def exMishap (faults : Nat → Option IoErr) : Source (Disk × Nat) := Faulty.source (Disk.source (fun d => d.calls % 3) 1) faults

theorem exMishap_shaky (faults : Nat → Option IoErr) : Shaky (exMishap faults) (fun x => x.1.plan = exSchedule) (fun x => diskTape x.1) :=
  C98_faulty (C98_steady (C95_file exSchedule_fair _ _)) faults

/-- The tree of C23 comes back, or an error, whichever operations fail. -/
example (faults : Nat → Option IoErr) : ∃ r, Loads (exMishap faults) (fun x => diskTape x.1) Zlib.stored true true (exRelayDisk exRelayed.2.content, 0) r ∧
    ((∃ e, r = .err e) ∨ ∃ u footer, r = .ok (7400, u, footer) ∧ strictEq exTree u = .ok true) := by
  obtain ⟨I, hI, hD⟩ := C93_bufwriter 512 exSink
  have hl := exRelayed_length
  have h := exRelayed_eq
  generalize exRelayed.2 = b at h hl ⊢
  unfold exRelayed at h
  exact C99_round_trip (exMishap_shaky faults) hD Zlib.stored Zlib.stored_lawful exTree_reachable (by decide) hI
    h (by omega) (x := (exRelayDisk b.content, 0)) rfl (exRelayDisk_rest _) (by show 0 + _ ≤ 5000; omega) true

/-- The nodes of C21, in another version, call by call, whichever operations fail. -/
example (faults : Nat → Option IoErr) : ∃ footer, Glimpses (exMishap faults) (fun x => diskTape x.1) Zlib.stored true true (exRelayDisk exPassed.2.content, 0) 7400
    (perusal true (exForest.map denote) ++ [.next]) (told (exForest.map denote) ++ [.event (.endFbx footer)]) := by
  obtain ⟨I, hI, hD⟩ := C93_bufwriter 64 exSink
  have hl := exPassed_length
  have h := exPassed_eq
  generalize exPassed.2 = b at h hl ⊢
  unfold exPassed at h
  obtain ⟨F, h1, h2⟩ := C99_passage (exMishap_shaky faults) hD Zlib.stored Zlib.stored_lawful hI (by decide +kernel) h (by omega)
    (x := (exRelayDisk b.content, 0)) rfl (exRelayDisk_rest _) (by show 0 + _ ≤ 5000; omega) true true
  have := C06_forest_unique _ _ h1
  subst this
  exact h2 (by simp [exForest, Forest.All, intact])

/-- The tree of C23, loaded from a file that might have failed, is copied in the newer version and loaded again from a file that may fail. -/
example (faults faults' : Nat → Option IoErr) (t : Tree) (footer : Except PErr Footer)
    (hl : Loads (exMishap faults) (fun x => diskTape x.1) Zlib.stored true true (exRelayDisk exRelayed.2.content, 0) (.ok (7400, t, footer))) (b : BufOut)
    (h : AnyDest.treeSession BufOut.dest Zlib.stored (BufOut.create 8 exSink) 7500 t exFooter = (.ok (), b)) (hb : b.content.length ≤ 5000) :
    ∃ r, Loads (exMishap faults') (fun x => diskTape x.1) Zlib.stored false true (exRelayDisk b.content, 0) r ∧
      ((∃ e, r = .err e) ∨ ∃ u footer', r = .ok (7500, u, footer') ∧ strictEq t u = .ok true) := by
  obtain ⟨I, hI, hD⟩ := C93_bufwriter 8 exSink
  have hlen := exRelayed_length
  generalize exRelayed.2 = b0 at hl hlen
  exact (C99_copy (exMishap_shaky faults) (exMishap_shaky faults') hD Zlib.stored Zlib.stored_lawful rfl (by show (diskTape (exRelayDisk _)).rest.length + _ ≤ _; rw [exRelayDisk_rest]; omega) hl hI h (by omega)
    (x' := (exRelayDisk b.content, 0)) rfl (exRelayDisk_rest _) (by show 0 + _ ≤ 5000; omega) false).2

/-- The same through a `BufWriter` and a `BufReader`. -/
example (faults : Nat → Option IoErr) : ∃ r, Loads ((Faulty.source (Disk.source (fun d => d.calls % 3) 1) faults).bufReader 5) (bufTape fun x => diskTape x.1)
    Zlib.stored true true ((⟨exRelay.2.inner.buf, 0, none, 5000, exSchedule, 0⟩, 0), []) r ∧
    ((∃ e, r = .err e) ∨ ∃ u footer, r = .ok (7400, u, footer) ∧ strictEq exTree u = .ok true) := by
  have hl := exRelay_length
  have h := exRelay_eq
  generalize exRelay.2 = b at h hl ⊢
  unfold exRelay at h
  exact C99_buffered Zlib.stored Zlib.stored_lawful exTree_reachable (by decide) 512 exSink 7400 exFooter h (by omega)
    exSchedule_fair (fun d => d.calls % 3) 1 5 faults true none 5000 0 hl

/-- Both happen: the document of C98 is loaded if the first failure comes late, and not if it comes early. -/
example : exTreeSeen 18 = "tree" ∧ exTreeSeen 9 = "error" := by decide +kernel

end Fbx
