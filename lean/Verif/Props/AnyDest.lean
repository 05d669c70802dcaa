import Verif.Proof.AnyDest
import Verif.Props.WriterLayout
import Verif.Props.TreeIO
import Verif.Props.Flush

/-! # C93: any destination, and `BufWriter` -/

namespace Fbx
open Spec Tree
section
variable {δ : Type} {D : Dest δ} {I : δ → Prop} {P : Fault → Prop} {content : δ → Bytes} {cursor : δ → Nat}

/-- A destination, of which nothing more is known than what `Sound` says. -/
def sceneOf (I : δ → Prop) (P : Fault → Prop) (content : δ → Bytes) (cursor : δ → Nat) : Scene δ :=
  ⟨I, P, P, content, cursor, fun _ _ => False, fun _ h => h⟩

theorem plainScene (hS : Sound D I P content cursor) : SoundDest D (sceneOf I P content cursor) :=
  ⟨hS, fun _ _ _ _ _ h => h.elim, fun _ _ _ _ h => h.elim, fun _ _ _ h => h.elim, fun _ _ _ h => h.elim⟩

/-- **C93** (any destination). Whatever type the destination is of, if its `Write` and `Seek` do what they promise (`Sound`), then a session has
the result it has on a device of the rest of this model, with some failure schedule, with errors of the destination, and leaves the same content
and cursor. So what is proved of all such devices holds for all destinations. -/
theorem C93_any (hS : Sound D I P content cursor) (Z : Zlib) (d : δ) (hd : I d) (v : FbxVersion) (ops : List Writer.Op) (f : Writer.FooterSpec) :
    ∃ fault, (∀ i x, fault i = some x → P x) ∧
      let r := AnyDest.session D Z d v ops f
      let m := Writer.session Z ⟨content d, cursor d, fault⟩ v ops f
      r.1 = m.1 ∧ content r.2 = m.2.buf ∧ cursor r.2 = m.2.pos ∧ I r.2 := by
  haveI := plainScene hS
  obtain ⟨⟨fault, h1, h2, rest, h3⟩, -⟩ := AnyDest.withNew_plays (D := D) (X := sceneOf I P content cursor) v
    ((AnyDest.run_plays (D := D) Z ops).bind fun _ => AnyDest.finalize_plays (D := D) f) d hd
  have h3 : Writer.session Z ⟨content d, cursor d, fault⟩ v ops f = _ := h3
  refine ⟨fault, h1, ?_⟩
  simp only [h3]
  exact ⟨rfl, rfl, rfl, h2⟩

/-- **C93** (any destination), for `finalize_and_flush`. -/
theorem C93_any_flushed (hS : Sound D I P content cursor) (Z : Zlib) (d : δ) (hd : I d) (v : FbxVersion) (ops : List Writer.Op) (f : Writer.FooterSpec) :
    ∃ fault, (∀ i x, fault i = some x → P x) ∧
      let r := AnyDest.flushedSession D Z d v ops f
      let m := Writer.flushedSession Z ⟨content d, cursor d, fault⟩ v ops f
      r.1 = m.1 ∧ content r.2 = m.2.buf ∧ cursor r.2 = m.2.pos ∧ I r.2 := by
  haveI := plainScene hS
  obtain ⟨⟨fault, h1, h2, rest, h3⟩, -⟩ := AnyDest.withNew_plays (D := D) (X := sceneOf I P content cursor) v
    ((AnyDest.run_plays (D := D) Z ops).bind fun _ => AnyDest.finalizeAndFlush_plays (D := D) f) d hd
  have h3 : Writer.flushedSession Z ⟨content d, cursor d, fault⟩ v ops f = _ := h3
  refine ⟨fault, h1, ?_⟩
  simp only [h3]
  exact ⟨rfl, rfl, rfl, h2⟩

/-- **C93** (any destination), for `write_tree`. -/
theorem C93_any_tree (hS : Sound D I P content cursor) (Z : Zlib) (d : δ) (hd : I d) (v : FbxVersion) (t : Tree) (f : Writer.FooterSpec) :
    ∃ fault, (∀ i x, fault i = some x → P x) ∧
      let r := AnyDest.treeSession D Z d v t f
      let m := Writer.treeSession Z ⟨content d, cursor d, fault⟩ v t f
      r.1 = m.1 ∧ content r.2 = m.2.buf ∧ cursor r.2 = m.2.pos ∧ I r.2 := by
  haveI := plainScene hS
  obtain ⟨⟨fault, h1, h2, rest, h3⟩, -⟩ := AnyDest.withNew_plays (D := D) (X := sceneOf I P content cursor) v
    ((AnyDest.writeTree_plays (D := D) Z t).bind fun _ => AnyDest.finalize_plays (D := D) f) d hd
  have h3 : Writer.treeSession Z ⟨content d, cursor d, fault⟩ v t f = _ := h3
  refine ⟨fault, h1, ?_⟩
  simp only [h3]
  exact ⟨rfl, rfl, rfl, h2⟩

/-- **C93** (any destination), for `write_tree` and `finalize_and_flush`. -/
theorem C93_any_flushed_tree (hS : Sound D I P content cursor) (Z : Zlib) (d : δ) (hd : I d) (v : FbxVersion) (t : Tree) (f : Writer.FooterSpec) :
    ∃ fault, (∀ i x, fault i = some x → P x) ∧
      let r := AnyDest.flushedTreeSession D Z d v t f
      let m := Writer.afterNew ⟨content d, cursor d, fault⟩ v (do Writer.writeTree Z t; Writer.finalizeAndFlush f)
      r.1 = m.1 ∧ content r.2 = m.2.buf ∧ cursor r.2 = m.2.pos ∧ I r.2 := by
  haveI := plainScene hS
  obtain ⟨⟨fault, h1, h2, rest, h3⟩, -⟩ := AnyDest.withNew_plays (D := D) (X := sceneOf I P content cursor) v
    ((AnyDest.writeTree_plays (D := D) Z t).bind fun _ => AnyDest.finalizeAndFlush_plays (D := D) f) d hd
  have h3 : Writer.afterNew ⟨content d, cursor d, fault⟩ v (do Writer.writeTree Z t; Writer.finalizeAndFlush f) = _ := h3
  refine ⟨fault, h1, ?_⟩
  simp only [h3]
  exact ⟨rfl, rfl, rfl, h2⟩

/-- **C93** (any destination, calls after errors). Call by call a user sees what they see on a device of the rest of this model. -/
theorem C93_any_calls (hS : Sound D I P content cursor) (Z : Zlib) (w : WriterOn δ) (hw : I w.sink) (ops : List Writer.Op) :
    ∃ fault, (∀ i x, fault i = some x → P x) ∧
      let r := attemptsAt D Z ops w
      let m := attempts Z ops ⟨⟨content w.sink, cursor w.sink, fault⟩, w.version, w.opened⟩
      r.1 = m.1 ∧ content r.2.sink = m.2.sink.buf ∧ cursor r.2.sink = m.2.sink.pos ∧ r.2.version = m.2.version ∧ r.2.opened = m.2.opened ∧
        I r.2.sink := by
  haveI := plainScene hS
  obtain ⟨l, h1, h2, h3⟩ := AnyDest.attempts_plays (D := D) (X := sceneOf I P content cursor) Z ops w hw
  have h1 : attempts Z ops ⟨⟨content w.sink, cursor w.sink, prep l fun _ => none⟩, w.version, w.opened⟩ = _ := h1 _
  refine ⟨prep l fun _ => none, AnyDest.prep_told h3, ?_⟩
  simp only [h1]
  exact ⟨trivial, rfl, rfl, rfl, rfl, h2⟩

end

/-- **C93** (`BufWriter` keeps the promises). A `BufWriter` over any device, which may fail at any operation, is a sound destination: its content is
that of the device with the bytes held back put where they belong. -/
theorem C93_bufwriter (cap : Nat) (s : Sink) : ∃ I, I (BufOut.create cap s) ∧ Sound BufOut.dest I s.reports BufOut.content BufOut.cursor :=
  ⟨BufOut.Kept s.fault, ⟨⟨0, rfl⟩, fun h => absurd rfl h⟩, BufOut.sound s.fault⟩

/-- What `finalize_and_flush` does after any calls, on a device of the model. -/
theorem afterNew_flush {s : Sink} {v : FbxVersion} {m : M WErr Writer Unit} {f : Writer.FooterSpec} {r : Res WErr Unit × Sink}
    (h : Writer.afterNew s v (do m; Writer.finalizeAndFlush f) = r) (hr : r.1 = .ok ()) :
    ∃ s', Writer.afterNew s v (do m; Writer.finalize f) = (.ok (), s') ∧ r.2.buf = s'.buf ∧ r.2.pos = s'.pos := by
  subst h
  have e : (do m; Writer.finalizeAndFlush f : M WErr Writer Unit) = ((do m; Writer.finalize f : M WErr Writer Unit) >>= fun _ => Writer.io Sink.flush) := by
    simp only [Writer.finalizeAndFlush, M.bind_assoc']
  rw [e] at hr ⊢
  generalize (do m; Writer.finalize f : M WErr Writer Unit) = n at hr ⊢
  unfold Writer.afterNew at hr ⊢
  rcases hnew : Writer.new s v with ⟨_ | _ | _, s1⟩ <;> rw [hnew] at hr <;> simp only at hr ⊢
  · rename_i w
    rcases hm : n w with ⟨_ | _ | _, w'⟩
    · refine ⟨w'.sink, rfl, ?_⟩
      simp only [M.bind_apply, hm, Writer.io, M.mapErr_apply, M.zoom_apply, Sink.flush]
      cases w'.sink.fault 0 <;> exact ⟨rfl, rfl⟩
    · simp only [M.bind_apply, hm, reduceCtorEq] at hr
    · simp only [M.bind_apply, hm, reduceCtorEq] at hr
  · cases hr
  · cases hr

/-- What `finalize_and_flush` leaves after any calls, if they all succeed. -/
theorem withNew_flushed {b : BufOut} {v : FbxVersion} {q : M WErr (WriterOn BufOut) Unit} {f : Writer.FooterSpec} {b' : BufOut}
    (h : AnyDest.withNew BufOut.dest b v (do q; AnyDest.finalizeAndFlush BufOut.dest f) = (.ok (), b')) : b'.held = [] := by
  unfold AnyDest.withNew at h
  split at h
  · simp only [Prod.mk.injEq, reduceCtorEq, false_and] at h
  · rcases hs : AnyDest.start BufOut.dest v b with ⟨_ | _ | _, s'⟩ <;> rw [hs] at h <;>
      simp only [Prod.mk.injEq, reduceCtorEq, false_and] at h
    obtain ⟨h1, h2⟩ := h
    generalize hg : (do q; AnyDest.finalizeAndFlush BufOut.dest f : M WErr (WriterOn BufOut) Unit) ⟨s', v, []⟩ = y at h1 h2
    obtain ⟨y1, y2⟩ := y
    simp only at h1 h2
    subst h1
    have h3 := hg
    rw [M.bind_ok_iff] at h3
    obtain ⟨_, w1, -, h4⟩ := h3
    unfold AnyDest.finalizeAndFlush at h4
    rw [M.bind_ok_iff] at h4
    obtain ⟨_, w2, -, h5⟩ := h4
    rw [AnyDest.io, M.mapErr_ok_iff, M.zoom_ok_iff] at h5
    obtain ⟨t, h6, h7⟩ := h5
    rw [← h2, h7]
    exact BufOut.flush_held h6

/-- **C93** (the document is in the file). The writer writes through a `BufWriter` of any capacity to a device that may fail at any operation. If
all calls succeed, `finalize_and_flush` included, then the device itself holds the document, followed by what it held beyond; nothing is left in
the buffer. -/
theorem C93_flushed (Z : Zlib) (cap : Nat) (s : Sink) (v : FbxVersion) (ops : List Writer.Op) (f : Writer.FooterSpec)
    (hl : Writer.legal false ops = true) {b : BufOut} (h : AnyDest.flushedSession BufOut.dest Z (BufOut.create cap s) v ops f = (.ok (), b)) :
    ∃ F, ops = calls F ∧ supported v.toNat ∧ (F.All (fun _ as => ∀ a ∈ as, intact a) →
      (let doc := document v.toNat (callBytes Z) F (footOf f)
       b.held = [] ∧ b.inner.buf = doc ++ s.buf.drop doc.length ∧ b.inner.pos = doc.length ∧ b.drop.buf = b.inner.buf)) := by
  obtain ⟨I, hI, hS⟩ := C93_bufwriter cap s
  obtain ⟨fault, -, h2⟩ := C93_any_flushed hS Z _ hI v ops f
  have hheld := withNew_flushed h
  simp only [h] at h2
  obtain ⟨h3, h4, h5, -⟩ := h2
  have hc : b.content = b.inner.buf := if_pos hheld
  have hp : b.cursor = b.inner.pos := by rw [BufOut.cursor, hheld]; rfl
  rw [hc] at h4
  rw [hp] at h5
  obtain ⟨s', k, hb, hpos⟩ := afterNew_flush (s := ⟨s.buf, s.pos, fault⟩) (v := v) (m := Writer.run Z ops) (f := f) rfl h3.symm
  obtain ⟨F, k1, k2, k3⟩ := C06_layout Z ⟨s.buf, s.pos, fault⟩ s' v ops f hl k
  refine ⟨F, k1, k2, fun hi => ?_⟩
  have k3 := k3 hi
  refine ⟨hheld, (h4.trans hb).trans k3.1, (h5.trans hpos).trans k3.2, ?_⟩
  simp only [BufOut.drop, BufOut.flushBuf, hheld]
  rfl

/-- **C93** (a tree is in the file). A tree written with `write_tree` and `finalize_and_flush` through a `BufWriter`: if both succeed, then loading
what the device itself holds gives a strictly equal tree. -/
theorem C93_tree (Z : Zlib) (hZ : Z.Lawful) {t : Tree} (ht : Reachable t) (ha : (t.nodes t.root).attrs = []) (cap : Nat) (s : Sink)
    (v : FbxVersion) (f : Writer.FooterSpec) {b : BufOut} (h : AnyDest.flushedTreeSession BufOut.dest Z (BufOut.create cap s) v t f = (.ok (), b))
    (hlen : b.inner.buf.length + 2 ^ 32 ≤ 2 ^ 64) (checks : Bool) (ending : Option IoErr) (cursor limit : Nat)
    (hlim : cursor + b.inner.buf.length ≤ limit) :
    ∃ u footer, anyTree Z checks true b.inner.buf ending cursor limit = .ok (v, u, footer) ∧ strictEq t u = .ok true := by
  obtain ⟨I, hI, hS⟩ := C93_bufwriter cap s
  obtain ⟨fault, -, h2⟩ := C93_any_flushed_tree hS Z _ hI v t f
  have hheld := withNew_flushed h
  simp only [h] at h2
  obtain ⟨h3, h4, h5, -⟩ := h2
  have hc : b.content = b.inner.buf := if_pos hheld
  rw [hc] at h4
  obtain ⟨s', k, hb, hpos⟩ := afterNew_flush (s := ⟨s.buf, s.pos, fault⟩) (v := v) (m := Writer.writeTree Z t) (f := f) rfl h3.symm
  have e : b.inner.buf = s'.buf := h4.trans hb
  rw [e] at hlen hlim ⊢
  exact C23_any_tree Z hZ ht ha ⟨s.buf, s.pos, fault⟩ s' v f k hlen checks ending cursor limit hlim

/-- **C93** (`finalize` alone). If the last call is `finalize`, the end of the document may still be in the buffer: the device together with the
buffer holds the document. Flushing the buffer completes it in the file, if that succeeds; when the `BufWriter` is dropped nobody learns whether it does. -/
theorem C93_unflushed (Z : Zlib) (cap : Nat) (s : Sink) (v : FbxVersion) (ops : List Writer.Op) (f : Writer.FooterSpec)
    (hl : Writer.legal false ops = true) {b : BufOut} (h : AnyDest.session BufOut.dest Z (BufOut.create cap s) v ops f = (.ok (), b)) :
    ∃ F, ops = calls F ∧ supported v.toNat ∧ (F.All (fun _ as => ∀ a ∈ as, intact a) →
      (let doc := document v.toNat (callBytes Z) F (footOf f)
       b.content = doc ++ s.buf.drop doc.length ∧ b.cursor = doc.length ∧
       ((BufOut.flushBuf b).1 = .ok () → b.drop.buf = doc ++ s.buf.drop doc.length ∧ b.drop.pos = doc.length))) := by
  obtain ⟨fault, -, h2⟩ := C93_any (BufOut.sound s.fault) Z (BufOut.create cap s) ⟨⟨0, rfl⟩, fun h => absurd rfl h⟩ v ops f
  simp only [h] at h2
  obtain ⟨h3, h4, h5, hk⟩ := h2
  rcases hs : Writer.session Z ⟨s.buf, s.pos, fault⟩ v ops f with ⟨x, s'⟩
  have e : (BufOut.create cap s).content = s.buf := rfl
  have e' : (BufOut.create cap s).cursor = s.pos := rfl
  rw [e, e', hs] at h3 h4 h5
  simp only at h3 h4 h5
  subst h3
  obtain ⟨F, k1, k2, k3⟩ := C06_layout Z ⟨s.buf, s.pos, fault⟩ s' v ops f hl hs
  refine ⟨F, k1, k2, fun hi => ?_⟩
  have k3 := k3 hi
  refine ⟨h4.trans k3.1, h5.trans k3.2, fun hf => ?_⟩
  obtain ⟨r, b', g1, -, g3, g4, -, g6⟩ := BufOut.flushBuf_spec (A := False) b hk fun h => h.elim
  rw [g1] at hf
  simp only at hf
  subst hf
  rcases g6 with ⟨-, g6⟩ | ⟨_, g6, _, _⟩
  · have hc : b'.content = b'.inner.buf := if_pos g6
    have hp : b'.cursor = b'.inner.pos := by rw [BufOut.cursor, g6]; rfl
    simp only [BufOut.drop, g1]
    rw [← hc, ← hp, g3, g4]
    exact ⟨h4.trans k3.1, h5.trans k3.2⟩
  · cases g6

/-- **C93** (devices that work). If the device never fails, then a session through a `BufWriter` of any capacity has the result it has without, and
what has been written is the same; after `finalize_and_flush` also in the file. -/
theorem C93_same (Z : Zlib) (cap : Nat) (s : Sink) (hs : s.fault = fun _ => none) (v : FbxVersion) (ops : List Writer.Op) (f : Writer.FooterSpec) :
    (let r := AnyDest.session BufOut.dest Z (BufOut.create cap s) v ops f
     r.1 = (Writer.session Z s v ops f).1 ∧ r.2.content = (Writer.session Z s v ops f).2.buf ∧ r.2.cursor = (Writer.session Z s v ops f).2.pos) ∧
    (let r := AnyDest.flushedSession BufOut.dest Z (BufOut.create cap s) v ops f
     r.1 = (Writer.flushedSession Z s v ops f).1 ∧ (r.1 = .ok () → r.2.inner.buf = (Writer.flushedSession Z s v ops f).2.buf ∧
       r.2.inner.pos = (Writer.flushedSession Z s v ops f).2.pos)) := by
  obtain ⟨I, hI, hS⟩ := C93_bufwriter cap s
  have calm : ∀ fault : Nat → Option Fault, (∀ i x, fault i = some x → s.reports x) → fault = fun _ => none := fun fault h => by
    funext i
    cases hf : fault i with
    | none => rfl
    | some x =>
      obtain ⟨j, g, h1, -⟩ := h i x hf
      rw [hs] at h1
      cases h1
  have hse : ∀ fault, fault = (fun _ => none : Nat → Option Fault) →
      (⟨(BufOut.create cap s).content, (BufOut.create cap s).cursor, fault⟩ : Sink) = s := by
    rintro _ rfl
    obtain ⟨sb, sp, sf⟩ := s
    simp only at hs
    subst hs
    rfl
  constructor
  · obtain ⟨fault, h1, h2⟩ := C93_any hS Z _ hI v ops f
    rw [hse fault (calm fault h1)] at h2
    exact ⟨h2.1, h2.2.1, h2.2.2.1⟩
  · obtain ⟨fault, h1, h2⟩ := C93_any_flushed hS Z _ hI v ops f
    rw [hse fault (calm fault h1)] at h2
    refine ⟨h2.1, fun hok => ?_⟩
    have hheld := withNew_flushed (show AnyDest.flushedSession BufOut.dest Z (BufOut.create cap s) v ops f = (.ok (), _) from Prod.ext hok rfl)
    have hc : ∀ b : BufOut, b.held = [] → b.content = b.inner.buf := fun b h => if_pos h
    have hp : ∀ b : BufOut, b.held = [] → b.cursor = b.inner.pos := fun b h => by rw [BufOut.cursor, h]; rfl
    rw [← hc _ hheld, ← hp _ hheld]
    exact ⟨h2.2.1, h2.2.2.1⟩

/-! ## Examples -/

/-- A small document. -/
def exSlight : Forest Writer.Append := .cons "A" [.i32 5] (.cons "B" [] .nil .nil) .nil

/-- A session through a small buffer, and through the usual one: the file holds what it holds without a buffer. -/
example : (AnyDest.flushedSession BufOut.dest Zlib.stored (BufOut.create 7 exSink) 7400 (calls exSlight) exFooter).1 = .ok () ∧
    (AnyDest.flushedSession BufOut.dest Zlib.stored (BufOut.create 7 exSink) 7400 (calls exSlight) exFooter).2.inner.buf =
      (Writer.session Zlib.stored exSink 7400 (calls exSlight) exFooter).2.buf ∧
    (AnyDest.flushedSession BufOut.dest Zlib.stored (BufOut.create 8192 exSink) 7400 (calls exSlight) exFooter).2.inner.buf =
      (Writer.session Zlib.stored exSink 7400 (calls exSlight) exFooter).2.buf := by
  decide +kernel

example := fun b h => C93_flushed (b := b) Zlib.stored 7 exSink 7400 (calls exSlight) exFooter (by decide +kernel) h
example := C93_same Zlib.stored 8192 exSink rfl 7400 (calls exSlight) exFooter
example := C93_any_calls (BufOut.sound exSink.fault) Zlib.stored ⟨BufOut.create 7 exSink, 7400, []⟩ ⟨⟨0, rfl⟩, fun h => absurd rfl h⟩ (calls exSlight)
example := fun b h => C93_unflushed (b := b) Zlib.stored 7 exSink 7400 (calls exSlight) exFooter (by decide +kernel) h
example := fun b h => C93_tree Zlib.stored Zlib.stored_lawful exTree_reachable (by decide) 512 exSink 7400 exFooter (b := b) h

/-- The tree of C23, through a `BufWriter`. -/
example : (AnyDest.flushedTreeSession BufOut.dest Zlib.stored (BufOut.create 512 exSink) 7400 exTree exFooter).1 = .ok () := by decide +kernel

/-- A device that is full after some operations. -/
def exFull (n : Nat) : Sink := ⟨[], 0, fun i => if n ≤ i then some ⟨0, .other 5⟩ else none⟩

/-- With `finalize`, the end of the document (the last 157 bytes) is in the buffer when it returns `Ok`. The device is full by now, so that dropping the
`BufWriter` does not write them, and nobody learns of it: all calls succeeded, and the file is not a document. `finalize_and_flush` reports the error. -/
theorem C93_unflushed_lost :
    (AnyDest.session BufOut.dest Zlib.stored (BufOut.create 8192 (exFull 23)) 7400 (calls exSlight) exFooter).1 = .ok () ∧
    (AnyDest.session BufOut.dest Zlib.stored (BufOut.create 8192 (exFull 23)) 7400 (calls exSlight) exFooter).2.drop.buf.length + 157 =
      (Writer.session Zlib.stored ⟨[], 0, fun _ => none⟩ 7400 (calls exSlight) exFooter).2.buf.length ∧
    (AnyDest.flushedSession BufOut.dest Zlib.stored (BufOut.create 8192 (exFull 23)) 7400 (calls exSlight) exFooter).1 = .err (.io (.other 5)) := by
  decide +kernel

end Fbx
