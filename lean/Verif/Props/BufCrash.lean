import Verif.Props.AnyDest
import Verif.Props.Crash
import Verif.Props.Torn

/-!
# C94 Writing through a `BufWriter` that is interrupted

`leaves` and `atomic` are in `Verif/Spec/AnyDest.lean`, `topNamed` in `Verif/Spec/Crash.lean`.
-/

namespace Fbx
open Spec Parser

namespace BufOut
variable {fault : Nat → Option Fault}

/-- What is left on the device is all that was written, or what may be on it. -/
theorem leaves_tears (A : Prop) (hA : A → ∀ i f, fault i = some f → f.stored = 0) {b : BufOut} (hb : Kept fault b) {c : Bytes}
    (h : b.leaves c) : c = b.content ∨ Tears A b c := by
  rcases h with rfl | rfl
  · exact .inr ⟨0, fun _ => rfl, rfl⟩
  · obtain ⟨r, b', k1, k2, k3, k4, k5, k6⟩ := flushBuf_spec b hb hA
    simp only [drop, k1]
    rcases k6 with ⟨rfl, k6⟩ | ⟨e, rfl, k6, k7⟩
    · refine .inl ?_
      rw [← k3, content, if_pos k6]
    · exact .inr (k7 _ ⟨0, fun _ => rfl, rfl⟩)

/-- What code leaves that starts on a fresh `BufWriter`. -/
theorem withNew_leaves (cap : Nat) (s : Sink) (v : FbxVersion) {m : M WErr Writer Unit} {q : M WErr (WriterOn BufOut) Unit}
    (h : ∀ X : Scene BufOut, [SoundDest dest X] → Plays X.on m q) {c : Bytes} (hc : (AnyDest.withNew dest (create cap s) v q).2.leaves c) :
    ∃ fault, (s.atomic → Sink.atomic ⟨s.buf, s.pos, fault⟩) ∧ c = (Writer.afterNew ⟨s.buf, s.pos, fault⟩ v m).2.buf := by
  haveI := scene_sound s.atomic s.fault fun h => h
  obtain ⟨⟨fault, h1, h2, rest, h3⟩, h4⟩ := AnyDest.withNew_plays (D := dest) (X := scene s.atomic s.fault fun h => h) v (h _) (create cap s)
    ⟨⟨0, rfl⟩, fun h => absurd rfl h⟩
  rcases leaves_tears s.atomic (fun h => h) h2 hc with rfl | hc
  · refine ⟨fault, fun ha i f hf => ?_, ?_⟩
    · exact (scene s.atomic s.fault fun h => h).le f (h1 i f hf) ha
    · exact (congrArg (fun x => x.2.buf) h3).symm
  · rcases h4 c hc with ⟨fault, h5, h6⟩ | ⟨h5, h6⟩
    · exact ⟨fault, fun ha i f hf => h5 i f hf ha, h6.symm⟩
    · exact absurd (tears_nil rfl h5) h6

/-- What is left when some calls have succeeded and the buffer was empty then: these calls succeed without the buffer too, and the crash comes later. -/
theorem resume_leaves (cap : Nat) (s : Sink) (v : FbxVersion) {m1 m2 : M WErr Writer Unit} {q1 q2 : M WErr (WriterOn BufOut) Unit}
    (h1 : ∀ X : Scene BufOut, [SoundDest dest X] → Plays X.on m1 q1) (h2 : ∀ X : Scene BufOut, [SoundDest dest X] → Plays X.on m2 q2)
    (hq : (AnyDest.withNew dest (create cap s) v q1).1 = .ok ()) (hheld : (AnyDest.withNew dest (create cap s) v q1).2.held = [])
    {c : Bytes} (hc : (AnyDest.withNew dest (create cap s) v (do q1; q2)).2.leaves c) :
    ∃ fault w0 s0 w1, Writer.new ⟨s.buf, s.pos, fault⟩ v = (.ok w0, s0) ∧ m1 w0 = (.ok (), w1) ∧ c = (m2 w1).2.sink.buf := by
  haveI := scene_sound False s.fault fun h => h.elim
  generalize hX : (scene False s.fault fun h => h.elim) = X at this
  unfold AnyDest.withNew at hq hheld hc
  by_cases hv : v.major ≠ 7
  · rw [if_pos hv] at hq; cases hq
  · rw [if_neg hv] at hq hheld hc
    have hI : X.I (create cap s) := by subst hX; exact ⟨⟨0, rfl⟩, fun h => absurd rfl h⟩
    obtain ⟨⟨l, g1, g2, -⟩, -⟩ := AnyDest.start_plays (D := dest) (X := X) v (create cap s) hI
    rcases hx : AnyDest.start dest v (create cap s) with ⟨_ | _ | _, d'⟩ <;> rw [hx] at hq hheld hc
    · simp only [hx] at g1 g2 hq hheld hc
      obtain ⟨⟨l1, k1, k2, -⟩, -⟩ := h1 X ⟨d', v, []⟩ g2
      rcases hy : q1 ⟨d', v, []⟩ with ⟨x, w1⟩
      simp only [hy, M.bind_apply] at k1 k2 hq hheld hc
      subst hq
      simp only at hc
      obtain ⟨⟨l2, j1, j2, -⟩, hT⟩ := h2 X w1 k2
      have key : ∃ l3, c = (m2 (X.on.look (prep l3 fun _ => none) w1)).2.sink.buf := by
        have j2' : Kept s.fault (q2 w1).2.sink := by subst hX; exact j2
        rcases leaves_tears False (fun h => h.elim) j2' hc with rfl | hc
        · refine ⟨l2, ?_⟩
          rw [j1]
          subst hX; rfl
        · have hc' : X.on.T (q2 w1).2 c := by subst hX; exact hc
          rcases hT c hc' with h | ⟨l3, -, h⟩ | ⟨h, h'⟩
          · refine ⟨l2, ?_⟩
            rw [j1, h]
            subst hX; rfl
          · obtain ⟨e, s3, h4, h5⟩ := h fun _ => none
            exact ⟨l3, by rw [h4]; exact h5.symm⟩
          · exfalso
            subst hX
            exact h' (tears_nil hheld h)
      obtain ⟨l3, hl3⟩ := key
      refine ⟨prep (l ++ (l1 ++ l3)) fun _ => none, X.on.look (prep (l1 ++ l3) fun _ => none) ⟨d', v, []⟩, X.at.look (prep (l1 ++ l3) fun _ => none) d',
        X.on.look (prep l3 fun _ => none) w1, ?_, ?_, hl3⟩
      · have g1 := g1 (prep (l1 ++ l3) fun _ => none)
        rw [← prep_append] at g1
        have g1 : M.mapErr WErr.io (do
          Sink.seek 0
          Sink.writeAll magic
          Sink.writeAll (leBytes 4 v.toNat)) (⟨s.buf, s.pos, prep (l ++ (l1 ++ l3)) fun _ => none⟩ : Sink) =
            (.ok (), X.at.look (prep (l1 ++ l3) fun _ => none) d') := by subst hX; exact g1
        simp only [Writer.new, if_neg hv, g1]
        subst hX; rfl
      · rw [prep_append]
        exact k1 _
    · cases hq
    · cases hq

/-- A seek that succeeds leaves nothing in the buffer. -/
theorem seek_held {p : Nat} {b b' : BufOut} (h : seek p b = (.ok (), b')) : b'.held = [] := by
  unfold seek at h
  rcases hf : flushBuf b with ⟨_ | _ | _, c⟩
  · rw [hf] at h
    simp only [Prod.mk.injEq] at h
    obtain ⟨-, rfl⟩ := h
    unfold flushBuf at hf
    rcases hw : Sink.writeAll b.held b.inner with ⟨_ | _ | _, s⟩ <;> rw [hw] at hf <;> simp only [Prod.mk.injEq, reduceCtorEq, false_and] at hf
    obtain ⟨-, rfl⟩ := hf
    rfl
  · rw [hf] at h; simp only [Prod.mk.injEq, reduceCtorEq, false_and] at h
  · rw [hf] at h; simp only [Prod.mk.injEq, reduceCtorEq, false_and] at h

/-- A `close_node` that succeeds leaves nothing in the buffer, as it ends with a seek. -/
theorem closeNode_held {w w' : WriterOn BufOut} (h : AnyDest.closeNode dest w = (.ok (), w')) : w'.sink.held = [] := by
  unfold AnyDest.closeNode at h
  rw [M.bind_ok_iff] at h
  obtain ⟨_, w1, -, h⟩ := h
  rw [M.get_bind] at h
  rcases ho : w1.opened with _ | ⟨n, outer⟩ <;> rw [ho] at h
  · cases h
  · simp only [M.bind_ok_iff] at h
    obtain ⟨_, _, -, _, _, -, _, _, -, _, _, -, _, _, -, _, w2, -, h⟩ := h
    rw [AnyDest.io, M.mapErr_ok_iff, M.zoom_ok_iff] at h
    obtain ⟨t, h6, h7⟩ := h
    rw [h7]
    exact seek_held h6

theorem run_append (Z : Zlib) (xs ys : List Writer.Op) : AnyDest.run dest Z (xs ++ ys) = AnyDest.run dest Z xs >>= fun _ => AnyDest.run dest Z ys := by
  induction xs with
  | nil => rfl
  | cons o xs ih => simp only [List.cons_append, AnyDest.run, ih, M.bind_assoc']

theorem calls_last : ∀ F : Forest Writer.Append, F ≠ .nil → ∃ xs, calls F = xs ++ [.closeNode]
  | .nil, h => absurd rfl h
  | .cons name attrs children .nil, _ => ⟨.newNode name :: (attrs.map Writer.Op.append ++ calls children), by simp [calls]⟩
  | .cons name attrs children (.cons n a c r), _ => by
    obtain ⟨xs, h⟩ := calls_last (.cons n a c r) (by simp)
    exact ⟨.newNode name :: (attrs.map Writer.Op.append ++ (calls children ++ .closeNode :: xs)), by rw [calls, h]; simp⟩

end BufOut

/-- **C94** (a crash through a buffer is a crash). The writer writes through a `BufWriter` of any capacity to a device that may fail at any
operation. Whatever calls are made, and wherever the device fails or the process dies, what is left on the device is what the same calls leave
on a device without a buffer, which fails at some operation. If failing writes of the device store nothing, neither do those of that device. -/
theorem C94_crash (Z : Zlib) (cap : Nat) (s : Sink) (v : FbxVersion) (ops : List Writer.Op) {c : Bytes}
    (hc : (AnyDest.withNew BufOut.dest (BufOut.create cap s) v (AnyDest.run BufOut.dest Z ops)).2.leaves c) :
    ∃ fault, (s.atomic → Sink.atomic ⟨s.buf, s.pos, fault⟩) ∧ c = (Writer.afterNew ⟨s.buf, s.pos, fault⟩ v (Writer.run Z ops)).2.buf :=
  BufOut.withNew_leaves cap s v (fun _ _ => AnyDest.run_plays (D := BufOut.dest) Z ops) hc

/-- **C94** (a crash through a buffer is a crash), for sessions with a `finalize`. -/
theorem C94_crash_session (Z : Zlib) (cap : Nat) (s : Sink) (v : FbxVersion) (ops : List Writer.Op) (f : Writer.FooterSpec) {c : Bytes}
    (hc : (AnyDest.session BufOut.dest Z (BufOut.create cap s) v ops f).2.leaves c) :
    ∃ fault, (s.atomic → Sink.atomic ⟨s.buf, s.pos, fault⟩) ∧ c = (Writer.session Z ⟨s.buf, s.pos, fault⟩ v ops f).2.buf :=
  BufOut.withNew_leaves cap s v (fun _ _ => (AnyDest.run_plays (D := BufOut.dest) Z ops).bind fun _ => AnyDest.finalize_plays (D := BufOut.dest) f) hc

/-- **C94** (a crash through a buffer is a crash), for sessions with a `finalize_and_flush`. -/
theorem C94_crash_flushed (Z : Zlib) (cap : Nat) (s : Sink) (v : FbxVersion) (ops : List Writer.Op) (f : Writer.FooterSpec) {c : Bytes}
    (hc : (AnyDest.flushedSession BufOut.dest Z (BufOut.create cap s) v ops f).2.leaves c) :
    ∃ fault, (s.atomic → Sink.atomic ⟨s.buf, s.pos, fault⟩) ∧ c = (Writer.flushedSession Z ⟨s.buf, s.pos, fault⟩ v ops f).2.buf :=
  BufOut.withNew_leaves cap s v (fun _ _ => (AnyDest.run_plays (D := BufOut.dest) Z ops).bind fun _ => AnyDest.finalizeAndFlush_plays (D := BufOut.dest) f) hc

/-- **C94** (a crash through a buffer is a crash), for `write_tree` and `finalize_and_flush`. -/
theorem C94_crash_tree (Z : Zlib) (cap : Nat) (s : Sink) (v : FbxVersion) (t : Tree) (f : Writer.FooterSpec) {c : Bytes}
    (hc : (AnyDest.flushedTreeSession BufOut.dest Z (BufOut.create cap s) v t f).2.leaves c) :
    ∃ fault, (s.atomic → Sink.atomic ⟨s.buf, s.pos, fault⟩) ∧
      c = (Writer.afterNew ⟨s.buf, s.pos, fault⟩ v (do Writer.writeTree Z t; Writer.finalizeAndFlush f)).2.buf :=
  BufOut.withNew_leaves cap s v (fun _ _ => (AnyDest.writeTree_plays (D := BufOut.dest) Z t).bind fun _ => AnyDest.finalizeAndFlush_plays (D := BufOut.dest) f) hc

/-- The cases of `afterNew`. -/
theorem afterNew_cases {Z : Zlib} {s : Sink} {v : FbxVersion} {ops : List Writer.Op} (hn : topNamed 0 ops) {d : Bytes}
    (h : d = (Writer.afterNew s v (Writer.run Z ops)).2.buf) :
    d = (Writer.new s v).2.buf ∨ ∃ w0 s0 ops, Writer.new s v = (.ok w0, s0) ∧ topNamed 0 ops ∧ d = (Writer.run Z ops w0).2.sink.buf := by
  subst h
  unfold Writer.afterNew
  rcases hnew : Writer.new s v with ⟨w | e | p, s1⟩
  · exact .inr ⟨w, s1, ops, rfl, hn, rfl⟩
  · exact .inl rfl
  · exact .inl rfl

theorem atomic_whole {s : Sink} (h : s.atomic) : wholeFields s := fun i f hf => .inl (h i f hf)

/-- **C94** (what is not finalized is not taken for a document). The file was empty, and failing writes of the device store nothing. As long as
`finalize` is not called, no client of the parser is ever told that the document is complete, wherever the device fails or the process dies. -/
theorem C94_unfinished (Z : Zlib) (cap : Nat) {s : Sink} (hs : s.buf = []) (ha : s.atomic) (v : FbxVersion) {ops : List Writer.Op}
    (hn : topNamed 0 ops) {d : Bytes} (hd : (AnyDest.withNew BufOut.dest (BufOut.create cap s) v (AnyDest.run BufOut.dest Z ops)).2.leaves d)
    (hlen : d.length + 2 ^ 32 ≤ 2 ^ 64) {checks : Bool} {ending : Option IoErr} {cursor limit : Nat} (hlim : cursor + d.length ≤ limit)
    {p : Parser} (hp : anyParser checks true d ending cursor limit = .ok p) {h : History α} {c : Client}
    (hr : Runs Z ⟨p, none⟩ h c) : ∀ x ∈ h, x.2.isEndFbx = false := by
  obtain ⟨fault, h1, h2⟩ := C94_crash Z cap s v ops hd
  exact C62_unfinished Z (s := ⟨s.buf, s.pos, fault⟩) hs (atomic_whole (h1 ha)) (afterNew_cases hn h2) hlen hlim hp hr

/-- As above, and nothing is loaded as a tree either. -/
theorem C94_unfinished_tree (Z : Zlib) (cap : Nat) {s : Sink} (hs : s.buf = []) (ha : s.atomic) (v : FbxVersion) {ops : List Writer.Op}
    (hn : topNamed 0 ops) {d : Bytes} (hd : (AnyDest.withNew BufOut.dest (BufOut.create cap s) v (AnyDest.run BufOut.dest Z ops)).2.leaves d)
    (hlen : d.length + 2 ^ 32 ≤ 2 ^ 64) {checks : Bool} {ending : Option IoErr} {cursor limit : Nat} (hlim : cursor + d.length ≤ limit)
    (r : FbxVersion × Tree × Except PErr Footer) : anyTree Z checks true d ending cursor limit ≠ .ok r := by
  obtain ⟨fault, h1, h2⟩ := C94_crash Z cap s v ops hd
  exact C62_unfinished_tree Z (s := ⟨s.buf, s.pos, fault⟩) hs (atomic_whole (h1 ha)) (afterNew_cases hn h2) hlen hlim r

/-- **C94** (what loads is the document). The file was empty, and failing writes of the device store nothing. The calls for the nodes `F` are made,
and `finalize`, with errors or without, and the process may die at any moment. If a tree with a proper footer can be loaded from what is left, then
that is the complete document. -/
theorem C94_whole (Z : Zlib) (hZ : Z.Lawful) (cap : Nat) {s : Sink} (hs : s.buf = []) (ha : s.atomic) (v : FbxVersion)
    {F : Forest Writer.Append} (hn : topNamed 0 (calls F)) (hi : F.All (fun _ as => ∀ a ∈ as, intact a)) {f : Writer.FooterSpec} (hf : footSized f)
    {d : Bytes} (hd : (AnyDest.session BufOut.dest Z (BufOut.create cap s) v (calls F) f).2.leaves d)
    (hlen : d.length + 2 ^ 32 ≤ 2 ^ 64) {checks : Bool} {ending : Option IoErr} {cursor limit : Nat} (hlim : cursor + d.length ≤ limit)
    {v' : FbxVersion} {t : Tree} {g : Footer} (ht : anyTree Z checks true d ending cursor limit = .ok (v', t, .ok g)) :
    d = document v.toNat (attrBytes Z) (F.map denote) (footOf f) := by
  obtain ⟨fault, h1, h2⟩ := C94_crash_session Z cap s v (calls F) f hd
  have hw := atomic_whole (h1 ha)
  have no := fun h => C62_unfinished_tree Z (s := ⟨s.buf, s.pos, fault⟩) hs hw (v := v) h hlen (checks := checks) (ending := ending) hlim _ ht
  have h2 : d = (Writer.afterNew ⟨s.buf, s.pos, fault⟩ v (do Writer.run Z (calls F); Writer.finalize f)).2.buf := h2
  unfold Writer.afterNew at h2
  rcases hnew : Writer.new ⟨s.buf, s.pos, fault⟩ v with ⟨w | e | p, s1⟩
  · rw [hnew] at h2
    simp only [M.bind_apply] at h2
    rcases hr : Writer.run Z (calls F) w with ⟨u | e | p, w1⟩
    · rw [hr] at h2
      subst h2
      exact C62_finalize_tree Z hZ ⟨w, s1, hnew, hr⟩ hs hi hf _ rfl hlen checks ending cursor limit hlim ht
    · rw [hr] at h2
      exact (no (.inr ⟨w, s1, calls F, hnew, hn, by rw [h2, hr]⟩)).elim
    · rw [hr] at h2
      exact (no (.inr ⟨w, s1, calls F, hnew, hn, by rw [h2, hr]⟩)).elim
  · rw [hnew] at h2
    exact (no (.inl (by rw [hnew]; exact h2))).elim
  · rw [hnew] at h2
    exact (no (.inl (by rw [hnew]; exact h2))).elim

/-- Calls up to the first error are some calls. -/
theorem run_goOn (Z : Zlib) (ops : List Writer.Op) : ∀ w, ∃ k, (Writer.run Z ops w).2 = goOn Z w (ops.take k) ∧
    ((Writer.run Z ops w).1 = .ok () → (Writer.run Z ops w).2 = goOn Z w ops) := by
  induction ops with
  | nil => exact fun w => ⟨0, rfl, fun _ => rfl⟩
  | cons o ops ih =>
    intro w
    rcases ho : Writer.exec Z o w with ⟨u | e | p, w'⟩
    · obtain ⟨k, h1, h2⟩ := ih w'
      refine ⟨k + 1, ?_, ?_⟩ <;> simp only [Writer.run, M.bind_apply, ho, goOn, List.take_succ_cons, List.foldl_cons]
      · exact h1
      · exact h2
    · exact ⟨1, by simp [Writer.run, M.bind_apply, ho, goOn], by simp [Writer.run, M.bind_apply, ho]⟩
    · exact ⟨1, by simp [Writer.run, M.bind_apply, ho, goOn], by simp [Writer.run, M.bind_apply, ho]⟩

/-- **C94** (closed nodes are safe). Once the calls for the nodes `F` (at least one) have succeeded, they are on the device itself, though nothing was
flushed explicitly: whatever is called afterwards, wherever the device fails then or the process dies, a client sees exactly these nodes at the
beginning of what is left on the device. -/
theorem C94_kept (Z : Zlib) (hZ : Z.Lawful) (cap : Nat) (s : Sink) (v : FbxVersion) {F : Forest Writer.Append} (hF : F ≠ .nil)
    (hi : F.All (fun _ as => ∀ a ∈ as, intact a))
    (h : (AnyDest.withNew BufOut.dest (BufOut.create cap s) v (AnyDest.run BufOut.dest Z (calls F))).1 = .ok ()) (later : List Writer.Op) {d : Bytes}
    (hd : (AnyDest.withNew BufOut.dest (BufOut.create cap s) v (AnyDest.run BufOut.dest Z (calls F ++ later))).2.leaves d ∨
      ∃ f, (AnyDest.session BufOut.dest Z (BufOut.create cap s) v (calls F ++ later) f).2.leaves d) (hlen : d.length < 2 ^ 64)
    (buffered checks : Bool) (H : Option Handler) (hH : indulgent H) (ending : Option IoErr) (cursor limit : Nat)
    (hlim : cursor + d.length ≤ limit) :
    ∃ q, parseFile Z checks H ending cursor limit buffered everything (2 * F.count) d = some (.ok (events (F.map denote)), q) := by
  have hheld : (AnyDest.withNew BufOut.dest (BufOut.create cap s) v (AnyDest.run BufOut.dest Z (calls F))).2.held = [] := by
    unfold AnyDest.withNew at h ⊢
    by_cases hv : v.major ≠ 7
    · rw [if_pos hv]; rfl
    · rw [if_neg hv] at h ⊢
      rcases hx : AnyDest.start BufOut.dest v (BufOut.create cap s) with ⟨_ | _ | _, d'⟩ <;> rw [hx] at h
      · simp only at h ⊢
        obtain ⟨xs, hxs⟩ := BufOut.calls_last F hF
        rcases hy : AnyDest.run BufOut.dest Z (calls F) ⟨d', v, []⟩ with ⟨x, w1⟩
        rw [hy] at h
        simp only at h
        subst h
        have hy' := hy
        rw [hxs, BufOut.run_append, M.bind_ok_iff] at hy'
        obtain ⟨_, w2, -, h3⟩ := hy'
        simp only [AnyDest.run, M.bind_ok_iff] at h3
        obtain ⟨_, w3, h4, h5⟩ := h3
        cases h5
        exact BufOut.closeNode_held h4
      · cases h
      · cases h
  rcases hd with hd | ⟨f, hd⟩
  · rw [BufOut.run_append] at hd
    obtain ⟨fault, w0, s0, w1, h1, h2, h3⟩ := BufOut.resume_leaves cap s v (fun _ _ => AnyDest.run_plays (D := BufOut.dest) Z (calls F))
      (fun _ _ => AnyDest.run_plays (D := BufOut.dest) Z later) h hheld hd
    obtain ⟨k, h4, -⟩ := run_goOn Z later w1
    subst h3
    exact C62_kept Z hZ ⟨w0, s0, h1, h2⟩ hi (later.take k) _ (.inl (by rw [h4])) hlen buffered checks H hH ending cursor limit hlim
  · rw [AnyDest.session, BufOut.run_append, M.bind_assoc'] at hd
    obtain ⟨fault, w0, s0, w1, h1, h2, h3⟩ := BufOut.resume_leaves cap s v (fun _ _ => AnyDest.run_plays (D := BufOut.dest) Z (calls F))
      (fun _ _ => (AnyDest.run_plays (D := BufOut.dest) Z later).bind fun _ => AnyDest.finalize_plays (D := BufOut.dest) f) h hheld hd
    obtain ⟨k, h4, h5⟩ := run_goOn Z later w1
    subst h3
    refine C62_kept Z hZ ⟨w0, s0, h1, h2⟩ hi (match (Writer.run Z later w1).1 with | .ok _ => later | _ => later.take k) _ ?_ hlen buffered checks H hH
      ending cursor limit hlim
    simp only [M.bind_apply]
    rcases hr : Writer.run Z later w1 with ⟨u | e | p, w2⟩ <;> rw [hr] at h4 h5
    · exact .inr ⟨f, by rw [← h5 rfl]⟩
    · exact .inl (by simp only at h4 ⊢; rw [h4])
    · exact .inl (by simp only at h4 ⊢; rw [h4])

/-! ## Examples -/

theorem exFull_atomic (n : Nat) : (exFull n).atomic := by
  intro i f h
  simp only [exFull] at h
  split at h
  · cases h; rfl
  · cases h

/-- Two nodes. -/
def exTwo : Forest Writer.Append := .cons "A" [] .nil (.cons "B" [.i32 5] .nil .nil)

theorem exTwo_named : topNamed 0 (calls exTwo) := ⟨fun _ => by decide, fun _ => by decide, trivial⟩

/-- What is left when the device stops after `n` operations. -/
def exLeft (cap n : Nat) : Bytes := (AnyDest.session BufOut.dest Zlib.stored (BufOut.create cap (exFull n)) 7400 (calls exTwo) exFooter).2.inner.buf

/-- The device stops while the second node is being written through a small buffer: the first node can be read, and no tree. -/
example : (AnyDest.withNew BufOut.dest (BufOut.create 20 (exFull 14)) 7400 (AnyDest.run BufOut.dest Zlib.stored (calls exTwo))).1 = .err (.io (.other 5)) ∧
    (AnyDest.withNew BufOut.dest (BufOut.create 20 (exFull 14)) 7400
      (AnyDest.run BufOut.dest Zlib.stored (calls (.cons "A" [] .nil .nil)))).1 = .ok () ∧
    (exLeft 20 14).length = 68 ∧
    (exLeft 20 99).length = 240 := by decide +kernel

example (r) : anyTree Zlib.stored true true
    (AnyDest.withNew BufOut.dest (BufOut.create 20 (exFull 14)) 7400 (AnyDest.run BufOut.dest Zlib.stored (calls exTwo))).2.drop.buf none 0 (2 ^ 64) ≠ .ok r :=
  C94_unfinished_tree Zlib.stored 20 rfl (exFull_atomic 14) 7400 exTwo_named (.inr rfl) (by decide +kernel) (by decide +kernel) r

example := C94_kept Zlib.stored Zlib.stored_lawful 20 (exFull 14) 7400 (F := .cons "A" [] .nil .nil) (by simp) (by simp [Forest.All]) (by decide +kernel)
  (calls (.cons "B" [.i32 5] .nil .nil)) (.inl (.inl rfl)) (by decide +kernel) false true none (by intro f hf; cases hf) none 0 (2 ^ 64) (by decide +kernel)

example := fun v' t g ht => C94_whole Zlib.stored Zlib.stored_lawful 20 (s := exFull 99) rfl (exFull_atomic 99) 7400 (F := exTwo) exTwo_named
  (by simp [exTwo, Forest.All, intact]) (f := exFooter) (by unfold footSized; decide +kernel) (d := exLeft 20 99) (.inl rfl) (by decide +kernel) (checks := true) (ending := none) (cursor := 0)
  (limit := 2 ^ 64) (by decide +kernel) (v' := v') (t := t) (g := g) ht

end Fbx
