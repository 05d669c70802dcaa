import Verif.Spec.Crash
import Verif.Proof.WriterErr

/-!
# Bytes below the outermost position a call can seek to are never touched
-/

namespace Fbx.Writer
open Spec

/-- Offsets of the headers of the open nodes, innermost first. -/
def heads (w : Writer) : List Nat := w.opened.map OpenNode.headerPos

/-- The device begins with `P`, and neither the position nor the headers of the open nodes, except the `k` outermost
ones, are inside `P`. -/
structure Above (P : Bytes) (k : Nat) (w : Writer) : Prop where
  kept : w.sink.buf.take P.length = P
  pos : P.length ≤ w.sink.pos
  deep : k ≤ w.heads.length
  nodes : ∀ p ∈ w.heads.take (w.heads.length - k), P.length ≤ p

/-- The step preserves `I` whatever its outcome, and its value satisfies `Q`. -/
def Stay {α : Type} (I : Writer → Prop) (m : M WErr Writer α) (Q : α → Prop) : Prop :=
  ∀ w, I w → I (m w).2 ∧ ∀ a, (m w).1 = .ok a → Q a

section
variable {I : Writer → Prop} {α β : Type}

theorem Stay.bind {m : M WErr Writer α} {f : α → M WErr Writer β} {Q : α → Prop} {R : β → Prop} (hm : Stay I m Q)
    (hf : ∀ a, Q a → Stay I (f a) R) : Stay I (m >>= f) R := by
  intro w hw
  have h1 := hm w hw
  rw [M.bind_apply]
  rcases hr : m w with ⟨r, w1⟩
  rw [hr] at h1
  cases r with
  | ok a => exact hf a (h1.2 a rfl) w1 h1.1
  | err e => exact ⟨h1.1, fun _ h => by cases h⟩
  | panic p => exact ⟨h1.1, fun _ h => by cases h⟩

theorem Stay.mono {m : M WErr Writer α} {Q R : α → Prop} (h : Stay I m Q) (hi : ∀ a, Q a → R a) : Stay I m R :=
  fun w hw => ⟨(h w hw).1, fun a ha => hi a ((h w hw).2 a ha)⟩

theorem Stay.pure (a : α) : Stay I (Pure.pure a) (fun _ => True) := fun _ h => ⟨h, fun _ _ => trivial⟩
theorem Stay.ret {Q : α → Prop} (a : α) (h : Q a) : Stay I (Pure.pure a) Q := fun w hw => ⟨hw, fun b hb => by
  have : Res.ok a = Res.ok b := hb
  cases this; exact h⟩
theorem Stay.throw (e : WErr) : Stay I (M.throw e : M WErr Writer α) (fun _ => True) := fun _ h => ⟨h, fun _ _ => trivial⟩
theorem Stay.panic (e : Panic) : Stay I (M.panic e : M WErr Writer α) (fun _ => True) := fun _ h => ⟨h, fun _ _ => trivial⟩
theorem Stay.assert (b : Bool) (p : Panic) : Stay I (M.assert b p) (fun _ => True) := by
  cases b
  · exact Stay.panic p
  · exact Stay.pure ()
theorem Stay.get {f : Writer → M WErr Writer α} {Q : α → Prop} (h : ∀ w, Stay I (f w) Q) : Stay I (M.get >>= f) Q :=
  fun w hw => h w w hw
theorem Stay.ite (c : Prop) [Decidable c] {m n : M WErr Writer α} {Q : α → Prop} (hm : Stay I m Q) (hn : Stay I n Q) :
    Stay I (if c then m else n) Q := by split <;> assumption
theorem Stay.mapErr (g : WErr → WErr) {m : M WErr Writer α} {Q : α → Prop} (h : Stay I m Q) : Stay I (M.mapErr g m) Q := by
  intro w hw
  have := h w hw
  rw [M.mapErr_apply]
  rcases hm : m w with ⟨r, w1⟩
  rw [hm] at this
  cases r with
  | ok a => exact this
  | err e => exact ⟨this.1, fun _ h => by cases h⟩
  | panic p => exact ⟨this.1, fun _ h => by cases h⟩
theorem Stay.ofExcept (r : Except WErr α) : Stay I (M.ofExcept r) (fun _ => True) := by
  cases r
  · exact Stay.throw _
  · exact Stay.pure _
end

variable {P : Bytes} {k : Nat}

theorem store_take {buf : Bytes} {p b : Nat} (bs : Bytes) (h1 : b ≤ p) (h2 : b ≤ buf.length) :
    (Sink.store buf p bs).take b = buf.take b := by
  rw [Sink.store, List.append_assoc, List.take_append_of_le_length (by simp; omega), List.take_take,
    show min b p = b by omega, List.take_append_of_le_length h2]

theorem Above.le {w : Writer} (h : Above P k w) : P.length ≤ w.sink.buf.length := by
  have := congrArg List.length h.kept
  rw [List.length_take] at this
  omega

/-- Only the device changes, and not below. -/
theorem Above.sink {w : Writer} {s : Sink} (h : Above P k w) (h1 : s.buf.take P.length = w.sink.buf.take P.length)
    (h2 : P.length ≤ s.pos) : Above P k { w with sink := s } := ⟨h1.trans h.kept, h2, h.deep, h.nodes⟩

theorem io_snd {α : Type} (m : M IoErr Sink α) (w : Writer) : (io m w).2 = { w with sink := (m w.sink).2 } := by
  simp only [Writer.io, M.mapErr_apply, M.zoom_apply]
  rcases m w.sink with ⟨r, s⟩
  cases r <;> rfl

theorem Above.put (bs : Bytes) : Stay (Above P k) (put bs) (fun _ => True) := by
  intro w h
  refine ⟨?_, fun _ _ => trivial⟩
  rw [Writer.put, io_snd]
  refine h.sink ?_ ?_
  · simp only [Sink.writeAll]
    split
    · rfl
    · split
      · simp only
        split
        · rfl
        · exact store_take _ h.pos h.le
      · split
        · exact store_take _ h.pos h.le
        · rfl
  · have := h.pos
    simp only [Sink.writeAll]
    split
    · exact this
    · split
      · simp only; omega
      · split
        · simp only; omega
        · exact this

theorem Above.seek {p : Nat} (hp : P.length ≤ p) : Stay (Above P k) (io (Sink.seek p)) (fun _ => True) := by
  intro w h
  refine ⟨?_, fun _ _ => trivial⟩
  rw [io_snd]
  have := h.pos
  refine h.sink ?_ ?_
  · simp only [Sink.seek]; split <;> rfl
  · simp only [Sink.seek]; split <;> simp only <;> omega

theorem Above.tell : Stay (Above P k) (io Sink.tell) (fun p => P.length ≤ p) := by
  intro w h
  have := h.pos
  refine ⟨?_, ?_⟩
  · rw [io_snd]
    refine h.sink ?_ ?_
    · simp only [Sink.tell]; split <;> rfl
    · simp only [Sink.tell]; split <;> simp only <;> omega
  · intro a ha
    have hx : io Sink.tell w = (.ok a, (io Sink.tell w).2) := Prod.ext ha rfl
    have := (tell_val hx).1
    omega

theorem heads_top (f : OpenNode → OpenNode) (hf : ∀ n, (f n).headerPos = n.headerPos) (w : Writer) :
    (modifyTop f w).heads = w.heads ∧ (modifyTop f w).sink = w.sink := by
  unfold modifyTop
  split
  · exact ⟨rfl, rfl⟩
  · rename_i n o ho
    simp [heads, ho, hf]

theorem Above.top (f : OpenNode → OpenNode) (hf : ∀ n, (f n).headerPos = n.headerPos) :
    Stay (Above P k) (M.modify (modifyTop f)) (fun _ => True) := by
  intro w h
  refine ⟨?_, fun _ _ => trivial⟩
  obtain ⟨h1, h2⟩ := heads_top f hf w
  show Above P k (modifyTop f w)
  exact ⟨by rw [h2]; exact h.kept, by rw [h2]; exact h.pos, by rw [h1]; exact h.deep, by rw [h1]; exact h.nodes⟩

/-- Proves `Stay` by following the code. -/
macro "stay" : tactic => `(tactic| repeat' (first
  | assumption
  | with_reducible exact Stay.pure _ | with_reducible exact Stay.throw _ | with_reducible exact Stay.panic _
  | with_reducible exact Stay.assert _ _ | with_reducible exact Above.tell | with_reducible exact Above.seek (by assumption)
  | with_reducible exact Above.top _ (fun _ => rfl) | with_reducible exact Above.put _ | with_reducible exact Stay.ofExcept _
  | with_reducible refine Stay.get (fun _ => ?_) | with_reducible refine Stay.bind Above.tell (fun _ _ => ?_)
  | with_reducible refine Stay.bind (Q := fun _ => True) ?_ (fun _ _ => ?_)
  | with_reducible refine Stay.ite _ ?_ ?_
  | with_reducible refine Stay.mapErr _ ?_ | split))

theorem Above.putU32 (n : Nat) (e : WErr) : Stay (Above P k) (putU32 n e) (fun _ => True) := by
  unfold Writer.putU32; stay
theorem Above.writeNodeHeader (h : NodeHeader) : Stay (Above P k) (writeNodeHeader h) (fun _ => True) := by
  have := Above.putU32 (P := P) (k := k)
  unfold Writer.writeNodeHeader; stay <;> apply this
theorem Above.finalizeAttributes : Stay (Above P k) finalizeAttributes (fun _ => True) := by
  unfold Writer.finalizeAttributes; stay
theorem Above.updateNodeHeader : Stay (Above P k) updateNodeHeader (fun _ => True) := by
  unfold Writer.updateNodeHeader; stay
theorem Above.writeArrHeader (h : ArrHeader) : Stay (Above P k) (writeArrHeader h) (fun _ => True) := by
  unfold Writer.writeArrHeader; stay
theorem Above.writeElements (l : List (Except WErr Bytes)) : ∀ n, Stay (Above P k) (writeElements l n) (fun _ => True) := by
  induction l with
  | nil => intro n; unfold Writer.writeElements; stay
  | cons x xs ih =>
    intro n
    cases x <;> unfold Writer.writeElements
    · stay
    · exact Stay.bind (Above.put _) (fun _ _ => ih _)
theorem Above.copyChunks (e : Option IoErr) (l : List Bytes) : ∀ n, Stay (Above P k) (copyChunks e l n) (fun _ => True) := by
  induction l with
  | nil => intro n; unfold Writer.copyChunks; stay
  | cons x xs ih => intro n; exact Stay.bind (Above.put _) (fun _ _ => ih _)
theorem Above.putEach (l : List (Except WErr Byte)) : ∀ n, Stay (Above P k) (putEach l n) (fun _ => True) := by
  induction l with
  | nil => intro n; unfold Writer.putEach; stay
  | cons x xs ih =>
    intro n
    cases x <;> unfold Writer.putEach
    · stay
    · exact Stay.bind (Above.put _) (fun _ _ => ih _)
theorem Above.putChars (l : List (Except WErr Char)) : ∀ b n, Stay (Above P k) (putChars l b n) (fun _ => True) := by
  induction l with
  | nil => intro b n; unfold Writer.putChars; stay
  | cons x xs ih =>
    intro b n
    cases x <;> unfold Writer.putChars
    · stay
    · exact Stay.bind (Above.put _) (fun _ _ => ih _ _)

theorem Above.appendSingle (t : AttrType) (bs : Bytes) : Stay (Above P k) (appendSingle t bs) (fun _ => True) :=
  Stay.bind Above.updateNodeHeader (fun _ _ => Stay.bind (Above.put _) (fun _ _ => Above.put _))
theorem Above.initializeSpecial (t : AttrType) : Stay (Above P k) (initializeSpecial t) (fun p => P.length ≤ p) :=
  Stay.bind Above.updateNodeHeader (fun _ _ => Stay.bind (Above.put _) (fun _ _ => Stay.bind Above.tell (fun p hp =>
    Stay.bind (Above.put _) (fun _ _ => Stay.ret p hp))))
theorem Above.finalizeSpecial {p : Nat} (l : Nat) (hp : P.length ≤ p) : Stay (Above P k) (finalizeSpecial p l) (fun _ => True) := by
  unfold Writer.finalizeSpecial; stay
theorem Above.appendDirect (t : AttrType) (bs : Bytes) : Stay (Above P k) (appendDirect t bs) (fun _ => True) :=
  Stay.bind (Above.initializeSpecial t) (fun _ hp => Stay.bind (Above.put _) (fun _ _ => Above.finalizeSpecial _ hp))
theorem Above.initializeArray (t : AttrType) (e : ArrEnc) : Stay (Above P k) (initializeArray t e) (fun p => P.length ≤ p) :=
  Stay.bind Above.updateNodeHeader (fun _ _ => Stay.bind (Above.put _) (fun _ _ => Stay.bind Above.tell (fun p hp =>
    Stay.bind (Above.writeArrHeader _) (fun _ _ => Stay.ret p hp))))
theorem Above.finalizeArray {p : Nat} (h : ArrHeader) (hp : P.length ≤ p) : Stay (Above P k) (finalizeArray p h) (fun _ => True) :=
  Stay.bind Above.tell (fun _ hq => Stay.bind (Above.seek hp) (fun _ _ => Stay.bind (Above.writeArrHeader h) (fun _ _ => Above.seek hq)))
theorem Above.writeArrayElements (Z : Zlib) (e : ArrEnc) (items : List (Except WErr Bytes)) :
    Stay (Above P k) (writeArrayElements Z e items) (fun _ => True) := by
  cases e
  · exact Above.writeElements _ _
  · show Stay _ (writeElementsZlib Z items) _
    unfold writeElementsZlib; stay
theorem Above.appendArray (Z : Zlib) (t : AttrType) (e : Option ArrEnc) (items : List (Except WErr Bytes)) :
    Stay (Above P k) (appendArray Z t e items) (fun _ => True) := by
  unfold Writer.appendArray
  refine Stay.bind (Above.initializeArray t _) (fun p hp => Stay.bind Above.tell (fun _ _ =>
    Stay.bind (Above.writeArrayElements Z _ items) (fun _ _ => Stay.bind Above.tell (fun _ _ => ?_))))
  exact Stay.ite _ (Above.finalizeArray _ hp) (Stay.throw _)

theorem Above.append (Z : Zlib) (a : Append) : Stay (Above P k) (append Z a) (fun _ => True) := by
  cases a with
  | bool | i16 | i32 | i64 | f32 | f64 => exact Above.appendSingle _ _
  | arrBool | arrI32 | arrI64 | arrF32 | arrF64 => exact Above.appendArray _ _ _ _
  | binary | string => exact Above.appendDirect _ _
  | binaryReader c e =>
    exact Stay.bind (Above.initializeSpecial _) (fun _ hp => Stay.bind (Above.copyChunks _ _ _) (fun _ _ => Above.finalizeSpecial _ hp))
  | binaryIter items =>
    exact Stay.bind (Above.initializeSpecial _) (fun _ hp => Stay.bind (Above.putEach _ _) (fun _ _ => Above.finalizeSpecial _ hp))
  | stringIter items =>
    exact Stay.bind (Above.initializeSpecial _) (fun _ hp => Stay.bind (Above.putChars _ _ _) (fun _ _ => Above.finalizeSpecial _ hp))

theorem Above.push (n : OpenNode) (hn : P.length ≤ n.headerPos) :
    Stay (Above P k) (M.modify (fun w => { w with opened := n :: w.opened })) (fun _ => True) := by
  intro w h
  refine ⟨⟨h.kept, h.pos, ?_, ?_⟩, fun _ _ => trivial⟩
  · have := h.deep
    simp only [M.modify_apply, heads, List.map_cons, List.length_cons] at this ⊢
    omega
  · intro p hp
    have hd := h.deep
    have hl : (n.headerPos :: w.heads).length - k = (w.heads.length - k) + 1 := by rw [List.length_cons]; omega
    have hp' : p ∈ (n.headerPos :: w.heads).take ((n.headerPos :: w.heads).length - k) := hp
    rw [hl, List.take_succ_cons, List.mem_cons] at hp'
    rcases hp' with rfl | hp'
    · exact hn
    · exact h.nodes p hp'

theorem Above.newNode (name : String) : Stay (Above P k) (newNode name) (fun _ => True) := by
  have hw := Above.writeNodeHeader (P := P) (k := k)
  unfold Writer.newNode
  refine Stay.bind Above.finalizeAttributes (fun _ _ => Stay.bind (Above.top _ (fun _ => rfl)) (fun _ _ => ?_))
  refine Stay.ite _ ?_ (Stay.throw _)
  exact Stay.bind Above.tell (fun p hp => Stay.bind (hw _) (fun _ _ => Stay.bind (Above.put _) (fun _ _ =>
    Stay.bind Above.tell (fun _ _ => Above.push _ hp))))

theorem Above.closeRest (n : OpenNode) (hn : P.length ≤ n.headerPos) : Stay (Above P k) (closeRest n) (fun _ => True) := by
  have hw := Above.writeNodeHeader (P := P) (k := k)
  unfold Writer.closeRest
  have h := Stay.bind (Above.tell (P := P) (k := k)) (fun p hp => Stay.bind (Above.seek hn) (fun _ _ =>
    Stay.bind (Stay.assert ((n.header.numAttrs == 0) == (n.header.bytelenAttrs == 0)) .attrLenAssert) (fun _ _ =>
      Stay.bind (hw { n.header with endOffset := p }) (fun _ _ => Above.seek hp))))
  exact Stay.ite _ (Stay.bind (hw _) (fun _ _ => h)) h

/-- `close_node` on a node inside. -/
theorem Above.closeNode {w : Writer} (h : Above P k w) (hd : k < w.opened.length ∨ w.opened = []) : Above P k (closeNode w).2 := by
  rw [closeNode_eq, M.bind_apply]
  have h1 := Above.finalizeAttributes w h
  have k1 := (Keeps.finalizeAttributes.keep w).1
  rcases hr : Writer.finalizeAttributes w with ⟨r, w1⟩
  rw [hr] at h1 k1
  cases r with
  | err e => exact h1.1
  | panic e => exact h1.1
  | ok u =>
    simp only [M.get_bind]
    rcases ho : w1.opened with _ | ⟨n, outer⟩
    · exact h1.1
    · simp only [M.modify_bind]
      have hk : k ≤ outer.length := by
        simp only at k1
        rw [ho, List.length_cons] at k1
        rcases hd with hd | hd
        · omega
        · rw [hd] at k1; simp at k1
      have ha := h1.1
      have hn := ha.nodes
      have hl : w1.heads.length - k = (outer.length - k) + 1 := by
        simp only [heads, ho, List.length_map, List.length_cons]; omega
      rw [hl, show w1.heads = n.headerPos :: outer.map OpenNode.headerPos by simp [heads, ho], List.take_succ_cons] at hn
      refine (Above.closeRest n (hn _ (by simp)) { w1 with opened := outer } ⟨ha.kept, ha.pos, ?_, ?_⟩).1
      · simpa [heads] using hk
      · intro p hp
        refine hn p (List.mem_cons_of_mem _ ?_)
        simpa [heads] using hp

theorem Above.exec (Z : Zlib) {w : Writer} (h : Above P k w) (o : Op) (ho : o = .closeNode → k < w.opened.length ∨ w.opened = []) :
    Above P k (exec Z o w).2 := by
  cases o with
  | newNode name => exact (Above.newNode name w h).1
  | closeNode => exact h.closeNode (ho rfl)
  | append a => exact (Above.append Z a w h).1

theorem Above.finalize (f : FooterSpec) : Stay (Above P k) (finalize f) (fun _ => True) := by
  have hw := Above.writeNodeHeader (P := P) (k := k)
  unfold Writer.finalize paddingLen writeFbxVersion
  stay
  all_goals apply hw

/-- Whatever is called with no node open at the beginning. -/
theorem Above.goOn (Z : Zlib) (ops : List Op) : ∀ {w : Writer}, Above P 0 w → Above P 0 (goOn Z w ops) := by
  induction ops with
  | nil => intro w h; exact h
  | cons o os ih =>
    intro w h
    refine ih (h.exec Z o fun _ => ?_)
    rcases ho : w.opened with _ | ⟨n, r⟩
    · exact .inr rfl
    · exact .inl (by simp)

end Fbx.Writer

namespace Fbx.Writer
open Spec

/-! ## Calls of a program that closes none of the nodes open before -/

theorem Above.run (Z : Zlib) {P : Bytes} {k : Nat} (ops : List Op) : ∀ {w : Writer} (d : Nat), Above P k w → w.opened.length = k + d →
    (∀ i, closes (ops.take i) ≤ d + opens (ops.take i)) → Above P k (run Z ops w).2 := by
  induction ops with
  | nil => intro w d h _ _; exact h
  | cons o os ih =>
    intro w d h hd hb
    have h0 := hb 1
    have hs : ∀ i, closes ((o :: os).take (i + 1)) ≤ d + opens ((o :: os).take (i + 1)) := fun i => hb (i + 1)
    simp only [List.take_succ_cons, List.take_zero] at h0 hs
    have he : Above P k (Writer.exec Z o w).2 := by
      refine h.exec Z o fun ho => .inl ?_
      subst ho
      simp only [closes, opens] at h0
      omega
    rw [Writer.run, M.bind_apply]
    rcases hr : Writer.exec Z o w with ⟨r, w1⟩
    rw [hr] at he
    cases r with
    | err e => exact he
    | panic e => exact he
    | ok u =>
      simp only
      cases o with
      | newNode name =>
        refine ih (d + 1) he ?_ (fun i => ?_)
        · rw [newNode_depth name w w1 u hr]; omega
        · have := hs i; simp only [closes, opens] at this; omega
      | closeNode =>
        have hc := closeNode_depth w w1 u hr
        simp only [closes, opens] at h0
        refine ih (d - 1) he (by omega) (fun i => ?_)
        have := hs i; simp only [closes, opens] at this; omega
      | append a =>
        refine ih d he ?_ (fun i => ?_)
        · have := ((Keeps.append Z a).keep w).1
          rw [show Writer.append Z a w = (.ok u, w1) from hr] at this
          rw [this]; exact hd
        · have := hs i; simp only [closes, opens] at this; omega

/-! ## Programs that only write at the end of the device -/

/-- From `w`, positioned at the end, `m` adds a part of `B`, and all of it if it succeeds. -/
def Extends {α : Type} (w : Writer) (m : M WErr Writer α) (B : Bytes) : Prop :=
  ∃ x, x <+: B ∧ (m w).2.sink.buf = w.sink.buf ++ x ∧ (m w).2.sink.pos = (m w).2.sink.buf.length ∧ (m w).2.version = w.version ∧
    ∀ a, (m w).1 = .ok a → x = B

/-- The writer is at the end of the device. -/
def AtEnd (w : Writer) : Prop := w.sink.pos = w.sink.buf.length

theorem Extends.bind {α β : Type} {w : Writer} {m : M WErr Writer α} {f : α → M WErr Writer β} {B C : Bytes}
    (hm : Extends w m B) (hf : ∀ a w', m w = (.ok a, w') → w'.sink.buf = w.sink.buf ++ B → AtEnd w' → w'.version = w.version →
      Extends w' (f a) C) : Extends w (m >>= f) (B ++ C) := by
  obtain ⟨x, h1, h2, h3, h4, h5⟩ := hm
  unfold Extends
  rw [M.bind_apply]
  rcases hr : m w with ⟨r, w1⟩
  rw [hr] at h2 h3 h4 h5
  cases r with
  | err e => exact ⟨x, h1.trans (List.prefix_append _ _), h2, h3, h4, fun _ h => by cases h⟩
  | panic p => exact ⟨x, h1.trans (List.prefix_append _ _), h2, h3, h4, fun _ h => by cases h⟩
  | ok a =>
    have hx := h5 a rfl
    subst hx
    obtain ⟨y, k1, k2, k3, k4, k5⟩ := hf a w1 hr h2 h3 h4
    simp only at h2 h4 ⊢
    exact ⟨x ++ y, (List.prefix_append_right_inj x).mpr k1, by rw [k2, h2, List.append_assoc], k3, k4.trans h4, fun b hb => by rw [k5 b hb]⟩

theorem Extends.quiet {α : Type} {w : Writer} {m : M WErr Writer α} (hw : AtEnd w) (h : (m w).2.sink.buf = w.sink.buf)
    (h1 : (m w).2.sink.pos = w.sink.pos) (h2 : (m w).2.version = w.version) : Extends w m [] :=
  ⟨[], List.prefix_refl _, by rw [h, List.append_nil], by rw [h, h1]; exact hw, h2, fun _ _ => rfl⟩

theorem store_end (buf x : Bytes) : Sink.store buf buf.length x = buf ++ x := by
  simp [Sink.store, zeros]

theorem Extends.put {w : Writer} (hw : AtEnd w) (bs : Bytes) : Extends w (put bs) bs := by
  unfold Extends
  have hv : (Writer.put bs w).2.version = w.version := ((Keeps.put bs).keep w).2
  by_cases hb : bs = []
  · refine ⟨[], by rw [hb]; exact List.prefix_refl _, ?_, ?_, hv, fun _ _ => hb.symm⟩
    · rw [Writer.put, io_snd]; simp [Sink.writeAll, hb]
    · rw [Writer.put, io_snd]; simp [Sink.writeAll, hb]; exact hw
  · have hp : w.sink.pos = w.sink.buf.length := hw
    cases hf : w.sink.fault 0 with
    | some k =>
      refine ⟨bs.take k.stored, List.take_prefix _ _, ?_, ?_, hv, ?_⟩
      · rw [Writer.put, io_snd]
        simp only [Sink.writeAll, hb, if_false, hf]
        split
        · rename_i h0; rw [h0, List.append_nil]
        · rw [hp, store_end]
      · rw [Writer.put, io_snd]
        simp only [Sink.writeAll, hb, if_false, hf]
        split
        · rename_i h0; rw [h0]; simpa using hp
        · rw [hp, store_end, List.length_append]
      · intro a ha
        simp [Writer.put, Writer.io, M.mapErr_apply, M.zoom_apply, Sink.writeAll, hb, hf] at ha
    | none =>
      by_cases hlt : w.sink.pos + bs.length < 2 ^ 64
      · refine ⟨bs, List.prefix_refl _, ?_, ?_, hv, fun _ _ => rfl⟩
        · rw [Writer.put, io_snd]
          simp only [Sink.writeAll, hb, if_false, hf, hlt, if_true]
          rw [hp, store_end]
        · rw [Writer.put, io_snd]
          simp only [Sink.writeAll, hb, if_false, hf, hlt, if_true]
          rw [hp, store_end, List.length_append]
      · refine ⟨[], List.nil_prefix, ?_, ?_, hv, ?_⟩
        · rw [Writer.put, io_snd]
          simp only [Sink.writeAll, hb, if_false, hf, hlt, List.append_nil]
        · rw [Writer.put, io_snd]
          simp only [Sink.writeAll, hb, if_false, hf, hlt]
          exact hp
        · intro a ha
          simp [Writer.put, Writer.io, M.mapErr_apply, M.zoom_apply, Sink.writeAll, hb, hf, hlt] at ha

theorem Extends.tell {w : Writer} (hw : AtEnd w) : Extends w (io Sink.tell) [] := by
  refine Extends.quiet hw ?_ ?_ (Keeps.tell.keep w).2
  · rw [io_snd]; simp only [Sink.tell]; split <;> rfl
  · rw [io_snd]; simp only [Sink.tell]; split <;> rfl

theorem Extends.putU32 {w : Writer} (hw : AtEnd w) (n : Nat) (e : WErr) : Extends w (putU32 n e) (leBytes 4 n) := by
  unfold Writer.putU32
  split
  · exact Extends.put hw _
  · exact ⟨[], List.nil_prefix, (List.append_nil _).symm, hw, rfl, fun _ h => by cases h⟩

theorem Extends.writeNodeHeader {w : Writer} (hw : AtEnd w) (h : NodeHeader) :
    Extends w (writeNodeHeader h) (header w.version.toNat h.endOffset h.numAttrs h.bytelenAttrs h.nameLen) := by
  have key : ∀ (c : Prop) [Decidable c] {α : Type} (m n : M WErr Writer α) (B C : Bytes), (c → Extends w m B) → (¬ c → Extends w n C) →
      Extends w (if c then m else n) (if c then B else C) := by
    intro c _ α m n B C h1 h2
    split
    · exact h1 ‹_›
    · exact h2 ‹_›
  have hh : header w.version.toNat h.endOffset h.numAttrs h.bytelenAttrs h.nameLen =
      if w.version < 7500 then leBytes 4 h.endOffset ++ (leBytes 4 h.numAttrs ++ (leBytes 4 h.bytelenAttrs ++ leBytes 1 h.nameLen))
      else leBytes 8 h.endOffset ++ (leBytes 8 h.numAttrs ++ (leBytes 8 h.bytelenAttrs ++ leBytes 1 h.nameLen)) := by
    have : (w.version < 7500) ↔ w.version.toNat < 7500 := UInt32.lt_iff_toNat_lt
    simp only [header, width, le_eq, this]
    split <;> simp only [List.append_assoc]
  rw [hh]
  unfold Writer.writeNodeHeader
  show Extends w (M.get >>= _) _
  refine key (w.version < 7500) _ _ _ _ (fun _ => ?_) (fun _ => ?_)
  · exact Extends.bind (Extends.putU32 hw _ _) fun _ _ _ _ h1 _ => Extends.bind (Extends.putU32 h1 _ _) fun _ _ _ _ h2 _ =>
      Extends.bind (Extends.putU32 h2 _ _) fun _ _ _ _ h3 _ => Extends.put h3 _
  · exact Extends.bind (Extends.put hw _) fun _ _ _ _ h1 _ => Extends.bind (Extends.put h1 _) fun _ _ _ _ h2 _ =>
      Extends.bind (Extends.put h2 _) fun _ _ _ _ h3 _ => Extends.put h3 _

end Fbx.Writer

namespace Fbx.Writer
open Spec

/-- `new_node` with no node open. -/
theorem newNode_extends {w : Writer} (hw : AtEnd w) (ho : w.opened = []) (name : String) :
    Extends w (newNode name) (header w.version.toNat 0 0 0 (utf8 name).length ++ utf8 name) := by
  have hf : finalizeAttributes w = (.ok (), w) := by
    rw [finalizeAttributes, M.get_bind, ho]; rfl
  have hm : (M.modify (modifyTop (fun n => { n with hasChild := true })) : M WErr Writer Unit) w = (.ok (), w) := by
    rw [M.modify_apply, modifyTop, ho]
  have e : Writer.newNode name w = (if (strBytes name).length < 256 then do
      let headerPos ← io Sink.tell
      let header : NodeHeader := ⟨0, 0, 0, (strBytes name).length⟩
      writeNodeHeader header
      put (strBytes name)
      let bodyPos ← io Sink.tell
      M.modify (fun w => { w with opened := ⟨headerPos, bodyPos, header, false, false⟩ :: w.opened })
    else M.throw (.nodeNameTooLong (strBytes name).length)) w := by
    rw [Writer.newNode]
    refine (M.bind_val hf _).trans ?_
    exact M.bind_val hm _
  unfold Extends
  rw [e]
  by_cases hl : (strBytes name).length < 256
  · rw [if_pos hl]
    have := Extends.bind (Extends.tell hw) (f := fun headerPos => do
      let header : NodeHeader := ⟨0, 0, 0, (strBytes name).length⟩
      writeNodeHeader header
      put (strBytes name)
      let bodyPos ← io Sink.tell
      M.modify (fun w => { w with opened := ⟨headerPos, bodyPos, header, false, false⟩ :: w.opened }))
      (C := header w.version.toNat 0 0 0 (strBytes name).length ++ (strBytes name ++ ([] ++ [])))
      (fun p w1 h1 _ a1 v1 => Extends.bind (by rw [← v1]; exact Extends.writeNodeHeader a1 ⟨0, 0, 0, (strBytes name).length⟩)
        fun _ w2 h2 _ a2 v2 => Extends.bind (Extends.put a2 _) fun _ w3 h3 _ a3 v3 => Extends.bind (Extends.tell a3)
          fun q w4 h4 _ a4 v4 => Extends.quiet a4 rfl rfl rfl)
    simp only [List.nil_append, List.append_nil] at this
    exact this
  · rw [if_neg hl]
    exact ⟨[], List.nil_prefix, (List.append_nil _).symm, hw, rfl, fun _ h => by cases h⟩

/-- A name that is too long leaves no trace. -/
theorem newNode_long {w : Writer} (ho : w.opened = []) (name : String) (hl : ¬ (utf8 name).length < 256) : (newNode name w).2.sink = w.sink := by
  have hf : finalizeAttributes w = (.ok (), w) := by
    rw [finalizeAttributes, M.get_bind, ho]; rfl
  have hm : (M.modify (modifyTop (fun n => { n with hasChild := true })) : M WErr Writer Unit) w = (.ok (), w) := by
    rw [M.modify_apply, modifyTop, ho]
  have e : Writer.newNode name w = (M.throw (.nodeNameTooLong (strBytes name).length) : M WErr Writer Unit) w := by
    rw [Writer.newNode]
    refine (M.bind_val hf _).trans ?_
    refine (M.bind_val hm _).trans ?_
    simp only
    rw [if_neg (show ¬ (strBytes name).length < 256 from hl)]
  rw [e]
  rfl

/-- `new` on an empty device. -/
theorem new_extends {s : Sink} (hs : s.buf = []) (v : FbxVersion) :
    (new s v).2.buf <+: signature ++ le 4 v.toNat ∧ ((new s v).2.buf ≠ [] → supported v.toNat) := by
  rw [← major7_iff]
  by_cases hv : v.major ≠ 7
  · rw [new, if_pos hv, hs]
    exact ⟨List.nil_prefix, fun h => absurd rfl h⟩
  · refine ⟨?_, fun _ => by simpa using hv⟩
    obtain ⟨buf, pos, fault⟩ := s
    subst hs
    have hst : ∀ x : Bytes, Sink.store [] 0 x = x := fun x => by simp [Sink.store, zeros]
    have hm0 : magic ≠ [] := by decide
    have hsig : magic = signature := by decide
    have hl0 : leBytes 4 v.toNat ≠ [] := by
      intro h0; have := congrArg List.length h0; simp at this
    have hm1 : magic.length < 2 ^ 64 := by decide
    have hm2 : magic.length + (leBytes 4 v.toNat).length < 2 ^ 64 := by rw [show magic.length = 23 by decide]; simp
    cases h0 : fault 0 with
    | some k =>
      simp only [new, if_neg hv, M.mapErr_apply, M.bind_apply, Sink.seek, h0]
      exact List.nil_prefix
    | none =>
      cases h1 : fault 1 with
      | some k =>
        simp only [new, if_neg hv, M.mapErr_apply, M.bind_apply, Sink.seek, h0, Sink.writeAll, if_neg hm0, Sink.later, Nat.zero_add, h1]
        split
        · exact List.nil_prefix
        · rw [hst, hsig]
          exact (List.take_prefix _ _).trans (List.prefix_append _ _)
      | none =>
        cases h2 : fault 2 with
        | some k =>
          simp only [new, if_neg hv, M.mapErr_apply, M.bind_apply, Sink.seek, h0, Sink.writeAll, if_neg hm0, Sink.later, h1, hst, if_pos hm1, if_neg hl0,
            Nat.zero_add, Nat.reduceAdd, h2]
          split
          · rw [hsig]; exact List.prefix_append _ _
          · rw [store_end, hsig, le_eq]
            exact (List.prefix_append_right_inj _).mpr (List.take_prefix _ _)
        | none =>
          simp only [new, if_neg hv, M.mapErr_apply, M.bind_apply, Sink.seek, h0, Sink.writeAll, if_neg hm0, Sink.later, h1, hst, if_pos hm1, if_neg hl0,
            Nat.zero_add, Nat.reduceAdd, h2, if_pos hm2]
          rw [store_end, hsig, le_eq]; exact List.prefix_refl _

/-- `finalize` with no node open. -/
theorem finalize_extends {w : Writer} (hw : AtEnd w) (ho : w.opened = []) (f : FooterSpec) :
    Extends w (finalize f) (marker w.version.toNat ++ footer w.version.toNat (footOf f) (w.sink.buf.length + headerSize w.version.toNat)) := by
  have e : Writer.finalize f w = (do
      writeNodeHeader NodeHeader.nodeEnd
      put f.field1
      let len ← paddingLen f.padding
      put (zeros len)
      put f.field2
      writeFbxVersion
      put (zeros 120)
      put f.field3) w := by
    rw [Writer.finalize, M.get_bind, if_neg (by simp [ho])]
  unfold Extends
  rw [e]
  refine Extends.bind (B := marker w.version.toNat) ?_ fun _ w1 h1 b1 a1 v1 => ?_
  · rw [marker_eq]; exact Extends.writeNodeHeader hw NodeHeader.nodeEnd
  have hm : (marker w.version.toNat).length = headerSize w.version.toNat := by simp [marker]
  have hfoot : footer w.version.toNat (footOf f) (w.sink.buf.length + headerSize w.version.toNat) =
      f.field1 ++ ([] ++ (zeros (padLen (footOf f) (w.sink.buf.length + headerSize w.version.toNat)) ++ (f.field2 ++ (leBytes 4 w.version.toNat ++
        (zeros 120 ++ f.field3))))) := by
    simp only [footer, le_eq, zeros, List.append_assoc, List.nil_append]
    rfl
  rw [hfoot]
  refine Extends.bind (Extends.put a1 _) fun _ w2 h2 b2 a2 v2 => ?_
  have hpad : Extends w2 (paddingLen f.padding) [] ∧ ∀ a w3, paddingLen f.padding w2 = (.ok a, w3) →
      a = padLen (footOf f) (w.sink.buf.length + headerSize w.version.toNat) := by
    cases hp : f.padding with
    | forced n =>
      exact ⟨Extends.quiet a2 rfl rfl rfl, fun a w3 h => by
        have : Res.ok n.toNat = Res.ok a := congrArg Prod.fst h
        cases this
        simp [padLen, footOf, hp]⟩
    | default =>
      refine ⟨Extends.bind (B := []) (C := []) (Extends.tell a2) fun _ _ _ _ a3 _ => Extends.quiet a3 rfl rfl rfl, fun a w3 h => ?_⟩
      simp only [paddingLen, M.bind_ok_iff, M.pure_ok_iff] at h
      obtain ⟨p, w', h3, h4, -⟩ := h
      have := (tell_val h3).1
      have hp2 : w2.sink.pos = w2.sink.buf.length := a2
      rw [h4, this, hp2, b2, b1]
      simp only [padLen, footOf, hp, alignPad, Option.getD_none, List.length_append, hm]
      rfl
  refine Extends.bind hpad.1 fun a w3 h3 b3 a3 v3 => ?_
  rw [hpad.2 a w3 h3]
  refine Extends.bind (Extends.put a3 _) fun _ w4 h4 b4 a4 v4 => Extends.bind (Extends.put a4 _) fun _ w5 h5 b5 a5 v5 => ?_
  refine Extends.bind ?_ fun _ w6 h6 b6 a6 v6 => Extends.bind (Extends.put a6 _) fun _ w7 h7 b7 a7 v7 => Extends.put a7 _
  rw [writeFbxVersion]
  show Extends w5 (fun w => put (leBytes 4 w.version.toNat) w) _
  have hv : w.version = w5.version := by rw [v5, v4, v3, v2, v1]
  rw [hv]
  exact Extends.put a5 _

end Fbx.Writer
