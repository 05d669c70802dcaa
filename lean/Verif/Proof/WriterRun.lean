import Verif.Proof.WriterForest

/-! # Complete uses of the writer -/

set_option linter.unusedSimpArgs false

namespace Fbx.Writer
open Spec

/-! ## Finalization -/

theorem put_zero_bind {β : Type} (v : FbxVersion) (pre post : Bytes) (o : List OpenNode) (f : Unit → M WErr Writer β)
    (b : β) (w' : Writer) :
    (writeNodeHeader NodeHeader.nodeEnd >>= f) (At v pre post o) = (.ok b, w') ↔
      Room pre (marker v.toNat) ∧ f () (At v (pre ++ marker v.toNat) (post.drop (marker v.toNat).length) o) = (.ok b, w') := by
  rw [M.bind_of_unit (fun u s' => (writeNodeHeader_ok_iff v pre _ o _ u s').trans and_assoc.symm)]
  simp only [NodeHeader.nodeEnd, ← marker_eq, HeaderFits, marker_length]
  simp

theorem finalize_ok_iff (v : FbxVersion) (pre post : Bytes) (f : FooterSpec) (u : Unit) (w' : Writer) :
    finalize f (At v pre post []) = (.ok u, w') ↔
      (let bs := marker v.toNat ++ footer v.toNat (footOf f) (pre.length + headerSize v.toNat)
       Room pre bs ∧ w' = At v (pre ++ bs) (post.drop bs.length) []) := by
  have ho : (At v pre post []).opened = [] := rfl
  have h1 : f.field1 = (footOf f).unknown1 := rfl
  have h2 : f.field2 = (footOf f).unknown2 := rfl
  have h3 : f.field3 = (footOf f).unknown3 := rfl
  have hver : ∀ {β : Type} (g : Unit → M WErr Writer β) (pre post : Bytes) (b : β),
      (writeFbxVersion >>= g) (At v pre post []) = (.ok b, w') ↔ Room pre (leBytes 4 v.toNat) ∧
        g () (At v (pre ++ leBytes 4 v.toNat) (post.drop 4) []) = (.ok b, w') := by
    intro β g pre post b
    refine M.bind_of_unit (fun u s' => ?_) _ _ _
    simp only [writeFbxVersion, M.get_bind]
    have : (At v pre post []).version = v := rfl
    rw [this, put_ok_iff, leBytes_length]
  have hpad : ∀ {β : Type} (g : Nat → M WErr Writer β) (post : Bytes) (b : β),
      (paddingLen f.padding >>= g) (At v (pre ++ (marker v.toNat ++ (footOf f).unknown1)) post []) = (.ok b, w') ↔
      g (padLen (footOf f) (pre.length + headerSize v.toNat)) (At v (pre ++ (marker v.toNat ++ (footOf f).unknown1)) post []) = (.ok b, w') := by
    intro β g post b
    cases hp : f.padding with
    | default =>
      simp only [paddingLen, M.bind_assoc', tell_bind, M.pure_bind', padLen, footOf, hp, Option.getD_none, alignPad,
        List.length_append, marker_length, Nat.add_assoc]
    | forced n => simp [paddingLen, padLen, footOf, hp]
  simp only [finalize, M.get_bind, ho, ne_eq, not_true_eq_false, if_false, put_zero_bind, put_bind,
    List.append_assoc, hpad, hver, put_ok_iff, footer, h1, h2, h3, zeros, Room.append, le_eq, List.drop_drop,
    List.length_append, leBytes_length, List.length_replicate, marker_length, and_assoc]
  simp only [Nat.add_assoc]

/-! ## Creation -/

theorem magic_eq : magic = signature := by decide

theorem major7_iff (v : FbxVersion) : v.major = 7 ↔ supported v.toNat := by
  simp only [FbxVersion.major, ← UInt32.toNat_inj, UInt32.toNat_div, supported]
  have h1 : (1000 : UInt32).toNat = 1000 := rfl
  have h2 : (7 : UInt32).toNat = 7 := rfl
  rw [h1, h2]
  omega

theorem new_ok_iff (s : Sink) (hs : s.fault = fun _ => none) (v : FbxVersion) (w : Writer) (s' : Sink) :
    new s v = (.ok w, s') ↔ supported v.toNat ∧
      w = At v (signature ++ le 4 v.toNat) (s.buf.drop 27) [] ∧ s' = w.sink := by
  rw [← major7_iff]
  by_cases hv : v.major = 7
  · have hm0 : magic ≠ [] := by decide
    have hm1 : magic.length = 23 := rfl
    have hl0 : leBytes 4 v.toNat ≠ [] := by
      intro h0; have := congrArg List.length h0; simp at this
    have hsink : (M.mapErr WErr.io (do
        Sink.seek 0
        Sink.writeAll magic
        Sink.writeAll (leBytes 4 v.toNat)) : M WErr Sink Unit) s =
        (.ok (), (At v (signature ++ le 4 v.toNat) (s.buf.drop 27) []).sink) := by
      obtain ⟨buf, pos, fault⟩ := s
      subst hs
      simp only [M.mapErr_apply, M.bind_apply, Sink.seek, Sink.writeAll, later_none, hm0, hl0, if_false, hm1,
        leBytes_length, Nat.reduceAdd, Nat.reducePow, Nat.reduceLT, if_true]
      have h1 := store_at [] buf magic
      simp only [List.nil_append, List.length_nil] at h1
      rw [h1]
      have h2 := store_at magic (buf.drop magic.length) (leBytes 4 v.toNat)
      rw [hm1] at h2 ⊢
      rw [h2]
      simp [At, ← magic_eq, le_eq, List.drop_drop, hm1]
    simp only [new, hv, ne_eq, not_true_eq_false, if_false, hsink, Prod.mk.injEq, Res.ok.injEq, true_and]
    simp only [At, eq_comm]
    constructor
    · rintro ⟨rfl, rfl⟩; exact ⟨rfl, rfl⟩
    · rintro ⟨rfl, rfl⟩; exact ⟨rfl, rfl⟩
  · simp [new, hv]

/-! ## Number of open nodes; devices with faults that do not strike -/

/-- The same device without its future faults. -/
def _root_.Fbx.Sink.clear (s : Sink) : Sink := { s with fault := fun _ => none }

/-- The same writer on the device without its future faults. -/
def clear (w : Writer) : Writer := { w with sink := w.sink.clear }

/-- The code keeps the number of open nodes and the version; a success does not depend on the device's
(later) faults. -/
structure Keeps {α : Type} (m : M WErr Writer α) : Prop where
  keep : ∀ w, (m w).2.opened.length = w.opened.length ∧ (m w).2.version = w.version
  calm : ∀ w a w', m w = (.ok a, w') → m w.clear = (.ok a, w'.clear)

/-- Same for device code. -/
def SCalm {α : Type} (m : M IoErr Sink α) : Prop := ∀ s a s', m s = (.ok a, s') → m s.clear = (.ok a, s'.clear)

theorem SCalm.tell : SCalm Sink.tell := by
  intro s a s' h
  simp only [Sink.tell] at h
  split at h
  · simp at h
  · simp only [Prod.mk.injEq, Res.ok.injEq] at h
    obtain ⟨rfl, rfl⟩ := h
    rfl

theorem SCalm.seek (p : Nat) : SCalm (Sink.seek p) := by
  intro s a s' h
  simp only [Sink.seek] at h
  split at h
  · simp at h
  · simp only [Prod.mk.injEq, true_and] at h
    subst h
    rfl

theorem SCalm.writeAll (bs : Bytes) : SCalm (Sink.writeAll bs) := by
  intro s a s' h
  simp only [Sink.writeAll] at h ⊢
  by_cases hb : bs = []
  · simp only [hb, if_true, Prod.mk.injEq, true_and] at h ⊢; rw [h]
  · simp only [hb, if_false] at h ⊢
    split at h
    · simp at h
    · split at h
      · simp only [Prod.mk.injEq, true_and] at h
        subst h
        rename_i hlt
        simp only [Sink.clear, hlt, if_true]
        rfl
      · simp at h

theorem SCalm.bind {α β : Type} {m : M IoErr Sink α} {f : α → M IoErr Sink β} (hm : SCalm m) (hf : ∀ a, SCalm (f a)) :
    SCalm (m >>= f) := by
  intro s b s' h
  rw [M.bind_ok_iff] at h ⊢
  obtain ⟨a, s1, h1, h2⟩ := h
  exact ⟨a, _, hm _ _ _ h1, hf _ _ _ _ h2⟩

theorem Keeps.bind {α β : Type} {m : M WErr Writer α} {f : α → M WErr Writer β} (hm : Keeps m)
    (hf : ∀ a, Keeps (f a)) : Keeps (m >>= f) := by
  constructor
  · intro w
    have h1 := hm.keep w
    rw [M.bind_apply]
    rcases hw : m w with ⟨r, w1⟩
    rw [hw] at h1
    cases r with
    | ok a => simp only; have := (hf a).keep w1; exact ⟨this.1.trans h1.1, this.2.trans h1.2⟩
    | err e => exact h1
    | panic p => exact h1
  · intro w b w' h
    rw [M.bind_ok_iff] at h ⊢
    obtain ⟨a, s1, h1, h2⟩ := h
    exact ⟨a, _, hm.calm _ _ _ h1, (hf _).calm _ _ _ h2⟩

theorem Keeps.pure {α : Type} (a : α) : Keeps (Pure.pure a) :=
  ⟨fun _ => ⟨rfl, rfl⟩, fun w b w' h => by rw [M.pure_ok_iff] at h; rw [h.1, h.2]; rfl⟩
theorem Keeps.throw {α : Type} (e : WErr) : Keeps (M.throw e : M WErr Writer α) :=
  ⟨fun _ => ⟨rfl, rfl⟩, fun w b w' h => by rw [M.throw_ok_iff] at h; exact h.elim⟩
theorem Keeps.panic {α : Type} (e : Panic) : Keeps (M.panic e : M WErr Writer α) :=
  ⟨fun _ => ⟨rfl, rfl⟩, fun w b w' h => by rw [M.panic_ok_iff] at h; exact h.elim⟩
theorem Keeps.get {α : Type} {f : Writer → M WErr Writer α} (h : ∀ w, Keeps (f w)) (hc : ∀ w, f w.clear = f w) :
    Keeps (M.get >>= f) :=
  ⟨fun w => (h w).keep w, fun w a w' hw => by rw [M.get_bind] at hw ⊢; rw [hc]; exact (h w).calm _ _ _ hw⟩
theorem Keeps.assert (b : Bool) (p : Panic) : Keeps (M.assert b p) := by
  cases b
  · exact Keeps.panic p
  · exact Keeps.pure ()
theorem Keeps.mapErr {α : Type} (g : WErr → WErr) {m : M WErr Writer α} (h : Keeps m) : Keeps (M.mapErr g m) := by
  constructor
  · intro w
    have := h.keep w
    rw [M.mapErr_apply]
    rcases hw : m w with ⟨r, w1⟩
    rw [hw] at this
    cases r <;> exact this
  · intro w a w' hw
    rw [M.mapErr_ok_iff] at hw ⊢
    exact h.calm _ _ _ hw
theorem Keeps.io {α : Type} {m : M IoErr Sink α} (h : SCalm m) : Keeps (io m) := by
  constructor
  · intro w
    simp only [Writer.io, M.mapErr_apply, M.zoom_apply]
    rcases hw : m w.sink with ⟨r, w1⟩
    cases r <;> exact ⟨rfl, rfl⟩
  · intro w a w' hw
    simp only [Writer.io, M.mapErr_ok_iff, M.zoom_ok_iff] at hw ⊢
    obtain ⟨t, h1, rfl⟩ := hw
    exact ⟨_, h _ _ _ h1, rfl⟩
theorem Keeps.top (f : OpenNode → OpenNode) : Keeps (M.modify (modifyTop f)) := by
  constructor
  · intro w
    simp only [M.modify_apply, modifyTop]
    split <;> simp_all
  · intro w a w' hw
    rw [M.modify_ok_iff] at hw ⊢
    subst hw
    obtain ⟨s, v, o⟩ := w
    cases o <;> rfl
theorem Keeps.ite {α : Type} (c : Prop) [Decidable c] {m n : M WErr Writer α} (hm : Keeps m) (hn : Keeps n) :
    Keeps (if c then m else n) := by split <;> assumption
theorem Keeps.tell : Keeps (Writer.io Sink.tell) := Keeps.io SCalm.tell
theorem Keeps.seek (p : Nat) : Keeps (Writer.io (Sink.seek p)) := Keeps.io (SCalm.seek p)
theorem Keeps.put (bs : Bytes) : Keeps (put bs) := Keeps.io (SCalm.writeAll bs)
theorem Keeps.ofExcept {α : Type} (r : Except WErr α) : Keeps (M.ofExcept r) := by
  cases r
  · exact Keeps.throw _
  · exact Keeps.pure _

/-- Proves `Keeps` by following the code. -/
macro "keeps" : tactic => `(tactic| repeat' (first
  | assumption
  | with_reducible exact Keeps.pure _ | with_reducible exact Keeps.throw _ | with_reducible exact Keeps.panic _
  | with_reducible exact Keeps.assert _ _ | with_reducible exact Keeps.tell | with_reducible exact Keeps.seek _
  | with_reducible exact Keeps.top _ | with_reducible exact Keeps.put _ | with_reducible exact Keeps.ofExcept _
  | with_reducible refine Keeps.get (fun _ => ?_) (fun _ => rfl) | with_reducible refine Keeps.bind ?_ (fun _ => ?_)
  | with_reducible refine Keeps.ite _ ?_ ?_
  | with_reducible refine Keeps.mapErr _ ?_ | split))

theorem Keeps.putU32 (n : Nat) (e : WErr) : Keeps (putU32 n e) := by unfold Writer.putU32; keeps
theorem Keeps.writeNodeHeader (h : NodeHeader) : Keeps (writeNodeHeader h) := by
  have := Keeps.putU32
  unfold Writer.writeNodeHeader; keeps <;> apply this
theorem Keeps.finalizeAttributes : Keeps finalizeAttributes := by
  unfold Writer.finalizeAttributes; keeps
theorem Keeps.updateNodeHeader : Keeps updateNodeHeader := by
  unfold Writer.updateNodeHeader; keeps
theorem Keeps.writeElements (l : List (Except WErr Bytes)) : ∀ n, Keeps (writeElements l n) := by
  induction l with
  | nil => intro n; unfold Writer.writeElements; keeps
  | cons x xs ih =>
    intro n
    cases x <;> unfold Writer.writeElements
    · keeps
    · exact Keeps.bind (Keeps.put _) (fun _ => ih _)
theorem Keeps.copyChunks (e : Option IoErr) (l : List Bytes) : ∀ n, Keeps (copyChunks e l n) := by
  induction l with
  | nil => intro n; unfold Writer.copyChunks; keeps
  | cons x xs ih => intro n; exact Keeps.bind (Keeps.put _) (fun _ => ih _)
theorem Keeps.putEach (l : List (Except WErr Byte)) : ∀ n, Keeps (putEach l n) := by
  induction l with
  | nil => intro n; unfold Writer.putEach; keeps
  | cons x xs ih =>
    intro n
    cases x <;> unfold Writer.putEach
    · keeps
    · exact Keeps.bind (Keeps.put _) (fun _ => ih _)
theorem Keeps.putChars (l : List (Except WErr Char)) : ∀ b n, Keeps (putChars l b n) := by
  induction l with
  | nil => intro b n; unfold Writer.putChars; keeps
  | cons x xs ih =>
    intro b n
    cases x <;> unfold Writer.putChars
    · keeps
    · exact Keeps.bind (Keeps.put _) (fun _ => ih _ _)
theorem Keeps.append (Z : Zlib) (a : Append) : Keeps (append Z a) := by
  have h1 : ∀ t bs, Keeps (appendSingle t bs) := fun t bs =>
    Keeps.bind Keeps.updateNodeHeader (fun _ => Keeps.bind (Keeps.put _) (fun _ => Keeps.put _))
  have h2 : ∀ t, Keeps (initializeSpecial t) := fun t =>
    Keeps.bind Keeps.updateNodeHeader (fun _ => by unfold writeTypeCode; keeps)
  have h3 : ∀ p l, Keeps (finalizeSpecial p l) := by intro p l; unfold finalizeSpecial; keeps
  have h4 : ∀ t bs, Keeps (appendDirect t bs) := fun t bs =>
    Keeps.bind (h2 _) (fun _ => Keeps.bind (Keeps.put _) (fun _ => h3 _ _))
  have h5 : ∀ h, Keeps (writeArrHeader h) := by intro h; unfold writeArrHeader; keeps
  have h6 : ∀ t e items, Keeps (appendArray Z t e items) := by
    intro t e items
    refine Keeps.bind (Keeps.bind Keeps.updateNodeHeader (fun _ => ?_)) (fun p => ?_)
    · unfold writeTypeCode; keeps; exact h5 _
    · refine Keeps.bind Keeps.tell (fun _ => Keeps.bind ?_ (fun _ => ?_))
      · unfold writeArrayElements
        split
        · exact Keeps.writeElements _ _
        · unfold writeElementsZlib; keeps
      · refine Keeps.bind Keeps.tell (fun _ => ?_)
        unfold finalizeArray
        keeps
        exact h5 _
  cases a <;> unfold Writer.append
  all_goals first
    | exact h1 _ _ | exact h4 _ _ | exact h6 _ _ _
    | exact Keeps.bind (h2 _) (fun _ => Keeps.bind (Keeps.copyChunks _ _ _) (fun _ => h3 _ _))
    | exact Keeps.bind (h2 _) (fun _ => Keeps.bind (Keeps.putEach _ _) (fun _ => h3 _ _))
    | exact Keeps.bind (h2 _) (fun _ => Keeps.bind (Keeps.putChars _ _ _) (fun _ => h3 _ _))

theorem newNode_depth (name : String) (w w' : Writer) (u : Unit) (h : newNode name w = (.ok u, w')) :
    w'.opened.length = w.opened.length + 1 := by
  simp only [newNode, M.bind_ok_iff] at h
  obtain ⟨_, w1, h1, _, w2, h2, h3⟩ := h
  have k1 := Keeps.finalizeAttributes.keep w
  have k2 := (Keeps.top (fun n => { n with hasChild := true })).keep w1
  rw [h1] at k1
  rw [h2] at k2
  split at h3
  · simp only [M.bind_ok_iff, M.modify_ok_iff] at h3
    obtain ⟨_, w3, h3, _, w4, h4, _, w5, h5, _, w6, h6, h7⟩ := h3
    have k3 := Keeps.tell.keep w2
    have k4 := (Keeps.writeNodeHeader ⟨0, 0, 0, (strBytes name).length⟩).keep w3
    have k5 := (Keeps.put (strBytes name)).keep w4
    have k6 := Keeps.tell.keep w5
    rw [h3] at k3; rw [h4] at k4; rw [h5] at k5; rw [h6] at k6
    rw [h7, List.length_cons, k6.1, k5.1, k4.1, k3.1, k2.1, k1.1]
  · simp at h3

/-- `close_node` after the innermost node has been removed. -/
def closeRest (n : OpenNode) : M WErr Writer Unit := do
  if n.hasChild ∨ n.header.numAttrs = 0 then writeNodeHeader NodeHeader.nodeEnd else pure ()
  let endPos ← io Sink.tell
  io (Sink.seek n.headerPos)
  M.assert ((n.header.numAttrs == 0) == (n.header.bytelenAttrs == 0)) .attrLenAssert
  writeNodeHeader { n.header with endOffset := endPos }
  io (Sink.seek endPos)

theorem closeNode_eq : closeNode = (do
    finalizeAttributes
    let w ← M.get
    match w.opened with
    | [] => M.throw .noNodesToClose
    | n :: outer => do
      M.modify (fun w => { w with opened := outer })
      closeRest n) := rfl

theorem Keeps.closeRest (n : OpenNode) : Keeps (closeRest n) := by
  have := Keeps.writeNodeHeader
  unfold Writer.closeRest
  keeps <;> apply this

theorem closeNode_depth (w w' : Writer) (u : Unit) (h : closeNode w = (.ok u, w')) :
    w.opened.length = w'.opened.length + 1 := by
  rw [closeNode_eq] at h
  simp only [M.bind_ok_iff] at h
  obtain ⟨_, w1, h1, _, w2, h2, h3⟩ := h
  have k1 := Keeps.finalizeAttributes.keep w
  rw [h1] at k1
  rw [M.get_ok_iff] at h2
  obtain ⟨e1, e2⟩ := h2
  rw [e1, e2] at h3
  rcases ho : w1.opened with _ | ⟨n, outer⟩
  · simp [ho] at h3
  · simp only [ho, M.modify_bind] at h3
    have := (Keeps.closeRest n).keep { w1 with opened := outer }
    rw [h3] at this
    rw [this.1, ← k1.1, ho, List.length_cons]

/-! ## Legal sequences of calls are forests -/

/-- The calls close every node they open, and `d` more; stated on the shape of the list. -/
inductive Shape : Nat → List Op → Prop
  | top (F : Forest Append) : Shape 0 (calls F)
  | close (F : Forest Append) {d ops} (h : Shape d ops) : Shape (d + 1) (calls F ++ .closeNode :: ops)

theorem shape_node (name : String) (attrs : List Append) (ch : Forest Append) {d : Nat} {ops : List Op}
    (h : Shape d ops) : Shape d (.newNode name :: (attrs.map Op.append ++ (calls ch ++ .closeNode :: ops))) := by
  cases h with
  | top F => exact Shape.top (.cons name attrs ch F)
  | close F h =>
    have := Shape.close (.cons name attrs ch F) h
    simpa [calls] using this

theorem run_shape (Z : Zlib) (ops : List Op) : ∀ (alive : Bool) (w w' : Writer) (u : Unit),
    legal alive ops = true → run Z ops w = (.ok u, w') → w'.opened = [] →
    ∃ attrs ops', ops = attrs.map Op.append ++ ops' ∧ Shape w.opened.length ops' ∧ (alive = false → attrs = []) := by
  induction ops with
  | nil =>
    intro alive w w' u _ h hw
    simp only [run, M.pure_ok_iff] at h
    rw [h.2] at hw
    exact ⟨[], [], rfl, by rw [hw]; exact Shape.top .nil, fun _ => rfl⟩
  | cons o os ih =>
    intro alive w w' u hl h hw
    simp only [run, M.bind_ok_iff] at h
    obtain ⟨_, w1, h1, h2⟩ := h
    cases o with
    | newNode name =>
      have hd := newNode_depth name w w1 _ h1
      obtain ⟨attrs, ops', rfl, hs, -⟩ := ih true w1 w' u hl h2 hw
      rw [hd] at hs
      cases hs with
      | close F h => exact ⟨[], _, rfl, shape_node name attrs F h, fun _ => rfl⟩
    | closeNode =>
      have hd := closeNode_depth w w1 _ h1
      obtain ⟨attrs, ops', rfl, hs, ha⟩ := ih false w1 w' u hl h2 hw
      rw [ha rfl] at *
      rw [hd]
      exact ⟨[], _, rfl, Shape.close .nil hs, fun _ => rfl⟩
    | append a =>
      have hk := ((Keeps.append Z a).keep w).1
      rw [show append Z a w = (.ok _, w1) from h1] at hk
      simp only [legal, Bool.and_eq_true] at hl
      obtain ⟨attrs, ops', rfl, hs, ha⟩ := ih alive w1 w' u hl.2 h2 hw
      rw [hk] at hs
      exact ⟨a :: attrs, ops', rfl, hs, by simp [hl.1]⟩

/-- Calls accepted by the borrow checker that all succeed, from no open node to no open node, write a forest. -/
theorem run_calls (Z : Zlib) (ops : List Op) (w w' : Writer) (u : Unit) (hl : legal false ops = true)
    (h : run Z ops w = (.ok u, w')) (hw : w.opened = []) (hw' : w'.opened = []) : ∃ F, ops = calls F := by
  obtain ⟨attrs, ops', rfl, hs, ha⟩ := run_shape Z ops false w w' u hl h hw'
  rw [ha rfl, hw] at *
  cases hs with
  | top F => exact ⟨F, rfl⟩

/-! ## Success does not depend on faults that did not strike -/

theorem Calm_bind {α β : Type} {m : M WErr Writer α} {f : α → M WErr Writer β}
    (hm : ∀ w a w', m w = (.ok a, w') → m w.clear = (.ok a, w'.clear))
    (hf : ∀ a w b w', f a w = (.ok b, w') → f a w.clear = (.ok b, w'.clear)) :
    ∀ w b w', (m >>= f) w = (.ok b, w') → (m >>= f) w.clear = (.ok b, w'.clear) := by
  intro w b w' h
  rw [M.bind_ok_iff] at h ⊢
  obtain ⟨a, s1, h1, h2⟩ := h
  exact ⟨a, _, hm _ _ _ h1, hf _ _ _ _ h2⟩

theorem newNode_calm (name : String) : ∀ w a w', newNode name w = (.ok a, w') →
    newNode name w.clear = (.ok a, w'.clear) := by
  unfold newNode
  refine Calm_bind Keeps.finalizeAttributes.calm (fun _ => Calm_bind (Keeps.top _).calm (fun _ => ?_))
  by_cases h : (strBytes name).length < 256
  · simp only [h, if_true]
    refine Calm_bind Keeps.tell.calm (fun _ => Calm_bind (Keeps.writeNodeHeader _).calm
      (fun _ => Calm_bind (Keeps.put _).calm (fun _ => Calm_bind Keeps.tell.calm (fun _ => ?_))))
    intro w a w' hw
    rw [M.modify_ok_iff] at hw ⊢
    rw [hw]; rfl
  · simp only [h, if_false]; exact (Keeps.throw _).calm

theorem closeNode_calm : ∀ w a w', closeNode w = (.ok a, w') → closeNode w.clear = (.ok a, w'.clear) := by
  rw [closeNode_eq]
  refine Calm_bind Keeps.finalizeAttributes.calm (fun _ => ?_)
  intro w a w' h
  rw [M.get_bind] at h ⊢
  have ho : w.clear.opened = w.opened := rfl
  rw [ho]
  rcases hn : w.opened with _ | ⟨n, outer⟩
  · simp [hn] at h
  · simp only [hn, M.modify_bind] at h ⊢
    exact (Keeps.closeRest n).calm _ _ _ h

theorem run_calm (Z : Zlib) (ops : List Op) : ∀ w a w', run Z ops w = (.ok a, w') →
    run Z ops w.clear = (.ok a, w'.clear) := by
  induction ops with
  | nil => exact (Keeps.pure ()).calm
  | cons o os ih =>
    refine Calm_bind ?_ (fun _ => ih)
    cases o with
    | newNode name => exact newNode_calm name
    | closeNode => exact closeNode_calm
    | append a => exact (Keeps.append Z a).calm

theorem finalize_calm (f : FooterSpec) : ∀ w a w', finalize f w = (.ok a, w') →
    finalize f w.clear = (.ok a, w'.clear) := by
  have hk := Keeps.writeNodeHeader NodeHeader.nodeEnd
  have : Keeps (finalize f) := by unfold finalize writeFbxVersion paddingLen; keeps
  exact this.calm

theorem new_calm (s s' : Sink) (v : FbxVersion) (w : Writer) (h : new s v = (.ok w, s')) :
    new s.clear v = (.ok w.clear, s'.clear) := by
  have hc : SCalm (do
      Sink.seek 0
      Sink.writeAll magic
      Sink.writeAll (leBytes 4 v.toNat)) :=
    SCalm.bind (SCalm.seek 0) (fun _ => SCalm.bind (SCalm.writeAll _) (fun _ => SCalm.writeAll _))
  simp only [new] at h ⊢
  by_cases hv : v.major = 7
  · simp only [hv, ne_eq, not_true_eq_false, if_false] at h ⊢
    split at h
    · rename_i s1 h1
      rw [M.mapErr_ok_iff] at h1
      have h2 := hc _ _ _ h1
      simp only [Prod.mk.injEq, Res.ok.injEq] at h
      obtain ⟨rfl, rfl⟩ := h
      rw [M.mapErr_apply, h2]
      rfl
    · simp at h
    · simp at h
  · simp [hv] at h

/-- A successful use of the writer, on any device. -/
theorem session_ok_iff (Z : Zlib) (s : Sink) (v : FbxVersion) (ops : List Op) (f : FooterSpec) (u : Unit) (s' : Sink)
    (h : session Z s v ops f = (.ok u, s')) :
    session Z s.clear v ops f = (.ok u, s'.clear) := by
  simp only [session] at h ⊢
  split at h
  · rename_i w s1 hn
    rw [new_calm _ _ _ _ hn]
    simp only [Prod.mk.injEq] at h ⊢
    obtain ⟨h1, h2⟩ := h
    have := Calm_bind (run_calm Z ops) (fun _ => finalize_calm f) w u _ (Prod.ext h1 rfl)
    rw [this, ← h2]
    exact ⟨rfl, rfl⟩
  · simp at h
  · simp at h

theorem finalize_opened (f : FooterSpec) (w w' : Writer) (u : Unit) (h : finalize f w = (.ok u, w')) : w.opened = [] := by
  rw [finalize, M.get_bind] at h
  by_cases ho : w.opened = []
  · exact ho
  · simp [ho] at h

theorem body_eq (v : Nat) (enc : Append → Bytes) (F : Forest Append) (ft : Foot) :
    document v enc F ft = signature ++ le 4 v ++ nodes v enc F 27 ++
      (marker v ++ footer v ft ((signature ++ le 4 v ++ nodes v enc F 27).length + headerSize v)) := by
  simp [document, body, Nat.add_assoc]

/-- Exact success condition and result on a fault-free device. -/
theorem session_forest (Z : Zlib) (s : Sink) (hs : s.fault = fun _ => none) (v : FbxVersion) (F : Forest Append)
    (f : FooterSpec) (u : Unit) (s' : Sink) :
    session Z s v (calls F) f = (.ok u, s') ↔
      supported v.toNat ∧ forestFits v.toNat (produced Z) (callFits Z) F 27 ∧
      (document v.toNat (produced Z) F (footOf f)).length < 2 ^ 64 ∧
      s' = ⟨document v.toNat (produced Z) F (footOf f) ++
          s.buf.drop (document v.toNat (produced Z) F (footOf f)).length,
        (document v.toNat (produced Z) F (footOf f)).length, fun _ => none⟩ := by
  have hsig : (signature ++ le 4 v.toNat).length = 27 := by
    have : signature.length = 23 := by decide
    simp [this]
  have hfin : ∀ (w' : Writer), (run Z (calls F) >>= fun _ => finalize f) (At v (signature ++ le 4 v.toNat) (s.buf.drop 27) []) = (.ok u, w') ↔
      forestFits v.toNat (produced Z) (callFits Z) F 27 ∧ (document v.toNat (produced Z) F (footOf f)).length < 2 ^ 64 ∧
      w' = At v (document v.toNat (produced Z) F (footOf f))
        (s.buf.drop (document v.toNat (produced Z) F (footOf f)).length) [] := by
    intro w'
    rw [M.bind_of_unit (fun u s' => forest_ok_iff Z v F _ _ [] (by intro n r h; simp at h) u s')]
    have ha : afterOpen F (signature ++ le 4 v.toNat).length [] = [] := by simp only [afterOpen]; split <;> rfl
    rw [ha, finalize_ok_iff, hsig, body_eq]
    generalize hA : signature ++ le 4 v.toNat ++ nodes v.toNat (produced Z) F 27 = A
    generalize hB : marker v.toNat ++ footer v.toNat (footOf f) (A.length + headerSize v.toNat) = B
    have hBne : B ≠ [] := by
      rw [← hB]; intro h
      have := congrArg List.length h
      have h2 := headerSize_pos v.toNat
      simp at this; omega
    have hAl : A.length = 27 + (nodes v.toNat (produced Z) F 27).length := by rw [← hA, List.length_append, hsig]
    simp only [Room, hBne, false_or, List.length_append, List.drop_drop, hAl, Nat.add_assoc]
  have hn := new_ok_iff s hs v
  constructor
  · intro h
    simp only [session] at h
    split at h
    · rename_i w s1 hw
      obtain ⟨h1, rfl, -⟩ := (hn _ _).mp hw
      simp only [Prod.mk.injEq] at h
      have := (hfin _).mp (Prod.ext h.1 rfl)
      refine ⟨h1, this.1, this.2.1, ?_⟩
      rw [← h.2]; exact congrArg Writer.sink this.2.2
    · simp at h
    · simp at h
  · rintro ⟨h1, h2, h3, rfl⟩
    have hw := (hn _ _).mpr ⟨h1, rfl, rfl⟩
    have := (hfin _).mpr ⟨h2, h3, rfl⟩
    simp only [session, hw, this]
    rfl

end Fbx.Writer
