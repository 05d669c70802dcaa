import Verif.Proof.WriterSafe

/-! # Further writer lemmas: outcomes with errors, marker bookkeeping, iterator tails -/

namespace Fbx.Writer
open Spec

/-! ## Steps that succeed -/

theorem put_eq {v : FbxVersion} {pre post bs : Bytes} {o : List OpenNode} (h : Room pre bs) :
    put bs (At v pre post o) = (.ok (), At v (pre ++ bs) (post.drop bs.length) o) :=
  (put_ok_iff v pre post bs o () _).mpr ⟨h, rfl⟩
theorem tell_eq {v : FbxVersion} {pre post : Bytes} {o : List OpenNode} :
    io Sink.tell (At v pre post o) = (.ok pre.length, At v pre post o) :=
  (tell_ok_iff v pre post o _ _).mpr ⟨rfl, rfl⟩

/-- Sequencing after a successful step. -/
theorem bind_eq {α β : Type} {m : M WErr Writer α} {w w1 : Writer} {a : α} (h : m w = (.ok a, w1))
    (f : α → M WErr Writer β) : (m >>= f) w = f a w1 := by
  rw [M.bind_apply, h]

theorem updateNodeHeader_eq {v : FbxVersion} {pre post : Bytes} {n : OpenNode} {r : List OpenNode}
    (h : n.header.numAttrs + 1 < 2 ^ 64) :
    updateNodeHeader (At v pre post (n :: r)) = (.ok (), At v pre post (bump n :: r)) := by
  have := (updateNodeHeader_bind v pre post n r (fun _ => pure ()) () (At v pre post (bump n :: r))).mpr ⟨h, rfl⟩
  rw [M.bind_ok_iff] at this
  obtain ⟨_, w1, h1, h2⟩ := this
  rw [M.pure_ok_iff] at h2
  rw [h1, h2.2]

/-! ## Characters -/

theorem encodeInto_four (buf : Bytes) (c : Char) (hb : buf.length = 4) (hc : c.utf8Size = 4) :
    encodeInto buf c = String.utf8EncodeChar c := by
  have hl : (String.utf8EncodeChar c).length = 4 := by rw [String.length_utf8EncodeChar]; exact hc
  simp [encodeInto, hl, ← hb]

theorem encodeInto_length (buf : Bytes) (c : Char) (hb : buf.length = 4) : (encodeInto buf c).length = 4 := by
  have hl : (String.utf8EncodeChar c).length = c.utf8Size := String.length_utf8EncodeChar c
  have := Char.utf8Size_le_four c
  simp [encodeInto, hl, hb]; omega

theorem charOut_four (cs : List Char) : ∀ (buf : Bytes), buf.length = 4 → (∀ c ∈ cs, c.utf8Size = 4) →
    charOut buf cs = cs.flatMap String.utf8EncodeChar := by
  induction cs with
  | nil => intros; rfl
  | cons c cs ih =>
    intro buf hb hc
    simp only [List.forall_mem_cons] at hc
    rw [charOut, encodeInto_four buf c hb hc.1, ih _ (by rw [String.length_utf8EncodeChar]; exact hc.1) hc.2]
    simp

theorem charOut_length (cs : List Char) : ∀ (buf : Bytes), buf.length = 4 → (charOut buf cs).length = 4 * cs.length := by
  induction cs with
  | nil => intros; rfl
  | cons c cs ih =>
    intro buf hb
    have := encodeInto_length buf c hb
    rw [charOut, List.length_append, ih _ this, this, List.length_cons]
    omega

theorem charLen_le (cs : List Char) : charLen cs ≤ 4 * cs.length := by
  induction cs with
  | nil => simp [charLen]
  | cons c cs ih =>
    have h1 : (String.utf8EncodeChar c).length = c.utf8Size := String.length_utf8EncodeChar c
    have := Char.utf8Size_le_four c
    simp only [charLen, List.flatMap_cons, List.length_append, List.length_cons, h1] at ih ⊢
    omega

theorem charLen_lt (cs : List Char) (h : ∃ c ∈ cs, c.utf8Size ≠ 4) : charLen cs < 4 * cs.length := by
  induction cs with
  | nil => simp at h
  | cons c cs ih =>
    have h1 : (String.utf8EncodeChar c).length = c.utf8Size := String.length_utf8EncodeChar c
    have h4 := Char.utf8Size_le_four c
    have hle := charLen_le cs
    simp only [charLen, List.flatMap_cons, List.length_append, List.length_cons, h1] at ih hle ⊢
    obtain ⟨d, hd, hne⟩ := h
    rcases List.mem_cons.mp hd with hd | hd
    · subst hd; omega
    · have := ih ⟨d, hd, hne⟩; omega

theorem produced_intact (Z : Zlib) (a : Append) (h : intact a) : produced Z a = callBytes Z a := by
  cases a
  case stringIter items =>
    simp only [intact] at h
    simp only [produced, callBytes, denote, attrBytes, attrBody, strLen_eq, le_eq,
      charOut_four (oks items) (zeros 4) (by simp) h]
    rfl
  all_goals rfl

theorem nodes_congr {α : Type} (v : Nat) (e e' : α → Bytes) (F : Forest α) : ∀ off,
    F.All (fun _ as => ∀ a ∈ as, e a = e' a) → nodes v e F off = nodes v e' F off := by
  induction F with
  | nil => intros; rfl
  | cons name attrs ch rest ih1 ih2 =>
    intro off ⟨h1, h2, h3⟩
    have hf : attrs.flatMap e = attrs.flatMap e' := by
      clear ih1 ih2
      induction attrs with
      | nil => rfl
      | cons a as ih =>
        simp only [List.forall_mem_cons] at h1
        simp only [List.flatMap_cons, h1.1, ih h1.2]
    simp only [nodes, hf, ih1 _ h2, ih2 _ h3]

theorem document_congr {α : Type} (v : Nat) (e e' : α → Bytes) (F : Forest α) (ft : Foot)
    (h : F.All (fun _ as => ∀ a ∈ as, e a = e' a)) : document v e F ft = document v e' F ft := by
  simp only [document, body, nodes_congr v e e' F _ h]

theorem forestFits_congr {α : Type} (v : Nat) (e e' : α → Bytes) (fits : α → Prop) (F : Forest α) : ∀ off,
    F.All (fun _ as => ∀ a ∈ as, e a = e' a) → (forestFits v e fits F off ↔ forestFits v e' fits F off) := by
  induction F with
  | nil => intros; rfl
  | cons name attrs ch rest ih1 ih2 =>
    intro off ⟨h1, h2, h3⟩
    have hf : attrs.flatMap e = attrs.flatMap e' := by
      clear ih1 ih2
      induction attrs with
      | nil => rfl
      | cons a as ih =>
        simp only [List.forall_mem_cons] at h1
        simp only [List.flatMap_cons, h1.1, ih h1.2]
    simp only [forestFits, hf, ih1 _ h2, ih2 _ h3, nodes_congr v e e' ch _ h2]

theorem All_imp {α : Type} {p q : String → List α → Prop} (h : ∀ n as, p n as → q n as) (F : Forest α) :
    F.All p → F.All q := by
  induction F with
  | nil => exact id
  | cons n as ch r ih1 ih2 => intro ⟨h1, h2, h3⟩; exact ⟨h _ _ h1, ih1 h2, ih2 h3⟩

theorem intact_all (Z : Zlib) (F : Forest Append) (h : F.All (fun _ as => ∀ a ∈ as, intact a)) :
    F.All (fun _ as => ∀ a ∈ as, produced Z a = callBytes Z a) :=
  All_imp (fun _ _ h a ha => produced_intact Z a (h a ha)) F h

/-! ## The open nodes after successful calls, on any device -/

theorem fin_of_finalized {p : Nat} {n : OpenNode} (h : n.finalized = true) : fin p n = n := by simp [fin, h]

theorem finalizeAttributes_opened (w w' : Writer) (u : Unit) (h : finalizeAttributes w = (.ok u, w')) :
    w'.opened = finTop w.sink.pos w.opened ∧ w'.sink.pos = w.sink.pos ∧ w'.version = w.version := by
  have : M.wp finalizeAttributes (fun _ w' => w'.opened = finTop w.sink.pos w.opened ∧ w'.sink.pos = w.sink.pos ∧
      w'.version = w.version) (fun _ _ => True) (fun _ _ => True) w := by
    unfold finalizeAttributes
    rw [M.wp_bind, M.wp_get]
    obtain ⟨s, v, o⟩ := w
    cases o with
    | nil => exact ⟨rfl, rfl, rfl⟩
    | cons n r =>
      simp only [M.wp_ite]
      split
      · rename_i hf
        exact ⟨by simp [finTop, fin_of_finalized hf], rfl, rfl⟩
      · rename_i hf
        refine wp_tell_bind (fun s' h' => ?_) (fun _ _ => trivial)
        rw [M.wp_bind, M.wp_assert]
        split
        · rw [M.wp_modify]; exact ⟨by simp [modifyTop, finTop, fin, hf], h', rfl⟩
        · trivial
  rw [M.wp, h] at this
  exact this

theorem Grow.ok {α : Type} {m : M WErr Writer α} (hg : Grow m) {w w' : Writer} {a : α} (h : m w = (.ok a, w')) :
    w'.opened = w.opened ∧ w.sink.pos ≤ w'.sink.pos := by
  have := hg w
  rw [M.wp, h] at this
  exact this

theorem tell_val {w w' : Writer} {p : Nat} (h : io Sink.tell w = (.ok p, w')) : p = w.sink.pos ∧ w'.sink.pos = w.sink.pos := by
  simp only [io, M.mapErr_ok_iff, M.zoom_ok_iff, Sink.tell] at h
  obtain ⟨t, h1, rfl⟩ := h
  split at h1
  · simp at h1
  · simp only [Prod.mk.injEq, Res.ok.injEq] at h1
    exact ⟨h1.1.symm, by rw [← h1.2]⟩

theorem newNode_opened (name : String) (w w' : Writer) (u : Unit) (h : newNode name w = (.ok u, w')) :
    w'.opened = ⟨w.sink.pos, w'.sink.pos, ⟨0, 0, 0, (utf8 name).length⟩, false, false⟩ ::
      childTop w.sink.pos w.opened := by
  simp only [newNode, M.bind_ok_iff, M.modify_ok_iff] at h
  obtain ⟨_, w1, h1, _, w2, h2, h3⟩ := h
  obtain ⟨k1, k1p, -⟩ := finalizeAttributes_opened w w1 _ h1
  have k2 : w2.opened = childTop w.sink.pos w.opened := by
    rw [h2]
    obtain ⟨s, v, o⟩ := w1
    simp only at k1
    subst k1
    cases w.opened <;> rfl
  have k2p : w2.sink.pos = w.sink.pos := by rw [h2, modifyTop_sink]; exact k1p
  split at h3
  · simp only [M.bind_ok_iff, M.modify_ok_iff] at h3
    obtain ⟨hp, w3, h3, _, w4, h4, _, w5, h5, bp, w6, h6, h7⟩ := h3
    have k3 := (Grow.tell.ok h3).1
    have k4 := ((Grow.writeNodeHeader _).ok h4).1
    have k5 := ((Grow.put _).ok h5).1
    have k6 := (Grow.tell.ok h6).1
    obtain ⟨e3, -⟩ := tell_val h3
    obtain ⟨e6, e7⟩ := tell_val h6
    rw [h7]
    simp only [k6, k5, k4, k3, k2, e3, k2p, e6, e7]
    rfl
  · simp at h3

/-- One more attribute on the innermost node. -/
def bumpTop : List OpenNode → List OpenNode
  | [] => []
  | n :: r => bump n :: r

theorem append_opened (Z : Zlib) (a : Append) (w w' : Writer) (u : Unit) (h : append Z a w = (.ok u, w')) :
    w'.opened = bumpTop w.opened := by
  obtain ⟨b, hb⟩ := append_split Z a
  rw [hb] at h
  simp only [M.bind_ok_iff] at h
  obtain ⟨_, w1, h1, _, w2, h2, h3⟩ := h
  have k2 := ((Grow.put _).ok h2).1
  have k3 := ((Grow.appendTail Z a).ok h3).1
  have k1 : w1.opened = bumpTop w.opened := by
    obtain ⟨s, v, o⟩ := w
    rw [updateNodeHeader, M.get_bind] at h1
    cases o with
    | nil => simp at h1
    | cons n r =>
      simp only at h1
      split at h1
      · rw [M.modify_ok_iff] at h1; rw [h1]; rfl
      · simp at h1
  rw [← k1, k3, k2]

/-- `close_node` writes a marker exactly for nodes with a child or without attributes. -/
theorem closeNode_opened (w w' : Writer) (u : Unit) (h : closeNode w = (.ok u, w')) :
    ∃ n, w.opened = n :: w'.opened ∧
      w'.sink.pos = w.sink.pos + (if n.hasChild = true ∨ n.header.numAttrs = 0 then headerSize w.version.toNat else 0) := by
  rw [closeNode_eq] at h
  simp only [M.bind_ok_iff] at h
  obtain ⟨_, w1, h1, _, w2, h2, h3⟩ := h
  obtain ⟨k1, k2, k3⟩ := finalizeAttributes_opened w w1 _ h1
  rw [M.get_ok_iff] at h2
  obtain ⟨e1, e2⟩ := h2
  rw [e1, e2] at h3
  obtain ⟨s, v, o⟩ := w1
  cases o with
  | nil => simp at h3
  | cons n r =>
    simp only [M.modify_bind] at h3
    have hend : ∀ w2 : Writer, M.wp (do
        let endPos ← io Sink.tell
        io (Sink.seek n.headerPos)
        M.assert ((n.header.numAttrs == 0) == (n.header.bytelenAttrs == 0)) .attrLenAssert
        writeNodeHeader { n.header with endOffset := endPos }
        io (Sink.seek endPos))
        (fun _ w' => w'.opened = w2.opened ∧ w'.sink.pos = w2.sink.pos) (fun _ _ => True) (fun _ _ => True) w2 := by
      intro w2
      refine wp_tell_bind (fun s3 h3 => wp_seek_bind (fun s4 h4 => ?_) (fun _ _ => trivial)) (fun _ _ => trivial)
      rw [M.wp_bind, M.wp_assert]
      split
      · rw [M.wp_bind]
        refine M.wp_mono (Grow.writeNodeHeader _ _) ?_ (fun _ _ _ => trivial) (fun _ _ _ => trivial)
        intro _ w5 ⟨h5, _⟩
        exact wp_seek (fun s6 h6 => ⟨h5, h6⟩) (fun _ _ => trivial)
      · trivial
    have hmk : ∀ w2 : Writer, w2.version = v → M.wp (writeNodeHeader NodeHeader.nodeEnd)
        (fun _ w' => w'.opened = w2.opened ∧ w'.sink.pos = w2.sink.pos + headerSize v.toNat)
        (fun _ _ => True) (fun _ _ => True) w2 := by
      intro w2 hv
      unfold writeNodeHeader
      rw [M.wp_bind, M.wp_get, hv]
      have h75 : (7500 : UInt32).toNat = 7500 := rfl
      simp only [M.wp_ite, UInt32.lt_iff_toNat_lt, h75, headerSize, width, NodeHeader.nodeEnd]
      split
      · simp only [putU32, Nat.two_pow_pos, if_true]
        refine wp_put_bind (fun s1 h1 => wp_put_bind (fun s2 h2 => wp_put_bind (fun s3 h3 => wp_put (fun s4 h4 => ?_)
          (fun _ _ => trivial)) (fun _ _ => trivial)) (fun _ _ => trivial)) (fun _ _ => trivial)
        simp only [leBytes_length] at *
        exact ⟨trivial, by omega⟩
      · refine wp_put_bind (fun s1 h1 => wp_put_bind (fun s2 h2 => wp_put_bind (fun s3 h3 => wp_put (fun s4 h4 => ?_)
          (fun _ _ => trivial)) (fun _ _ => trivial)) (fun _ _ => trivial)) (fun _ _ => trivial)
        simp only [leBytes_length] at *
        exact ⟨trivial, by omega⟩
    have hpos : s.pos = w.sink.pos := k2
    have hver : v = w.version := k3
    have : M.wp (closeRest n) (fun _ w' => w'.opened = r ∧ w'.sink.pos = s.pos +
        (if n.hasChild = true ∨ n.header.numAttrs = 0 then headerSize v.toNat else 0))
        (fun _ _ => True) (fun _ _ => True) ⟨s, v, r⟩ := by
      unfold closeRest
      simp only [M.wp_ite]
      split
      · rw [M.wp_bind]
        refine M.wp_mono (hmk _ rfl) ?_ (fun _ _ _ => trivial) (fun _ _ _ => trivial)
        intro _ w2 ⟨h5, h6⟩
        refine M.wp_mono (hend w2) ?_ (fun _ _ _ => trivial) (fun _ _ _ => trivial)
        intro _ w3 ⟨h7, h8⟩
        exact ⟨h7.trans h5, h8.trans h6⟩
      · exact hend _
    rw [M.wp, h3] at this
    obtain ⟨t1, t2⟩ : w'.opened = r ∧ _ := this
    rw [← hpos, ← hver, t1]
    simp only at k1
    cases ho : w.opened with
    | nil => rw [ho] at k1; simp [finTop] at k1
    | cons m q =>
      rw [ho] at k1
      simp only [finTop, List.cons.injEq] at k1
      obtain ⟨rfl, rfl⟩ := k1
      refine ⟨m, rfl, ?_⟩
      have hn1 : (fin w.sink.pos m).hasChild = m.hasChild := by simp only [fin]; split <;> rfl
      have hn2 : (fin w.sink.pos m).header.numAttrs = m.header.numAttrs := by simp only [fin]; split <;> rfl
      rw [t2, hn1, hn2]

/-- `j` more attributes. -/
def bumpBy (j : Nat) (n : OpenNode) : OpenNode := { n with header := { n.header with numAttrs := n.header.numAttrs + j } }

theorem run_attrs_opened (Z : Zlib) (as : List Append) : ∀ (w w' : Writer) (u : Unit) (n : OpenNode) (r : List OpenNode),
    w.opened = n :: r → run Z (as.map Op.append) w = (.ok u, w') → w'.opened = bumpBy as.length n :: r := by
  induction as with
  | nil =>
    intro w w' u n r hn h
    simp only [List.map_nil, run, M.pure_ok_iff] at h
    rw [h.2, hn]; rfl
  | cons a as ih =>
    intro w w' u n r hn h
    simp only [List.map_cons, run, exec, M.bind_ok_iff] at h
    obtain ⟨_, w1, h1, h2⟩ := h
    have := append_opened Z a w w1 _ h1
    rw [hn] at this
    rw [ih w1 w' u (bump n) r this h2]
    simp [bump, bumpBy]; omega

theorem run_forest_opened (Z : Zlib) (F : Forest Append) : ∀ (w w' : Writer) (u : Unit),
    run Z (calls F) w = (.ok u, w') → w'.opened = if F.isNil then w.opened else childTop w.sink.pos w.opened := by
  induction F with
  | nil => intro w w' u h; simp only [calls, run, M.pure_ok_iff] at h; rw [h.2]; rfl
  | cons name attrs ch rest ih1 ih2 =>
    intro w w' u h
    simp only [calls, run, exec, run_append, M.bind_ok_iff] at h
    obtain ⟨_, w1, h1, _, w2, h2, _, w3, h3, _, w4, h4, h5⟩ := h
    have k1 := newNode_opened name w w1 _ h1
    have k2 := run_attrs_opened Z attrs w1 w2 _ _ _ k1 h2
    have k3 := ih1 _ _ _ h3
    obtain ⟨n, k4, -⟩ := closeNode_opened w3 w4 _ h4
    have k6 := ih2 _ _ _ h5
    rw [k2] at k3
    have : w4.opened = childTop w.sink.pos w.opened := by
      rw [k3] at k4
      generalize childTop w.sink.pos w.opened = l at k4
      cases hc : ch.isNil <;> rw [hc] at k4 <;> simp [childTop] at k4 <;> exact k4.2.symm
    rw [k6, this]
    simp [childTop_childTop, Forest.isNil]

end Fbx.Writer
