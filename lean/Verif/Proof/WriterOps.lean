import Verif.Proof.WriterAt

/-! # Each writer method on a fault-free sink: exact success condition and result -/

namespace Fbx.Writer
open Spec

theorem seek_back_bind {β : Type} (v : FbxVersion) (a b post : Bytes) (o : List OpenNode) {p : Nat}
    (hp : p = a.length) (f : Unit → M WErr Writer β) (x : β) (w' : Writer) :
    (io (Sink.seek p) >>= f) (At v (a ++ b) post o) = (.ok x, w') ↔ f () (At v a (b ++ post) o) = (.ok x, w') := by
  rw [M.bind_of_unit (C := True) (fun u s' => (seek_back_ok_iff v a b post o p hp u s').trans (true_and _).symm.to_iff)]
  simp

/-- Overwriting bytes inside the buffer: write at an earlier offset and return. -/
theorem patch_ok_iff (v : FbxVersion) (a h h' mid post : Bytes) (o : List OpenNode) {p q : Nat} (hp : p = a.length)
    (hq : q = (a ++ h ++ mid).length) (hl : h'.length = h.length) (hlt : (a ++ h).length < 2 ^ 64)
    (u : Unit) (w' : Writer) :
    (do io (Sink.seek p); put h'; io (Sink.seek q) : M WErr Writer Unit) (At v (a ++ h ++ mid) post o) = (.ok u, w') ↔
      w' = At v (a ++ h' ++ mid) post o := by
  rw [List.append_assoc, seek_back_bind v a (h ++ mid) post o hp, put_bind]
  have hroom : Room a h' := by right; simp at hlt; omega
  have hd : (h ++ mid ++ post).drop h'.length = mid ++ post := by
    rw [hl, List.append_assoc, List.drop_append_of_le_length (Nat.le_refl _)]; simp
  rw [hd, seek_fwd_ok_iff v (a ++ h') mid post o q (by rw [hq]; simp [hl]; omega)]
  simp [hroom]

/-! ## Node operations -/

/-- The attribute section of an open node is closed at offset `p`. -/
def fin (p : Nat) (n : OpenNode) : OpenNode :=
  if n.finalized then n
  else { n with header := { n.header with bytelenAttrs := p - n.bodyPos }, finalized := true }

/-- Effect of `finalize_attributes` on the open nodes. -/
def finTop (p : Nat) : List OpenNode → List OpenNode
  | [] => []
  | n :: r => fin p n :: r

/-- Effect of starting a child on the open nodes. -/
def childTop (p : Nat) : List OpenNode → List OpenNode
  | [] => []
  | n :: r => { fin p n with hasChild := true } :: r

/-- The innermost open node starts before the current offset. -/
def TopOk (p : Nat) (o : List OpenNode) : Prop := ∀ n r, o = n :: r → n.finalized = true ∨ n.bodyPos ≤ p

theorem fin_finalized (p : Nat) (n : OpenNode) : (fin p n).finalized = true := by
  simp only [fin]; split <;> simp_all

theorem fin_fin (p q : Nat) (n : OpenNode) : fin q (fin p n) = fin p n := by
  have h := fin_finalized p n
  generalize fin p n = m at h
  simp [fin, h]

theorem finalizeAttributes_ok_iff (v : FbxVersion) (pre post : Bytes) (o : List OpenNode)
    (ho : TopOk pre.length o) (u : Unit) (w' : Writer) :
    finalizeAttributes (At v pre post o) = (.ok u, w') ↔ w' = At v pre post (finTop pre.length o) := by
  have hw : (At v pre post o).opened = o := rfl
  simp only [finalizeAttributes, M.get_bind, hw]
  cases o with
  | nil => simp [finTop, eq_comm]
  | cons n r =>
    by_cases hf : n.finalized = true
    · simp [hf, finTop, fin, eq_comm]
    · have hb : n.bodyPos ≤ pre.length := (ho n r rfl).resolve_left hf
      simp only [hf, Bool.false_eq_true, if_false, tell_bind, M.assert_bind, hb, decide_true, if_true, M.modify_ok_iff, finTop, fin]
      rfl

theorem finalizeAttributes_bind {β : Type} (v : FbxVersion) (pre post : Bytes) (o : List OpenNode)
    (ho : TopOk pre.length o) (f : Unit → M WErr Writer β) (b : β) (w' : Writer) :
    (finalizeAttributes >>= f) (At v pre post o) = (.ok b, w') ↔
      f () (At v pre post (finTop pre.length o)) = (.ok b, w') := by
  rw [M.bind_of_unit (C := True) (fun u s' =>
    (finalizeAttributes_ok_iff v pre post o ho u s').trans (true_and _).symm.to_iff)]
  simp

theorem modifyTop_child (v : FbxVersion) (pre post : Bytes) (o : List OpenNode) (p : Nat) :
    modifyTop (fun n => { n with hasChild := true }) (At v pre post (finTop p o)) = At v pre post (childTop p o) := by
  cases o <;> rfl

theorem newNode_ok_iff (v : FbxVersion) (pre post : Bytes) (o : List OpenNode) (ho : TopOk pre.length o)
    (name : String) (u : Unit) (w' : Writer) :
    newNode name (At v pre post o) = (.ok u, w') ↔
      (utf8 name).length < 256 ∧ Room pre (header v.toNat 0 0 0 (utf8 name).length ++ utf8 name) ∧
      w' = At v (pre ++ (header v.toNat 0 0 0 (utf8 name).length ++ utf8 name))
        (post.drop (headerSize v.toNat + (utf8 name).length))
        (⟨pre.length, pre.length + headerSize v.toNat + (utf8 name).length, ⟨0, 0, 0, (utf8 name).length⟩, false, false⟩
          :: childTop pre.length o) := by
  simp only [newNode, finalizeAttributes_bind _ _ _ _ ho, M.modify_bind, modifyTop_child, utf8_eq]
  by_cases hl : (strBytes name).length < 256
  · have hh : ∀ {β : Type} (f : Unit → M WErr Writer β) (b : β) (w' : Writer),
        (writeNodeHeader ⟨0, 0, 0, (strBytes name).length⟩ >>= f) (At v pre post (childTop pre.length o)) = (.ok b, w') ↔
          Room pre (header v.toNat 0 0 0 (strBytes name).length) ∧
          f () (At v (pre ++ header v.toNat 0 0 0 (strBytes name).length) (post.drop (headerSize v.toNat))
            (childTop pre.length o)) = (.ok b, w') := by
      intro β f b w'
      rw [M.bind_of_unit (fun u s' => (writeNodeHeader_ok_iff v pre post _ _ u s').trans and_assoc.symm)]
      simp [HeaderFits]
    simp only [hl, if_true, true_and, tell_bind, hh, put_bind, M.modify_ok_iff, Room.append, and_assoc]
    simp only [At, List.length_append, header_length, List.drop_drop, List.append_assoc, Nat.add_assoc]
  · simp [hl]

theorem setOpened_bind {β : Type} (v : FbxVersion) (pre post : Bytes) (o r : List OpenNode)
    (f : Unit → M WErr Writer β) :
    (M.modify (fun w : Writer => { w with opened := r }) >>= f) (At v pre post o) = f () (At v pre post r) := rfl

/-- What `close_node` requires of the innermost node: its header is where it says. -/
structure CloseOk (v : FbxVersion) (pre a hdr mid : Bytes) (n : OpenNode) : Prop where
  pre_eq : pre = a ++ hdr ++ mid
  headerPos : n.headerPos = a.length
  hdr_len : hdr.length = headerSize v.toNat
  top : n.finalized = true ∨ n.bodyPos ≤ pre.length
  room : (a ++ hdr).length < 2 ^ 64

theorem room_ok {pre bs : Bytes} (h : pre.length < 2 ^ 64) (hb : bs = [] ∨ pre.length + bs.length < 2 ^ 64) :
    (pre ++ bs).length < 2 ^ 64 := by
  rcases hb with rfl | hb <;> simp_all

theorem closeNode_ok_iff (v : FbxVersion) (pre a hdr mid post : Bytes) (n : OpenNode) (r : List OpenNode)
    (hc : CloseOk v pre a hdr mid n) (u : Unit) (w' : Writer) :
    closeNode (At v pre post (n :: r)) = (.ok u, w') ↔
      (let m := if n.hasChild = true ∨ n.header.numAttrs = 0 then marker v.toNat else []
       let h := (fin pre.length n).header
       Room pre m ∧ ((h.numAttrs == 0) = (h.bytelenAttrs == 0)) ∧
       HeaderFits v.toNat (pre.length + m.length) h.numAttrs h.bytelenAttrs ∧
       w' = At v (a ++ header v.toNat (pre.length + m.length) h.numAttrs h.bytelenAttrs h.nameLen ++ mid ++ m)
        (post.drop m.length) r) := by
  have hw : (At v pre post (fin pre.length n :: r)).opened = fin pre.length n :: r := rfl
  have hn1 : (fin pre.length n).hasChild = n.hasChild := by simp only [fin]; split <;> rfl
  have hn2 : (fin pre.length n).header.numAttrs = n.header.numAttrs := by simp only [fin]; split <;> rfl
  have hn3 : (fin pre.length n).headerPos = n.headerPos := by simp only [fin]; split <;> rfl
  have ho : TopOk pre.length (n :: r) := by
    intro n' r' h; simp only [List.cons.injEq] at h; obtain ⟨rfl, rfl⟩ := h; exact hc.top
  simp only [closeNode, finalizeAttributes_bind _ _ _ _ ho, finTop, M.get_bind]
  generalize hm : (if n.hasChild = true ∨ n.header.numAttrs = 0 then marker v.toNat else []) = m
  -- after the marker
  have key : ∀ w', (do
      let endPos ← io Sink.tell
      io (Sink.seek (fin pre.length n).headerPos)
      M.assert (((fin pre.length n).header.numAttrs == 0) == ((fin pre.length n).header.bytelenAttrs == 0)) .attrLenAssert
      writeNodeHeader { (fin pre.length n).header with endOffset := endPos }
      io (Sink.seek endPos) : M WErr Writer Unit) (At v (pre ++ m) (post.drop m.length) r) = (.ok u, w') ↔
      (((fin pre.length n).header.numAttrs == 0) = ((fin pre.length n).header.bytelenAttrs == 0)) ∧
       HeaderFits v.toNat (pre.length + m.length) (fin pre.length n).header.numAttrs (fin pre.length n).header.bytelenAttrs ∧
       w' = At v (a ++ header v.toNat (pre.length + m.length) (fin pre.length n).header.numAttrs
        (fin pre.length n).header.bytelenAttrs (fin pre.length n).header.nameLen ++ mid ++ m) (post.drop m.length) r := by
    intro w'
    have hpre : pre ++ m = a ++ (hdr ++ mid ++ m) := by rw [hc.pre_eq]; simp
    rw [tell_bind, hpre, seek_back_bind v a (hdr ++ mid ++ m) _ r (hn3.trans hc.headerPos), M.assert_bind]
    by_cases hbool : ((fin pre.length n).header.numAttrs == 0) = ((fin pre.length n).header.bytelenAttrs == 0)
    · simp only [hbool, beq_self_eq_true, if_true, true_and]
      rw [M.bind_of_unit (fun u s' => (writeNodeHeader_ok_iff v a _ r _ u s').trans and_assoc.symm)]
      have hlen : (a ++ (hdr ++ mid ++ m)).length = pre.length + m.length := by rw [← hpre]; simp
      have hroom : ∀ x y z t, Room a (header v.toNat x y z t) := by
        intro x y z t; right
        have := hc.room
        simp only [List.length_append, hc.hdr_len] at this
        simpa using this
      have hdrop : (hdr ++ mid ++ m ++ post.drop m.length).drop (headerSize v.toNat) = mid ++ m ++ post.drop m.length := by
        rw [← hc.hdr_len]
        simp
      simp only [hdrop, hroom, and_true, hlen]
      rw [seek_fwd_ok_iff v _ (mid ++ m) _ r]
      · simp
      · rw [← hlen]; simp [hc.hdr_len]; omega
    · have : ((((fin pre.length n).header.numAttrs == 0) == ((fin pre.length n).header.bytelenAttrs == 0)) = true) = False := by
        simpa using hbool
      simp only [this, if_false, hbool, false_and, iff_false]
      simp
  have hcond : (n.hasChild = true ∨ n.header.numAttrs = 0) = ((fin pre.length n).hasChild = true ∨ (fin pre.length n).header.numAttrs = 0) := by
    rw [hn1, hn2]
  simp only [hw, ← hcond, setOpened_bind]
  by_cases hcc : n.hasChild = true ∨ n.header.numAttrs = 0
  · simp only [hcc, if_true] at hm ⊢
    subst hm
    rw [M.bind_of_unit (fun u s' => (writeNodeHeader_ok_iff v pre _ r _ u s').trans and_assoc.symm)]
    simp only [NodeHeader.nodeEnd, ← marker_eq]
    have := key w'
    simp only [marker_length] at this ⊢
    rw [this]
    simp [HeaderFits]
  · simp only [hcc, if_false] at hm ⊢
    subst hm
    have := key w'
    simp only [List.append_nil, List.length_nil, List.drop_zero] at this ⊢
    rw [this]
    simp [Room]

end Fbx.Writer
