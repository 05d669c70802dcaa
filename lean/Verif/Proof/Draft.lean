import Verif.Proof.Failed
import Verif.Spec.Draft

/-! # The writer does what its specification without a device does -/

namespace Fbx.Writer
open Spec

theorem remains_le (Z : Zlib) (a : Append) (h : fails Z a = true) : (remains Z a).length ≤ volume Z a := by
  have hz : ∀ bs, ([Z.encHeader.1, Z.encHeader.2] ++ Z.encEarly bs).length ≤ (Z.encode bs).length := by
    intro bs; simp [Zlib.encode]
  have hel : ∀ {α : Type} (d : DAttr) (items : List (Except WErr α)),
      (elementsLeft Z d items).length ≤ (arrayPayload Z d).length := by
    intro α d items
    rcases d with ⟨v, enc⟩
    cases enc
    · exact Nat.le_refl _
    · simp only [elementsLeft]
      split
      · exact hz _
      · exact Nat.le_refl _
  cases a with
  | arrBool enc xs => have := hel (denoteBefore (.arrBool enc xs)) xs; simp [remains, opening, volume, attrBytes, attrBody, denoteBefore, denote] at this ⊢; omega
  | arrI32 enc xs => have := hel (denoteBefore (.arrI32 enc xs)) xs; simp [remains, opening, volume, attrBytes, attrBody, denoteBefore, denote] at this ⊢; omega
  | arrI64 enc xs => have := hel (denoteBefore (.arrI64 enc xs)) xs; simp [remains, opening, volume, attrBytes, attrBody, denoteBefore, denote] at this ⊢; omega
  | arrF32 enc xs => have := hel (denoteBefore (.arrF32 enc xs)) xs; simp [remains, opening, volume, attrBytes, attrBody, denoteBefore, denote] at this ⊢; omega
  | arrF64 enc xs => have := hel (denoteBefore (.arrF64 enc xs)) xs; simp [remains, opening, volume, attrBytes, attrBody, denoteBefore, denote] at this ⊢; omega
  | binary bs => simp [remains, opening, volume, attrBytes, attrBody, denoteBefore, denote]
  | string s => simp [remains, opening, volume, attrBytes, attrBody, denoteBefore, denote]
  | binaryReader cs e => simp [remains, opening, volume, attrBytes, attrBody, denoteBefore, denote]
  | binaryIter xs => simp [remains, opening, volume, attrBytes, attrBody, denoteBefore, denote]
  | stringIter xs =>
    have : (fourEach [0, 0, 0, 0] (before xs)).length = 4 * (before xs).length := by
      rw [← charOut_fourEach]; exact charOut_length _ _ (by simp)
    simp [remains, opening, volume, denote, this]; omega
  | _ => cases h

theorem leaves_produced (Z : Zlib) (a : Append) (h : fails Z a = false) : leaves Z a = produced Z a := by
  simp only [leaves, h, Bool.false_eq_true, if_false]
  cases a with
  | stringIter xs =>
    simp only [produced, specBytes, charLen, strLen_eq, charOut_fourEach, le_eq]
    rfl
  | _ => rfl

theorem fails_none {Z : Zlib} {a : Append} (h : fails Z a = false) : callError Z a = none := by
  simp only [fails] at h
  cases hc : callError Z a with
  | none => rfl
  | some e => rw [hc] at h; cases h

theorem leaves_le (Z : Zlib) (a : Append) : (leaves Z a).length ≤ volume Z a := by
  cases hf : fails Z a with
  | true => simp only [leaves, hf, if_true]; exact remains_le Z a hf
  | false =>
    have hno := fails_none hf
    rw [leaves_produced Z a hf]
    have hb : ∀ {α : Type} (xs : List (Except WErr α)), firstError xs = none → before xs = oks xs := fun xs h => before_oks xs h
    have hfe : ∀ {α : Type} (d : DAttr) (xs : List (Except WErr α)), arrayError Z d xs = none → firstError xs = none := by
      intro α d xs h
      simp only [arrayError] at h
      split at h
      · cases h
      · assumption
    have hor : ∀ (x y : Option WErr), x.or y = none → x = none := by intro x y h; cases x <;> simp_all
    cases a with
    | arrBool enc xs => simp only [volume, denoteBefore, hb xs (hfe _ xs hno)]; exact Nat.le_refl _
    | arrI32 enc xs => simp only [volume, denoteBefore, hb xs (hfe _ xs hno)]; exact Nat.le_refl _
    | arrI64 enc xs => simp only [volume, denoteBefore, hb xs (hfe _ xs hno)]; exact Nat.le_refl _
    | arrF32 enc xs => simp only [volume, denoteBefore, hb xs (hfe _ xs hno)]; exact Nat.le_refl _
    | arrF64 enc xs => simp only [volume, denoteBefore, hb xs (hfe _ xs hno)]; exact Nat.le_refl _
    | binaryIter xs => simp only [volume, denoteBefore, hb xs (hor _ _ hno)]; exact Nat.le_refl _
    | stringIter xs =>
      have hcl : (charOut (zeros 4) (oks xs)).length = 4 * (oks xs).length := charOut_length _ _ (by simp)
      simp only [volume, produced, specBytes, hb xs (hor _ _ hno), List.length_cons, List.length_append, leBytes_length, hcl]
      omega
    | _ => exact Nat.le_refl _

theorem leaves_ne (Z : Zlib) (a : Append) : 0 < (leaves Z a).length := by
  cases hf : fails Z a with
  | true => simp only [leaves, hf, if_true]; simp [remains, opening]
  | false => rw [leaves_produced Z a hf]; exact produced_pos Z a

/-- An `append_*` call on a working device, in all cases. -/
theorem append_leaves (Z : Zlib) (v : FbxVersion) (a : Append) (pre post : Bytes) (n : OpenNode) (r : List OpenNode)
    (hn : n.header.numAttrs + 1 < 2 ^ 64) (hp : pre.length + volume Z a < 2 ^ 64) :
    append Z a (At v pre post (n :: r)) =
      (verdict (callError Z a), At v (pre ++ leaves Z a) (post.drop (leaves Z a).length) (bump n :: r)) := by
  obtain ⟨h1, -⟩ := append_free Z (w := At v pre post (n :: r)) rfl rfl hn a hp
  have h1' : (append Z a (At v pre post (n :: r))).1 = verdict (callError Z a) := by
    rw [h1]; cases callError Z a <;> rfl
  refine Prod.ext h1' ?_
  cases hfl : fails Z a with
  | true =>
    rw [append_left Z (w := At v pre post (n :: r)) rfl rfl hn a hp hfl]
    simp only [leaves, hfl, if_true, wrote, At, store_at, List.length_append]
  | false =>
    rw [fails_none hfl] at h1'
    obtain ⟨-, -, -, h2⟩ := (append_ok_iff Z v pre post n r a () _).mp (Prod.ext h1' rfl)
    refine Eq.trans h2 ?_
    rw [leaves_produced Z a hfl]

/-! ## The open nodes of the writer -/

/-- What the writer remembers about an unfinished node which begins at `off`. -/
def nodeOf (v off : Nat) (u : Unfinished) : OpenNode :=
  ⟨off, off + headerSize v + u.name.length, ⟨0, u.count, if u.parent then u.attrs.length else 0, u.name.length⟩, u.parent, u.parent⟩

/-- What the writer remembers. -/
def nodesOf (v : Nat) (fin : Bytes) : List Unfinished → List OpenNode
  | [] => []
  | u :: outer => nodeOf v (shownAfter v fin outer).length u :: nodesOf v fin outer

/-- Facts about unfinished nodes. -/
structure Sound (u : Unfinished) : Prop where
  count : u.count ≤ u.attrs.length
  none : u.count = 0 → u.attrs = []
  child : u.parent = false → u.inner = []

/-- All unfinished nodes but the innermost have a child. -/
structure Fine (us : List Unfinished) : Prop where
  sound : ∀ u ∈ us, Sound u
  nested : ∀ u ∈ us.tail, u.parent = true

theorem nodesOf_topOk (v : Nat) (fin : Bytes) (us : List Unfinished) : TopOk (shownAfter v fin us).length (nodesOf v fin us) := by
  intro n r h
  cases us with
  | nil => cases h
  | cons u outer =>
    simp only [nodesOf, List.cons.injEq] at h
    obtain ⟨rfl, rfl⟩ := h
    right
    simp [nodeOf, shownAfter, Unfinished.shown]
    omega

theorem fin_nodeOf (v : Nat) (fin : Bytes) (u : Unfinished) (outer : List Unfinished) (hu : Sound u) :
    Writer.fin (shownAfter v fin (u :: outer)).length (nodeOf v (shownAfter v fin outer).length u) =
      { nodeOf v (shownAfter v fin outer).length u with
        header := ⟨0, u.count, u.attrs.length, u.name.length⟩, finalized := true } := by
  obtain ⟨name, attrs, count, inner, parent⟩ := u
  cases parent with
  | true => rfl
  | false =>
    have hin : inner = [] := hu.child rfl
    subst hin
    have hlen : (shownAfter v fin (⟨name, attrs, count, [], false⟩ :: outer)).length -
        ((shownAfter v fin outer).length + headerSize v + name.length) = attrs.length := by
      simp [shownAfter, Unfinished.shown]; omega
    simp only [Writer.fin, nodeOf, Bool.false_eq_true, if_false, hlen]

theorem childTop_nodesOf (v : Nat) (fin : Bytes) (us : List Unfinished) (hu : ∀ u ∈ us, Sound u) :
    childTop (shownAfter v fin us).length (nodesOf v fin us) = nodesOf v fin (becomesParent us) := by
  cases us with
  | nil => rfl
  | cons u outer =>
    simp only [nodesOf, childTop, becomesParent, fin_nodeOf v fin u outer (hu u (by simp))]
    rfl

theorem shownAfter_becomesParent (v : Nat) (fin : Bytes) (us : List Unfinished) :
    shownAfter v fin (becomesParent us) = shownAfter v fin us := by
  cases us <;> rfl

theorem sound_becomesParent {us : List Unfinished} (hu : ∀ u ∈ us, Sound u) : ∀ u ∈ becomesParent us, Sound u := by
  cases us with
  | nil => exact hu
  | cons u outer =>
    intro x hx
    simp only [becomesParent, List.mem_cons] at hx
    rcases hx with rfl | hx
    · have := hu u (by simp)
      exact ⟨this.count, this.none, fun h => by cases h⟩
    · exact hu x (by simp [hx])

theorem parent_becomesParent {us : List Unfinished} (hu : Fine us) : ∀ u ∈ becomesParent us, u.parent = true := by
  cases us with
  | nil => intro x hx; cases hx
  | cons u outer =>
    intro x hx
    simp only [becomesParent, List.mem_cons] at hx
    rcases hx with rfl | hx
    · rfl
    · exact hu.nested x hx

theorem fine_becomesParent {us : List Unfinished} (hu : Fine us) : Fine (becomesParent us) :=
  ⟨sound_becomesParent hu.sound, fun u h => parent_becomesParent hu u (List.mem_of_mem_tail h)⟩

theorem headerError_eq (v : Nat) {a b c : Nat} (hb : b ≤ c) (hc : c ≤ a) :
    headerError v a b c = if v < 7500 ∧ 2 ^ 32 ≤ a then some (.fileTooLarge a) else none := by
  simp only [headerError]
  by_cases h : v < 7500
  · by_cases ha : 2 ^ 32 ≤ a
    · simp [h, ha]
    · have h1 : ¬ 2 ^ 32 ≤ b := by omega
      have h2 : ¬ 2 ^ 32 ≤ c := by omega
      simp [h, ha, h1, h2]
  · simp [h]

/-- The writer of a draft. -/
def ofDraft (v : FbxVersion) (d : Draft) : Writer :=
  At v (d.file v.toNat) d.behind (nodesOf v.toNat d.finished d.unfinished)

/-- An `AttributesWriter` exists only for a node without children. -/
def AliveOk (alive : Bool) (d : Draft) : Prop :=
  alive = true → ∃ u outer, d.unfinished = u :: outer ∧ u.parent = false

/-- `new_node`. -/
theorem newNode_draft (Z : Zlib) (v : FbxVersion) (d : Draft) (hs : Fine d.unfinished) (name : String)
    (hp : (d.file v.toNat).length + (headerSize v.toNat + (utf8 name).length) < 2 ^ 64) :
    newNode name (ofDraft v d) = ((d.act Z v.toNat (.newNode name)).1, ofDraft v (d.act Z v.toNat (.newNode name)).2) ∧
      Fine (d.act Z v.toNat (.newNode name)).2.unfinished ∧
      ((d.act Z v.toNat (.newNode name)).2.file v.toNat).length ≤ (d.file v.toNat).length + (headerSize v.toNat + (utf8 name).length) ∧
      AliveOk (match (d.act Z v.toNat (.newNode name)).1 with | .ok _ => true | _ => false) (d.act Z v.toNat (.newNode name)).2 := by
  have htop := nodesOf_topOk v.toNat d.finished d.unfinished
  have hres := newNode_free (w := ofDraft v d) rfl htop name (by
    show (d.file v.toNat).length + headerSize v.toNat + _ < _; omega)
  by_cases hl : 255 < (utf8 name).length
  · rw [if_pos hl] at hres
    have hact : d.act Z v.toNat (.newNode name) = (.err (.nodeNameTooLong (utf8 name).length), { d with unfinished := becomesParent d.unfinished }) := by
      simp only [Draft.act, if_pos hl]
    rw [hact]
    refine ⟨Prod.ext hres ?_, fine_becomesParent hs, ?_, ?_⟩
    · have hfa := (finalizeAttributes_ok_iff v (d.file v.toNat) d.behind _ htop () _).mpr rfl
      have hnl : ¬ (strBytes name).length < 256 := by have := hl; rw [utf8_eq] at this; omega
      have h2 : (newNode name (ofDraft v d)).2 =
          modifyTop (fun n => { n with hasChild := true }) (At v (d.file v.toNat) d.behind
            (finTop (d.file v.toNat).length (nodesOf v.toNat d.finished d.unfinished))) := by
        simp only [newNode, if_neg hnl]
        show (bind finalizeAttributes _ (ofDraft v d)).2 = _
        rw [M.bind_val (show finalizeAttributes (ofDraft v d) = _ from hfa)]
        rfl
      refine h2.trans ?_
      rw [modifyTop_child, ofDraft]
      have hc := childTop_nodesOf v.toNat d.finished d.unfinished hs.sound
      simp only [Draft.file, shownAfter_becomesParent] at hc ⊢
      rw [hc]
    · simp only [Draft.file, shownAfter_becomesParent]; omega
    · intro h; cases h
  · rw [if_neg hl] at hres
    have hact : d.act Z v.toNat (.newNode name) = (.ok (), ⟨d.finished, ⟨utf8 name, [], 0, [], false⟩ :: becomesParent d.unfinished,
        d.behind.drop (headerSize v.toNat + (utf8 name).length)⟩) := by
      simp only [Draft.act, if_neg hl]
    rw [hact]
    refine ⟨Prod.ext hres ?_, ⟨fun u hu => ?_, parent_becomesParent hs⟩, ?_, fun _ => ⟨_, _, rfl, rfl⟩⟩
    · have h3 := ((newNode_ok_iff v (d.file v.toNat) d.behind _ htop name () _).mp
        (Prod.ext hres rfl : newNode name (ofDraft v d) = (.ok (), (newNode name (ofDraft v d)).2))).2.2
      refine h3.trans ?_
      have hc := childTop_nodesOf v.toNat d.finished d.unfinished hs.sound
      simp only [ofDraft, Draft.file, shownAfter, shownAfter_becomesParent, nodesOf, nodeOf, Unfinished.shown, List.append_nil] at hc ⊢
      rw [hc]
      simp
    · simp only [List.mem_cons] at hu
      rcases hu with rfl | hu
      · exact ⟨Nat.zero_le _, fun _ => rfl, fun _ => rfl⟩
      · exact sound_becomesParent hs.sound u hu
    · simp only [Draft.file, shownAfter, shownAfter_becomesParent, Unfinished.shown, List.append_nil, List.length_append, header_length]
      omega

/-- `append_*`. -/
theorem append_draft (Z : Zlib) (v : FbxVersion) (d : Draft) (hs : Fine d.unfinished) (a : Append)
    (ha : AliveOk true d) (hp : (d.file v.toNat).length + volume Z a < 2 ^ 64) :
    append Z a (ofDraft v d) = ((d.act Z v.toNat (.append a)).1, ofDraft v (d.act Z v.toNat (.append a)).2) ∧
      Fine (d.act Z v.toNat (.append a)).2.unfinished ∧
      ((d.act Z v.toNat (.append a)).2.file v.toNat).length ≤ (d.file v.toNat).length + volume Z a ∧
      AliveOk true (d.act Z v.toNat (.append a)).2 := by
  obtain ⟨u, outer, ho, hpar⟩ := ha rfl
  obtain ⟨fin, us, behind⟩ := d
  simp only at ho
  subst ho
  have hsu := hs.sound u (by simp)
  have hin := hsu.child hpar
  have hlen : u.attrs.length ≤ (Draft.file v.toNat ⟨fin, u :: outer, behind⟩).length := by
    simp [Draft.file, shownAfter, Unfinished.shown]; omega
  have hlv := leaves_le Z a
  have hpos := leaves_ne Z a
  have hc := hsu.count
  have h := append_leaves Z v a (Draft.file v.toNat ⟨fin, u :: outer, behind⟩) behind
    (nodeOf v.toNat (shownAfter v.toNat fin outer).length u) (nodesOf v.toNat fin outer) (by
      simp only [nodeOf]; omega) hp
  have h' : append Z a (ofDraft v ⟨fin, u :: outer, behind⟩) = _ := h
  have hfile : Draft.file v.toNat ⟨fin, u :: outer, behind⟩ ++ leaves Z a =
      Draft.file v.toNat ⟨fin, { u with attrs := u.attrs ++ leaves Z a, count := u.count + 1 } :: outer, behind.drop (leaves Z a).length⟩ := by
    simp [Draft.file, shownAfter, Unfinished.shown, hin]
  have hact : Draft.act Z v.toNat ⟨fin, u :: outer, behind⟩ (.append a) = (verdict (callError Z a),
      ⟨fin, { u with attrs := u.attrs ++ leaves Z a, count := u.count + 1 } :: outer, behind.drop (leaves Z a).length⟩) := rfl
  rw [hact]
  refine ⟨?_, ⟨fun x hx => ?_, hs.nested⟩, ?_, fun _ => ⟨_, _, rfl, hpar⟩⟩
  · rw [h', hfile]
    refine Prod.ext rfl ?_
    show At _ _ _ _ = ofDraft v _
    rw [ofDraft]
    congr 1
    simp only [nodesOf, nodeOf, bump, hpar, Bool.false_eq_true, if_false]
  · simp only [List.mem_cons] at hx
    rcases hx with rfl | hx
    · refine ⟨?_, fun h => ?_, fun h => hsu.child h⟩
      · simp only [List.length_append]; omega
      · simp at h
    · exact hs.sound x (by simp [hx])
  · rw [← hfile, List.length_append]; omega

theorem file_add (v : Nat) (fin : Bytes) (outer : List Unfinished) (behind b : Bytes) :
    Draft.file v (Draft.add ⟨fin, outer, behind⟩ b) = shownAfter v fin outer ++ b := by
  cases outer with
  | nil => rfl
  | cons p ps => simp [Draft.file, Draft.add, shownAfter, Unfinished.shown]

theorem nodesOf_add (v : Nat) (fin : Bytes) (outer : List Unfinished) (behind b : Bytes) :
    nodesOf v (Draft.add ⟨fin, outer, behind⟩ b).finished (Draft.add ⟨fin, outer, behind⟩ b).unfinished = nodesOf v fin outer := by
  cases outer <;> rfl

theorem behind_add (d : Draft) (b : Bytes) : (d.add b).behind = d.behind := by
  rcases d with ⟨fin, _ | ⟨p, ps⟩, behind⟩ <;> rfl

theorem fine_add {fin : Bytes} {outer : List Unfinished} {behind b : Bytes} (h : Fine outer) (hp : ∀ u ∈ outer, u.parent = true) :
    Fine (Draft.add ⟨fin, outer, behind⟩ b).unfinished := by
  cases outer with
  | nil => exact h
  | cons p ps =>
    refine ⟨fun x hx => ?_, fun x hx => hp x (by simp only [Draft.add, List.tail_cons] at hx; simp [hx])⟩
    simp only [Draft.add, List.mem_cons] at hx
    rcases hx with rfl | hx
    · have h1 := h.sound p (by simp)
      have h2 := hp p (by simp)
      refine ⟨h1.count, h1.none, fun h => ?_⟩
      simp only [h2] at h
      cases h
    · exact h.sound x (by simp [hx])

/-- `close_node` of a node that does not fit: the writer is back at its beginning. -/
theorem closeNode_back (v : FbxVersion) (pre a hdr mid post : Bytes) (n : OpenNode) (r : List OpenNode)
    (hc : CloseOk v pre a hdr mid n) (hb : Consistent (Writer.fin pre.length n)) (hp : pre.length + headerSize v.toNat < 2 ^ 64)
    (m : Bytes) (hm : (if n.hasChild = true ∨ n.header.numAttrs = 0 then marker v.toNat else []) = m)
    (hv : v.toNat < 7500) (hl : 2 ^ 32 ≤ pre.length + m.length) :
    closeNode (At v pre post (n :: r)) = (.err (.fileTooLarge (pre.length + m.length)), At v a (hdr ++ mid ++ m ++ post.drop m.length) r) := by
  have hn1 : (Writer.fin pre.length n).hasChild = n.hasChild := by simp only [Writer.fin]; split <;> rfl
  have hn2 : (Writer.fin pre.length n).header.numAttrs = n.header.numAttrs := by simp only [Writer.fin]; split <;> rfl
  have hn3 : (Writer.fin pre.length n).headerPos = n.headerPos := by simp only [Writer.fin]; split <;> rfl
  have ho : TopOk pre.length (n :: r) := by
    intro n' r' h; simp only [List.cons.injEq] at h; obtain ⟨rfl, rfl⟩ := h; exact hc.top
  have hml : m.length ≤ headerSize v.toNat := by rw [← hm]; split <;> simp
  have hfa := (finalizeAttributes_ok_iff v pre post (n :: r) ho () _).mpr rfl
  rw [closeNode_eq, M.bind_val hfa, M.get_bind]
  show (closeRest (Writer.fin pre.length n)) (At v pre post r) = _
  have hmark : ∀ {β : Type} (f : Unit → M WErr Writer β), (if (Writer.fin pre.length n).hasChild = true ∨
      (Writer.fin pre.length n).header.numAttrs = 0 then writeNodeHeader NodeHeader.nodeEnd >>= f else f ()) (At v pre post r) =
      f () (At v (pre ++ m) (post.drop m.length) r) := by
    intro β f
    rw [hn1, hn2]
    by_cases hcc : n.hasChild = true ∨ n.header.numAttrs = 0
    · simp only [hcc, if_true] at hm ⊢
      subst hm
      refine M.bind_val ((writeNodeHeader_ok_iff v pre post r _ () _).mpr ⟨by simp [HeaderFits, NodeHeader.nodeEnd], ?_, ?_⟩) f
      · right; simp; omega
      · simp only [NodeHeader.nodeEnd, ← marker_eq, marker_length]
    · simp only [hcc, if_false] at hm ⊢
      subst hm
      simp
  unfold closeRest
  refine (hmark _).trans ?_
  refine (M.bind_val ((tell_ok_iff v _ _ r _ _).mpr ⟨rfl, rfl⟩) _).trans ?_
  have hpre : pre ++ m = a ++ (hdr ++ mid ++ m) := by rw [hc.pre_eq]; simp
  have hs := (seek_back_ok_iff v a (hdr ++ mid ++ m) (post.drop m.length) r (Writer.fin pre.length n).headerPos (hn3.trans hc.headerPos) () _).mpr rfl
  rw [← hpre] at hs
  have hbb : (((Writer.fin pre.length n).header.numAttrs == 0) == ((Writer.fin pre.length n).header.bytelenAttrs == 0)) = true := by
    simp only [beq_iff_eq]
    by_cases h : (Writer.fin pre.length n).header.numAttrs = 0
    · simp [h, hb.mp h]
    · have : ¬ (Writer.fin pre.length n).header.bytelenAttrs = 0 := fun h' => h (hb.mpr h')
      rw [beq_false_of_ne h, beq_false_of_ne this]
  refine (M.bind_val hs _).trans ?_
  rw [M.assert_bind, hbb]
  simp only [if_true, writeNodeHeader]
  have hv' : (At v a (hdr ++ mid ++ m ++ post.drop m.length) r).version < 7500 := by
    show v < 7500
    rw [UInt32.lt_iff_toNat_lt]; exact hv
  have hlen : (pre ++ m).length = pre.length + m.length := by simp
  simp only [M.bind_assoc', M.get_bind, hv', if_true, hlen, putU32, Nat.not_lt.mpr hl, if_false]
  rfl

/-- `close_node`. -/
theorem closeNode_draft (Z : Zlib) (v : FbxVersion) (d : Draft) (hs : Fine d.unfinished)
    (hp : (d.file v.toNat).length + headerSize v.toNat < 2 ^ 64) :
    closeNode (ofDraft v d) = ((d.act Z v.toNat .closeNode).1, ofDraft v (d.act Z v.toNat .closeNode).2) ∧
      Fine (d.act Z v.toNat .closeNode).2.unfinished ∧
      ((d.act Z v.toNat .closeNode).2.file v.toNat).length ≤ (d.file v.toNat).length + headerSize v.toNat := by
  obtain ⟨fin, us, behind⟩ := d
  cases us with
  | nil => exact ⟨rfl, hs, by simp only [Draft.act]; omega⟩
  | cons u outer =>
    have hsu := hs.sound u (by simp)
    have hso : Fine outer := ⟨fun x hx => hs.sound x (by simp [hx]), fun x hx => hs.nested x (List.mem_of_mem_tail hx)⟩
    have hpo : ∀ x ∈ outer, x.parent = true := hs.nested
    have htop := nodesOf_topOk v.toNat fin (u :: outer)
    have hfn := fin_nodeOf v.toNat fin u outer hsu
    have hz : u.count = 0 ↔ u.attrs.length = 0 := ⟨fun h => by rw [hsu.none h]; rfl, fun h => by have := hsu.count; omega⟩
    have hcons : Consistent (Writer.fin (shownAfter v.toNat fin (u :: outer)).length (nodeOf v.toNat (shownAfter v.toNat fin outer).length u)) := by
      rw [hfn]; exact hz
    have hcond : ((nodeOf v.toNat (shownAfter v.toNat fin outer).length u).hasChild = true ∨
        (nodeOf v.toNat (shownAfter v.toNat fin outer).length u).header.numAttrs = 0) = (u.parent = true ∨ u.count = 0) := rfl
    have hco : CloseOk v (shownAfter v.toNat fin (u :: outer)) (shownAfter v.toNat fin outer)
        (header v.toNat 0 0 0 u.name.length) (u.name ++ u.attrs ++ u.inner) (nodeOf v.toNat (shownAfter v.toNat fin outer).length u) := by
      refine ⟨by simp [shownAfter, Unfinished.shown], rfl, by simp, htop _ _ rfl, ?_⟩
      simp only [Draft.file, shownAfter, Unfinished.shown, List.length_append] at hp
      rw [List.length_append]; omega
    have hlm : (if u.parent = true ∨ u.count = 0 then marker v.toNat else []).length =
        (if u.parent = true ∨ u.count = 0 then headerSize v.toNat else 0) := by split <;> simp
    have hback := closeNode_back v (shownAfter v.toNat fin (u :: outer)) _ _ _ behind _ (nodesOf v.toNat fin outer) hco hcons hp
      (if u.parent = true ∨ u.count = 0 then marker v.toNat else []) rfl
    have hok := fun w' => closeNode_ok_iff v (shownAfter v.toNat fin (u :: outer)) _ _ _ behind _ (nodesOf v.toNat fin outer) hco () w'
    simp only [hfn, hcond] at hok
    have hal : u.attrs.length ≤ (shownAfter v.toNat fin (u :: outer)).length := by
      simp [shownAfter, Unfinished.shown]; omega
    generalize hm : (if u.parent = true ∨ u.count = 0 then marker v.toNat else []) = m at *
    have hmle : m.length ≤ headerSize v.toNat := by rw [← hm]; split <;> simp
    have hact : Draft.act Z v.toNat ⟨fin, u :: outer, behind⟩ .closeNode =
        if v.toNat < 7500 ∧ 2 ^ 32 ≤ (shownAfter v.toNat fin (u :: outer)).length + m.length then
          (.err (.fileTooLarge ((shownAfter v.toNat fin (u :: outer)).length + m.length)),
            ⟨fin, outer, u.shown v.toNat ++ m ++ behind.drop m.length⟩)
        else (.ok (), Draft.add ⟨fin, outer, behind.drop m.length⟩
          (header v.toNat ((shownAfter v.toNat fin (u :: outer)).length + m.length) u.count u.attrs.length u.name.length ++ u.name ++
            u.attrs ++ u.inner ++ m)) := by
      subst hm; rfl
    by_cases hbig : v.toNat < 7500 ∧ 2 ^ 32 ≤ (shownAfter v.toNat fin (u :: outer)).length + m.length
    · rw [hact, if_pos hbig]
      refine ⟨(hback hbig.1 hbig.2).trans ?_, hso, ?_⟩
      · simp [ofDraft, Draft.file, Unfinished.shown]
      · simp only [Draft.file, shownAfter, List.length_append]; omega
    · rw [hact, if_neg hbig]
      refine ⟨(hok _).mpr ⟨?_, ?_, ?_, ?_⟩, fine_add hso hpo, ?_⟩
      · right
        have : (shownAfter v.toNat fin (u :: outer)).length + headerSize v.toNat < 2 ^ 64 := hp
        omega
      · show (u.count == 0) = (u.attrs.length == 0)
        by_cases h : u.count = 0
        · rw [h, hz.mp h]
        · rw [beq_false_of_ne h, beq_false_of_ne (fun h' => h (hz.mpr h'))]
      · intro hv
        have h1 : (shownAfter v.toNat fin (u :: outer)).length + m.length < 2 ^ 32 := by
          apply Nat.lt_of_not_le; intro h; exact hbig ⟨hv, h⟩
        have h2 := hsu.count
        exact ⟨h1, show u.count < 2 ^ 32 by omega, show u.attrs.length < 2 ^ 32 by omega⟩
      · rw [ofDraft, file_add, nodesOf_add, behind_add]
        congr 1
        simp only [List.append_assoc]
      · have := file_add v.toNat fin outer (behind.drop m.length) (header v.toNat ((shownAfter v.toNat fin (u :: outer)).length + m.length)
          u.count u.attrs.length u.name.length ++ u.name ++ u.attrs ++ u.inner ++ m)
        refine Nat.le_trans (Nat.le_of_eq (congrArg List.length this)) ?_
        simp [Draft.file, shownAfter, Unfinished.shown]; omega

/-- A whole history. -/
theorem results_draft (Z : Zlib) (v : FbxVersion) (ops : List Op) : ∀ (d : Draft) (alive : Bool), Fine d.unfinished →
    AliveOk alive d → (d.file v.toNat).length + (ops.map (need Z v.toNat)).sum < 2 ^ 64 →
    ∀ rs t, results Z ⟨ofDraft v d, alive⟩ ops = some (rs, t) →
      rs = (d.acts Z v.toNat ops).1 ∧ t.writer = ofDraft v (d.acts Z v.toNat ops).2 ∧
      ((d.acts Z v.toNat ops).2.file v.toNat).length ≤ (d.file v.toNat).length + (ops.map (need Z v.toNat)).sum := by
  induction ops with
  | nil =>
    intro d alive hf ha hr rs t h
    simp only [results, Option.some.injEq, Prod.mk.injEq] at h
    obtain ⟨rfl, rfl⟩ := h
    exact ⟨rfl, rfl, by simp [Draft.acts]⟩
  | cons o os ih =>
    intro d alive hf ha hr rs t h
    simp only [List.map_cons, List.sum_cons] at hr
    simp only [results] at h
    have key : ∀ (alive1 : Bool), Session.step Z ⟨ofDraft v d, alive⟩ o =
          some ((d.act Z v.toNat o).1, ⟨ofDraft v (d.act Z v.toNat o).2, alive1⟩) → Fine (d.act Z v.toNat o).2.unfinished →
        AliveOk alive1 (d.act Z v.toNat o).2 → ((d.act Z v.toNat o).2.file v.toNat).length ≤ (d.file v.toNat).length + need Z v.toNat o →
        rs = (d.acts Z v.toNat (o :: os)).1 ∧ t.writer = ofDraft v (d.acts Z v.toNat (o :: os)).2 ∧
        ((d.acts Z v.toNat (o :: os)).2.file v.toNat).length ≤ (d.file v.toNat).length + ((o :: os).map (need Z v.toNat)).sum := by
      intro alive1 hstep hf1 ha1 hl1
      rw [hstep] at h
      simp only [Option.map_eq_some_iff, Prod.mk.injEq] at h
      obtain ⟨⟨rs1, t1⟩, h, rfl, rfl⟩ := h
      obtain ⟨g1, g2, g3⟩ := ih _ alive1 hf1 ha1 (by omega) rs1 t1 h
      simp only [Draft.acts, List.map_cons, List.sum_cons]
      exact ⟨by rw [← g1], g2, by omega⟩
    cases o with
    | newNode name =>
      obtain ⟨h1, h2, h3, h4⟩ := newNode_draft Z v d hf name (by simp only [need] at hr; omega)
      exact key _ (by simp only [Session.step, exec, h1]; rfl) h2 h4 h3
    | append a =>
      cases alive with
      | false => simp [Session.step] at h
      | true =>
        obtain ⟨h1, h2, h3, h4⟩ := append_draft Z v d hf a ha (by simp only [need] at hr; omega)
        exact key _ (by simp only [Session.step, exec, h1, if_true]) h2 h4 h3
    | closeNode =>
      obtain ⟨h1, h2, h3⟩ := closeNode_draft Z v d hf (by simp only [need] at hr; omega)
      exact key false (by simp only [Session.step, exec, h1]) h2 (fun h => by cases h) h3

theorem begun_file (v : Nat) (old : Bytes) : (Draft.file v (Draft.begun v old)).length = 27 := by
  have : signature.length = 23 := by decide
  simp [Draft.file, Draft.begun, shownAfter, this]

theorem ofDraft_begun (v : FbxVersion) (old : Bytes) : ofDraft v (Draft.begun v.toNat old) = At v (signature ++ le 4 v.toNat) (old.drop 27) [] := rfl

theorem finalize_draft (v : FbxVersion) (d : Draft) (f : FooterSpec)
    (hp : (d.file v.toNat).length + (marker v.toNat ++ footer v.toNat (footOf f) ((d.file v.toNat).length + headerSize v.toNat)).length < 2 ^ 64) :
    (finalize f (ofDraft v d)).1 = (d.finalized v.toNat f).1 ∧ (finalize f (ofDraft v d)).2.sink.buf = (d.finalized v.toNat f).2 := by
  obtain ⟨fin, us, behind⟩ := d
  cases us with
  | nil =>
    have h := (finalize_ok_iff v fin behind f () _).mpr ⟨.inr hp, rfl⟩
    have h' : finalize f (ofDraft v ⟨fin, [], behind⟩) = _ := h
    rw [h']
    simp only [Draft.finalized, List.isEmpty_nil, if_true, At]
    exact ⟨trivial, trivial⟩
  | cons u outer =>
    have hl : (nodesOf v.toNat fin (u :: outer)).length = (u :: outer).length := by
      clear hp
      generalize u :: outer = us
      induction us with
      | nil => rfl
      | cons u us ih => simp only [nodesOf, List.length_cons, ih]
    have h : finalize f (ofDraft v ⟨fin, u :: outer, behind⟩) =
        (.err (.unclosedNode (nodesOf v.toNat fin (u :: outer)).length), ofDraft v ⟨fin, u :: outer, behind⟩) := rfl
    rw [h, hl]
    exact ⟨rfl, rfl⟩

end Fbx.Writer
