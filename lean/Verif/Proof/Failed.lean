import Verif.Proof.WriterFree
import Verif.Proof.WriterRun
import Verif.Spec.Failed

/-! # Writing goes on after a failed append -/

namespace Fbx.Writer
open Spec

theorem appendArray_left (Z : Zlib) {w : Writer} {n : OpenNode} {r : List OpenNode} (hf : Free w)
    (ho : w.opened = n :: r) (hn : n.header.numAttrs + 1 < 2 ^ 64) (t : AttrType) (enc : Option ArrEnc)
    (items : List (Except WErr Bytes))
    (hp : w.sink.pos + 13 + (payload Z (enc.getD .direct) (okPrefix items)).length < 2 ^ 64)
    (hfail : (firstError items).isSome ∨ 2 ^ 32 ≤ items.length ∨ 2 ^ 32 ≤ (payload Z (enc.getD .direct) (okPrefix items)).length) :
    (appendArray Z t enc items w).2 =
      wrote { w with opened := bump n :: r } (t.typeCode :: arrHdr ⟨0, enc.getD .direct, 0⟩ ++
        arrSoFar Z (enc.getD .direct) (okPrefix items) (decide ((firstError items).isSome ∨ 2 ^ 32 ≤ items.length))) := by
  simp only [appendArray]
  generalize enc.getD .direct = en at *
  have h0 : (arrHdr ⟨0, en, 0⟩).length = 12 := arrHdr_length _
  rw [bind_eq (initializeArray_free hf ho hn t en (by omega)), bind_eq (tell_free (wrote_free _ _)), M.bind_apply,
    writeArrayElements_free Z en items _ _ (by simp only [List.length_cons, h0]; omega), elementsResult_eq]
  cases hfe : firstError items with
  | some e =>
    simp [toRes]
  | none =>
    simp only [Nat.zero_add]
    rw [hfe] at hfail
    simp only [Option.isSome_none, Bool.false_eq_true, false_or] at hfail
    by_cases hc : items.length < 2 ^ 32
    · have hfail := hfail.resolve_left (by omega)
      simp only [hc, if_true, toRes]
      rw [bind_eq (tell_free (wrote_free _ _))]
      have hsf : arrSoFar Z en (okPrefix items) false = payload Z en (okPrefix items) := by cases en <;> rfl
      rw [hsf]
      have hlen : (wrote { w with opened := bump n :: r } (t.typeCode :: arrHdr ⟨0, en, 0⟩ ++ payload Z en (okPrefix items))).sink.pos
          - (wrote { w with opened := bump n :: r } (t.typeCode :: arrHdr ⟨0, en, 0⟩)).sink.pos
          = (payload Z en (okPrefix items)).length := by
        simp; omega
      rw [hlen, if_neg (by omega)]
      rw [decide_eq_false (by simp; omega), hsf]
      rfl
    · simp only [hc, if_false, toRes]
      rw [decide_eq_true (by simp; omega)]

theorem special_left {w : Writer} {n : OpenNode} {r : List OpenNode} (hf : Free w) (ho : w.opened = n :: r)
    (hn : n.header.numAttrs + 1 < 2 ^ 64) (t : AttrType) (m : M WErr Writer Nat) (res : Except WErr Nat) (bs : Bytes)
    (hm : ∀ (w : Writer) (x : Bytes), w.sink.pos + x.length + bs.length < 2 ^ 64 →
      m (wrote w x) = (toRes res, wrote w (x ++ bs)))
    (hp : w.sink.pos + 5 + bs.length < 2 ^ 64) (hfail : ∀ k, res = .ok k → 2 ^ 32 ≤ k) :
    ((initializeSpecial t >>= fun p => m >>= fun len => finalizeSpecial p len) w).2 =
      wrote { w with opened := bump n :: r } (t.typeCode :: leBytes 4 0 ++ bs) := by
  rw [bind_eq (initializeSpecial_free hf ho hn t (by omega)), M.bind_apply, hm _ _ (by simp; omega)]
  cases res with
  | error e => simp [toRes]
  | ok k =>
    simp only [toRes]
    rw [finalizeSpecial, if_neg (by have := hfail k rfl; omega)]
    rfl

theorem charOut_fourEach (cs : List Char) : ∀ buf, charOut buf cs = fourEach buf cs := by
  induction cs with
  | nil => intro buf; rfl
  | cons c cs ih => intro buf; simp only [charOut, fourEach, ih]; rfl

theorem append_left (Z : Zlib) {w : Writer} {n : OpenNode} {r : List OpenNode} (hf : Free w) (ho : w.opened = n :: r)
    (hn : n.header.numAttrs + 1 < 2 ^ 64) (a : Append) (hp : w.sink.pos + volume Z a < 2 ^ 64) (hfail : fails Z a = true) :
    (append Z a w).2 = wrote { w with opened := bump n :: r } (remains Z a) := by
  have harr : ∀ {α : Type} (t : AttrType) (enc : Option ArrEnc) (f : α → Bytes) (items : List (Except WErr α))
      (mk : List α → AttrValue), (∀ l, arrayCount (mk l) = l.length) → (∀ l, arrayData (mk l) = l.flatMap f) →
      w.sink.pos + 13 + (arrayPayload Z ⟨mk (before items), enc.getD .direct⟩).length < 2 ^ 64 →
      (arrayError Z ⟨mk (oks items), enc.getD .direct⟩ items).isSome = true →
      (appendArray Z t enc (elemBytes f items) w).2 =
        wrote { w with opened := bump n :: r } (t.typeCode :: arrHdr ⟨0, enc.getD .direct, 0⟩ ++
          elementsLeft Z ⟨mk (before items), enc.getD .direct⟩ items) := by
    intro α t enc f items mk hc hd hv he
    have hpl : payload Z (enc.getD .direct) (okPrefix (elemBytes f items)) =
        arrayPayload Z ⟨mk (before items), enc.getD .direct⟩ := by
      rw [okPrefix_before]; exact payload_eq Z _ _ _ (hd _)
    rw [appendArray_left Z hf ho hn t enc (elemBytes f items) (by rw [hpl]; exact hv) ?_]
    · rw [firstError_elemBytes, elemBytes_length, okPrefix_before]
      congr 2
      simp only [arrSoFar, elementsLeft, hd]
      cases enc.getD .direct <;> simp
    · rw [firstError_elemBytes, elemBytes_length, hpl]
      cases hfe : firstError items with
      | some e => exact .inl rfl
      | none =>
        right
        simp only [arrayError, hfe, hc, oks_len items hfe, lengthError] at he
        rw [← before_oks items hfe] at he
        split at he
        · split at he
          · cases he
          · right; omega
        · left; omega
  have h0 : leBytes 4 0 = le 4 0 := (le_eq 4 0).symm
  cases a with
  | arrBool enc xs =>
    refine (harr .arrBool enc boolBytes xs .arrBool (fun _ => rfl) (fun _ => (flatMap_singleton_map _ _).symm) ?_ hfail).trans ?_
    · simp [volume, denoteBefore, attrBytes, attrBody] at hp; omega
    · congr 1; simp only [remains, opening, denote, denoteBefore, le_eq]; rfl
  | arrI32 enc xs =>
    refine (harr .arrI32 enc b32Bytes xs .arrI32 (fun _ => rfl) (fun _ => by simp only [arrayData, le_eq]; rfl) ?_ hfail).trans ?_
    · simp [volume, denoteBefore, attrBytes, attrBody] at hp; omega
    · congr 1; simp only [remains, opening, denote, denoteBefore, le_eq]; rfl
  | arrI64 enc xs =>
    refine (harr .arrI64 enc b64Bytes xs .arrI64 (fun _ => rfl) (fun _ => by simp only [arrayData, le_eq]; rfl) ?_ hfail).trans ?_
    · simp [volume, denoteBefore, attrBytes, attrBody] at hp; omega
    · congr 1; simp only [remains, opening, denote, denoteBefore, le_eq]; rfl
  | arrF32 enc xs =>
    refine (harr .arrF32 enc b32Bytes xs .arrF32 (fun _ => rfl) (fun _ => by simp only [arrayData, le_eq]; rfl) ?_ hfail).trans ?_
    · simp [volume, denoteBefore, attrBytes, attrBody] at hp; omega
    · congr 1; simp only [remains, opening, denote, denoteBefore, le_eq]; rfl
  | arrF64 enc xs =>
    refine (harr .arrF64 enc b64Bytes xs .arrF64 (fun _ => rfl) (fun _ => by simp only [arrayData, le_eq]; rfl) ?_ hfail).trans ?_
    · simp [volume, denoteBefore, attrBytes, attrBody] at hp; omega
    · congr 1; simp only [remains, opening, denote, denoteBefore, le_eq]; rfl
  | binaryIter xs =>
    simp [volume, denoteBefore, attrBytes, attrBody] at hp
    refine (special_left hf ho hn .binary (putEach xs 0) (itemsResult xs (oks xs).length) (before xs)
      (fun w x h => by rw [putEach_free xs w x 0 h, Nat.zero_add]) (by omega) ?_).trans ?_
    · intro k hk
      simp only [itemsResult] at hk
      simp only [fails, callError] at hfail
      split at hk
      · cases hk
      · rename_i hfe
        cases hk
        rw [hfe, Option.none_or, lengthError] at hfail
        split at hfail
        · cases hfail
        · omega
    · rw [h0]; rfl
  | stringIter xs =>
    simp only [volume] at hp
    have hcl : (charOut (zeros 4) (before xs)).length = 4 * (before xs).length := charOut_length _ _ (by simp)
    refine (special_left hf ho hn .string (putChars xs (zeros 4) 0) (itemsResult xs (charLen (oks xs)))
      (charOut (zeros 4) (before xs))
      (fun w x h => by rw [putChars_free xs w (zeros 4) x 0 (by simp) (by rw [hcl] at h; exact h), Nat.zero_add]) (by omega) ?_).trans ?_
    · intro k hk
      simp only [itemsResult] at hk
      simp only [fails, callError] at hfail
      split at hk
      · cases hk
      · rename_i hfe
        cases hk
        rw [hfe, Option.none_or, lengthError, strLen_eq] at hfail
        split at hfail
        · cases hfail
        · simp only [charLen]; omega
    · rw [h0, charOut_fourEach]; rfl
  | binaryReader cs e =>
    simp only [volume, denoteBefore, denote, attrBytes, attrBody, List.length_cons, List.length_append, le_length] at hp
    refine (special_left hf ho hn .binary (copyChunks e cs 0)
      (match (generalizing := false) e with | none => .ok (0 + cs.flatten.length) | some e => .error (.io e)) cs.flatten
      (fun w x h => copyChunks_free e cs w x 0 h) (by omega) ?_).trans ?_
    · intro k hk
      cases e with
      | none =>
        cases hk
        simp only [fails, callError, lengthError] at hfail
        split at hfail
        · cases hfail
        · omega
      | some e => cases hk
    · rw [h0]; rfl
  | binary bs =>
    simp only [volume, denoteBefore, denote, attrBytes, attrBody, List.length_cons, List.length_append, le_length] at hp
    have := special_left hf ho hn .binary (put bs >>= fun _ => pure bs.length) (.ok bs.length) bs
      (fun w x h => by rw [bind_eq (put_wrote h)]; rfl) (by omega) (by
        intro k hk
        cases hk
        simp only [fails, callError, lengthError] at hfail
        split at hfail
        · cases hfail
        · omega)
    simp only [M.bind_assoc', M.pure_bind'] at this
    refine Eq.trans this ?_
    rw [h0]; rfl
  | string s =>
    simp only [volume, denoteBefore, denote, attrBytes, attrBody, List.length_cons, List.length_append, le_length, utf8_eq] at hp
    have := special_left hf ho hn .string (put (strBytes s) >>= fun _ => pure (strBytes s).length) (.ok (strBytes s).length) (strBytes s)
      (fun w x h => by rw [bind_eq (put_wrote h)]; rfl) (by omega) (by
        intro k hk
        cases hk
        simp only [fails, callError, lengthError] at hfail
        rw [← utf8_eq]
        split at hfail
        · cases hfail
        · omega)
    simp only [M.bind_assoc', M.pure_bind'] at this
    refine Eq.trans this ?_
    rw [h0]; rfl
  | bool b => cases hfail
  | i16 b => cases hfail
  | i32 b => cases hfail
  | i64 b => cases hfail
  | f32 b => cases hfail
  | f64 b => cases hfail

/-! ## Whole forests -/

theorem attempt_append (Z : Zlib) (v : FbxVersion) (a : Append) (pre post : Bytes) (n : OpenNode) (r : List OpenNode)
    (hn : n.header.numAttrs + 1 < 2 ^ 64) (hm : modest Z a) (hr : pre.length + (adds Z a).length < 2 ^ 63) :
    attempt Z (.append a) (At v pre post (n :: r)) = (.ok (), At v (pre ++ adds Z a) (post.drop (adds Z a).length) (bump n :: r)) := by
  have hvol : (At v pre post (n :: r)).sink.pos + volume Z a < 2 ^ 64 := by
    have := hm.1
    show pre.length + volume Z a < 2 ^ 64
    omega
  obtain ⟨h1, -⟩ := append_free Z (w := At v pre post (n :: r)) rfl rfl hn a hvol
  cases hfl : fails Z a with
  | true =>
    have h2 := append_left Z (w := At v pre post (n :: r)) rfl rfl hn a hvol hfl
    have ha : adds Z a = remains Z a := by simp only [adds, hfl, if_true]
    have hw : wrote { At v pre post (n :: r) with opened := bump n :: r } (remains Z a) =
        At v (pre ++ adds Z a) (post.drop (adds Z a).length) (bump n :: r) := by
      rw [ha]
      simp only [wrote, At, store_at, List.length_append]
    rw [hw] at h2
    simp only [fails] at hfl
    cases hc : callError Z a with
    | none => rw [hc] at hfl; cases hfl
    | some e =>
      rw [hc] at h1
      simp only [attempt]
      rw [show append Z a (At v pre post (n :: r)) = (.err e, At v (pre ++ adds Z a) (post.drop (adds Z a).length) (bump n :: r)) from Prod.ext h1 h2]
  | false =>
    have ha : adds Z a = callBytes Z a := by simp [adds, hfl]
    have hc : callError Z a = none := by
      simp only [fails] at hfl
      cases h : callError Z a with
      | none => rfl
      | some e => rw [h] at hfl; cases hfl
    rw [hc] at h1
    obtain ⟨-, -, -, h2⟩ := (append_ok_iff Z v pre post n r a () _).mp (Prod.ext h1 rfl)
    have hpr : produced Z a = adds Z a := by
      rw [ha]
      exact produced_intact Z a (hm.2 hfl)
    rw [hpr] at h2
    simp only [attempt]
    rw [show append Z a (At v pre post (n :: r)) = (.ok (), At v (pre ++ adds Z a) (post.drop (adds Z a).length) (bump n :: r)) from Prod.ext h1 h2]

theorem careless_cons {Z : Zlib} {o : Op} {ops : List Op} {w w' : Writer} (h : attempt Z o w = (.ok (), w')) :
    careless Z (o :: ops) w = careless Z ops w' := by
  rw [careless]
  exact (M.bind_val h _)

theorem adds_ne (Z : Zlib) (a : Append) : adds Z a ≠ [] := by
  simp only [adds]
  split
  · simp [remains, opening]
  · simp [callBytes, attrBytes]

theorem careless_attrs (Z : Zlib) (v : FbxVersion) (r : List OpenNode) (ops : List Op) (as : List Append) :
    ∀ (pre post : Bytes) (n : OpenNode), n.header.numAttrs ≤ pre.length → (∀ a ∈ as, modest Z a) →
    pre.length + (as.flatMap (adds Z)).length < 2 ^ 63 →
    careless Z (as.map Op.append ++ ops) (At v pre post (n :: r)) =
      careless Z ops (At v (pre ++ as.flatMap (adds Z)) (post.drop (as.flatMap (adds Z)).length) (bumpN as.length n :: r)) := by
  induction as with
  | nil => intro pre post n _ _ _; simp [bumpN]
  | cons a as ih =>
    intro pre post n hn hm hr
    have hp := List.length_pos_iff.mpr (adds_ne Z a)
    simp only [List.flatMap_cons, List.length_append] at hr
    rw [List.map_cons, List.cons_append, careless_cons (attempt_append Z v a pre post n r (by omega) (hm a (by simp)) (by omega)),
      ih _ _ _ (by simp [bump]; omega) (fun x hx => hm x (by simp [hx])) (by rw [List.length_append]; omega)]
    have hb : bumpN as.length (bump n) = bumpN (as.length + 1) n := by simp [bumpN, bump]; omega
    simp only [List.flatMap_cons, List.append_assoc, List.drop_drop, List.length_append, List.length_cons, hb]

theorem careless_forest (Z : Zlib) (v : FbxVersion) (F : Forest Append) :
    ∀ (pre post : Bytes) (o : List OpenNode) (ops : List Op), TopOk pre.length o →
    forestFits v.toNat (adds Z) (modest Z) F pre.length → pre.length + (nodes v.toNat (adds Z) F pre.length).length < 2 ^ 63 →
    careless Z (calls F ++ ops) (At v pre post o) =
      careless Z ops (At v (pre ++ nodes v.toNat (adds Z) F pre.length)
        (post.drop (nodes v.toNat (adds Z) F pre.length).length) (afterOpen F pre.length o)) := by
  induction F with
  | nil => intro pre post o ops _ _ _; simp [calls, nodes, afterOpen, Forest.isNil]
  | cons name attrs ch rest ihc ihr =>
    intro pre post o ops ho hfit hlen
    simp only [forestFits] at hfit
    simp only [nodes] at hlen
    obtain ⟨h1, h4, h0, h9, h6, h10⟩ := hfit
    generalize hnm : utf8 name = nm at *
    generalize hH0 : header v.toNat 0 0 0 nm.length = H0
    have hH0l : H0.length = headerSize v.toNat := by rw [← hH0]; simp
    generalize hn0 : (⟨pre.length, pre.length + headerSize v.toNat + nm.length, ⟨0, 0, 0, nm.length⟩, false, false⟩ :
      OpenNode) = n0
    generalize hat : attrs.flatMap (adds Z) = at' at *
    generalize hco : pre.length + headerSize v.toNat + nm.length + at'.length = coff at *
    generalize hch : nodes v.toNat (adds Z) ch coff = ch' at *
    generalize hmm : (if needsMarker attrs ch = true then marker v.toNat else []) = mm at *
    have hmml : (if needsMarker attrs ch = true then headerSize v.toNat else 0) = mm.length := by
      rw [← hmm]; cases needsMarker attrs ch <;> simp
    rw [hmml] at h0 h9 h10
    generalize hend : coff + ch'.length + mm.length = eoff at *
    simp only [List.length_append, header_length] at hlen
    have hcoff : (pre ++ (H0 ++ nm) ++ at').length = coff := by
      simp [hH0l]; omega
    -- new_node
    have hnew := (newNode_ok_iff v pre post o ho name () _).mpr ⟨by rw [hnm]; exact h1, by
      right; rw [hnm, hH0, List.length_append, hH0l]; omega, rfl⟩
    rw [hnm, hH0, hn0] at hnew
    rw [calls, List.cons_append, careless_cons (o := .newNode name) hnew, List.append_assoc]
    -- attributes
    rw [careless_attrs Z v _ _ attrs _ _ n0 (by subst hn0; simp) h4 (by rw [hat]; simp [hH0l]; omega), hat, List.append_assoc]
    have hno : TopOk (pre ++ (H0 ++ nm) ++ at').length (bumpN attrs.length n0 :: childTop pre.length o) := by
      intro n r h
      simp only [List.cons.injEq] at h
      obtain ⟨rfl, rfl⟩ := h
      right
      rw [hcoff]; subst hn0; simp [bumpN]; omega
    -- children
    rw [ihc _ _ _ _ hno (by rw [hcoff]; exact h6) (by rw [hcoff, hch]; omega), hcoff, hch]
    -- the innermost node when it is closed
    generalize hn1 : (if ch.isNil then bumpN attrs.length n0 else { fin coff (bumpN attrs.length n0) with hasChild := true }) = n1
    have haft : afterOpen ch coff (bumpN attrs.length n0 :: childTop pre.length o) = n1 :: childTop pre.length o := by
      rw [← hn1]; simp only [afterOpen]; cases ch.isNil <;> rfl
    rw [haft]
    have hfinal : (fin (coff + ch'.length) n1).header = ⟨0, attrs.length, at'.length, nm.length⟩ := by
      rw [← hn1]
      cases hcn : ch.isNil with
      | true =>
        have : ch' = [] := by rw [← hch]; cases ch <;> simp_all [Forest.isNil, nodes]
        subst this; subst hn0
        simp [fin, bumpN]; omega
      | false =>
        subst hn0
        simp [fin, bumpN]; omega
    have hmk : (n1.hasChild = true ∨ n1.header.numAttrs = 0) ↔ needsMarker attrs ch = true := by
      rw [← hn1]; subst hn0
      cases hcn : ch.isNil <;> simp [needsMarker, bumpN, hcn]
    have hpl : (pre ++ (H0 ++ nm) ++ at' ++ ch').length = coff + ch'.length := by simp [hH0l]; omega
    have hH0ne : H0 ≠ [] := by intro h; simp [h] at hH0l; have := headerSize_pos v.toNat; omega
    have hlast : CloseOk v (pre ++ (H0 ++ nm) ++ at' ++ ch') pre H0 (nm ++ at' ++ ch') n1 := by
      refine ⟨by simp, ?_, hH0l, ?_, ?_⟩
      · rw [← hn1]; subst hn0; cases ch.isNil <;> simp [bumpN, fin]
      · rw [← hn1]; subst hn0; rw [hpl]
        cases ch.isNil
        · left; simp [fin_finalized]
        · right; simp [bumpN]; omega
      · rw [List.length_append, hH0l]; omega
    have hzz : ((attrs.length == 0) = (at'.length == 0)) := by
      cases attrs with
      | nil => rw [← hat]; rfl
      | cons a as =>
        have := List.length_pos_iff.mpr (adds_ne Z a)
        have : ¬ at'.length = 0 := by rw [← hat]; simp; intro h; rw [h] at this; simp at this
        simp only [List.length_cons, beq_eq_false_iff_ne.mpr this]
        rfl
    have hclose : ∀ post, closeNode (At v (pre ++ (H0 ++ nm) ++ at' ++ ch') post (n1 :: childTop pre.length o)) =
        (.ok (), At v (pre ++ (header v.toNat eoff attrs.length at'.length nm.length ++ nm ++ at' ++ ch' ++ mm))
          (post.drop mm.length) (childTop pre.length o)) := by
      intro post
      rw [closeNode_ok_iff v _ pre H0 (nm ++ at' ++ ch') post n1 _ hlast]
      simp only [hmk, hmm, hpl, hfinal, hzz, hend, true_and]
      refine ⟨?_, h9, by simp only [List.append_assoc]⟩
      right; rw [hpl]; omega
    rw [List.cons_append, careless_cons (o := .closeNode) (hclose _)]
    have hpost : (pre ++ (header v.toNat eoff attrs.length at'.length nm.length ++ nm ++ at' ++ ch' ++ mm)).length = eoff := by
      simp; omega
    rw [ihr _ _ _ _ (childTop_topOk _ _ _) (by rw [hpost]; exact h10) (by rw [hpost]; omega), hpost]
    simp only [afterOpen, childTop_childTop, ite_self, nodes, hnm, hat, hco, hch, hmm, hend, Forest.isNil, Bool.false_eq_true, if_false]
    congr 2
    · simp only [List.append_assoc]
    · simp only [List.drop_drop, List.length_append, header_length]

/-- The whole session. -/
theorem careless_session (Z : Zlib) (s : Sink) (hs : s.fault = fun _ => none) (v : FbxVersion) (hv : supported v.toNat) (F : Forest Append)
    (f : FooterSpec) (hfit : forestFits v.toNat (adds Z) (modest Z) F 27) (hlen : (document v.toNat (adds Z) F (footOf f)).length < 2 ^ 63) :
    carelessSession Z s v (calls F) f = (.ok (), ⟨document v.toNat (adds Z) F (footOf f) ++
          s.buf.drop (document v.toNat (adds Z) F (footOf f)).length,
        (document v.toNat (adds Z) F (footOf f)).length, fun _ => none⟩) := by
  have hsig : (signature ++ le 4 v.toNat).length = 27 := by
    have : signature.length = 23 := by decide
    simp [this]
  have hw := (new_ok_iff s hs v _ _).mpr ⟨hv, rfl, rfl⟩
  rw [body_eq] at hlen ⊢
  generalize hA : signature ++ le 4 v.toNat ++ nodes v.toNat (adds Z) F 27 = A at *
  have hAl : A.length = 27 + (nodes v.toNat (adds Z) F 27).length := by rw [← hA, List.length_append, hsig]
  have hfin : ∀ (w' : Writer), finalize f (At v A (s.buf.drop A.length) []) = (.ok (), w') ↔ _ := fun w' => finalize_ok_iff v A (s.buf.drop A.length) f () w'
  generalize hB : marker v.toNat ++ footer v.toNat (footOf f) (A.length + headerSize v.toNat) = B at *
  have hrun : careless Z (calls F) (At v (signature ++ le 4 v.toNat) (s.buf.drop 27) []) = (.ok (), At v A (s.buf.drop A.length) []) := by
    have := careless_forest Z v F (signature ++ le 4 v.toNat) (s.buf.drop 27) [] [] (by intro n r h; simp at h)
      (by rw [hsig]; exact hfit) (by rw [hsig]; simp only [List.length_append] at hlen; omega)
    rw [List.append_nil, hsig, hA] at this
    rw [this, careless]
    have ha : afterOpen F 27 [] = [] := by simp only [afterOpen]; split <;> rfl
    rw [ha, List.drop_drop, ← hAl]
    rfl
  have h2 := (hfin _).mpr ⟨.inr (by simpa using (by omega : (A ++ B).length < 2 ^ 64)), rfl⟩
  simp only [carelessSession, hw]
  rw [M.bind_val hrun, h2]
  simp only [At, List.drop_drop, List.length_append]

end Fbx.Writer
