import Verif.Proof.AnyLoader
import Verif.Spec.Standing

/-! # Any calls on any bytes with any handlers -/

namespace Fbx
open Reader Parser Spec
open Writer (le_eq)
variable {α : Type} {Z : Zlib}

/-! ## The footer -/

theorem zeros_all (n : Nat) : (List.replicate n (0 : Byte)).all (· = 0) = true := by simp

/-- The fields between the first one and the tail. -/
theorem footer_fields {X : Bytes} {i : Nat} {v : FbxVersion} (hX : X.length = i + 128) :
    X = List.replicate i 0 ++ [0, 0, 0, 0] ++ le 4 v.toNat ++ List.replicate 120 0 ↔
      (X.take i).all (· = 0) = true ∧ (X.drop i).take 4 = zeros 4 ∧ UInt32.ofNat (fromLe ((X.drop (i + 4)).take 4)) = v ∧
        ((X.drop (i + 8)).take 120).all (· = 0) = true := by
  have hl4 : (le 4 v.toNat).length = 4 := by simp [le_eq]
  have h1 : (X.take i).length = i := by rw [List.length_take]; omega
  have h2 : ((X.drop i).take 4).length = 4 := by rw [List.length_take, List.length_drop]; omega
  have h3 : ((X.drop (i + 4)).take 4).length = 4 := by rw [List.length_take, List.length_drop]; omega
  have h4 : ((X.drop (i + 8)).take 120).length = 120 := by rw [List.length_take, List.length_drop]; omega
  have hsplit : X.take i ++ (X.drop i).take 4 ++ (X.drop (i + 4)).take 4 ++ (X.drop (i + 8)).take 120 = X := by
    have e : (X.drop (i + 8)).take 120 = X.drop (i + 8) := List.take_of_length_le (by rw [List.length_drop]; omega)
    have s2 := split_at (i + 4) 4 X
    have s3 := split_at i 4 X
    rw [e]
    simp only [List.append_assoc, Nat.add_assoc] at s2 s3 ⊢
    rw [s2, s3, List.take_append_drop]
  have hver : (UInt32.ofNat (fromLe ((X.drop (i + 4)).take 4)) = v) ↔ (X.drop (i + 4)).take 4 = le 4 v.toNat := by
    have hlt := fromLe_lt ((X.drop (i + 4)).take 4)
    have hb := leBytes_fromLe ((X.drop (i + 4)).take 4)
    rw [h3] at hlt hb
    constructor
    · intro h
      rw [le_eq, ← hb, ← h]
      congr 1
      simp only [UInt32.toNat_ofNat']
      omega
    · intro h
      rw [h, le_eq, fromLe_leBytes (by have := v.toNat_lt; omega)]
      exact UInt32.ofNat_toNat
  rw [hver]
  have hz : ∀ (b : Bytes) (n : Nat), b.length = n → (b.all (· = 0) = true ↔ b = List.replicate n 0) := by
    intro b n hb
    constructor
    · intro h; rw [← hb]; exact all_zero_eq h
    · intro h; rw [h]; exact zeros_all n
  rw [hz _ _ h1, hz _ _ h4]
  constructor
  · intro h
    have e := hsplit.trans h
    obtain ⟨e, e4⟩ := List.append_inj' e (by rw [h4, List.length_replicate])
    obtain ⟨e, e3⟩ := List.append_inj' e (by rw [h3, hl4])
    obtain ⟨e1, e2⟩ := List.append_inj' e (by rw [h2]; rfl)
    exact ⟨e1, e2, e3, e4⟩
  · rintro ⟨a1, a2, a3, a4⟩
    rw [← hsplit, a1, a2, a3, a4]
    rfl

theorem warnIf_any (c : Bool) (w : Warning) (pos : SynPos) (p : Parser) : warnIf c w pos p =
    (match objection p.handler p.log (if c then some (w, pos) else none) with | none => .ok () | some k => .err ⟨k, some pos⟩,
      { p with log := (if c then some (w, pos) else none : Option (Warning × SynPos)).toList ++ p.log }) := by
  cases c with
  | false =>
    simp only [Bool.false_eq_true, if_false, objection_none]
    rfl
  | true => exact warn_any w pos p

/-- What `readFooter` leaves behind. -/
def FooterLeft (p : Parser) (r : Except PErr Footer × List (Warning × SynPos) × Nat) (x : Except PErr Footer) (q : Parser) : Prop :=
  r.1 = x ∧ q = { p with reader := p.reader.consume r.2.2, log := r.2.1 }

theorem readFooter_any {p : Parser} (h : p.reader.position + p.reader.rest.length < 2 ^ 64) :
    M.wp readFooter (fun f q => FooterLeft p (footerHeard p.handler p.version.toNat (look p) p.log) (.ok f) q)
      (fun e q => FooterLeft p (footerHeard p.handler p.version.toNat (look p) p.log) (.error e) q) (fun _ _ => False) p := by
  have e1 : (look p).bytes = p.reader.rest := rfl
  have e2 : (look p).pos = p.reader.position := rfl
  have e3 : (look p).eof = p.reader.ending.getD .unexpectedEof := rfl
  simp only [footerHeard, e1, e2, e3]
  simp only [readFooter, M.wp_bind, M.wp_get]
  by_cases h16 : p.reader.rest.length < 16
  · refine wp_of (io_fail (readExact_dry h16 h)) ?_
    simp only [if_neg (show ¬ (16 ≤ p.reader.rest.length ∧ ¬ usualField1 (p.reader.rest.take 16)) from fun x => by omega), objection_none]
    rw [footerFound, if_pos (by omega)]
    exact ⟨rfl, rfl⟩
  refine wp_of (io_exact (readExact_room h (List.take_append_drop 16 _).symm (by simp; omega))) ?_
  simp only [M.wp_bind, M.wp_get]
  have hodd : (if footerField1Odd (p.reader.rest.take 16) = true then
        some ((.unexpectedFooterField : Warning), (⟨p.reader.position, p.reader.position, [], none⟩ : SynPos)) else none) =
      if 16 ≤ p.reader.rest.length ∧ ¬ usualField1 (p.reader.rest.take 16) then some (.unexpectedFooterField, ⟨p.reader.position, p.reader.position, [], none⟩) else none := by
    have := odd_iff (p.reader.rest.take 16) (by simp; omega)
    rcases hc : footerField1Odd (p.reader.rest.take 16) with _ | _
    · rw [if_neg (by simp), if_neg (fun x => x.2 (this.mp hc))]
    · rw [if_pos rfl, if_pos ⟨by omega, fun x => by rw [this.mpr x] at hc; cases hc⟩]
  have hpos : (p.reader.consume 16).position - 16 = p.reader.position := by simp
  have hpos' : (p.reader.consume 16).position = p.reader.position + 16 := rfl
  refine wp_of (warnIf_any _ _ _ { p with reader := p.reader.consume 16 }) ?_
  simp only [hpos]
  rw [hodd]
  generalize (if 16 ≤ p.reader.rest.length ∧ ¬ usualField1 (p.reader.rest.take 16) then
    some ((.unexpectedFooterField : Warning), (⟨p.reader.position, p.reader.position, [], none⟩ : SynPos)) else none) = odd
  generalize odd.toList ++ p.log = lg
  cases objection p.handler p.log odd with
  | some k => exact ⟨rfl, by simp only [consume_consume]⟩
  | none =>
  simp only [M.wp_bind]
  unfold footerFound
  by_cases h160 : p.reader.rest.length < 160
  · refine wp_of (io_fail (readExact_dry (by simp; omega) (by simp; omega))) ?_
    rw [if_pos h160]
    refine ⟨rfl, ?_⟩
    simp only [consume_consume, consume_rest, List.length_drop]
    rw [show 16 + (p.reader.rest.length - 16) = p.reader.rest.length by omega]
  rw [if_neg h160]
  refine wp_of (io_exact (readExact_room (by simp; omega) (List.take_append_drop 144 _).symm (by simp; omega))) ?_
  have hbuf : List.take 144 (p.reader.consume 16).rest = (p.reader.rest.drop 16).take 144 := rfl
  have hb128 : ((p.reader.rest.drop 16).take 144).drop 128 = (p.reader.rest.drop 144).take 16 := by
    rw [List.drop_take, List.drop_drop]
  have hbl : ((p.reader.rest.drop 16).take 144).length = 144 := by simp; omega
  simp only [hbuf, hb128]
  cases hi : ((p.reader.rest.drop 144).take 16).findIdx? (fun x => decide (x ≠ 0)) with
  | none => exact ⟨rfl, by simp only [consume_consume]⟩
  | some i =>
    have hi16 : i < 16 := by
      have := (List.findIdx?_eq_some_iff_findIdx_eq.mp hi).1
      rw [List.length_take] at this
      omega
    have hmod : (128 + i) % 16 = i := by omega
    simp only [M.wp_bind, M.wp_assert]
    simp only [M.wp_ite, M.wp_throw, M.wp_bind, M.wp_get, hmod]
    rw [if_pos (by simp; omega), if_pos (by simp; omega)]
    have hX : ((p.reader.rest.drop 16).take (i + 128)).length = i + 128 := by simp; omega
    have hff := footer_fields (v := p.version) hX
    have t1 : ((p.reader.rest.drop 16).take (i + 128)).take i = ((p.reader.rest.drop 16).take 144).take i := by
      rw [List.take_take, List.take_take]; congr 1; omega
    have td : ∀ j k, j + k ≤ i + 128 → (((p.reader.rest.drop 16).take (i + 128)).drop j).take k = (((p.reader.rest.drop 16).take 144).drop j).take k := by
      intro j k hjk
      rw [List.drop_take, List.drop_take, List.take_take, List.take_take]; congr 1; omega
    rw [t1, td i 4 (by omega), td (i + 4) 4 (by omega), td (i + 8) 120 (by omega)] at hff
    by_cases hm : (p.reader.rest.drop 16).take (i + 128) = List.replicate i 0 ++ [0, 0, 0, 0] ++ le 4 p.version.toNat ++ List.replicate 120 0
    · obtain ⟨g1, g2, g3, g4⟩ := hff.mp hm
      rw [if_neg (by simp only [g1, not_true, not_false_eq_true]), if_neg (by simp only [g2, ne_eq, not_true, not_false_eq_true]),
        if_neg (by simp only [g3, ne_eq, not_true, not_false_eq_true]), if_neg (by simp only [g4, not_true, not_false_eq_true])]
      simp only [hm, ne_eq, not_true, if_false]
      have hpl : 16 - (((p.reader.rest.drop 16).take 144).drop (i + 128)).length = i := by rw [List.length_drop, hbl]; omega
      rw [hpl]
      by_cases hl : p.reader.rest.length < 160 + i
      · refine wp_of (io_fail (readExact_dry (by simp; omega) (by simp; omega))) ?_
        rw [if_pos hl]
        refine ⟨rfl, ?_⟩
        simp only [consume_consume, consume_rest, List.length_drop]
        rw [show 16 + 144 + (p.reader.rest.length - (16 + 144)) = p.reader.rest.length by omega]
      rw [if_neg hl]
      refine wp_of (io_exact (readExact_room (by simp; omega) (List.take_append_drop i _).symm (by simp; omega))) ?_
      have htail : ((p.reader.rest.drop 16).take 144).drop (i + 128) ++ List.take i ((p.reader.consume 16).consume 144).rest =
          (p.reader.rest.drop (144 + i)).take 16 := by
        simp only [consume_consume, consume_rest]
        rw [List.drop_take, List.drop_drop, show 16 + (i + 128) = 144 + i by omega, show 144 - (i + 128) = 16 - i by omega]
        have : (p.reader.rest.drop (144 + i)).take 16 = (p.reader.rest.drop (144 + i)).take ((16 - i) + i) := by congr 1; omega
        rw [this, List.take_add, List.drop_drop, show 144 + i + (16 - i) = 16 + 144 by omega]
      simp only [M.wp_ite, M.wp_throw, M.wp_bind]
      rw [htail]
      by_cases hu : (p.reader.rest.drop (144 + i)).take 16 = footerUnknown3
      · have hu' : (p.reader.rest.drop (144 + i)).take 16 = [0xf8, 0x5a, 0x8c, 0x6a, 0xde, 0xf5, 0xd9, 0x7e, 0xec, 0xe9, 0x0c, 0xe3, 0x75, 0x8f, 0x29, 0x0b] := hu
        rw [if_neg (by simp only [hu, ne_eq, not_true, not_false_eq_true])]
        simp only [hu', not_true, if_false]
        refine wp_of (warnIf_any _ _ _ { p with reader := ((p.reader.consume 16).consume 144).consume i, log := lg }) ?_
        have hp : expectedPadding (p.reader.position + 16) = (16 - (p.reader.position + 16) % 16) % 16 := rfl
        simp only [hpos', hp, decide_eq_true_eq]
        cases objection p.handler lg (if ¬ i = (16 - (p.reader.position + 16) % 16) % 16 then
              some ((.invalidFooterPadding ((16 - (p.reader.position + 16) % 16) % 16) i : Warning), (⟨p.reader.position + 16, p.reader.position, [], none⟩ : SynPos)) else none) with
        | some k => exact ⟨rfl, by simp only [consume_consume]⟩
        | none =>
          refine ⟨?_, by simp only [consume_consume]⟩
          simp only [g2, g3, UInt32.ofNat_toNat]
          rfl
      · have hu' : (p.reader.rest.drop (144 + i)).take 16 ≠ [0xf8, 0x5a, 0x8c, 0x6a, 0xde, 0xf5, 0xd9, 0x7e, 0xec, 0xe9, 0x0c, 0xe3, 0x75, 0x8f, 0x29, 0x0b] := hu
        rw [if_pos hu]
        simp only [hu', not_false_eq_true, if_true]
        exact ⟨rfl, by simp only [consume_consume]⟩
    · simp only [ne_eq, hm, not_false_eq_true, if_true]
      have hbroken : FooterLeft p (.error ⟨.data .brokenFbxFooter, none⟩, lg, 160) (.error (PErr.ofData .brokenFbxFooter))
          { p with reader := (p.reader.consume 16).consume 144, log := lg } := ⟨rfl, by simp only [consume_consume]⟩
      split
      · exact hbroken
      rename_i g1
      split
      · exact hbroken
      rename_i g2
      split
      · exact hbroken
      rename_i g3
      split
      · exact hbroken
      rename_i g4
      exact absurd (hff.mpr ⟨by simpa using g1, by simpa using g2, by simpa using g3, by simpa using g4⟩) hm

/-! ## `next_event` -/

theorem start_warning (a : Ahead) (c : Bool) : (a.start c).2.1 = if (headerAt a.width a.bytes).nameLen = 0 then
    some (.emptyNodeName, ⟨a.pos + (3 * a.width + 1), a.pos, pathOf a.top a.opened ++ [(a.siblings, "")], none⟩) else none := by
  simp only [Ahead.start]
  split
  · rfl
  · split
    · rfl
    · split <;> rfl

/-- The handler objects to a warning: that is the error, and `b` lies ahead. -/
def Halts (p : Parser) (w : Warning) (pos : SynPos) (k : ErrKind) (b : Ahead) (m : M PErr Parser EvKind) (p' : Parser) : Prop :=
  M.wp m (fun _ _ => False) (fun e q => e = ⟨k, some pos⟩ ∧ LeftIn p (some (w, pos)) b q) (fun _ _ => False) p'

theorem Halts.reader {p p' : Parser} {r : Reader} {w : Warning} {pos : SynPos} {k : ErrKind} {b : Ahead} {m : M PErr Parser EvKind}
    (h : Halts { p with reader := r } w pos k b m p') : Halts p w pos k b m p' :=
  M.wp_mono h (fun _ _ h => h) (fun _ _ h => ⟨h.1, h.2.1, h.2.2⟩) (fun _ _ h => h)

theorem warn_objected {p : Parser} {w : Warning} {pos : SynPos} {k : ErrKind} (h : objection p.handler p.log (some (w, pos)) = some k) :
    warn w pos p = (.err ⟨k, some pos⟩, { p with log := (w, pos) :: p.log }) := by
  rw [warn_any, h]

/-- The handler objects to what is found in a node header or an end marker. -/
theorem objects_header {p : Parser} (hroom : p.reader.position + p.reader.rest.length < 2 ^ 64) (htop : p.started ≠ [] → p.toplevel ≠ 0)
    {w : Warning} {pos : SynPos} {k : ErrKind} (hx : ((look p).header p.checks).2.1 = some (w, pos)) (hob : objection p.handler p.log (some (w, pos)) = some k) :
    Halts p w pos k ((look p).noticed w) (do
      let h ← readNodeHeader
      if h.isNodeEnd then explicitEnd else startNode p.reader.position h) p := by
  have e1 : (look p).bytes = p.reader.rest := rfl
  have e3 : (look p).width = headWidth p.version := rfl
  have e5 : (look p).opened = p.started := rfl
  rw [Ahead.header, e1, e3, e5] at hx
  by_cases hs : p.reader.rest.length < 3 * headWidth p.version + 1
  · rw [if_pos hs] at hx; cases hx
  rw [if_neg hs] at hx
  unfold Halts
  rw [M.wp_bind]
  refine wp_of (readNodeHeader_exact (by omega) (by omega)) ?_
  simp only [M.wp_ite]
  by_cases hm : headerAt (headWidth p.version) p.reader.rest = .nodeEnd
  · rw [if_pos hm] at hx
    rw [if_pos ((isNodeEnd_iff _).mpr hm)]
    rw [explicitEnd, M.wp_bind, M.wp_get]
    obtain ⟨v, he, st, la, tl, rd, hd, lg, ch⟩ := p
    cases st with
    | nil => cases hx
    | cons n outer =>
      simp only at hx
      simp only [M.wp_bind, M.wp_set, M.wp_ite, M.wp_throw]
      by_cases hne : n.endOff ≠ ((look ⟨v, he, n :: outer, la, tl, rd, hd, lg, ch⟩).move (3 * headWidth v + 1)).pos
      · rw [if_pos hne] at hx; cases hx
      rw [if_neg hne] at hx
      have hne' : ¬ n.endOff ≠ (rd.consume (3 * headWidth v + 1)).position := hne
      simp only [if_neg hne']
      by_cases hw : n.attrCount ≠ 0 ∧ n.kids = 0
      · rw [if_pos hw] at hx
        simp only [Option.some.injEq, Prod.mk.injEq] at hx
        obtain ⟨rfl, rfl⟩ := hx
        simp only [if_pos hw]
        refine wp_of (position_ok (p := ⟨v, he, outer, la, tl, rd.consume (3 * headWidth v + 1), hd, lg, ch⟩) (fun _ => htop (by simp))) ?_
        simp only [M.wp_bind]
        rw [synPos_here]
        refine wp_of (warn_objected (p := ⟨v, he, outer, la, tl, rd.consume (3 * headWidth v + 1), hd, lg, ch⟩) hob) ?_
        exact ⟨rfl, rfl, _, rfl⟩
      · rw [if_neg hw] at hx; cases hx
  · rw [if_neg hm] at hx
    rw [if_neg (fun x => hm ((isNodeEnd_iff _).mp x))]
    rw [start_warning, e1, e3] at hx
    by_cases h0 : (headerAt (headWidth p.version) p.reader.rest).nameLen = 0
    · rw [if_pos h0] at hx
      simp only [Option.some.injEq, Prod.mk.injEq] at hx
      obtain ⟨rfl, rfl⟩ := hx
      unfold startNode
      simp only [M.wp_ite]
      rw [if_pos h0, M.wp_bind]
      have hwarn := warnEmptyName_eq (p := { p with reader := p.reader.consume (3 * headWidth p.version + 1) }) htop p.reader.position
      have hwarn' := warn_objected (p := { p with reader := p.reader.consume (3 * headWidth p.version + 1) }) hob
      refine wp_of (hwarn.trans hwarn') ?_
      exact ⟨rfl, rfl, _, rfl⟩
    · rw [if_neg h0] at hx; cases hx

/-- The handler objects to a warning of the core of `next_event`. -/
theorem objects_impl {L : Nat} (hL : L < 2 ^ 64) {p : Parser} (hp : PInv L p) (hrun : p.health = .running) (hlast : p.last ≠ some .endFbx)
    (hk : ∀ n outer, p.started = n :: outer → (p.last = some .endNode ↔ n.kids ≠ 0)) {w : Warning} {pos : SynPos} {k : ErrKind}
    (hw : ((look p).nextFrom p.reader.skipping p.reader.ending p.checks).2.1 = some (w, pos)) (hob : objection p.handler p.log (some (w, pos)) = some k) :
    Halts p w pos k (((look p).skip p.reader.skipping p.reader.ending (look p).unread).2.noticed w) nextEventImpl p := by
  have hroom := room hL hp.reader
  unfold Halts
  simp only [nextEventImpl, M.wp_bind, M.wp_get, M.wp_assert, hrun, hlast, ne_eq, not_false_eq_true, decide_true, if_true]
  obtain ⟨v, he, st, la, tl, rd, hd, lg, ch⟩ := p
  cases st with
  | nil =>
    refine wp_of (r := .ok ()) (s' := ⟨v, he, [], la, tl, rd, hd, lg, ch⟩) rfl ?_
    simp only [M.wp_bind, M.wp_get]
    refine wp_of (r := .ok false) (s' := ⟨v, he, [], la, tl, rd, hd, lg, ch⟩) rfl ?_
    have hu : (look ⟨v, he, [], la, tl, rd, hd, lg, ch⟩).unread = 0 := rfl
    have : (look ⟨v, he, [], la, tl, rd, hd, lg, ch⟩).nextFrom rd.skipping rd.ending ch = (look ⟨v, he, [], la, tl, rd, hd, lg, ch⟩).header ch := by
      rw [Ahead.nextFrom, hu, skip_zero]
      rfl
    simp only [this] at hw
    rw [hu, skip_zero]
    exact objects_header (p := ⟨v, he, [], la, tl, rd, hd, lg, ch⟩) hroom hp.top hw hob
  | cons n outer =>
    have hb := (hp.ends n (by simp)).2.1
    have hkk := hk n outer rfl
    simp only at hkk hroom
    obtain ⟨x, r, hskip, hr, hx⟩ : ∃ x r, skipUnreadAttributes ⟨v, he, n :: outer, la, tl, rd, hd, lg, ch⟩ =
        (match x with | none => .ok () | some x => .err (PErr.ofIo x), ⟨v, he, n :: outer, la, tl, r, hd, lg, ch⟩) ∧ RInv L r ∧
        (look ⟨v, he, n :: outer, la, tl, rd, hd, lg, ch⟩).skip rd.skipping rd.ending (n.attrEnd - rd.position) =
          (x, look ⟨v, he, n :: outer, la, tl, r, hd, lg, ch⟩) := by
      rw [skipUnreadAttributes, M.get_bind]
      simp only [M.ite_apply]
      by_cases hg : n.attrEnd > rd.position
      · rw [if_pos hg]
        obtain ⟨x, r, h1, h2, h3, h4⟩ := skipTo_skips ⟨v, he, n :: outer, la, tl, rd, hd, lg, ch⟩ hp.reader n.attrEnd (Nat.le_of_lt hg) hb
        refine ⟨x, r, ?_, h3, h4⟩
        cases x with
        | none => exact io_exact (p := ⟨v, he, n :: outer, la, tl, rd, hd, lg, ch⟩) h1
        | some x => exact io_fail (p := ⟨v, he, n :: outer, la, tl, rd, hd, lg, ch⟩) h1
      · rw [if_neg hg]
        refine ⟨none, rd, rfl, hp.reader, ?_⟩
        rw [show n.attrEnd - rd.position = 0 by omega, skip_zero]
    have hroom' := room hL hr
    have hun : (look ⟨v, he, n :: outer, la, tl, rd, hd, lg, ch⟩).unread = n.attrEnd - rd.position := rfl
    simp only [Ahead.nextFrom, hun, hx] at hw ⊢
    refine wp_of hskip ?_
    cases x with
    | some x => cases hw
    | none =>
    simp only [M.wp_bind, M.wp_get]
    simp only [tryImplicitEnd, M.wp_bind, M.wp_get, M.wp_ite, M.wp_throw]
    have hnext : (look ⟨v, he, n :: outer, la, tl, r, hd, lg, ch⟩).resume ch =
        (if n.endOff < r.position then
          (.fails (.data (.nodeLengthMismatch n.endOff none)), none, look ⟨v, he, n :: outer, la, tl, r, hd, lg, ch⟩)
        else if n.endOff = r.position then
          (.ends, if n.kids ≠ 0 ∨ n.attrCount = 0 then some (.missingNodeEndMarker, (look ⟨v, he, n :: outer, la, tl, r, hd, lg, ch⟩).here) else none,
            look ⟨v, he, outer, la, tl, r, hd, lg, ch⟩)
        else (look ⟨v, he, n :: outer, la, tl, r, hd, lg, ch⟩).header ch) := rfl
    simp only [hnext] at hw
    by_cases h1 : n.endOff < r.position
    · rw [if_pos h1] at hw; cases hw
    rw [if_neg h1] at hw
    rw [if_neg h1]
    by_cases h2 : n.endOff = r.position
    · rw [if_pos h2] at hw
      rw [if_pos h2]
      by_cases h3 : n.kids ≠ 0 ∨ n.attrCount = 0
      · have h3' : la = some EvKind.endNode ∨ ¬ n.attrCount ≠ 0 := by
          rcases h3 with h3 | h3
          · exact .inl (hkk.mpr h3)
          · exact .inr (by simp [h3])
        simp only [if_pos h3] at hw
        simp only [Option.some.injEq, Prod.mk.injEq] at hw
        obtain ⟨rfl, rfl⟩ := hw
        simp only [if_pos h3']
        refine wp_of (position_ok (p := ⟨v, he, n :: outer, la, tl, r, hd, lg, ch⟩) hp.top) ?_
        simp only [M.wp_bind]
        rw [synPos_here]
        refine wp_of (warn_objected (p := ⟨v, he, n :: outer, la, tl, r, hd, lg, ch⟩) hob) ?_
        exact ⟨rfl, rfl, _, rfl⟩
      · simp only [if_neg h3] at hw; cases hw
    · rw [if_neg h2] at hw
      rw [if_neg h2]
      exact Halts.reader (p := ⟨v, he, n :: outer, la, tl, rd, hd, lg, ch⟩)
        (objects_header (p := ⟨v, he, n :: outer, la, tl, r, hd, lg, ch⟩) hroom' hp.top hw hob)

/-! ## The calls -/

/-- The client stands where the machine says. Once the parser is not running, the offset of the next attribute is of no use. -/
structure Stands (s : Client) (d : Standing) : Prop where
  look : Spec.look s.parser = d.ahead
  health : s.parser.health = d.health
  warned : s.parser.log = d.warned
  handler : s.parser.handler = d.handler
  used : s.parser.isUsed = d.used
  counts : s.attrs.map (fun a => (a.total, a.rest)) = d.attrs.map (fun a => (a.total, a.rest))
  attrs : s.parser.health = .running → s.attrs = d.attrs

/-- The source, the version and the build. -/
structure InSetting (p : Parser) (f : Setting) : Prop where
  version : p.version = f.version
  checks : p.checks = f.checks
  skips : p.reader.skipping = f.skips
  ends : p.reader.ending = f.ends

theorem next_stands {L : Nat} (hL : L + 2 ^ 32 ≤ 2 ^ 64) {s : Client} {d : Standing} {f : Setting} (hi : CInv L s) (hf : InSetting s.parser f) (h : Stands s d)
    (hk : s.parser.health = .running → ∀ n outer, s.parser.started = n :: outer → (s.parser.last = some .endNode ↔ n.kids ≠ 0)) :
    ∃ o t, s.call Z (.next : Call α) = some (o, t) ∧ (d.next f : Outcome α × Standing).1 = o ∧
      ((∀ x, o ≠ .panic x) → Stands t (d.next f : Outcome α × Standing).2) := by
  cases hh : s.parser.health with
  | finished =>
    have hn : nextEvent s.parser = (.err (PErr.ofOp .alreadyFinished), s.parser) := by
      rw [nextEvent, M.get_bind]
      exact bind_err (by simp only [ensureContinuable, hh])
    have hd : d.health = .finished := by rw [← h.health, hh]
    simp only [Client.call, hn, Standing.next, hd]
    refine ⟨_, _, rfl, rfl, fun _ => ⟨h.look, hh, h.warned, h.handler, h.used, rfl, fun _ => rfl⟩⟩
  | aborted pos =>
    have hn : nextEvent s.parser = (.err ⟨.op .alreadyAborted, some pos⟩, s.parser) := by
      rw [nextEvent, M.get_bind]
      exact bind_err (by simp only [ensureContinuable, hh])
    have hd : d.health = .aborted pos := by rw [← h.health, hh]
    simp only [Client.call, hn, Standing.next, hd]
    refine ⟨_, _, rfl, rfl, fun _ => ⟨h.look, hh, h.warned, h.handler, h.used, rfl, fun _ => rfl⟩⟩
  | running =>
    have hd : d.health = .running := by rw [← h.health, hh]
    have hlook : Spec.look s.parser = d.ahead := h.look
    have hlast : s.parser.last ≠ some .endFbx := fun x => hi.last x hh
    have hkk := hk hh
    have hw := wp_nextEventImpl hL hi.parser hh hlast
    have he : ensureContinuable s.parser = (.ok (), s.parser) := by simp only [ensureContinuable, hh]
    simp only [Standing.next, hd]
    rw [← hlook, ← hf.skips, ← hf.ends, ← hf.checks, ← h.warned, ← h.handler, ← hf.version]
    obtain ⟨⟨vd, w, b⟩, hx⟩ : ∃ x, (Spec.look s.parser).nextFrom s.parser.reader.skipping s.parser.reader.ending s.parser.checks = x := ⟨_, rfl⟩
    cases hob : objection s.parser.handler s.parser.log w with
    | some k =>
      cases w with
      | none => cases (objection_none _ _).symm.trans hob
      | some wp =>
      obtain ⟨wn, wpos⟩ := wp
      have hq := objects_impl (by omega) hi.parser hh hlast hkk (by rw [hx]) hob
      simp only [hx, hob, Standing.stop]
      generalize (((Spec.look s.parser).skip s.parser.reader.skipping s.parser.reader.ending (Spec.look s.parser).unread).2.noticed wn) = b' at *
      unfold Halts at hq
      rcases hm : nextEventImpl s.parser with ⟨_ | e | _, q⟩
      · exact (M.wp_ok hq hm).elim
      · obtain ⟨h1, h2, r, h3⟩ := M.wp_err hq hm
        subst h1
        have := next_of_impl (Z := Z) (α := α) hL hi hh hm
        refine ⟨_, _, this, ?_, fun _ => ⟨?_, ?_, ?_, ?_, ?_, rfl, ?_⟩⟩
        · simp only [PErr.andPosition, synPos_here, h2]
        · rw [← h2]; rfl
        · simp only [setAborted, synPos_here, h2]
        · rw [h3]; rfl
        · rw [h3]; rfl
        · rw [h3]; exact h.used
        · intro x; cases x
      · exact (M.wp_pan hq hm).elim
    | none =>
      have hfo := agree_implFrom (by omega) hi.parser hh hlast (by rw [hx]; exact hob) hkk
      rw [hx] at hfo
      simp only [hx, hob]
      rcases hm : nextEventImpl s.parser with ⟨_ | _ | _, q⟩
      · rename_i k
        obtain ⟨⟨h1, j, h2⟩, h3⟩ := M.wp_ok hfo hm
        obtain ⟨h4, h5⟩ := M.wp_ok hw hm
        simp only at h1 h2 h3
        have hn := nextEvent_of hh hm h4.depth
        have hq : q.health = .running ∧ q.log = w.toList ++ s.parser.log ∧ q.version = s.parser.version ∧ q.handler = s.parser.handler := by
          rw [h2]; exact ⟨hh, rfl, rfl, rfl⟩
        cases vd with
        | starts name n =>
          cases h3
          obtain ⟨nd, outer, g1, g2, g3⟩ := startsFrom_opened hx
          have g4 : q.started = nd :: outer := by rw [← g1, ← h1]; rfl
          have hn' : nextEvent s.parser = (.ok (.startNode nd.name nd.attrCount), { q with last := some .startNode }) := by
            rw [hn]; simp only [reduceCtorEq, if_false, makeEvent, g4]
          simp only [Client.call, hn']
          have hat : attrsOf { q with last := some EvKind.startNode } = some ⟨n, n, b.pos⟩ := by
            rw [← h1]; simp [attrsOf, AP.ofParser, g4, g3, Spec.look]
          refine ⟨_, _, rfl, by rw [g2, g3], fun _ => ⟨h1, hq.1, hq.2.1, hq.2.2.2, rfl, ?_, fun _ => hat⟩⟩
          simp only [hat]
        | ends =>
          cases h3
          simp only [reduceCtorEq, if_false, makeEvent] at hn
          simp only [Client.call, hn]
          exact ⟨_, _, rfl, rfl, fun _ => ⟨h1, hq.1, hq.2.1, hq.2.2.2, rfl, rfl, fun _ => rfl⟩⟩
        | finishes =>
          cases h3
          obtain ⟨g1, g2⟩ := finishesFrom_state hx
          subst g1
          have hlf : Spec.look { q with health := .finished, last := some .endFbx } = b := h1
          have hft := readFooter_any (p := { q with health := .finished, last := some .endFbx }) (room (by omega) h5)
          simp only [hlf] at hft
          have hfh : footerHeard s.parser.handler s.parser.version.toNat b s.parser.log = footerHeard q.handler q.version.toNat b q.log := by
            rw [hq.2.2.1, hq.2.2.2, show q.log = s.parser.log from hq.2.1]
          simp only [hfh]
          simp only [if_true, makeEvent] at hn
          rcases hrf : readFooter { q with health := .finished, last := some .endFbx } with ⟨ft | e | x, q'⟩
          · obtain ⟨f1, f2⟩ := M.wp_ok hft hrf
            rw [hrf] at hn
            simp only [Client.call, hn]
            refine ⟨_, _, rfl, by rw [f1], fun _ => ⟨?_, ?_, ?_, ?_, ?_, rfl, fun _ => rfl⟩⟩
            · rw [f2, ← h1]; rfl
            · rw [f2]
            · rw [f2]
            · rw [f2]; exact hq.2.2.2
            · rw [f2]; rfl
          · obtain ⟨f1, f2⟩ := M.wp_err hft hrf
            rw [hrf] at hn
            simp only [Client.call, hn]
            refine ⟨_, _, rfl, by rw [f1], fun _ => ⟨?_, ?_, ?_, ?_, ?_, rfl, fun _ => rfl⟩⟩
            · rw [f2, ← h1]; rfl
            · rw [f2]
            · rw [f2]
            · rw [f2]; exact hq.2.2.2
            · rw [f2]; rfl
          · exact (M.wp_pan hft hrf).elim
        | fails k => cases h3
        | overflows => cases h3
      · rename_i e
        obtain ⟨⟨h1, j, h2⟩, h3, h4⟩ := M.wp_err hfo hm
        simp only at h1 h2 h3
        subst h3
        have := next_of_impl (Z := Z) (α := α) hL hi hh hm
        refine ⟨_, _, this, ?_, fun _ => ⟨?_, ?_, ?_, ?_, ?_, rfl, ?_⟩⟩
        · simp only [PErr.andPosition, synPos_here, h1, Standing.stop]
        · exact h1
        · simp only [setAborted, synPos_here, h1, Standing.stop]
        · rw [h2]; rfl
        · rw [h2]; rfl
        · rw [h2]; exact h.used
        · intro x; cases x
      · rename_i x
        obtain ⟨h1, h2⟩ := M.wp_pan hfo hm
        simp only at h1
        subst h1 h2
        have hn : nextEvent s.parser = (.panic .attrEndOverflow, q) := by
          rw [nextEvent, M.get_bind]
          refine (M.bind_val he _).trans ?_
          simp only [hm]
        simp only [Client.call, hn]
        exact ⟨_, _, rfl, rfl, fun x => absurd rfl (x _)⟩

theorem load_stands {L : Nat} (hL : L + 2 ^ 32 ≤ 2 ^ 64) {s : Client} {d : Standing} {f : Setting} (hi : CInv L s) (hf : InSetting s.parser f) (h : Stands s d)
    (buffered : Bool) (l : Loader α) :
    (s.call Z (.load buffered l) = none ∧ d.load Z f buffered l = none) ∨
      ∃ o t e, s.call Z (.load buffered l) = some (o, t) ∧ d.load Z f buffered l = some (o, e) ∧ ((∀ x, o ≠ .panic x) → Stands t e) := by
  cases ha : s.attrs with
  | none =>
    left
    have hd : d.attrs = none := by
      have := h.counts
      rw [ha] at this
      simpa using this.symm
    simp only [Client.call, ha, Standing.load, hd, and_self]
  | some a =>
    right
    have hcounts := h.counts
    obtain ⟨a', ha'⟩ : ∃ a', d.attrs = some a' := by
      rw [ha] at hcounts
      cases hd : d.attrs with
      | none => rw [hd] at hcounts; cases hcounts
      | some a' => exact ⟨a', rfl⟩
    rw [ha, ha'] at hcounts
    have hload := AP.load_eq (Z := Z) ⟨s.parser, a⟩ buffered l
    cases hh : s.parser.health with
    | finished =>
      have hd : d.health = .finished := by rw [← h.health, hh]
      simp only [hh] at hload
      simp only [Client.call, ha, hload, Standing.load, ha', hd]
      refine ⟨_, _, _, rfl, rfl, fun _ => ⟨h.look, h.health, h.warned, h.handler, h.used, ?_, fun x => ?_⟩⟩
      · rw [ha']; exact hcounts
      · cases hh.symm.trans x
    | aborted pos =>
      have hd : d.health = .aborted pos := by rw [← h.health, hh]
      simp only [hh] at hload
      simp only [Client.call, ha, hload, Standing.load, ha', hd]
      refine ⟨_, _, _, rfl, rfl, fun _ => ⟨h.look, h.health, h.warned, h.handler, h.used, ?_, fun x => ?_⟩⟩
      · rw [ha']; exact hcounts
      · cases hh.symm.trans x
    | running =>
      have hd : d.health = .running := by rw [← h.health, hh]
      have haa : a = a' := by
        have := h.attrs hh
        rw [ha, ha'] at this
        exact Option.some.inj this
      subst haa
      have hlook : Spec.look s.parser = d.ahead := h.look
      by_cases hrest : a.rest = 0
      · have := AP.load_none (Z := Z) buffered l ⟨s.parser, a⟩ hh hrest
        simp only [Client.call, ha, this, Standing.load, ha', hd, hrest, if_true]
        exact ⟨_, _, _, rfl, rfl, fun _ => ⟨h.look, h.health, h.warned, h.handler, h.used, by rw [ha'], fun _ => ha'.symm⟩⟩
      · obtain ⟨o, t, k1, k2, k3⟩ := answers_loadAny (Z := Z) hL hi ha hrest hh buffered l
        have hdid := call_did hL hi k1
        rw [k1]
        simp only [Standing.load, ha', hd, if_neg hrest]
        rw [hlook, hf.skips, hf.ends, h.warned, h.handler] at k2
        have hused : (∀ x, o ≠ .panic x) → t.parser.isUsed = s.parser.isUsed := by
          intro hx
          have hlast : t.parser.last = s.parser.last := by
            cases hdid with
            | value ha hp hrun hr ht => rw [ht, hp]; exact hr.1.last
            | noValue ha hrun h0 ht => rw [ht]
            | loadRefused ha ht hr => rw [ht]
            | loadFailed ha hp hrun hr hpos ht he =>
              rw [ht, hp]
              rcases hr with hr | hr <;> exact hr.1.last
          simp only [isUsed, hlast]
        rcases hsk : d.ahead.skip f.skips f.ends (a.next - d.ahead.pos) with ⟨_ | x, here⟩
        · rw [hsk] at k2
          simp only at k2 ⊢
          generalize inFrontFor Z f.ends buffered l here.bytes = y at *
          obtain ⟨k5, k6, k7⟩ := k2
          generalize objection d.handler d.warned (if y.odd = true then some ((.incorrectBool : Warning), ({ (here.move y.read).here with
            compPos := a.next, attrIdx := some (a.total - a.rest) } : SynPos)) else none) = ob at *
          cases ob with
          | some k =>
            obtain ⟨rfl, k8, n, k4⟩ := k7
            refine ⟨_, _, _, rfl, rfl, fun hx => ⟨k5, k8, k6, k3.trans h.handler, (hused hx).trans h.used, by rw [k4]; rfl, ?_⟩⟩
            intro x; rw [k8] at x; cases x
          | none =>
            simp only [Taking.said] at k7
            cases hans : y.answer with
            | error k =>
              rw [hans] at k7
              obtain ⟨rfl, k8, n, k4⟩ := k7
              refine ⟨_, _, _, rfl, rfl, fun hx => ⟨k5, k8, k6, k3.trans h.handler, (hused hx).trans h.used, by rw [k4]; rfl, ?_⟩⟩
              intro x; rw [k8] at x; cases x
            | ok v =>
              rw [hans] at k7
              obtain ⟨rfl, k8, k9⟩ := k7
              exact ⟨_, _, _, rfl, rfl, fun hx => ⟨k5, k8, k6, k3.trans h.handler, (hused hx).trans h.used, by rw [k9], fun _ => k9⟩⟩
        · rw [hsk] at k2
          simp only at k2 ⊢
          obtain ⟨rfl, k5, k6, k7, k4⟩ := k2
          refine ⟨_, _, _, rfl, rfl, fun hx => ⟨k5, k7, k6, k3.trans h.handler, (hused hx).trans h.used, by rw [k4], ?_⟩⟩
          intro x; rw [k7] at x; cases x

theorem skip_stands {L : Nat} {s : Client} {d : Standing} {f : Setting} (hi : CInv L s) (hf : InSetting s.parser f) (h : Stands s d) :
    ∃ o t, s.call Z (.skip : Call α) = some (o, t) ∧ (d.skip f : Outcome α × Standing).1 = o ∧
      ((∀ x, o ≠ .panic x) → Stands t (d.skip f : Outcome α × Standing).2) := by
  cases hst : s.parser.started with
  | nil =>
    have hd : d.ahead.opened = [] := by rw [← h.look]; exact hst
    have hs : skipCurrentNode s.parser = (.panic .skipRoot, s.parser) := by
      rw [skipCurrentNode, M.get_bind, hst]; rfl
    simp only [Client.call, hs, Standing.skip, hd]
    exact ⟨_, _, rfl, rfl, fun x => absurd rfl (x _)⟩
  | cons n outer =>
    have hlook : Spec.look s.parser = d.ahead := h.look
    have hpos : d.ahead.pos = s.parser.reader.position := by rw [← hlook]; rfl
    have hd : d.ahead.opened = n :: outer := by rw [← hlook]; exact hst
    have hs : skipCurrentNode s.parser = io (skipTo n.endOff) { s.parser with started := outer, last := some .endNode } := by
      rw [skipCurrentNode, M.get_bind, hst]; rfl
    by_cases hb : n.endOff < s.parser.reader.position
    · have hs' : skipCurrentNode s.parser = (.panic .skipBackward, { s.parser with started := outer, last := some .endNode }) := by
        rw [hs]
        simp only [io, M.zoom_apply, M.mapErr, skipTo, if_pos hb]
      simp only [Client.call, hs', Standing.skip, hd, hpos, if_pos hb]
      exact ⟨_, _, rfl, rfl, fun x => absurd rfl (x _)⟩
    · obtain ⟨x, r, h1, h2, h3, h4⟩ := skipTo_skips { s.parser with started := outer, last := some .endNode } hi.parser.reader n.endOff (Nat.le_of_not_lt hb)
        (hi.parser.ends n (by rw [hst]; simp)).1
      simp only at h1 h2 h4
      have hl : Spec.look { s.parser with started := outer, last := some .endNode } = { d.ahead with opened := outer } := by rw [← hlook]; rfl
      rw [hl, hf.skips, hf.ends, ← hpos] at h4
      have hb' : ¬ n.endOff < d.ahead.pos := by rw [hpos]; exact hb
      simp only [Standing.skip, hd, if_neg hb', h4]
      cases x with
      | none =>
        have := io_exact (p := { s.parser with started := outer, last := some .endNode }) h1
        rw [this] at hs
        simp only [Client.call, hs]
        exact ⟨_, _, rfl, rfl, fun _ => ⟨rfl, h.health, h.warned, h.handler, rfl, rfl, fun _ => rfl⟩⟩
      | some x =>
        have := io_fail (p := { s.parser with started := outer, last := some .endNode }) h1
        rw [this] at hs
        simp only [Client.call, hs]
        exact ⟨_, _, rfl, rfl, fun _ => ⟨rfl, h.health, h.warned, h.handler, rfl, rfl, fun _ => rfl⟩⟩

/-- Any call: the client sees what the machine says and stands where it says. -/
theorem call_stands {L : Nat} (hL : L + 2 ^ 32 ≤ 2 ^ 64) {s : Client} {d : Standing} {f : Setting} (hi : CInv L s) (hf : InSetting s.parser f) (h : Stands s d)
    (hk : s.parser.health = .running → ∀ n outer, s.parser.started = n :: outer → (s.parser.last = some .endNode ↔ n.kids ≠ 0)) (c : Call α) :
    (s.call Z c = none ∧ d.call Z f c = none) ∨
      ∃ o t e, s.call Z c = some (o, t) ∧ d.call Z f c = some (o, e) ∧ ((∀ x, o ≠ .panic x) → Stands t e) := by
  cases c with
  | next =>
    obtain ⟨o, t, h1, h2, h3⟩ := next_stands (Z := Z) (α := α) hL hi hf h hk
    exact .inr ⟨o, t, _, h1, by rw [Standing.call, ← h2], h3⟩
  | load b l => exact load_stands hL hi hf h b l
  | skip =>
    obtain ⟨o, t, h1, h2, h3⟩ := skip_stands (Z := Z) (α := α) hi hf h
    exact .inr ⟨o, t, _, h1, by rw [Standing.call, ← h2], h3⟩
  | setHandler hd =>
    exact .inr ⟨_, _, _, rfl, rfl, fun _ => ⟨h.look, h.health, h.warned, rfl, h.used, rfl, fun _ => rfl⟩⟩

theorem Stands.glance {s : Client} {d : Standing} {f : Setting} (h : Stands s d) (hv : s.parser.version = f.version) : s.glance = d.glance f := by
  simp only [Client.glance, Standing.glance, hv, synPos_here, h.look, h.used, h.warned, h.counts]
  rw [← h.look]
  rfl

/-- Any client. -/
theorem observe_expect {L : Nat} (hL : L + 2 ^ 32 ≤ 2 ^ 64) {p : Parser} {f : Setting} (hp : CInv L ⟨p, none⟩) (h0 : p.started = []) (hf : InSetting p f) :
    ∀ (r : Routine α) (h : History α) (s : Client) (d : Standing), Runs Z ⟨p, none⟩ h s → h.calm → Stands s d → r.observe Z s = r.expect Z f d := by
  intro r
  induction r with
  | stop => intros; rfl
  | call c k ih =>
    intro h s d hr hn hs
    have hi := hr.inv hL hp hn
    have hfr := hr.frame hL hp hn
    have hso := hr.source hL hp hn
    rcases call_stands (Z := Z) hL hi ⟨hfr.1.trans hf.version, hfr.2.trans hf.checks, hso.1.trans hf.skips, hso.2.trans hf.ends⟩ hs
      (fun hrun n outer h' => (hr.kids hL hp hn h0 hrun n outer h').1) c with ⟨h1, h2⟩ | ⟨o, t, e, h1, h2, h3⟩
    · simp only [Routine.observe, Routine.expect, h1, h2]
    · have hc : (∀ x, o ≠ .panic x) → (h ++ [(c, o)]).calm := fun hx => calm_append.mpr ⟨hn, by
        intro c' x hm
        rw [List.mem_singleton] at hm
        exact hx x (Prod.mk.inj hm).2.symm⟩
      cases o with
      | panic x => simp only [Routine.observe, Routine.expect, h1, h2]
      | _ =>
        have hs' := h3 (by simp)
        have hn' := hc (by simp)
        have hg := hs'.glance (((Runs.snoc hr hn h1).frame hL hp hn').1.trans hf.version)
        simp only [Routine.observe, Routine.expect, h1, h2, hg]
        exact congrArg _ (ih _ _ _ t e (.snoc hr hn h1) hn' hs')

end Fbx
