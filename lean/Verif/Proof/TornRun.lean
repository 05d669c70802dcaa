import Verif.Proof.TornWrite

/-! # Sessions that stop inside the body -/

namespace Fbx.Writer
open Spec

/-- Complete top-level nodes: what follows them decides. -/
def Leads (w : Nat) (D : Bytes) : Prop := ∀ y, Torn w (27 + D.length) y → Torn w 27 (D ++ y)

theorem Leads.nil (w : Nat) : Leads w [] := fun _ h => h

theorem Leads.torn {w : Nat} {D : Bytes} (h : Leads w D) : Torn w 27 D := by
  have := h [] (.short (by simp))
  rwa [List.append_nil] at this

theorem Leads.snoc {w : Nat} {D : Bytes} (h : Leads w D) {t : Bytes} {E : Nat} (hw : 0 < w) (hE : E < 256 ^ w) (he : E = 27 + D.length + (leBytes w E ++ t).length) :
    Leads w (D ++ (leBytes w E ++ t)) := by
  intro y hy
  rw [List.append_assoc]
  refine h _ (.more ?_ ?_ ?_)
  · intro h0
    have := congrArg List.length h0
    simp only [List.length_append, leBytes_length, List.length_nil] at this
    omega
  · simp only [headerAt]
    rw [List.append_assoc, List.take_left' (by simp), fromLe_leBytes hE]
    exact he
  · rwa [List.length_append, ← Nat.add_assoc] at hy

theorem headerAt_open (v : FbxVersion) (len : Nat) (hl : len < 256) (t : Bytes) : headerAt (headWidth v) (header v.toNat 0 0 0 len ++ t) = ⟨0, 0, 0, len⟩ := by
  have hz : ∀ k, fromLe (leBytes k 0) = 0 := fun k => fromLe_leBytes (Nat.pow_pos (by decide))
  rw [headWidth_eq, header]
  simp only [le_eq]
  generalize width v.toNat = w
  have e1 : ((leBytes w 0 ++ leBytes w 0 ++ leBytes w 0 ++ leBytes 1 len ++ t).take w) = leBytes w 0 := by
    simp only [List.append_assoc]
    rw [List.take_left' (by simp)]
  have e2 : ((leBytes w 0 ++ leBytes w 0 ++ leBytes w 0 ++ leBytes 1 len ++ t).drop w) = leBytes w 0 ++ leBytes w 0 ++ leBytes 1 len ++ t := by
    simp only [List.append_assoc]
    rw [List.drop_left' (by simp)]
  have e3 : ((leBytes w 0 ++ leBytes w 0 ++ leBytes w 0 ++ leBytes 1 len ++ t).drop (w + w)) = leBytes w 0 ++ leBytes 1 len ++ t := by
    rw [← List.drop_drop, e2]
    simp only [List.append_assoc]
    rw [List.drop_left' (by simp)]
  have e4 : ((leBytes w 0 ++ leBytes w 0 ++ leBytes w 0 ++ leBytes 1 len ++ t).drop (w + w + w)) = leBytes 1 len ++ t := by
    rw [← List.drop_drop, e3]
    simp only [List.append_assoc]
    rw [List.drop_left' (by simp)]
  unfold headerAt
  rw [e1, e2, e3, e4, hz]
  simp only [List.append_assoc]
  rw [List.take_left' (by simp), List.take_left' (by simp), List.take_left' (by simp), hz, fromLe_leBytes (by omega)]

theorem torn_open (v : FbxVersion) {len : Nat} (h0 : 0 < len) (hl : len < 256) (t : Bytes) (off : Nat) : Torn (headWidth v) off (header v.toNat 0 0 0 len ++ t) := by
  have := headerAt_open v len hl t
  refine .zero (by rw [this]) ?_
  rw [this]
  intro h
  have : len = 0 := congrArg NodeHeader.nameLen h
  omega

theorem header_length' (v : FbxVersion) (a b c d : Nat) : (header v.toNat a b c d).length = 3 * headWidth v + 1 := by
  rw [headWidth_eq, header]
  simp only [le_eq, List.length_append, leBytes_length]
  omega

theorem of_take' {P buf : Bytes} (h : buf.take P.length = P) : buf = P ++ buf.drop P.length := by
  rw [← h]
  have := congrArg List.length h
  simp only [List.length_take] at this
  simp [show min P.length buf.length = P.length by omega]

/-- A session that works at the end of the device. -/
structure TW (v : FbxVersion) (S : Bytes) (w : Writer) : Prop where
  ver : w.version = v
  whole : wholeFields w.sink
  atEnd : AtEnd w
  fit : ∀ p ∈ w.heads, p + headerSize v.toNat ≤ w.sink.buf.length
  body : ∃ D, Leads (headWidth v) D ∧ ((w.heads = [] ∧ w.sink.buf = S ++ D) ∨
    ∃ up len, w.heads = up ++ [(S ++ D).length] ∧ 0 < len ∧ len < 256 ∧ Above (S ++ D ++ header v.toNat 0 0 0 len) 1 w)

/-- The device has a torn body after `S`. -/
def Ends (v : FbxVersion) (S buf : Bytes) : Prop := ∃ Y, buf = S ++ Y ∧ Torn (headWidth v) 27 Y

theorem TW.ends {v : FbxVersion} {S : Bytes} {w : Writer} (h : TW v S w) : Ends v S w.sink.buf := by
  obtain ⟨D, hD, ⟨-, hb⟩ | ⟨up, len, -, h0, hl, ha⟩⟩ := h.body
  · exact ⟨D, hb, hD.torn⟩
  · refine ⟨D ++ (header v.toNat 0 0 0 len ++ w.sink.buf.drop (S ++ D ++ header v.toNat 0 0 0 len).length), ?_, hD _ (torn_open v h0 hl _ _)⟩
    rw [← List.append_assoc, ← List.append_assoc]
    exact of_take' ha.kept

theorem newNode_heads {name : String} {w w' : Writer} {u : Unit} (h : newNode name w = (.ok u, w')) : w'.heads = w.sink.pos :: w.heads := by
  rw [heads, newNode_opened name w w' u h, heads]
  cases w.opened with
  | nil => rfl
  | cons n o =>
    have : ∀ p, (fin p n).headerPos = n.headerPos := fun p => by unfold fin; split <;> rfl
    simp [childTop, this]

theorem append_heads {Z : Zlib} {a : Append} {w w' : Writer} {u : Unit} (h : append Z a w = (.ok u, w')) : w'.heads = w.heads := by
  rw [heads, append_opened Z a w w' u h, heads]
  cases w.opened <;> rfl

theorem closeNode_heads {w w' : Writer} {u : Unit} (h : closeNode w = (.ok u, w')) : ∃ p, w.heads = p :: w'.heads := by
  obtain ⟨n, h1, -⟩ := closeNode_opened w w' u h
  exact ⟨n.headerPos, by rw [heads, h1]; rfl⟩

theorem closeNode_version (w w' : Writer) (u : Unit) (h : closeNode w = (.ok u, w')) : w'.version = w.version := by
  rw [closeNode_eq] at h
  simp only [M.bind_ok_iff] at h
  obtain ⟨_, w1, h1, _, w2, h2, h3⟩ := h
  have k1 := (Keeps.finalizeAttributes.keep w).2
  rw [h1] at k1
  rw [M.get_ok_iff] at h2
  obtain ⟨e1, e2⟩ := h2
  rw [e1, e2] at h3
  rcases ho : w1.opened with _ | ⟨n, outer⟩
  · simp [ho] at h3
  · simp only [ho, M.modify_bind] at h3
    have := ((Keeps.closeRest n).keep { w1 with opened := outer }).2
    rw [h3] at this
    exact this.trans k1

/-- A success at the end of the device leads to the end of the device. -/
theorem ok_atEnd {Z : Zlib} {v : FbxVersion} {S : Bytes} {w w' : Writer} (h : TW v S w) {o : Op} {u : Unit} (hr : exec Z o w = (.ok u, w')) :
    w'.version = v ∧ AtEnd w' ∧ w.sink.buf.length ≤ w'.sink.buf.length ∧ ∀ p ∈ w'.heads, p + headerSize v.toNat ≤ w'.sink.buf.length := by
  have hge : w.sink.buf.length ≤ w'.sink.buf.length := by
    have := (Firm.exec (L := w.sink.buf.length) Z o w ⟨h.whole, Nat.le_refl _⟩).1.2
    rw [hr] at this
    exact this
  cases o with
  | newNode name =>
    obtain ⟨x, -, e2, e3, e4, e5⟩ := newNode_extends' h.atEnd name
    have hr' : newNode name w = (.ok u, w') := hr
    rw [hr'] at e2 e3 e4 e5
    simp only at e2 e3 e4 e5
    refine ⟨e4.trans h.ver, e3, hge, fun p hp => ?_⟩
    rw [newNode_heads hr', List.mem_cons] at hp
    rcases hp with rfl | hp
    · rw [e2, e5 u trivial, h.ver, h.atEnd]
      simp only [List.length_append, header_length', headerSize, headWidth_eq]
      omega
    · have := h.fit p hp; omega
  | append a =>
    have hr' : append Z a w = (.ok u, w') := hr
    refine ⟨?_, ?_, hge, fun p hp => ?_⟩
    · have := ((Keeps.append Z a).keep w).2
      rw [hr'] at this
      exact this.trans h.ver
    · have hc := (Keeps.append Z a).calm _ _ _ hr'
      have hat : w.clear = At w.version w.sink.buf [] w.opened := by
        have := h.atEnd
        obtain ⟨⟨b, p, f⟩, v', o⟩ := w
        have : p = b.length := this
        subst this
        simp [clear, Sink.clear, At]
      cases ho : w.opened with
      | nil =>
        exfalso
        obtain ⟨b, hb⟩ := append_split Z a
        rw [hb] at hr'
        simp only [M.bind_ok_iff] at hr'
        obtain ⟨_, w1, h1, -⟩ := hr'
        rw [updateNodeHeader, M.get_bind, ho] at h1
        cases h1
      | cons n r =>
        rw [hat, ho, append_ok_iff] at hc
        have h1 := hc.2.2.2
        have hb : w'.sink.buf = _ := (congrArg (fun w => w.sink.buf) h1 :)
        have hp : w'.sink.pos = _ := (congrArg (fun w => w.sink.pos) h1 :)
        show w'.sink.pos = w'.sink.buf.length
        rw [hb, hp]
        simp [At]
    · rw [append_heads hr'] at hp
      have := h.fit p hp
      omega
  | closeNode =>
    have hr' : closeNode w = (.ok u, w') := hr
    obtain ⟨n, ho, -⟩ := closeNode_opened w w' u hr'
    obtain ⟨w1, -, -, hs⟩ := closeNode_sealed h.atEnd h.whole ho (by
      rw [h.ver]
      exact h.fit _ (by rw [heads, ho]; simp))
    rw [hr'] at hs
    refine ⟨(closeNode_version w w' u hr').trans h.ver, ?_, hge, fun p hp => ?_⟩
    · rcases hs with ⟨-, hs⟩ | ⟨-, -, -, hs⟩
      · exact absurd rfl (hs u)
      · exact hs u rfl
    · obtain ⟨q, hq⟩ := closeNode_heads hr'
      have := h.fit p (by rw [hq]; simp [hp])
      omega

theorem TW.step {Z : Zlib} {v : FbxVersion} {S : Bytes} {w : Writer} (hS : S.length = 27) (h : TW v S w) (o : Op)
    (hname : ∀ name, o = .newNode name → w.opened = [] → name ≠ "") (hlen : (exec Z o w).2.sink.buf.length < 2 ^ 64) :
    Ends v S (exec Z o w).2.sink.buf ∧ ∀ u, (exec Z o w).1 = .ok u → TW v S (exec Z o w).2 := by
  have hwhole := (Firm.exec (L := 0) Z o w ⟨h.whole, Nat.zero_le _⟩).1.1
  obtain ⟨D, hD, hbody⟩ := h.body
  have ho0 : w.heads = [] ↔ w.opened = [] := by simp [heads]
  rcases hbody with ⟨hh, hb⟩ | ⟨up, len, hh, h0, hl, ha⟩
  · -- no node is open
    have ho : w.opened = [] := ho0.mp hh
    cases o with
    | newNode name =>
      have hne := hname name rfl ho
      obtain ⟨x, e1, e2, e3, e4, e5⟩ := newNode_extends h.atEnd ho name
      rw [h.ver] at e1 e5
      have e2' : (exec Z (.newNode name) w).2.sink.buf = S ++ (D ++ x) := by rw [← List.append_assoc, ← hb]; exact e2
      have hpos : 0 < (utf8 name).length := by
        rcases Nat.eq_zero_or_pos (utf8 name).length with h1 | h1
        · exact absurd (strBytes_eq_nil.mp (List.eq_nil_of_length_eq_zero h1)) hne
        · exact h1
      have hlong : x ≠ [] → (utf8 name).length < 256 := by
        intro hx
        apply Decidable.byContradiction
        intro hc
        have := newNode_long ho name hc
        have hb' : (newNode name w).2.sink.buf = w.sink.buf := by rw [this]
        rw [e2] at hb'
        exact hx (List.append_cancel_left (hb'.trans (List.append_nil _).symm))
      refine ⟨⟨D ++ x, e2', hD _ ?_⟩, fun u hu => ?_⟩
      · by_cases hx : x.length < 3 * headWidth v + 1
        · exact .short hx
        · have hxl : (header v.toNat 0 0 0 (utf8 name).length).length ≤ x.length := by rw [header_length']; omega
          have hp : header v.toNat 0 0 0 (utf8 name).length <+: x := List.prefix_of_prefix_length_le (List.prefix_append _ _) e1 hxl
          obtain ⟨t, rfl⟩ := hp
          refine torn_open v hpos (hlong ?_) t _
          intro h0
          rw [h0] at hx
          simp at hx
      · have hr : exec Z (.newNode name) w = (.ok u, (exec Z (.newNode name) w).2) := Prod.ext hu rfl
        generalize (exec Z (.newNode name) w).2 = w' at *
        obtain ⟨g1, g2, g3, g4⟩ := ok_atEnd h hr
        have hx := e5 u hu
        have hhd := newNode_heads (name := name) hr
        rw [hh, h.atEnd, hb] at hhd
        have hxne : x ≠ [] := by
          intro h0
          have := congrArg List.length (hx.symm.trans h0)
          simp only [List.length_append, header_length', List.length_nil] at this
          omega
        refine ⟨g1, hwhole, g2, g4, D, hD, .inr ⟨[], (utf8 name).length, hhd, hpos, hlong hxne, ?_, ?_, ?_, ?_⟩⟩
        · rw [e2', hx, ← List.append_assoc, ← List.append_assoc]
          exact List.take_left' rfl
        · rw [g2, e2', hx]; simp only [List.length_append]; omega
        · rw [hhd]; simp
        · rw [hhd]; simp
    | append a =>
      have hs : (append Z a w).2 = w ∧ ∀ u, (append Z a w).1 ≠ .ok u := by
        obtain ⟨b, hb⟩ := append_split Z a
        rw [hb, M.bind_apply]
        have : updateNodeHeader w = (.panic .noOpenNode, w) := by
          rw [updateNodeHeader, M.get_bind, ho]; rfl
        rw [this]
        exact ⟨rfl, fun u hu => by cases hu⟩
      refine ⟨?_, fun u hu => absurd hu (hs.2 u)⟩
      rw [show (exec Z (.append a) w).2 = w from hs.1]
      exact h.ends
    | closeNode =>
      have hs : (closeNode w).2.sink.buf = w.sink.buf ∧ ∀ u, (closeNode w).1 ≠ .ok u := by
        have hf : finalizeAttributes w = (.ok (), w) := by
          rw [finalizeAttributes, M.get_bind, ho]; rfl
        rw [closeNode_eq, M.bind_apply, hf]
        simp only [M.get_bind, ho]
        exact ⟨rfl, fun u hu => by cases hu⟩
      refine ⟨?_, fun u hu => absurd hu (hs.2 u)⟩
      show Ends v S (closeNode w).2.sink.buf
      rw [hs.1]
      exact h.ends
  · by_cases hin : o = .closeNode → 1 < w.opened.length
    · -- the outermost node stays open
      have ha' := ha.exec Z o (fun hc => .inl (hin hc))
      have hends : Ends v S (exec Z o w).2.sink.buf := by
        refine ⟨D ++ (header v.toNat 0 0 0 len ++ (exec Z o w).2.sink.buf.drop (S ++ D ++ header v.toNat 0 0 0 len).length), ?_, hD _ (torn_open v h0 hl _ _)⟩
        rw [← List.append_assoc, ← List.append_assoc]
        exact of_take' ha'.kept
      refine ⟨hends, fun u hu => ?_⟩
      have hr : exec Z o w = (.ok u, (exec Z o w).2) := Prod.ext hu rfl
      generalize (exec Z o w).2 = w' at *
      obtain ⟨g1, g2, g3, g4⟩ := ok_atEnd h hr
      refine ⟨g1, hwhole, g2, g4, D, hD, .inr ?_⟩
      cases o with
      | newNode name => exact ⟨w.sink.pos :: up, len, by rw [newNode_heads (name := name) hr, hh]; rfl, h0, hl, ha'⟩
      | append a => exact ⟨up, len, by rw [append_heads (Z := Z) (a := a) hr, hh], h0, hl, ha'⟩
      | closeNode =>
        obtain ⟨p, hp⟩ := closeNode_heads hr
        have := hin rfl
        have hlen : w.heads.length = w.opened.length := by simp [heads]
        cases up with
        | nil => rw [hh] at hlen; simp at hlen; omega
        | cons q up =>
          rw [hh] at hp
          simp only [List.cons_append, List.cons.injEq] at hp
          exact ⟨up, len, hp.2.symm, h0, hl, ha'⟩
    · -- the outermost node is closed
      have ho : o = .closeNode := by
        cases o with
        | closeNode => rfl
        | newNode => exact absurd (fun h => by cases h) hin
        | append => exact absurd (fun h => by cases h) hin
      subst ho
      have hol : w.opened.length = 1 := by
        have : w.heads.length = w.opened.length := by simp [heads]
        rw [hh] at this
        simp at this
        have : ¬ 1 < w.opened.length := fun hc => hin (fun _ => hc)
        omega
      obtain ⟨n, hon⟩ : ∃ n, w.opened = [n] := by
        cases hw : w.opened with
        | nil => rw [hw] at hol; cases hol
        | cons n r => rw [hw] at hol; simp at hol; exact ⟨n, by rw [hol]⟩
      have hnp : n.headerPos = (S ++ D).length := by
        rw [heads, hon] at hh
        cases up with
        | nil => simpa using hh
        | cons => simp at hh
      obtain ⟨w1, ⟨x, b1⟩, b2, b3⟩ := closeNode_sealed h.atEnd h.whole hon (by
        rw [h.ver]
        exact h.fit _ (by rw [heads, hon]; simp))
      have hbuf : w1.sink.buf = S ++ D ++ header v.toNat 0 0 0 len ++ (w.sink.buf.drop (S ++ D ++ header v.toNat 0 0 0 len).length ++ x) := by
        rw [b1, ← List.append_assoc]
        exact congrArg (· ++ x) (of_take' ha.kept)
      generalize w.sink.buf.drop (S ++ D ++ header v.toNat 0 0 0 len).length ++ x = t at hbuf
      show Ends v S (closeNode w).2.sink.buf ∧ ∀ u, (closeNode w).1 = .ok u → TW v S (closeNode w).2
      have hlen : (closeNode w).2.sink.buf.length < 2 ^ 64 := hlen
      have hwhole : wholeFields (closeNode w).2.sink := hwhole
      rcases b3 with ⟨c1, c2⟩ | ⟨c1, c2, c3, c4⟩
      · refine ⟨?_, fun u hu => absurd hu (c2 u)⟩
        refine ⟨D ++ (header v.toNat 0 0 0 len ++ t), ?_, hD _ (torn_open v h0 hl _ _)⟩
        rw [c1, hbuf]
        simp only [List.append_assoc]
      · have hE := c2 (c1 ▸ hlen)
        rw [b2, h.ver, ← headWidth_eq] at hE c3
        rw [hnp, hbuf] at c3
        rw [show List.take (S ++ D).length (S ++ D ++ header v.toNat 0 0 0 len ++ t) = S ++ D by
          rw [List.append_assoc (S ++ D), List.take_left' rfl]] at c3
        rw [← hbuf, ← c1] at c3
        rw [← c1] at hE
        generalize hw' : (closeNode w).2 = w' at *
        obtain ⟨E, he⟩ : ∃ E, E = w'.sink.buf.length := ⟨_, rfl⟩
        rw [← he] at c3 hE
        have hb' : w'.sink.buf = S ++ (D ++ (leBytes (headWidth v) E ++ w'.sink.buf.drop (S ++ D ++ leBytes (headWidth v) E).length)) := by
          rw [← List.append_assoc, ← List.append_assoc]
          refine of_take' ?_
          rw [List.length_append (as := S ++ D), leBytes_length]
          exact c3
        generalize w'.sink.buf.drop (S ++ D ++ leBytes (headWidth v) E).length = t' at hb'
        have hlead : Leads (headWidth v) (D ++ (leBytes (headWidth v) E ++ t')) := by
          refine hD.snoc (by have := headWidth_le v; omega) hE ?_
          have := congrArg List.length hb'
          rw [← he, List.length_append, hS, List.length_append] at this
          omega
        refine ⟨⟨_, hb', hlead.torn⟩, fun u hu => ?_⟩
        have hr : closeNode w = (.ok u, w') := Prod.ext hu hw'
        obtain ⟨g1, g2, g3, g4⟩ := ok_atEnd (Z := Z) (o := .closeNode) h hr
        obtain ⟨m, hm, -⟩ := closeNode_opened w w' u hr
        refine ⟨g1, hwhole, g2, g4, _, hlead, .inl ⟨?_, hb'⟩⟩
        rw [hon] at hm
        simp only [List.cons.injEq] at hm
        rw [heads, ← hm.2]; rfl

theorem TW.run {Z : Zlib} {v : FbxVersion} {S : Bytes} (hS : S.length = 27) (ops : List Op) : ∀ {w : Writer}, TW v S w → topNamed w.opened.length ops →
    (run Z ops w).2.sink.buf.length < 2 ^ 64 → Ends v S (run Z ops w).2.sink.buf := by
  induction ops with
  | nil => intro w h _ _; exact h.ends
  | cons o os ih =>
    intro w h hn hlen
    have hle : (exec Z o w).2.sink.buf.length ≤ (Writer.run Z (o :: os) w).2.sink.buf.length := by
      rw [Writer.run, M.bind_apply]
      rcases hr : exec Z o w with ⟨r, w1⟩
      have h1 := (Firm.exec (L := 0) Z o w ⟨h.whole, Nat.zero_le _⟩).1.1
      rw [hr] at h1
      cases r with
      | ok u => exact (Firm.run Z os w1 ⟨h1, Nat.le_refl _⟩).1.2
      | err e => exact Nat.le_refl _
      | panic e => exact Nat.le_refl _
    obtain ⟨s1, s2⟩ := h.step (Z := Z) hS o (by
      intro name ho hop
      subst ho
      rw [hop] at hn
      exact hn.1 rfl) (by omega)
    rw [Writer.run, M.bind_apply] at hlen ⊢
    rcases hr : exec Z o w with ⟨r, w1⟩
    rw [hr] at s1 s2 hlen
    cases r with
    | err e => exact s1
    | panic e => exact s1
    | ok u =>
      refine ih (s2 u rfl) ?_ hlen
      cases o with
      | newNode name => rw [newNode_depth name w w1 u hr]; exact hn.2
      | append a =>
        have := ((Keeps.append Z a).keep w).1
        rw [show Writer.append Z a w = (.ok u, w1) from hr] at this
        rw [this]; exact hn
      | closeNode =>
        have := closeNode_depth w w1 u hr
        have hn' : topNamed (w.opened.length - 1) os := hn
        rw [this] at hn'
        exact hn'

end Fbx.Writer
