import Verif.Proof.ReaderInv
import Verif.Spec.Header

/-! # What the parser functions do on arbitrary inputs -/

namespace Fbx
open Reader

theorem headWidth_le (v : FbxVersion) : headWidth v ≤ 8 ∧ 4 ≤ headWidth v := by
  unfold headWidth; split <;> omega

theorem fromLe_take_lt (w : Nat) (bs : Bytes) (hw : w ≤ 8) : fromLe (bs.take w) < 2 ^ 64 := by
  have h1 := fromLe_lt (bs.take w)
  have h2 : 256 ^ (bs.take w).length ≤ 256 ^ 8 := Nat.pow_le_pow_right (by omega) (by rw [List.length_take]; omega)
  have h3 : (256 : Nat) ^ 8 = 2 ^ 64 := by decide
  omega

namespace Parser

structure PInv (L : Nat) (p : Parser) : Prop where
  reader : RInv L p.reader
  top : p.started ≠ [] → p.toplevel ≠ 0
  ends : ∀ n ∈ p.started, n.endOff < 2 ^ 64 ∧ n.attrEnd < 2 ^ 64 ∧ n.attrCount < 2 ^ 64

/-- Only the source and the record of warnings have changed. -/
def Quiet (p q : Parser) : Prop := ∃ r l, Moves p.reader r ∧ q = { p with reader := r, log := l ++ p.log }

theorem Quiet.refl (p : Parser) : Quiet p p := ⟨p.reader, [], .refl _, rfl⟩
theorem Quiet.trans {p q s : Parser} (h : Quiet p q) (g : Quiet q s) : Quiet p s := by
  obtain ⟨r, l, h1, rfl⟩ := h
  obtain ⟨r', l', h2, rfl⟩ := g
  exact ⟨r', l' ++ l, h1.trans h2, by simp⟩
theorem Quiet.move {p : Parser} {r : Reader} (h : Moves p.reader r) : Quiet p { p with reader := r } := ⟨r, [], h, rfl⟩
theorem Quiet.warned (p : Parser) (w : Warning × SynPos) : Quiet p { p with log := w :: p.log } := ⟨p.reader, [w], .refl _, rfl⟩
theorem Quiet.moves {p q : Parser} (h : Quiet p q) : Moves p.reader q.reader := by
  obtain ⟨r, l, h1, rfl⟩ := h; exact h1
theorem Quiet.started {p q : Parser} (h : Quiet p q) : q.started = p.started := by obtain ⟨r, l, h1, rfl⟩ := h; rfl
theorem Quiet.version {p q : Parser} (h : Quiet p q) : q.version = p.version := by obtain ⟨r, l, h1, rfl⟩ := h; rfl
theorem Quiet.health {p q : Parser} (h : Quiet p q) : q.health = p.health := by obtain ⟨r, l, h1, rfl⟩ := h; rfl
theorem Quiet.last {p q : Parser} (h : Quiet p q) : q.last = p.last := by obtain ⟨r, l, h1, rfl⟩ := h; rfl
theorem Quiet.toplevel {p q : Parser} (h : Quiet p q) : q.toplevel = p.toplevel := by obtain ⟨r, l, h1, rfl⟩ := h; rfl
theorem Quiet.handler {p q : Parser} (h : Quiet p q) : q.handler = p.handler := by obtain ⟨r, l, h1, rfl⟩ := h; rfl
theorem Quiet.checks {p q : Parser} (h : Quiet p q) : q.checks = p.checks := by obtain ⟨r, l, h1, rfl⟩ := h; rfl
theorem Quiet.log {p q : Parser} (h : Quiet p q) : ∃ l, q.log = l ++ p.log := by obtain ⟨r, l, h1, rfl⟩ := h; exact ⟨l, rfl⟩
theorem Quiet.inv {L : Nat} {p q : Parser} (h : Quiet p q) (hp : PInv L p) (hr : RInv L q.reader) : PInv L q := by
  obtain ⟨r, l, h1, rfl⟩ := h
  exact ⟨hr, hp.top, hp.ends⟩

/-! ## Steps -/

theorem wp_io {α : Type} {m : M IoErr Reader α} {p : Parser} {P E X}
    (h : M.wp m (fun a r => P a { p with reader := r }) (fun e r => E (PErr.ofIo e) { p with reader := r }) (fun x r => X x { p with reader := r }) p.reader) :
    M.wp (io m) P E X p := by
  simp only [io, M.wp_mapErr, M.wp_zoom]
  exact h

theorem wp_warn {w : Warning} {pos : SynPos} {p : Parser} {P E X} (hP : P () { p with log := (w, pos) :: p.log })
    (hE : ∀ e, E e { p with log := (w, pos) :: p.log }) : M.wp (warn w pos) P E X p := by
  obtain ⟨v, he, st, la, tl, rd, hd, lg, ch⟩ := p
  simp only [M.wp, warn]
  cases hd with
  | none => exact hP
  | some h =>
    simp only []
    cases hh : h lg w pos with
    | none => simp only [hh]; exact hP
    | some e => simp only [hh]; exact hE _

theorem wp_position {p : Parser} {P E X} (ht : p.started ≠ [] → p.toplevel ≠ 0) (hP : P p.synPos p) : M.wp position P E X p := by
  simp only [M.wp, position]
  rw [if_neg (fun h => ht h.1 h.2)]
  exact hP

/-- The attributes not read yet have been passed over. -/
def Skipped (p : Parser) (r : Reader) : Prop :=
  match p.started with
  | [] => r = p.reader
  | n :: _ => if n.attrEnd > p.reader.position then Moves p.reader r ∧ (p.reader.seekable = true → r.position = n.attrEnd) ∧
      (p.reader.seekable = false → r = p.reader.consumeInner (min (n.attrEnd - p.reader.position) p.reader.rest.length)) else r = p.reader

theorem Skipped.moves {p : Parser} {r : Reader} (h : Skipped p r) : Moves p.reader r := by
  unfold Skipped at h
  split at h
  · exact h ▸ .refl _
  · split at h
    · exact h.1
    · exact h ▸ .refl _

theorem wp_skipUnread {L : Nat} {p : Parser} (hp : PInv L p) {P E X}
    (hP : ∀ r, Skipped p r → RInv L r → P () { p with reader := r })
    (hE : ∀ e r, Moves p.reader r → RInv L r → E e { p with reader := r }) : M.wp skipUnreadAttributes P E X p := by
  simp only [skipUnreadAttributes, M.wp_bind, M.wp_get]
  obtain ⟨v, he, st, la, tl, rd, hd, lg, ch⟩ := p
  cases st with
  | nil => exact hP rd (by simp [Skipped]) hp.reader
  | cons n outer =>
    simp only [M.wp_ite]
    split
    · rename_i hgt
      refine wp_io (wp_skipTo hp.reader _ (Nat.le_of_lt hgt) (hp.ends n (by simp)).2.1 ?_ ?_)
      · intro s hm hi hs hs'
        refine hP s ?_ hi
        simp only [Skipped]
        rw [if_pos hgt]
        exact ⟨hm, hs, hs'⟩
      · exact fun e s hm hi => hE _ s hm hi
    · rename_i hgt
      refine hP rd ?_ hp.reader
      simp only [Skipped]
      exact (if_neg hgt).mpr trivial

theorem wp_readNodeHeader {L : Nat} (hL : L < 2 ^ 64) {p : Parser} (hp : RInv L p.reader) {P E X}
    (hP : 3 * headWidth p.version + 1 ≤ p.reader.rest.length → RInv L (p.reader.consume (3 * headWidth p.version + 1)) →
      P (headerAt (headWidth p.version) p.reader.rest) { p with reader := p.reader.consume (3 * headWidth p.version + 1) })
    (hE : ∀ e r, Moves p.reader r → RInv L r → E e { p with reader := r }) : M.wp readNodeHeader P E X p := by
  have hw := headWidth_le p.version
  simp only [readNodeHeader, M.wp_bind, M.wp_get]
  rw [show (if p.version < 7500 then 4 else 8) = headWidth p.version from rfl]
  generalize headWidth p.version = w at *
  refine wp_io (wp_readLe hL hp w (fun l1 i1 _ => ?_) (fun _ b => hE _ _ (.consume _ _) b))
  rw [M.wp_bind]
  refine wp_io (wp_readLe hL i1 w (fun l2 i2 _ => ?_) (fun _ b => hE _ _ ((Moves.consume _ _).trans (.consume _ _)) b))
  rw [M.wp_bind]
  refine wp_io (wp_readLe hL i2 w (fun l3 i3 _ => ?_)
    (fun _ b => hE _ _ ((Moves.consume _ _).trans ((Moves.consume _ _).trans (.consume _ _))) b))
  rw [M.wp_bind]
  refine wp_io (wp_readLe hL i3 1 (fun l4 i4 _ => ?_)
    (fun _ b => hE _ _ ((Moves.consume _ _).trans ((Moves.consume _ _).trans ((Moves.consume _ _).trans (.consume _ _)))) b))
  simp only [consume_consume, consume_rest, List.length_drop] at *
  have e1 : 3 * w + 1 = w + w + w + 1 := by omega
  rw [e1] at hP
  simp only [M.wp_pure]
  exact hP (by omega) i4

/-- What one successful step over the structure of the document does. -/
inductive Steps (p : Parser) (q : Parser) : EvKind → Prop where
  | start {r : Reader} {h : NodeHeader} {name : String} {p' : Parser} {attrEnd : Nat} (hr : Skipped p r)
      (hh : headerAt (headWidth p.version) r.rest = h) (hne : h ≠ .nodeEnd)
      (hlen : 3 * headWidth p.version + 1 + h.nameLen ≤ r.rest.length)
      (hname : stringOfUtf8 ((r.rest.drop (3 * headWidth p.version + 1)).take h.nameLen) = some name)
      (hp' : Quiet p p') (hrd : p'.reader = r.consume (3 * headWidth p.version + 1 + h.nameLen))
      (hae : attrEnd = (p'.reader.position + h.bytelenAttrs) % 2 ^ 64)
      (hq : q = pushNode ⟨r.position, h.endOffset, h.numAttrs, attrEnd, name, 0⟩ p') : Steps p q .startNode
  | implicit {r : Reader} {n : Started} {outer : List Started} {p' : Parser} (hr : Skipped p r) (hst : p.started = n :: outer)
      (hp' : Quiet p p') (hrd : p'.reader = r) (hend : r.position = n.endOff) (hq : q = { p' with started := outer }) : Steps p q .endNode
  | explicit {r : Reader} {n : Started} {outer : List Started} {p' : Parser} (hr : Skipped p r) (hst : p.started = n :: outer)
      (hh : headerAt (headWidth p.version) r.rest = .nodeEnd) (hlen : 3 * headWidth p.version + 1 ≤ r.rest.length)
      (hp' : Quiet p p') (hrd : p'.reader = r.consume (3 * headWidth p.version + 1)) (hend : p'.reader.position = n.endOff)
      (hq : q = { p' with started := outer }) : Steps p q .endNode
  | endFbx (hst : p.started = []) (hh : headerAt (headWidth p.version) p.reader.rest = .nodeEnd)
      (hlen : 3 * headWidth p.version + 1 ≤ p.reader.rest.length)
      (hq : q = { p with reader := p.reader.consume (3 * headWidth p.version + 1) }) : Steps p q .endFbx

/-- The state left by a failing step: nothing but the source and the warnings has changed, or the innermost node has
also been closed. -/
def Failed (p q : Parser) : Prop := Quiet p q ∨ ∃ p' n outer, Quiet p p' ∧ p.started = n :: outer ∧ q = { p' with started := outer }

theorem wp_explicitEnd {L : Nat} {p0 p : Parser} {r : Reader} (hp : PInv L p) (h0 : Quiet p0 p) (hr : Skipped p0 r)
    (hh : headerAt (headWidth p0.version) r.rest = .nodeEnd) (hlen : 3 * headWidth p0.version + 1 ≤ r.rest.length)
    (hrd : p = { p0 with reader := r.consume (3 * headWidth p0.version + 1) }) :
    M.wp explicitEnd (fun k q => Steps p0 q k ∧ RInv L q.reader) (fun _ q => Failed p0 q ∧ RInv L q.reader) (fun _ _ => False) p := by
  simp only [explicitEnd, M.wp_bind, M.wp_get]
  obtain ⟨v, he, st, la, tl, rd, hd, lg, ch⟩ := p
  have hst := h0.started
  have htl := hp.top
  cases st with
  | nil =>
    refine ⟨?_, hp.reader⟩
    have hr' : r = p0.reader := by
      unfold Skipped at hr
      rw [← hst] at hr
      exact hr
    subst hr'
    exact .endFbx hst.symm hh hlen hrd
  | cons n outer =>
    simp only [M.wp_bind, M.wp_set, M.wp_ite, M.wp_throw]
    split
    · exact ⟨.inr ⟨_, n, outer, h0, hst.symm, rfl⟩, hp.reader⟩
    · rename_i hend
      split
      · refine wp_position (fun _ => htl (by simp)) ?_
        rw [M.wp_bind]
        refine wp_warn ?_ (fun e => ⟨.inr ⟨_, n, outer, h0.trans (.warned _ _), hst.symm, rfl⟩, hp.reader⟩)
        rw [M.wp_pure]
        refine ⟨.explicit hr hst.symm hh hlen (h0.trans (.warned _ _)) (congrArg Parser.reader hrd) ?_ rfl, hp.reader⟩
        exact (Decidable.not_not.mp hend).symm
      · rw [M.wp_pure]
        refine ⟨.explicit hr hst.symm hh hlen h0 (congrArg Parser.reader hrd) ?_ rfl, hp.reader⟩
        exact (Decidable.not_not.mp hend).symm

theorem wp_warnEmptyName {p : Parser} {start : Nat} {P E X} (ht : p.started ≠ [] → p.toplevel ≠ 0)
    (hP : ∀ w, P () { p with log := w :: p.log }) (hE : ∀ e w, E e { p with log := w :: p.log }) : M.wp (warnEmptyName start) P E X p := by
  simp only [warnEmptyName, M.wp_bind]
  refine wp_position ht ?_
  rw [M.wp_bind, M.wp_get]
  exact wp_warn (hP _) (fun e => hE e _)

theorem wp_startNode {L : Nat} (hL : L + 2 ^ 32 ≤ 2 ^ 64) {p0 p : Parser} {r : Reader} {h : NodeHeader} (hp : PInv L p) (h0 : Quiet p0 p) (hr : Skipped p0 r)
    (hh : headerAt (headWidth p0.version) r.rest = h) (hlen : 3 * headWidth p0.version + 1 ≤ r.rest.length) (hne : h ≠ .nodeEnd)
    (hrd : p.reader = r.consume (3 * headWidth p0.version + 1)) (hpos : r.position + (3 * headWidth p0.version + 1) ≤ L) :
    M.wp (startNode r.position h) (fun k q => Steps p0 q k ∧ RInv L q.reader) (fun _ q => Failed p0 q ∧ RInv L q.reader)
      (fun x _ => x = .attrEndOverflow ∧ p0.checks = true ∧ ¬ p0.version < 7500) p := by
  have hL2 : ∀ p : Parser, p.reader = r.consume (3 * headWidth p0.version + 1) → p.reader.position ≤ L := by
    intro p hrd
    rw [hrd, consume_position]
    exact hpos
  have key : ∀ p : Parser, PInv L p → Quiet p0 p → p.reader = r.consume (3 * headWidth p0.version + 1) →
      M.wp (do
        let bs ← io (Reader.readExact h.nameLen)
        match stringOfUtf8 bs with
        | none => M.throw (PErr.ofData .invalidNodeNameEncoding)
        | some name => do
          let p ← M.get
          let attrEnd ← addAttrEnd p.reader.position h.bytelenAttrs
          M.modify (pushNode
            { startOff := r.position, endOff := h.endOffset, attrCount := h.numAttrs, attrEnd, name, kids := 0 })
          pure .startNode) (fun k q => Steps p0 q k ∧ RInv L q.reader) (fun _ q => Failed p0 q ∧ RInv L q.reader)
      (fun x _ => x = .attrEndOverflow ∧ p0.checks = true ∧ ¬ p0.version < 7500) p := by
    intro p hp h0 hrd
    rw [M.wp_bind]
    refine wp_io (wp_readExact (by omega) hp.reader _ (fun hl hi hpos => ?_) (fun _ hi => ⟨.inl (h0.trans (.move (.consume _ _))), hi⟩))
    have h1 : Quiet p0 { p with reader := p.reader.consume h.nameLen } := h0.trans (.move (.consume _ _))
    have e1 : r.rest.length ≥ 3 * headWidth p0.version + 1 + h.nameLen := by
      rw [hrd] at hl
      simp at hl
      omega
    cases hs : stringOfUtf8 (List.take h.nameLen p.reader.rest) with
    | none => exact ⟨.inl h1, hi⟩
    | some name =>
      simp only [M.wp_bind, M.wp_get]
      simp only [M.wp, addAttrEnd]
      have e2 : p.reader.consume h.nameLen = r.consume (3 * headWidth p0.version + 1 + h.nameLen) := by
        rw [hrd, consume_consume]
      have e3 : ∀ n p', (pushNode n p').reader = p'.reader := by
        intro n p'; unfold pushNode; split <;> rfl
      by_cases ho : (p.reader.consume h.nameLen).position + h.bytelenAttrs < u64Size
      · rw [if_pos ho]
        refine ⟨.start hr hh hne e1 ?_ h1 e2 ?_ rfl, ?_⟩
        · rw [← hs, hrd]; simp
        · exact (Nat.mod_eq_of_lt ho).symm
        · rw [e3]; exact hi
      · rw [if_neg ho]
        split
        · rename_i hc
          split at hc
          · cases hc
          · rename_i hck
            simp only [Prod.mk.injEq, Res.ok.injEq] at hc
            obtain ⟨hc1, hc2⟩ := hc
            subst hc1 hc2
            refine ⟨.start hr hh hne e1 ?_ h1 e2 ?_ rfl, ?_⟩
            · rw [← hs, hrd]; simp
            · rfl
            · rw [e3]; exact hi
        · rename_i hc
          split at hc <;> cases hc
        · rename_i hc
          split at hc
          · rename_i hck
            cases hc
            refine ⟨rfl, by rw [← h0.checks]; exact hck, fun hv => ho ?_⟩
            have hu : u64Size = 2 ^ 64 := rfl
            have hw4 : headWidth p0.version = 4 := by unfold headWidth; rw [if_pos hv]
            have h5 := fromLe_lt ((r.rest.drop (4 + 4)).take 4)
            have h6 : 256 ^ ((r.rest.drop (4 + 4)).take 4).length ≤ 256 ^ 4 := Nat.pow_le_pow_right (by omega) (by rw [List.length_take]; omega)
            have h7 : (256 : Nat) ^ 4 = 2 ^ 32 := by decide
            have h8 : (p.reader.consume h.nameLen).position ≤ L := by
              rw [consume_position]
              rcases Nat.eq_zero_or_pos h.nameLen with hz | hz
              · rw [hz, Nat.add_zero]; exact hL2 p hrd
              · exact hpos hz
            have hb : h.bytelenAttrs < 2 ^ 32 := by
              rw [← hh, hw4]
              simp only [headerAt]
              omega
            rw [hu]
            omega
          · cases hc
  unfold startNode
  simp only [M.wp_ite]
  split
  · rw [M.wp_bind]
    refine wp_warnEmptyName hp.top (fun w => ?_) (fun e w => ⟨.inl (h0.trans (.warned _ _)), hp.reader⟩)
    exact key { p with log := w :: p.log } ⟨hp.reader, hp.top, hp.ends⟩ (h0.trans (.warned _ _)) hrd
  · exact key p hp h0 hrd

theorem isNodeEnd_iff (h : NodeHeader) : h.isNodeEnd = true ↔ h = .nodeEnd := by
  obtain ⟨a, b, c, d⟩ := h
  simp [NodeHeader.isNodeEnd, NodeHeader.nodeEnd, and_assoc]

/-- `next_event_impl` on arbitrary input. -/
theorem wp_nextEventImpl {L : Nat} (hL : L + 2 ^ 32 ≤ 2 ^ 64) {p : Parser} (hp : PInv L p) (hrun : p.health = .running) (hlast : p.last ≠ some .endFbx) :
    M.wp nextEventImpl (fun k q => Steps p q k ∧ RInv L q.reader) (fun _ q => Failed p q ∧ RInv L q.reader)
      (fun x _ => x = .attrEndOverflow ∧ p.checks = true ∧ ¬ p.version < 7500) p := by
  simp only [nextEventImpl, M.wp_bind, M.wp_get, M.wp_assert, hrun, hlast, ne_eq, not_false_eq_true, decide_true, if_true]
  refine wp_skipUnread hp (fun r hr hi => ?_) (fun e r hm hi => ⟨.inl (.move hm), hi⟩)
  simp only [M.wp_bind, M.wp_get]
  have hm := hr.moves
  have tail : M.wp (do
      let h ← readNodeHeader
      if h.isNodeEnd then explicitEnd else startNode r.position h) (fun k q => Steps p q k ∧ RInv L q.reader) (fun _ q => Failed p q ∧ RInv L q.reader)
      (fun x _ => x = .attrEndOverflow ∧ p.checks = true ∧ ¬ p.version < 7500) { p with reader := r } := by
    rw [M.wp_bind]
    refine wp_readNodeHeader (by omega) hi (fun hlen hi' => ?_) (fun e s hs hi' => ⟨.inl (.move (hm.trans hs)), hi'⟩)
    rw [M.wp_ite]
    have h1 : Quiet p { p with reader := r.consume (3 * headWidth p.version + 1) } := .move (hm.trans (.consume _ _))
    split
    · rename_i hend
      refine M.wp_mono (wp_explicitEnd (h1.inv hp hi') h1 hr ((isNodeEnd_iff _).mp hend) hlen rfl) (fun _ _ h => h) (fun _ _ h => h) (fun _ _ h => h.elim)
    · rename_i hend
      exact wp_startNode hL (h1.inv hp hi') h1 hr rfl hlen (fun h => hend ((isNodeEnd_iff _).mpr h)) rfl (by
        rcases hi.2 with h2 | h2
        · exfalso
          simp only [h2, List.length_nil] at hlen
          omega
        · simp only at hlen
          omega)
  simp only [tryImplicitEnd, M.wp_bind, M.wp_get]
  obtain ⟨v, he, st, la, tl, rd, hd, lg, ch⟩ := p
  cases st with
  | nil => exact tail
  | cons n outer =>
    simp only [M.wp_ite, M.wp_throw, M.wp_bind]
    split
    · exact ⟨.inl (.move hm), hi⟩
    · split
      · rename_i hend
        split
        · refine wp_position hp.top ?_
          rw [M.wp_bind]
          refine wp_warn ?_ (fun e => ⟨.inl ((Quiet.move hm).trans (.warned _ _)), hi⟩)
          refine ⟨.implicit hr rfl ((Quiet.move hm).trans (.warned _ _)) rfl hend.symm rfl, hi⟩
        · exact ⟨.implicit hr rfl (Quiet.move hm) rfl hend.symm rfl, hi⟩
      · exact tail

end Parser
end Fbx
