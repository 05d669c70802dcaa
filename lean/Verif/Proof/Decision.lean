import Verif.Proof.EndMarkers
import Verif.Proof.ReadFooter
import Verif.Proof.Handler
import Verif.Spec.Decision

/-! # `next_event` follows the table -/

namespace Fbx
open Reader Parser Spec
variable {α : Type} {Z : Zlib}

theorem nodePath_pathOf (tl : Nat) : ∀ l, nodePath tl l = pathOf tl l
  | [] => rfl
  | n :: outer => by rw [nodePath_cons, nodePath_pathOf tl outer]; cases outer <;> rfl

theorem synPos_here (p : Parser) : p.synPos = (look p).here := by
  obtain ⟨v, he, st, la, tl, rd, hd, lg, ch⟩ := p
  cases st with
  | nil => rfl
  | cons n outer => simp only [Parser.synPos, look, Ahead.here, nodePath_pathOf]

/-- `warn` with any handler. -/
theorem warn_any (w : Warning) (pos : SynPos) (p : Parser) : warn w pos p =
    (match objection p.handler p.log (some (w, pos)) with | none => .ok () | some k => .err ⟨k, some pos⟩, { p with log := (w, pos) :: p.log }) := by
  obtain ⟨v, he, st, la, tl, rd, hd, lg, ch⟩ := p
  cases hd with
  | none => rfl
  | some f =>
    simp only [warn, objection]
    cases f lg w pos <;> rfl

theorem warn_accepted {p : Parser} {w : Warning} {pos : SynPos} (h : objection p.handler p.log (some (w, pos)) = none) :
    warn w pos p = (.ok (), { p with log := (w, pos) :: p.log }) := by
  rw [warn_any, h]

theorem tolerant_accepts {p : Parser} (h : tolerant p) (w : Option (Warning × SynPos)) : objection p.handler p.log w = none := by
  obtain ⟨v, he, st, la, tl, rd, hd, lg, ch⟩ := p
  cases hd with
  | none => rfl
  | some f =>
    cases w with
    | none => rfl
    | some x => simp only [objection, h f rfl, Option.map_none]

/-- The kind of event of an answer. -/
def Spec.Verdict.kind : Verdict → Option EvKind
  | .starts _ _ => some .startNode
  | .ends => some .endNode
  | .finishes => some .endFbx
  | _ => none

/-- The state left behind. -/
def Left (p : Parser) (w : Option (Warning × SynPos)) (b : Ahead) (q : Parser) : Prop :=
  look q = b ∧ ∃ k, q = { p with log := w.toList ++ p.log, started := b.opened, toplevel := b.top, reader := p.reader.consume k }

theorem Left.mono {p : Parser} {d : Nat} {w : Option (Warning × SynPos)} {b : Ahead} {q : Parser}
    (h : Left { p with reader := p.reader.consume d } w b q) : Left p w b q := by
  obtain ⟨h1, k, h2⟩ := h
  exact ⟨h1, d + k, by rw [h2]; simp [consume_consume]⟩

/-- `m` answers what the table says. -/
def Follows (p : Parser) (x : Verdict × Option (Warning × SynPos) × Ahead) (m : M PErr Parser EvKind) (p' : Parser) : Prop :=
  M.wp m (fun k q => Left p x.2.1 x.2.2 q ∧ x.1.kind = some k) (fun e q => Left p x.2.1 x.2.2 q ∧ x.1 = .fails e.kind ∧ e.pos = none)
    (fun pn _ => x.1 = .overflows ∧ pn = .attrEndOverflow) p'

theorem Follows.mono {p p' : Parser} {d : Nat} {x : Verdict × Option (Warning × SynPos) × Ahead} {m : M PErr Parser EvKind}
    (h : Follows { p with reader := p.reader.consume d } x m p') : Follows p x m p' :=
  M.wp_mono h (fun _ _ h => ⟨h.1.mono, h.2⟩) (fun _ _ h => ⟨h.1.mono, h.2⟩) (fun _ _ h => h)

theorem readExact_dry {r : Reader} {n : Nat} (h : r.rest.length < n) (hp : r.position + r.rest.length < 2 ^ 64) :
    readExact n r = (.err (r.ending.getD .unexpectedEof), r.consume r.rest.length) := by
  have hu : u64Size = 2 ^ 64 := rfl
  rw [readExact, if_neg (by omega), if_pos (by rw [hu]; exact hp)]

theorem io_fail {β : Type} {m : M IoErr Reader β} {p : Parser} {e : IoErr} {r : Reader} (h : m p.reader = (.err e, r)) :
    Parser.io m p = (.err (PErr.ofIo e), { p with reader := r }) := by
  simp only [Parser.io, M.mapErr_apply, M.zoom_apply, h]

theorem readLe_short {r : Reader} {k : Nat} (h : r.rest.length < k) (hp : r.position + r.rest.length < 2 ^ 64) :
    readLe k r = (.err (r.ending.getD .unexpectedEof), r.consume r.rest.length) := by
  rw [readLe, M.bind_apply, readExact_dry h hp]

theorem bind_err {ε σ β γ : Type} {m : M ε σ β} {f : β → M ε σ γ} {s s' : σ} {e : ε} (h : m s = (.err e, s')) : (m >>= f) s = (.err e, s') := by
  rw [M.bind_apply, h]

/-- A node header that is not all there. -/
theorem readNodeHeader_short {p : Parser} (h : p.reader.rest.length < 3 * headWidth p.version + 1)
    (hp : p.reader.position + p.reader.rest.length < 2 ^ 64) :
    readNodeHeader p = (.err (PErr.ofIo (p.reader.ending.getD .unexpectedEof)), { p with reader := p.reader.consume p.reader.rest.length }) := by
  have key : ∀ (n a : Nat), a ≤ p.reader.rest.length → p.reader.rest.length < a + n →
      Parser.io (readLe n) { p with reader := p.reader.consume a } =
        (.err (PErr.ofIo (p.reader.ending.getD .unexpectedEof)), { p with reader := p.reader.consume p.reader.rest.length }) := by
    intro n a h1 h2
    rw [io_fail (readLe_short (by simp; omega) (by simp; omega))]
    simp only [consume_consume, consume_rest, List.length_drop]
    rw [show a + (p.reader.rest.length - a) = p.reader.rest.length by omega]
    rfl
  rw [readNodeHeader, M.get_bind]
  rw [show (if p.version < 7500 then 4 else 8) = headWidth p.version from rfl]
  generalize headWidth p.version = w at *
  have key0 := fun n => key n 0 (by omega)
  simp only [consume_zero] at key0
  by_cases h1 : p.reader.rest.length < w
  · exact bind_err (key0 w (by omega))
  refine (M.bind_val (io_exact (readLe_exact (by omega) (by omega))) _).trans ?_
  by_cases h2 : p.reader.rest.length < w + w
  · exact bind_err (key w w (by omega) (by omega))
  refine (M.bind_val (io_exact (readLe_exact (by simp; omega) (by simp; omega))) _).trans ?_
  simp only [consume_consume]
  by_cases h3 : p.reader.rest.length < w + w + w
  · exact bind_err (key w (w + w) (by omega) (by omega))
  refine (M.bind_val (io_exact (readLe_exact (by simp; omega) (by simp; omega))) _).trans ?_
  simp only [consume_consume]
  exact bind_err (key 1 (w + w + w) (by omega) (by omega))

theorem look_consume (p : Parser) (k : Nat) : look { p with reader := p.reader.consume k } = (look p).move k := rfl

theorem position_ok {p : Parser} (h : p.started ≠ [] → p.toplevel ≠ 0) : position p = (.ok p.synPos, p) := by
  rw [Parser.position, if_neg (fun x => h x.1 x.2)]

theorem wp_of {ε σ β : Type} {m : M ε σ β} {P E X} {s s' : σ} {r : Res ε β} (h : m s = (r, s'))
    (hr : match (generalizing := false) r with | .ok a => P a s' | .err e => E e s' | .panic x => X x s') : M.wp m P E X s := by
  cases r <;> simp only [M.wp, h] <;> exact hr

theorem warnEmptyName_eq {p : Parser} (h : p.started ≠ [] → p.toplevel ≠ 0) (s : Nat) : warnEmptyName s p =
    warn .emptyNodeName ⟨p.reader.position, s, pathOf p.toplevel p.started ++ [((look p).siblings, "")], none⟩ p := by
  rw [warnEmptyName]
  refine (M.bind_val (position_ok h) _).trans ?_
  rw [M.get_bind]
  simp only [synPos_here, look, Ahead.here, Ahead.siblings]
  cases p.started <;> rfl

/-- A node header in front. -/
theorem agree_start {p : Parser} (hroom : p.reader.position + p.reader.rest.length < 2 ^ 64) (htop : p.started ≠ [] → p.toplevel ≠ 0)
    (ht : objection p.handler p.log ((look p).start p.checks).2.1 = none)
    (hlen : 3 * headWidth p.version + 1 ≤ p.reader.rest.length) :
    Follows p ((look p).start p.checks) (startNode p.reader.position (headerAt (headWidth p.version) p.reader.rest))
      { p with reader := p.reader.consume (3 * headWidth p.version + 1) } := by
  generalize hh : headerAt (headWidth p.version) p.reader.rest = h
  obtain ⟨w, hw⟩ : ∃ w, w = if h.nameLen = 0 then
      some (Warning.emptyNodeName, (⟨p.reader.position + (3 * headWidth p.version + 1), p.reader.position,
        pathOf p.toplevel p.started ++ [((look p).siblings, "")], none⟩ : SynPos)) else none := ⟨_, rfl⟩
  have hstart : (look p).start p.checks =
      if p.reader.rest.length < 3 * headWidth p.version + 1 + h.nameLen then
        (.fails (.io (p.reader.ending.getD .unexpectedEof)), w, (look p).move p.reader.rest.length)
      else match stringOfUtf8 ((p.reader.rest.drop (3 * headWidth p.version + 1)).take h.nameLen) with
        | none => (.fails (.data .invalidNodeNameEncoding), w, (look p).move (3 * headWidth p.version + 1 + h.nameLen))
        | some name =>
          if 2 ^ 64 ≤ p.reader.position + (3 * headWidth p.version + 1 + h.nameLen) + h.bytelenAttrs ∧ p.checks = true then
            (.overflows, w, (look p).move (3 * headWidth p.version + 1 + h.nameLen))
          else (.starts name h.numAttrs, w, ((look p).move (3 * headWidth p.version + 1 + h.nameLen)).enter
            ⟨p.reader.position, h.endOffset, h.numAttrs,
              (p.reader.position + (3 * headWidth p.version + 1 + h.nameLen) + h.bytelenAttrs) % 2 ^ 64, name, 0⟩) := by
    have e1 : (look p).bytes = p.reader.rest := rfl
    have e2 : (look p).pos = p.reader.position := rfl
    have e3 : (look p).width = headWidth p.version := rfl
    have e4 : (look p).top = p.toplevel := rfl
    have e5 : (look p).opened = p.started := rfl
    have e6 : (look p).eof = p.reader.ending.getD .unexpectedEof := rfl
    simp only [Ahead.start, Ahead.move, e1, e2, e3, e4, e5, e6, hh, ← hw, List.length_drop, List.drop_drop, Nat.add_assoc]
    have e7 : (p.reader.rest.length - (3 * headWidth p.version + 1) < h.nameLen) = (p.reader.rest.length < 3 * headWidth p.version + (1 + h.nameLen)) := by
      apply propext; omega
    have e8 : 3 * headWidth p.version + (1 + (p.reader.rest.length - (3 * headWidth p.version + 1))) = p.reader.rest.length := by omega
    simp only [e7, e8]
    split
    · rfl
    · generalize stringOfUtf8 _ = o
      cases o <;> rfl
  have hacc : objection p.handler p.log w = none := by
    have e : ((look p).start p.checks).2.1 = w := by
      rw [hstart]
      split
      · rfl
      · split
        · rfl
        · split <;> rfl
    rw [← e]
    exact ht
  have hwarn : (if h.nameLen = 0 then warnEmptyName p.reader.position else pure ()) { p with reader := p.reader.consume (3 * headWidth p.version + 1) } =
      (.ok (), { p with reader := p.reader.consume (3 * headWidth p.version + 1), log := w.toList ++ p.log }) := by
    by_cases h0 : h.nameLen = 0
    · rw [if_pos h0, warnEmptyName_eq (p := { p with reader := p.reader.consume (3 * headWidth p.version + 1) }) htop]
      have e : w = some (Warning.emptyNodeName, (⟨p.reader.position + (3 * headWidth p.version + 1), p.reader.position,
        pathOf p.toplevel p.started ++ [((look p).siblings, "")], none⟩ : SynPos)) := by rw [hw, if_pos h0]
      rw [e] at hacc
      rw [e]
      exact warn_accepted (p := { p with reader := p.reader.consume (3 * headWidth p.version + 1) }) hacc
    · rw [hw, if_neg h0, if_neg h0]; rfl
  unfold Follows
  rw [hstart]
  obtain ⟨m, hm⟩ : ∃ m, m = 3 * headWidth p.version + 1 := ⟨_, rfl⟩
  rw [← hm] at hlen ⊢
  rw [← hm] at hwarn
  have left : ∀ k, Left p w ((look p).move k) { p with reader := p.reader.consume k, log := w.toList ++ p.log } := fun k => ⟨rfl, k, rfl⟩
  have key : ∀ lg, lg = w.toList ++ p.log → M.wp (do
        let bs ← Parser.io (Reader.readExact h.nameLen)
        match stringOfUtf8 bs with
        | none => M.throw (PErr.ofData .invalidNodeNameEncoding)
        | some name => do
          let q ← M.get
          let attrEnd ← addAttrEnd q.reader.position h.bytelenAttrs
          M.modify (pushNode
            { startOff := p.reader.position, endOff := h.endOffset, attrCount := h.numAttrs, attrEnd, name, kids := 0 })
          pure .startNode)
      (fun k q => Left p ((look p).start p.checks).2.1 ((look p).start p.checks).2.2 q ∧ ((look p).start p.checks).1.kind = some k)
      (fun e q => Left p ((look p).start p.checks).2.1 ((look p).start p.checks).2.2 q ∧ ((look p).start p.checks).1 = .fails e.kind ∧ e.pos = none)
      (fun pn _ => ((look p).start p.checks).1 = .overflows ∧ pn = .attrEndOverflow) { p with reader := p.reader.consume m, log := lg } := by
    intro lg hlg
    subst hlg
    rw [hstart, ← hm, M.wp_bind]
    by_cases hs : p.reader.rest.length < m + h.nameLen
    · rw [if_pos hs]
      refine wp_of (io_fail (readExact_dry (by simp; omega) (by simp; omega))) ?_
      simp only [consume_consume, consume_rest, List.length_drop]
      rw [show m + (p.reader.rest.length - m) = p.reader.rest.length by omega]
      exact ⟨left _, rfl, rfl⟩
    · rw [if_neg hs]
      refine wp_of (io_exact (readExact_room (t := (p.reader.consume m).rest.drop h.nameLen) (x := (p.reader.consume m).rest.take h.nameLen)
        (by simp; omega) (List.take_append_drop _ _).symm (by simp; omega))) ?_
      simp only [consume_consume, consume_rest]
      cases hn : stringOfUtf8 ((p.reader.rest.drop m).take h.nameLen) with
      | none => exact ⟨left _, rfl, rfl⟩
      | some name =>
        have hu : u64Size = 2 ^ 64 := rfl
        simp only [M.wp_bind, M.wp_get]
        simp only [M.wp, addAttrEnd, consume_position, hu]
        have fin : ∀ ae, Left p w (((look p).move (m + h.nameLen)).enter ⟨p.reader.position, h.endOffset, h.numAttrs, ae, name, 0⟩)
            (pushNode ⟨p.reader.position, h.endOffset, h.numAttrs, ae, name, 0⟩
              { p with reader := p.reader.consume (m + h.nameLen), log := w.toList ++ p.log }) := by
          intro ae
          obtain ⟨v, he, st, la, tl, rd, hd, lg, ch⟩ := p
          cases st with
          | nil => exact ⟨rfl, _, rfl⟩
          | cons n outer => exact ⟨rfl, _, rfl⟩
        by_cases ho : p.reader.position + (m + h.nameLen) + h.bytelenAttrs < 2 ^ 64
        · rw [if_pos ho, if_neg (fun x => by omega), Nat.mod_eq_of_lt ho]
          exact ⟨fin _, rfl⟩
        · rw [if_neg ho]
          by_cases hc : p.checks = true
          · rw [if_pos hc, if_pos ⟨by omega, hc⟩]
            exact ⟨rfl, rfl⟩
          · rw [if_neg hc, if_neg (fun x => hc x.2)]
            exact ⟨fin _, rfl⟩
  rw [hstart, ← hm] at key
  unfold startNode
  simp only [M.wp_ite]
  by_cases h0 : h.nameLen = 0
  · rw [if_pos h0] at hwarn ⊢
    rw [M.wp_bind]
    exact wp_of hwarn (key _ rfl)
  · rw [if_neg h0] at hwarn ⊢
    have hwn : w = none := by rw [hw, if_neg h0]
    exact key p.log (by rw [hwn]; rfl)

/-- A node header or an end marker has to be in front. -/
theorem agree_header {p : Parser} (hroom : p.reader.position + p.reader.rest.length < 2 ^ 64) (htop : p.started ≠ [] → p.toplevel ≠ 0)
    (ht : objection p.handler p.log ((look p).header p.checks).2.1 = none) :
    Follows p ((look p).header p.checks) (do
      let h ← readNodeHeader
      if h.isNodeEnd then explicitEnd else startNode p.reader.position h) p := by
  unfold Follows
  rw [M.wp_bind]
  have e1 : (look p).bytes = p.reader.rest := rfl
  have e2 : (look p).pos = p.reader.position := rfl
  have e3 : (look p).width = headWidth p.version := rfl
  have e5 : (look p).opened = p.started := rfl
  have e6 : (look p).eof = p.reader.ending.getD .unexpectedEof := rfl
  rw [Ahead.header, e1, e3, e5, e6] at ht ⊢
  by_cases hs : p.reader.rest.length < 3 * headWidth p.version + 1
  · rw [if_pos hs]
    exact wp_of (readNodeHeader_short hs hroom) ⟨⟨rfl, _, rfl⟩, rfl, rfl⟩
  · rw [if_neg hs] at ht ⊢
    refine wp_of (readNodeHeader_exact (by omega) (by omega)) ?_
    simp only [M.wp_ite]
    by_cases hm : headerAt (headWidth p.version) p.reader.rest = .nodeEnd
    · rw [if_pos hm] at ht
      rw [if_pos hm, if_pos ((isNodeEnd_iff _).mpr hm)]
      rw [explicitEnd, M.wp_bind, M.wp_get]
      obtain ⟨v, he, st, la, tl, rd, hd, lg, ch⟩ := p
      cases st with
      | nil => exact ⟨⟨rfl, _, rfl⟩, rfl⟩
      | cons n outer =>
        simp only [M.wp_bind, M.wp_set, M.wp_ite, M.wp_throw]
        by_cases hne : n.endOff ≠ (rd.consume (3 * headWidth v + 1)).position
        · have hne' : n.endOff ≠ ((look ⟨v, he, n :: outer, la, tl, rd, hd, lg, ch⟩).move (3 * headWidth v + 1)).pos := hne
          simp only [if_pos hne, if_pos hne']
          exact ⟨⟨rfl, _, rfl⟩, rfl, rfl⟩
        · have hne' : ¬ n.endOff ≠ ((look ⟨v, he, n :: outer, la, tl, rd, hd, lg, ch⟩).move (3 * headWidth v + 1)).pos := hne
          simp only [if_neg hne, if_neg hne']
          simp only [if_neg hne'] at ht
          by_cases hw : n.attrCount ≠ 0 ∧ n.kids = 0
          · simp only [if_pos hw] at ht ⊢
            refine wp_of (position_ok (p := ⟨v, he, outer, la, tl, rd.consume (3 * headWidth v + 1), hd, lg, ch⟩) (fun _ => htop (by simp))) ?_
            simp only [M.wp_bind]
            rw [synPos_here]
            refine wp_of (warn_accepted (p := ⟨v, he, outer, la, tl, rd.consume (3 * headWidth v + 1), hd, lg, ch⟩) ht) ?_
            exact ⟨⟨rfl, _, rfl⟩, rfl⟩
          · simp only [if_neg hw]
            exact ⟨⟨rfl, _, rfl⟩, rfl⟩
    · rw [if_neg hm] at ht
      rw [if_neg hm, if_neg (fun x => hm ((isNodeEnd_iff _).mp x))]
      exact agree_start hroom htop ht (by omega)

theorem room {L : Nat} (hL : L < 2 ^ 64) {r : Reader} (h : RInv L r) : r.position + r.rest.length < 2 ^ 64 := by
  rcases h.2 with ⟨-, h2⟩ | h2
  · rw [h2]; exact h.1
  · omega

/-- The core of `next_event`. -/
theorem agree_impl {L : Nat} (hL : L < 2 ^ 64) {p : Parser} (hp : PInv L p) (hrun : p.health = .running) (hlast : p.last ≠ some .endFbx)
    (ht : tolerant p) (hs : p.reader.seekable = true)
    (hlim : ∀ n outer, p.started = n :: outer → p.reader.cursor + (n.attrEnd - p.reader.position) ≤ p.reader.seekLimit)
    (hk : ∀ n outer, p.started = n :: outer → (p.last = some .endNode ↔ n.kids ≠ 0)) :
    Follows p ((look p).next p.checks) nextEventImpl p := by
  have hroom := room hL hp.reader
  unfold Follows
  simp only [nextEventImpl, M.wp_bind, M.wp_get, M.wp_assert, hrun, hlast, ne_eq, not_false_eq_true, decide_true, if_true]
  obtain ⟨v, he, st, la, tl, rd, hd, lg, ch⟩ := p
  cases st with
  | nil =>
    refine wp_of (r := .ok ()) (s' := ⟨v, he, [], la, tl, rd, hd, lg, ch⟩) rfl ?_
    simp only [M.wp_bind, M.wp_get]
    refine wp_of (r := .ok false) (s' := ⟨v, he, [], la, tl, rd, hd, lg, ch⟩) rfl ?_
    exact agree_header (p := ⟨v, he, [], la, tl, rd, hd, lg, ch⟩) hroom hp.top (tolerant_accepts (p := ⟨v, he, [], la, tl, rd, hd, lg, ch⟩) ht _)
  | cons n outer =>
    have hb := (hp.ends n (by simp)).2.1
    have hl := hlim n outer rfl
    have hkk := hk n outer rfl
    simp only at hs hl hkk hroom
    obtain ⟨d, hd'⟩ : ∃ d, d = n.attrEnd - rd.position := ⟨_, rfl⟩
    have hskip : skipUnreadAttributes ⟨v, he, n :: outer, la, tl, rd, hd, lg, ch⟩ = (.ok (), ⟨v, he, n :: outer, la, tl, rd.consume d, hd, lg, ch⟩) := by
      rw [skipUnreadAttributes, M.get_bind]
      simp only [M.ite_apply]
      by_cases hg : n.attrEnd > rd.position
      · rw [if_pos hg]
        exact io_exact (by rw [hd']; exact skipTo_ok hs _ (by omega) hb hl)
      · rw [if_neg hg, hd', show n.attrEnd - rd.position = 0 by omega, consume_zero]; rfl
    have hroom' : (rd.consume d).position + (rd.consume d).rest.length < 2 ^ 64 := by
      simp only [consume_position, consume_rest, List.length_drop]
      by_cases hh : d ≤ rd.rest.length
      · omega
      · have := hp.reader.1
        simp only at this
        omega
    have hnext : (look ⟨v, he, n :: outer, la, tl, rd, hd, lg, ch⟩).next ch =
        (if n.endOff < (rd.consume d).position then
          (.fails (.data (.nodeLengthMismatch n.endOff none)), none, look ⟨v, he, n :: outer, la, tl, rd.consume d, hd, lg, ch⟩)
        else if n.endOff = (rd.consume d).position then
          (.ends, if n.kids ≠ 0 ∨ n.attrCount = 0 then some (.missingNodeEndMarker, (look ⟨v, he, n :: outer, la, tl, rd.consume d, hd, lg, ch⟩).here) else none,
            look ⟨v, he, outer, la, tl, rd.consume d, hd, lg, ch⟩)
        else (look ⟨v, he, n :: outer, la, tl, rd.consume d, hd, lg, ch⟩).header ch) := by
      rw [hd']; rfl
    simp only [hnext]
    refine wp_of hskip ?_
    simp only [M.wp_bind, M.wp_get]
    simp only [tryImplicitEnd, M.wp_bind, M.wp_get, M.wp_ite, M.wp_throw]
    by_cases h1 : n.endOff < (rd.consume d).position
    · rw [if_pos h1, if_pos h1]
      exact ⟨⟨rfl, d, rfl⟩, rfl, rfl⟩
    rw [if_neg h1, if_neg h1]
    by_cases h2 : n.endOff = (rd.consume d).position
    · rw [if_pos h2, if_pos h2]
      by_cases h3 : n.kids ≠ 0 ∨ n.attrCount = 0
      · have h3' : la = some EvKind.endNode ∨ ¬ n.attrCount ≠ 0 := by
          rcases h3 with h3 | h3
          · exact .inl (hkk.mpr h3)
          · exact .inr (by simp [h3])
        simp only [if_pos h3, if_pos h3']
        refine wp_of (position_ok (p := ⟨v, he, n :: outer, la, tl, rd.consume d, hd, lg, ch⟩) hp.top) ?_
        simp only [M.wp_bind]
        refine wp_of (warn_tolerant (p := ⟨v, he, n :: outer, la, tl, rd.consume d, hd, lg, ch⟩) ht _ _) ?_
        rw [synPos_here]
        exact ⟨⟨rfl, d, rfl⟩, rfl⟩
      · have h3' : ¬ (la = some EvKind.endNode ∨ ¬ n.attrCount ≠ 0) := by
          rintro (h | h)
          · exact h3 (.inl (hkk.mp h))
          · exact h3 (.inr (by simpa using h))
        simp only [if_neg h3, if_neg h3']
        exact ⟨⟨rfl, d, rfl⟩, rfl⟩
    · rw [if_neg h2, if_neg h2]
      have := agree_header (p := ⟨v, he, n :: outer, la, tl, rd.consume d, hd, lg, ch⟩) hroom' hp.top
        (tolerant_accepts (p := ⟨v, he, n :: outer, la, tl, rd.consume d, hd, lg, ch⟩) ht _)
      exact Follows.mono (p := ⟨v, he, n :: outer, la, tl, rd, hd, lg, ch⟩) this

/-! ## The footer -/

/-- Errors of the footer. -/
theorem readFooter_fails {p : Parser} (ht : tolerant p) (h : p.reader.position + p.reader.rest.length < 2 ^ 64) :
    M.wp readFooter (fun _ _ => True) (fun e q =>
      q.log = (if 16 ≤ p.reader.rest.length ∧ footerField1Odd (p.reader.rest.take 16) = true then
        [(.unexpectedFooterField, ⟨p.reader.position, p.reader.position, [], none⟩)] else []) ++ p.log ∧ e.pos = none ∧
      (e.kind = .io (p.reader.ending.getD .unexpectedEof) ∨ e.kind = .data .brokenFbxFooter) ∧
      (p.reader.rest.length < 160 → e.kind = .io (p.reader.ending.getD .unexpectedEof)) ∧
      (176 ≤ p.reader.rest.length → e.kind = .data .brokenFbxFooter)) (fun _ _ => False) p := by
  simp only [readFooter, M.wp_bind, M.wp_get]
  by_cases h16 : p.reader.rest.length < 16
  · refine wp_of (io_fail (readExact_dry h16 h)) ?_
    refine ⟨?_, rfl, .inl rfl, fun _ => rfl, fun _ => by omega⟩
    rw [if_neg (fun x => by omega)]; rfl
  refine wp_of (io_exact (readExact_room h (List.take_append_drop 16 _).symm (by simp; omega))) ?_
  simp only [M.wp_bind, M.wp_get]
  refine wp_of (warnIf_tolerant (p := { p with reader := p.reader.consume 16 }) ht _ _ _) ?_
  simp only [M.wp_bind]
  obtain ⟨lg, hlg⟩ : ∃ lg, lg = (if 16 ≤ p.reader.rest.length ∧ footerField1Odd (p.reader.rest.take 16) = true then
        [((.unexpectedFooterField : Warning), (⟨p.reader.position, p.reader.position, [], none⟩ : SynPos))] else []) ++ p.log := ⟨_, rfl⟩
  have hlg' : (if footerField1Odd (p.reader.rest.take 16) = true then [((.unexpectedFooterField : Warning),
      (⟨(p.reader.consume 16).position - 16, p.reader.position, [], none⟩ : SynPos))] else []) ++ p.log = lg := by
    rw [hlg, consume_position, Nat.add_sub_cancel]
    simp only [show (16 ≤ p.reader.rest.length) = True from propext ⟨fun _ => trivial, fun _ => by omega⟩, true_and]
  rw [hlg', ← hlg]
  by_cases h160 : p.reader.rest.length < 160
  · refine wp_of (io_fail (readExact_dry (by simp; omega) (by simp; omega))) ?_
    exact ⟨rfl, rfl, .inl rfl, fun _ => rfl, fun _ => by omega⟩
  refine wp_of (io_exact (readExact_room (by simp; omega) (List.take_append_drop 144 _).symm (by simp; omega))) ?_
  generalize hbuf : List.take 144 (p.reader.consume 16).rest = buf
  have hbl : buf.length = 144 := by rw [← hbuf]; simp; omega
  have hbroken : ∀ q : Parser, q.log = lg → q.log = lg ∧ (PErr.ofData .brokenFbxFooter).pos = none ∧
      ((PErr.ofData .brokenFbxFooter).kind = .io (p.reader.ending.getD .unexpectedEof) ∨ (PErr.ofData .brokenFbxFooter).kind = .data .brokenFbxFooter) ∧
      (p.reader.rest.length < 160 → (PErr.ofData .brokenFbxFooter).kind = .io (p.reader.ending.getD .unexpectedEof)) ∧
      (176 ≤ p.reader.rest.length → (PErr.ofData .brokenFbxFooter).kind = .data .brokenFbxFooter) :=
    fun q hq => ⟨hq, rfl, .inr rfl, fun _ => by omega, fun _ => rfl⟩
  simp only
  cases hi : (buf.drop 128).findIdx? (fun x => decide (x ≠ 0)) with
  | none => exact hbroken _ rfl
  | some i =>
    have hi16 : i < 16 := by
      have := (List.findIdx?_eq_some_iff_findIdx_eq.mp hi).1
      simpa [hbl] using this
    simp only [M.wp_bind, M.wp_assert]
    simp only [M.wp_ite, M.wp_throw, M.wp_bind, M.wp_get]
    rw [if_pos (by simp; omega), if_pos (by simp; omega)]
    split
    · exact ⟨trivial, rfl, .inr rfl, fun _ => by omega, fun _ => rfl⟩
    split
    · exact ⟨trivial, rfl, .inr rfl, fun _ => by omega, fun _ => rfl⟩
    split
    · exact ⟨trivial, rfl, .inr rfl, fun _ => by omega, fun _ => rfl⟩
    split
    · exact ⟨trivial, rfl, .inr rfl, fun _ => by omega, fun _ => rfl⟩
    have hpl : (buf.drop ((128 + i) % 16 + 128)).length ≤ 16 := by simp [hbl]
    generalize hm : 16 - (buf.drop ((128 + i) % 16 + 128)).length = m
    by_cases hl : p.reader.rest.length < 160 + m
    · refine wp_of (io_fail (readExact_dry (by simp; omega) (by simp; omega))) ?_
      exact ⟨rfl, rfl, .inl rfl, fun _ => rfl, fun _ => by omega⟩
    refine wp_of (io_exact (readExact_room (by simp; omega) (List.take_append_drop m _).symm (by simp; omega))) ?_
    simp only [M.wp_ite, M.wp_throw, M.wp_bind]
    split
    · exact ⟨trivial, rfl, .inr rfl, fun _ => by omega, fun _ => rfl⟩
    · exact wp_of (warnIf_tolerant (p := { p with reader := ((p.reader.consume 16).consume 144).consume m, log := lg }) ht _ _ _) trivial

theorem footer_says {p : Parser} (ht : tolerant p) (h : p.reader.position + p.reader.rest.length < 2 ^ 64) :
    ∃ ft q, makeEvent .endFbx p = (.ok (.endFbx ft), q) ∧ footerSays p.version.toNat (look p) ft p.log q.log ∧ q.health = p.health := by
  have hw := readFooter_fails ht h
  have hodd : ∀ (l : List (Warning × SynPos)), (if 16 ≤ p.reader.rest.length ∧ footerField1Odd (p.reader.rest.take 16) = true then l else []) =
      if 16 ≤ p.reader.rest.length ∧ ¬ usualField1 (p.reader.rest.take 16) then l else [] := by
    intro l
    by_cases hl : 16 ≤ p.reader.rest.length
    · have := odd_iff (p.reader.rest.take 16) (by simp; omega)
      rcases hc : footerField1Odd (p.reader.rest.take 16) with _ | _
      · rw [if_neg (by simp), if_neg (fun x => x.2 (this.mp hc))]
      · rw [if_pos ⟨hl, rfl⟩, if_pos ⟨hl, fun x => by rw [this.mpr x] at hc; cases hc⟩]
    · rw [if_neg (fun x => hl x.1), if_neg (fun x => hl x.1)]
  rcases hx : readFooter p with ⟨_ | _ | _, q⟩
  · rename_i f
    obtain ⟨h1, h2⟩ := readFooter_inv hx
    refine ⟨.ok f, q, by simp only [makeEvent, hx], ⟨?_, ?_, ?_⟩, by have := readFooter_health p; rw [hx] at this; exact this⟩
    · intro g
      constructor
      · intro hg; cases hg; exact h1
      · intro hg
        obtain ⟨q', hq'⟩ := readFooter_accept (.inl ht) h hg
        rw [hx] at hq'
        cases hq'; rfl
    · intro g hg
      cases hg
      have hu : f.unknown1 = p.reader.rest.take 16 := by
        obtain ⟨a, _, _, _, _, t, hb⟩ := h1
        rw [hb]
        simp only [List.append_assoc]
        exact (List.take_left' a).symm
      have hl : 16 ≤ p.reader.rest.length := by
        have := h1.1
        rw [hu, List.length_take] at this
        omega
      have := hodd [((.unexpectedFooterField : Warning), (⟨p.reader.position, p.reader.position, [], none⟩ : SynPos))]
      have e : q.log = (if f.paddingLen ≠ (16 - (p.reader.position + 16) % 16) % 16 then
          [((.invalidFooterPadding ((16 - (p.reader.position + 16) % 16) % 16) f.paddingLen : Warning),
            (⟨p.reader.position + 16, p.reader.position, [], none⟩ : SynPos))] else []) ++
          ((if 16 ≤ p.reader.rest.length ∧ footerField1Odd (p.reader.rest.take 16) = true then
            [((.unexpectedFooterField : Warning), (⟨p.reader.position, p.reader.position, [], none⟩ : SynPos))] else []) ++ p.log) := by
        rw [h2, hu]
        simp only [hl, true_and]
        rfl
      rw [this, ← List.append_assoc] at e
      exact e
    · intro e he; cases he
  · rename_i e
    obtain ⟨h1, h2, h3, h4, h5⟩ := M.wp_err hw hx
    refine ⟨.error e, q, by simp only [makeEvent, hx], ⟨?_, ?_, ?_⟩, by have := readFooter_health p; rw [hx] at this; exact this⟩
    · intro g
      constructor
      · intro hg; cases hg
      · intro hg
        obtain ⟨q', hq'⟩ := readFooter_accept (.inl ht) h hg
        rw [hx] at hq'
        cases hq'
    · intro g hg; cases hg
    · intro e' he
      cases he
      rw [hodd] at h1
      exact ⟨h1, h2, h3, h4, h5⟩
  · exact (M.wp_pan hw hx).elim

/-! ## `next_event` -/

theorem starts_opened {a : Ahead} {c : Bool} {name : String} {n : Nat} {w : Option (Warning × SynPos)} {b : Ahead}
    (h : a.next c = (.starts name n, w, b)) : ∃ nd outer, b.opened = nd :: outer ∧ nd.name = name ∧ nd.attrCount = n := by
  have hs : ∀ a : Ahead, a.start c = (.starts name n, w, b) → ∃ nd outer, b.opened = nd :: outer ∧ nd.name = name ∧ nd.attrCount = n := by
    intro a h
    simp only [Ahead.start] at h
    split at h
    · cases h
    · split at h
      · cases h
      · split at h
        · cases h
        · simp only [Prod.mk.injEq, Verdict.starts.injEq] at h
          obtain ⟨⟨rfl, rfl⟩, _, rfl⟩ := h
          simp only [Ahead.enter]
          split <;> exact ⟨_, _, rfl, rfl, rfl⟩
  have hh : ∀ a : Ahead, a.header c = (.starts name n, w, b) → ∃ nd outer, b.opened = nd :: outer ∧ nd.name = name ∧ nd.attrCount = n := by
    intro a h
    simp only [Ahead.header] at h
    split at h
    · cases h
    · split at h
      · split at h
        · cases h
        · split at h <;> cases h
      · exact hs _ h
  simp only [Ahead.next] at h
  split at h
  · exact hh _ h
  · split at h
    · cases h
    · split at h
      · cases h
      · exact hh _ h

theorem finishes_state {a : Ahead} {c : Bool} {w : Option (Warning × SynPos)} {b : Ahead}
    (h : a.next c = (.finishes, w, b)) : w = none ∧ b.opened = [] := by
  have hh : ∀ a : Ahead, a.header c = (.finishes, w, b) → w = none ∧ b.opened = [] := by
    intro a h
    simp only [Ahead.header] at h
    split at h
    · cases h
    · split at h
      · split at h
        · rename_i ho
          cases h
          exact ⟨rfl, ho⟩
        · split at h <;> cases h
      · simp only [Ahead.start] at h
        split at h
        · cases h
        · split at h
          · cases h
          · split at h <;> cases h
  simp only [Ahead.next] at h
  split at h
  · exact hh _ h
  · split at h
    · cases h
    · split at h
      · cases h
      · exact hh _ h

theorem answers_next {L : Nat} (hL : L + 2 ^ 32 ≤ 2 ^ 64) {s : Client} (hi : CInv L s) (hrun : s.parser.health = .running)
    (ht : tolerant s.parser) (hs : s.parser.reader.seekable = true) (hlim : canPass s.parser)
    (hk : ∀ n outer, s.parser.started = n :: outer → (s.parser.last = some .endNode ↔ n.kids ≠ 0)) :
    ∃ o t, s.call Z (.next : Call α) = some (o, t) ∧ Answers s o t ((look s.parser).next s.parser.checks) := by
  have hlast : s.parser.last ≠ some .endFbx := fun h => hi.last h hrun
  have hf := agree_impl (by omega) hi.parser hrun hlast ht hs hlim hk
  have hw := wp_nextEventImpl hL hi.parser hrun hlast
  have hne := wp_nextEvent hL hi.parser hi.last
  have he : ensureContinuable s.parser = (.ok (), s.parser) := by simp only [ensureContinuable, hrun]
  obtain ⟨⟨vd, w, b⟩, hx⟩ : ∃ x, (look s.parser).next s.parser.checks = x := ⟨_, rfl⟩
  rw [hx] at hf ⊢
  rcases hm : nextEventImpl s.parser with ⟨_ | _ | _, q⟩
  · rename_i k
    obtain ⟨⟨h1, j, h2⟩, h3⟩ := M.wp_ok hf hm
    obtain ⟨h4, h5⟩ := M.wp_ok hw hm
    simp only at h1 h2 h3
    have hn := nextEvent_of hrun hm h4.depth
    have hq : q.health = .running ∧ q.log = w.toList ++ s.parser.log ∧ q.version = s.parser.version ∧ q.handler = s.parser.handler := by
      rw [h2]; exact ⟨hrun, rfl, rfl, rfl⟩
    cases vd with
    | starts name n =>
      cases h3
      obtain ⟨nd, outer, g1, g2, g3⟩ := starts_opened hx
      have g4 : q.started = nd :: outer := by rw [← g1, ← h1]; rfl
      simp only [reduceCtorEq, if_false, makeEvent, g4] at hn
      simp only [Client.call, hn]
      refine ⟨_, _, rfl, by rw [g2, g3], ?_, ?_, ?_⟩
      · exact hq.2.1
      · rw [← h1]; simp [look, g4]
      · exact hq.1
    | ends =>
      cases h3
      simp only [reduceCtorEq, if_false, makeEvent] at hn
      simp only [Client.call, hn]
      exact ⟨_, _, rfl, rfl, hq.2.1, by rw [← h1]; rfl, hq.1⟩
    | finishes =>
      cases h3
      obtain ⟨g1, g2⟩ := finishes_state hx
      subst g1
      have ht' : tolerant { q with health := .finished, last := some .endFbx } := by
        intro f hf'
        exact ht f (by rw [← hq.2.2.2]; exact hf')
      obtain ⟨ft, q', f1, f2, f3⟩ := footer_says (p := { q with health := .finished, last := some .endFbx }) ht' (room (by omega) h5)
      simp only [if_true] at hn
      rw [f1] at hn
      simp only [Client.call, hn]
      refine ⟨_, _, rfl, rfl, f3, ft, rfl, ?_⟩
      have : look { q with health := .finished, last := some .endFbx } = b := by rw [← h1]; rfl
      rw [this] at f2
      have e1 : q.log = s.parser.log := hq.2.1
      simp only [hq.2.2.1, e1] at f2
      exact f2
    | fails k => cases h3
    | overflows => cases h3
  · rename_i e
    obtain ⟨⟨h1, j, h2⟩, h3, h4⟩ := M.wp_err hf hm
    simp only at h1 h2 h3
    subst h3
    have := next_of_impl (Z := Z) (α := α) hL hi hrun hm
    refine ⟨_, _, this, ?_, ?_, ?_, ?_⟩
    · simp only [PErr.andPosition, synPos_here, h1]
    · simp only [Parser.setAborted]; rw [h2]
    · rw [← h1]; rfl
    · simp only [Parser.setAborted, synPos_here, h1]
  · rename_i x
    obtain ⟨h1, h2⟩ := M.wp_pan hf hm
    simp only at h1
    subst h1 h2
    have hn : nextEvent s.parser = (.panic .attrEndOverflow, q) := by
      rw [nextEvent, M.get_bind]
      refine (M.bind_val he _).trans ?_
      simp only [hm]
    simp only [Client.call, hn]
    exact ⟨_, _, rfl, rfl⟩

/-! ## Children and the last event -/

/-- While the parser is running, the innermost open node has had children exactly if the last event was the end of a
node, and the other open nodes have had children. -/
theorem Runs.kids {L : Nat} (hL : L + 2 ^ 32 ≤ 2 ^ 64) {s t : Client} {h : History α} (hr : Runs Z s h t) (hs : CInv L s) (hn : h.calm)
    (h0 : s.parser.started = []) (hrun : t.parser.health = .running) :
    ∀ n outer, t.parser.started = n :: outer → (t.parser.last = some .endNode ↔ n.kids ≠ 0) ∧ ∀ m ∈ outer, m.kids ≠ 0 := by
  refine hr.ind hL hs (P := fun h t => h.calm → t.parser.health = .running → ∀ n outer, t.parser.started = n :: outer →
    (t.parser.last = some .endNode ↔ n.kids ≠ 0) ∧ ∀ m ∈ outer, m.kids ≠ 0) (fun _ _ n outer hx => ?_) ?_ hn hrun
  · rw [h0] at hx; cases hx
  intro h t u c o hr hi ih hn hd hc hn' hrun'
  obtain ⟨k1, k2⟩ := calm_snoc hn'
  have quiet : ∀ {p q : Parser}, Quiet p q → (∀ n outer, p.started = n :: outer → (p.last = some .endNode ↔ n.kids ≠ 0) ∧ ∀ m ∈ outer, m.kids ≠ 0) →
      ∀ n outer, q.started = n :: outer → (q.last = some .endNode ↔ n.kids ≠ 0) ∧ ∀ m ∈ outer, m.kids ≠ 0 := by
    intro p q h1 h2
    rw [h1.started, h1.last]
    exact h2
  have popped : ∀ (p q : Parser) m o, (∀ n outer, p.started = n :: outer → (p.last = some .endNode ↔ n.kids ≠ 0) ∧ ∀ m ∈ outer, m.kids ≠ 0) →
      p.started = m :: o → q.started = o → q.last = some .endNode →
      ∀ n outer, q.started = n :: outer → (q.last = some .endNode ↔ n.kids ≠ 0) ∧ ∀ m ∈ outer, m.kids ≠ 0 := by
    intro p q m o h1 h2 h3 h4 n outer h5
    have h6 := (h1 m o h2).2
    rw [← h3, h5] at h6
    exact ⟨⟨fun _ => h6 n (by simp), fun _ => h4⟩, fun x hx => h6 x (by simp [hx])⟩
  cases hd with
  | @event ev hrun he hi' ha =>
    have i1 := ih k1 hrun
    cases ev with
    | startNode name k =>
      obtain ⟨r, hd, ae, outer, tl, _, _, _, _, _, _, _, _, g1, _, g2⟩ := he.started
      have hl : u.parser.last = some .startNode := by
        generalize hev : Event.startNode name k = ev at he
        cases he with
        | start hs hst hq => rw [hq]
        | endNode hs hq => cases hev
        | endFbx hs hq => cases hev
      intro n o hx
      rw [g1] at hx
      cases hx
      refine ⟨by rw [hl]; simp, ?_⟩
      intro m hm
      cases hst : t.parser.started with
      | nil => rw [hst] at g2; rw [g2.1] at hm; cases hm
      | cons m' o' =>
        rw [hst] at g2
        rw [g2.1] at hm
        rcases List.mem_cons.mp hm with rfl | hm
        · simp
        · exact (i1 m' o' hst).2 m hm
    | endNode =>
      obtain ⟨n, outer, g1, g2, _, _⟩ := he.ended
      have hl : u.parser.last = some .endNode := by
        generalize hev : Event.endNode = ev at he
        cases he with
        | endNode hs hq => rw [hq]
        | start hs hst hq => cases hev
        | endFbx hs hq => cases hev
      exact popped _ _ n outer i1 g1 g2 hl
    | endFbx f =>
      obtain ⟨_, g1, _⟩ := he.finished
      intro n o hx
      rw [g1] at hx
      cases hx
  | @nextRefused e hp hr ha => rw [hp] at hrun' ⊢; exact ih k1 hrun'
  | nextFailed hrun hf hi hp he ha => rw [hp] at hrun'; cases hrun'
  | nextPanic hx' => exact absurd rfl (k2 _)
  | value ha hp hrun hr ht => subst ht; exact quiet hr.1 (by rw [← hp]; exact ih k1 hrun)
  | noValue ha hrun h0 ht => subst ht; exact ih k1 hrun
  | loadRefused ha ht hr => subst ht; exact ih k1 hrun'
  | loadFailed ha hp hrun hr hpos ht he => subst ht; cases hrun'
  | skip hst hm hi hge' hpos hplain ht => subst ht; exact popped t.parser _ _ _ (ih k1 hrun') hst rfl rfl
  | skipFailed hst hm hi hge' ht => subst ht; exact popped t.parser _ _ _ (ih k1 hrun') hst rfl rfl
  | skipPanic hx' => exact absurd rfl (k2 _)
  | handler ht => subst ht; exact ih k1 hrun'

/-! ## The open nodes and the headers in the file -/

theorem Skipped.consumed {p : Parser} {r : Reader} (h : Skipped p r) (hs : p.reader.seekable = true) : ∃ d, r = p.reader.consume d := by
  obtain ⟨j, k, ha⟩ := h.moves
  have hjk := ha.eq hs
  subst hjk
  obtain ⟨b1, b2, b3, b4, b5, b6⟩ := r
  obtain ⟨h1, h2, h3, h4, h5, h6, _, _⟩ := ha
  simp only at h1 h2 h3 h4 h5 h6
  subst h1 h2 h3 h4 h5 h6
  exact ⟨j, rfl⟩

/-- On a seekable source every open node is one declared by a header in the file. -/
theorem Runs.declared {L : Nat} (hL : L + 2 ^ 32 ≤ 2 ^ 64) {s t : Client} {h : History α} (hr : Runs Z s h t) (hs : CInv L s) (hn : h.calm)
    (h0 : s.parser.started = []) {bytes : Bytes} (hpos : s.parser.reader.position = headerLen) (hrest : s.parser.reader.rest = bytes)
    (hseek : s.parser.reader.seekable = true) : ∀ n ∈ t.parser.started, Declared (headWidth s.parser.version) bytes n := by
  refine hr.ind hL hs (P := fun h t => h.calm → ∀ n ∈ t.parser.started, Declared (headWidth s.parser.version) bytes n) (fun _ n hx => ?_) ?_ hn
  · rw [h0] at hx; cases hx
  intro h t u c o hr hi ih hn hd hc hn'
  obtain ⟨k1, k2⟩ := calm_snoc hn'
  have i1 := ih k1
  have hfr := hr.frame hL hs hn
  have hmv := hr.moves hL hs hn
  cases hd with
  | @event ev hrun he hi' ha =>
    cases he with
    | @start q' nd ou hst hst' hq =>
      rw [hq]
      cases hst with
      | @start r hd name p' ae hr' hh hne hlen hname hp' hrd hae hq' =>
        have hseek' : t.parser.reader.seekable = true := by
          obtain ⟨j, k, ha⟩ := hmv
          rw [ha.seekable, hseek]
        obtain ⟨d, hd'⟩ := Skipped.consumed hr' hseek'
        have : ∃ k, r.rest = bytes.drop k ∧ r.position = headerLen + k := by
          obtain ⟨j, k, ha⟩ := hmv
          have := ha.eq hseek
          subst this
          refine ⟨j + d, ?_, ?_⟩
          · rw [hd', consume_rest, ha.rest, hrest, List.drop_drop]
          · rw [hd', consume_position, ha.position, hpos, Nat.add_assoc]
        obtain ⟨k, e1, e2⟩ := this
        have hv : t.parser.version = s.parser.version := hfr.1
        have new : Declared (headWidth s.parser.version) bytes ⟨r.position, hd.endOffset, hd.numAttrs, ae, name, 0⟩ := by
          rw [hv, e1] at hh hlen hname
          subst hh
          rw [hv] at hrd
          refine ⟨k, e2, hlen, rfl, rfl, hname, ?_⟩
          rw [hae, hrd]
          simp only [consume_position, Nat.add_assoc]
        subst hq'
        intro n hx
        simp only [pushNode] at hx
        rw [hp'.started] at hx
        split at hx
        · simp only [List.mem_singleton] at hx
          subst hx
          exact new
        · rename_i m o hmo
          simp only [List.mem_cons] at hx
          rcases hx with rfl | rfl | hx
          · exact new
          · exact i1 m (by rw [hmo]; simp)
          · exact i1 n (by rw [hmo]; simp [hx])
    | endNode hst hq =>
      have := (Parser.Emits.endNode hst hq).ended
      obtain ⟨n, outer, g1, g2, _, _⟩ := this
      intro m hm
      rw [g2] at hm
      exact i1 m (by rw [g1]; simp [hm])
    | @endFbx q' f hst hq =>
      obtain ⟨_, g1, _⟩ := (Parser.Emits.endFbx (f := f) hst hq).finished
      intro m hm
      rw [g1] at hm
      cases hm
  | @nextRefused e hp hr ha => rw [hp]; exact i1
  | @nextFailed e q hrun hf hi hp he ha =>
    rw [hp]
    rcases hf with hf | ⟨p', n, outer, g1, g2, rfl⟩
    · intro m hm
      exact i1 m (by rw [← hf.started]; exact hm)
    · intro m hm
      exact i1 m (by rw [g2]; exact List.mem_cons_of_mem _ hm)
  | nextPanic hx' => exact absurd rfl (k2 _)
  | value ha hp hrun hr ht =>
    subst ht
    intro m hm
    exact i1 m (by rw [hp, ← hr.1.started]; exact hm)
  | noValue ha hrun h0 ht => subst ht; exact i1
  | loadRefused ha ht hr => subst ht; exact i1
  | @loadFailed b l e a c pos ha hp hrun hr hpos ht he =>
    subst ht
    have : c.parser.started = a.parser.started := hr.elim (fun h => h.1.started) (fun h => h.1.started)
    intro m hm
    exact i1 m (by rw [hp, ← this]; exact hm)
  | skip hst hm hi hge' hpos hplain ht => subst ht; intro m hm; exact i1 m (by rw [hst]; exact List.mem_cons_of_mem _ hm)
  | skipFailed hst hm hi hge' ht => subst ht; intro m hm; exact i1 m (by rw [hst]; exact List.mem_cons_of_mem _ hm)
  | skipPanic hx' => exact absurd rfl (k2 _)
  | handler ht => subst ht; exact i1

end Fbx
