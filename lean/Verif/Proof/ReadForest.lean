import Verif.Proof.ReadAttr
import Verif.Proof.WriterForest

/-! # The parser on the layout of a forest -/

namespace Fbx
open Spec Reader
open Writer (le_eq)

namespace Parser

/-- Unread bytes of the attributes of the current node. -/
def pending (p : Parser) : Nat :=
  match p.started with
  | [] => 0
  | n :: _ => n.attrEnd - p.reader.position

/-- The parser is about to read `bs`, found at offset `off`. -/
structure Ready (p : Parser) (off : Nat) (bs : Bytes) : Prop where
  health : p.health = .running
  last : p.last ≠ some .endFbx
  fine : Fine p.reader
  top : p.started ≠ [] → p.toplevel ≠ 0
  off : p.reader.position + p.pending = off
  le : p.pending ≤ p.reader.rest.length
  rest : p.reader.rest.drop p.pending = bs
  seek : p.reader.seekable = true ∨ p.pending = 0

/-- The parser with another reader. -/
def withReader (p : Parser) (r : Reader) : Parser := { p with reader := r }

theorem io_ok {α : Type} {m : M IoErr Reader α} {p : Parser} {v : α} {r : Reader} (h : m p.reader = (.ok v, r)) :
    Parser.io m p = (.ok v, p.withReader r) := by
  simp only [Parser.io, M.zoom_apply, M.mapErr_apply, h, withReader]

theorem skipUnread_ready {p : Parser} {off : Nat} {bs : Bytes} (h : Ready p off bs) :
    skipUnreadAttributes p = (.ok (), p.withReader (p.reader.consume p.pending)) := by
  rw [skipUnreadAttributes, M.get_bind]
  have hle := h.le
  have hsk := h.seek
  simp only [pending] at hle hsk ⊢
  cases hs : p.started with
  | nil => simp only [consume_zero]; rfl
  | cons n r =>
    rw [hs] at hle hsk
    simp only at hle hsk ⊢
    by_cases hg : n.attrEnd > p.reader.position
    · rw [if_pos hg]
      exact io_ok (skipTo_fine h.fine (hsk.resolve_right (by omega)) (by omega) (by omega))
    · rw [if_neg hg, show n.attrEnd - p.reader.position = 0 by omega, consume_zero]; rfl

/-- After the unread attributes were skipped. -/
theorem ready_skip {p : Parser} {off : Nat} {bs : Bytes} (h : Ready p off bs) :
    (p.withReader (p.reader.consume p.pending)).reader.position = off ∧
    (p.withReader (p.reader.consume p.pending)).reader.rest = bs ∧ Fine (p.reader.consume p.pending) :=
  ⟨h.off, h.rest, h.fine.consume h.le⟩

/-- Four fields in a row. -/
theorem readNodeHeader_fine {p : Parser} (hf : Fine p.reader) (eo na ba nl : Nat) (t : Bytes)
    (h : p.reader.rest = header p.version.toNat eo na ba nl ++ t)
    (h1 : eo < 256 ^ width p.version.toNat) (h2 : na < 256 ^ width p.version.toNat) (h3 : ba < 256 ^ width p.version.toNat)
    (h4 : nl < 256) :
    readNodeHeader p = (.ok ⟨eo, na, ba, nl⟩, p.withReader (p.reader.consume (headerSize p.version.toNat))) := by
  have hv : (if p.version < 7500 then 4 else 8) = width p.version.toNat := by
    have : p.version < 7500 ↔ p.version.toNat < 7500 := by rw [UInt32.lt_iff_toNat_lt]; rfl
    simp only [width, this]
  simp only [header, le_eq, List.append_assoc] at h
  have k : ∀ (r : Reader) (w n : Nat) (s : Bytes), Fine r → r.rest = leBytes w n ++ s → (r.consume w).rest = s ∧ Fine (r.consume w) := by
    intro r w n s hf h
    refine ⟨?_, hf.consume (by rw [h]; simp)⟩
    rw [consume_rest, h]; exact List.drop_left' (by simp)
  obtain ⟨e1, f1⟩ := k _ _ _ _ hf h
  obtain ⟨e2, f2⟩ := k _ _ _ _ f1 e1
  obtain ⟨e3, f3⟩ := k _ _ _ _ f2 e2
  rw [readNodeHeader, M.get_bind]
  simp only [hv]
  rw [M.bind_val (io_ok (readLe_fine hf h h1)), M.bind_val (io_ok (readLe_fine f1 e1 h2)), M.bind_val (io_ok (readLe_fine f2 e2 h3)),
    M.bind_val (io_ok (readLe_fine f3 e3 h4))]
  simp only [withReader, consume_consume, M.pure_apply, headerSize]
  congr 3
  omega

/-- Adds `k` children to the current node. -/
def addKids (k : Nat) : List Started → List Started
  | [] => []
  | n :: r => { n with kids := n.kids + k } :: r

/-- Number of trees of a forest. -/
def roots {α : Type} : Forest α → Nat
  | .nil => 0
  | .cons _ _ _ r => roots r + 1

theorem position_ok {p : Parser} (h : p.started ≠ [] → p.toplevel ≠ 0) : position p = (.ok p.synPos, p) := by
  rw [position, if_neg (by rintro ⟨x, y⟩; exact h x y)]

theorem warn_tolerant {p : Parser} (h : tolerant p) (w : Warning) (pos : SynPos) :
    warn w pos p = (.ok (), { p with log := (w, pos) :: p.log }) := by
  simp only [warn]
  cases hh : p.handler with
  | none => rfl
  | some f => simp only [h f hh]

/-- `next_event` from its core. -/
theorem nextEvent_of {p p' : Parser} {k : EvKind} (hh : p.health = .running) (h : nextEventImpl p = (.ok k, p'))
    (hd : depthOk k p.depth p'.depth = true) :
    nextEvent p = makeEvent k { (if k = .endFbx then { p' with health := .finished } else p') with last := some k } := by
  have he : ensureContinuable p = (.ok (), p) := by simp only [ensureContinuable, hh]
  rw [nextEvent, M.get_bind]
  refine (M.bind_val he _).trans ?_
  simp only [h]
  rw [if_pos]
  by_cases hk : k = .endFbx <;> simp [hk, depth] <;> simpa [hk, depth] using hd

/-- The core up to the header. -/
theorem impl_header {p : Parser} {off : Nat} {bs t : Bytes} (h : Ready p off bs) (hend : ∀ n r, p.started = n :: r → off < n.endOff)
    (eo na ba nl : Nat) (hb : bs = header p.version.toNat eo na ba nl ++ t)
    (h1 : eo < 256 ^ width p.version.toNat) (h2 : na < 256 ^ width p.version.toNat) (h3 : ba < 256 ^ width p.version.toNat)
    (h4 : nl < 256) :
    nextEventImpl p = (if (⟨eo, na, ba, nl⟩ : NodeHeader).isNodeEnd then explicitEnd else startNode off ⟨eo, na, ba, nl⟩)
      (p.withReader (p.reader.consume (p.pending + headerSize p.version.toNat))) := by
  obtain ⟨g1, g2, g3⟩ := ready_skip h
  have hi : tryImplicitEnd (p.withReader (p.reader.consume p.pending)) = (.ok false, p.withReader (p.reader.consume p.pending)) := by
    rw [tryImplicitEnd, M.get_bind]
    cases hs : p.started with
    | nil => simp only [withReader, hs]; rfl
    | cons n r =>
      have := hend n r hs
      simp only [show (p.withReader (p.reader.consume p.pending)).started = n :: r from hs, g1]
      rw [if_neg (by omega), if_neg (by omega)]
      rfl
  rw [nextEventImpl, M.get_bind, M.assert_bind, if_pos (by simp [h.health]), M.assert_bind, if_pos (by simp [h.last])]
  refine (M.bind_val (skipUnread_ready h) _).trans ?_
  rw [M.get_bind]
  refine (M.bind_val hi _).trans ?_
  simp only [Bool.false_eq_true, if_false]
  have hh := readNodeHeader_fine (p := p.withReader (p.reader.consume p.pending)) g3 eo na ba nl t (by rw [g2, hb]; rfl) h1 h2 h3 h4
  refine (M.bind_val hh _).trans ?_
  simp only [g1]
  simp only [withReader, consume_consume]

/-- The same device, with the tracked position in step. -/
structure SameDev (r s : Reader) : Prop where
  ending : s.ending = r.ending
  seekable : s.seekable = r.seekable
  seekLimit : s.seekLimit = r.seekLimit
  cursor : s.cursor + r.position = r.cursor + s.position

theorem SameDev.consume (r : Reader) (k : Nat) : SameDev r (r.consume k) := ⟨rfl, rfl, rfl, by simp; omega⟩
theorem SameDev.trans {r s t : Reader} (h : SameDev r s) (g : SameDev s t) : SameDev r t := by
  obtain ⟨a, b, c, d⟩ := h
  obtain ⟨a', b', c', d'⟩ := g
  exact ⟨a'.trans a, b'.trans b, c'.trans c, by omega⟩

/-- What stays the same while nodes are parsed. -/
structure Same (p q : Parser) : Prop where
  version : q.version = p.version
  handler : q.handler = p.handler
  checks : q.checks = p.checks
  dev : SameDev p.reader q.reader

theorem Same.refl (p : Parser) : Same p p := ⟨rfl, rfl, rfl, rfl, rfl, rfl, by omega⟩
theorem Same.trans {p q r : Parser} (h : Same p q) (g : Same q r) : Same p r :=
  ⟨g.version.trans h.version, g.handler.trans h.handler, g.checks.trans h.checks, h.dev.trans g.dev⟩
theorem Same.tolerant {p q : Parser} (h : Same p q) (t : tolerant p) : Spec.tolerant q := by
  intro f hf; exact t f (h.handler ▸ hf)

/-- The open node list after a node was started. -/
theorem pushNode_started (n : Started) (p : Parser) : (pushNode n p).started = n :: addKids 1 p.started := by
  unfold pushNode
  cases p.started <;> rfl

theorem pushNode_toplevel (n : Started) (p : Parser) :
    (pushNode n p).toplevel = if p.started = [] then p.toplevel + 1 else p.toplevel := by
  unfold pushNode
  cases p.started <;> simp

theorem warnEmpty_ok {p : Parser} (off : Nat) (h : p.started ≠ [] → p.toplevel ≠ 0) (ht : tolerant p) :
    ∃ pos, warnEmptyName off p = (.ok (), { p with log := (.emptyNodeName, pos) :: p.log }) := by
  have key : ∀ (m : M PErr Parser Unit), (∃ pos, m = warn .emptyNodeName pos) → ∃ pos, m p = (.ok (), { p with log := (.emptyNodeName, pos) :: p.log }) := by
    rintro m ⟨pos, rfl⟩
    exact ⟨_, warn_tolerant ht _ pos⟩
  rw [warnEmptyName, M.bind_val (position_ok h), M.get_bind]
  exact key _ ⟨_, rfl⟩

/-- A `StartNode` event. -/
theorem start_event {p : Parser} {off : Nat} {bs : Bytes} (h : Ready p off bs) (hend : ∀ n r, p.started = n :: r → off < n.endOff)
    (name : String) (eo na ba : Nat) (t : Bytes)
    (hb : bs = header p.version.toNat eo na ba (utf8 name).length ++ (utf8 name ++ t))
    (h1 : eo < 256 ^ width p.version.toNat) (h2 : na < 256 ^ width p.version.toNat) (h3 : ba < 256 ^ width p.version.toNat)
    (h4 : (utf8 name).length < 256) (heo : eo ≠ 0 ∨ name ≠ "") (hba : ba ≤ t.length) (hname : name ≠ "" ∨ tolerant p) :
    ∃ q, nextEvent p = (.ok (.startNode name na), q) ∧ Same p q ∧ q.health = .running ∧ q.last = some .startNode ∧
      q.started = ⟨off, eo, na, off + headerSize p.version.toNat + (utf8 name).length + ba, name, 0⟩ :: addKids 1 p.started ∧
      q.toplevel = (if p.started = [] then p.toplevel + 1 else p.toplevel) ∧
      q.reader = p.reader.consume (p.pending + headerSize p.version.toNat + (utf8 name).length) ∧
      ∃ new, q.log = new ++ p.log ∧ (∀ e ∈ new, e.1 = .emptyNodeName) ∧ new.length = (if name = "" then 1 else 0) := by
  have hpos := h.fine.position
  have hoff := h.off
  have hlen : p.pending + (headerSize p.version.toNat + ((utf8 name).length + t.length)) = p.reader.rest.length := by
    have := congrArg List.length h.rest
    have hle := h.le
    have hh : (header p.version.toNat eo na ba (utf8 name).length).length = headerSize p.version.toNat := by
      simp [header, headerSize, le_eq]; omega
    rw [hb] at this
    simp only [List.length_drop, List.length_append, hh] at this
    omega
  -- the warning about the name
  have hw : ∃ lg, (∃ new, lg = new ++ p.log ∧ (∀ e ∈ new, e.1 = .emptyNodeName) ∧ new.length = (if name = "" then 1 else 0)) ∧
      ∀ (f : Unit → M PErr Parser EvKind),
        (if (utf8 name).length = 0 then warnEmptyName off >>= f else f ())
        (p.withReader (p.reader.consume (p.pending + headerSize p.version.toNat))) =
        f () { p.withReader (p.reader.consume (p.pending + headerSize p.version.toNat)) with log := lg } := by
    by_cases hz : (utf8 name).length = 0
    · have hn : name = "" := strBytes_eq_nil.mp (List.eq_nil_of_length_eq_zero hz)
      have htol : tolerant p := hname.resolve_left (fun x => x hn)
      obtain ⟨lg, hlg⟩ := warnEmpty_ok (p := p.withReader (p.reader.consume (p.pending + headerSize p.version.toNat))) off h.top htol
      refine ⟨_, ⟨[(.emptyNodeName, lg)], rfl, by simp, by simp [hn]⟩, fun f => ?_⟩
      rw [if_pos hz]
      exact M.bind_val hlg _
    · have hn : name ≠ "" := fun h => hz (by rw [h]; rfl)
      refine ⟨p.log, ⟨[], rfl, by simp, by simp [hn]⟩, fun f => ?_⟩
      rw [if_neg hz]; rfl
  obtain ⟨lg, hlg, hw⟩ := hw
  have e1 : (p.reader.consume (p.pending + headerSize p.version.toNat)).rest = utf8 name ++ t := by
    rw [consume_rest, ← List.drop_drop, h.rest, hb]
    exact List.drop_left' (by simp [header, headerSize, le_eq]; omega)
  have f1 : Fine (p.reader.consume (p.pending + headerSize p.version.toNat)) := h.fine.consume (by omega)
  have hu : u64Size = 2 ^ 64 := rfl
  have hne : ¬ (⟨eo, na, ba, (utf8 name).length⟩ : NodeHeader).isNodeEnd = true := by
    rcases heo with heo | heo
    · simp [NodeHeader.isNodeEnd, heo]
    · have : (utf8 name).length ≠ 0 := fun hz => heo (strBytes_eq_nil.mp (List.eq_nil_of_length_eq_zero hz))
      simp [NodeHeader.isNodeEnd, this]
  have himpl : nextEventImpl p = (.ok .startNode, pushNode ⟨off, eo, na, off + headerSize p.version.toNat + (utf8 name).length + ba, name, 0⟩
      { p.withReader (p.reader.consume (p.pending + headerSize p.version.toNat + (utf8 name).length)) with log := lg }) := by
    rw [impl_header h hend eo na ba _ hb h1 h2 h3 h4, if_neg hne, startNode]
    refine (hw _).trans ?_
    refine (M.bind_val (io_ok (readExact_fine f1 e1 rfl)) _).trans ?_
    have hs : stringOfUtf8 (utf8 name) = some name := stringOfUtf8_strBytes name
    simp only [hs]
    rw [M.get_bind]
    refine (M.bind_val (a := off + headerSize p.version.toNat + (utf8 name).length + ba)
      (s1 := { p.withReader (p.reader.consume (p.pending + headerSize p.version.toNat + (utf8 name).length)) with log := lg }) ?_ _).trans ?_
    · simp only [withReader, consume_consume, addAttrEnd, consume_position]
      rw [if_pos (by rw [hu]; omega)]
      rw [← hoff]
      simp [Nat.add_assoc]
    · rw [M.modify_bind]; rfl
  have hkeep : ∀ n q, (pushNode n q).version = q.version ∧ (pushNode n q).handler = q.handler ∧
      (pushNode n q).checks = q.checks ∧ (pushNode n q).reader = q.reader ∧ (pushNode n q).health = q.health ∧
      (pushNode n q).log = q.log := by
    intro n q
    unfold pushNode
    cases q.started <;> simp
  obtain ⟨P, hP⟩ : ∃ P, P = pushNode ⟨off, eo, na, off + headerSize p.version.toNat + (utf8 name).length + ba, name, 0⟩
      { p.withReader (p.reader.consume (p.pending + headerSize p.version.toNat + (utf8 name).length)) with log := lg } := ⟨_, rfl⟩
  rw [← hP] at himpl
  have hst : P.started = ⟨off, eo, na, off + headerSize p.version.toNat + (utf8 name).length + ba, name, 0⟩ :: addKids 1 p.started := by
    rw [hP, pushNode_started]; rfl
  have htl : P.toplevel = if p.started = [] then p.toplevel + 1 else p.toplevel := by
    rw [hP, pushNode_toplevel]; rfl
  have hd : depthOk .startNode p.depth P.depth = true := by
    simp only [depthOk, depth, hst]
    cases p.started <;> simp [addKids]
  have hev := nextEvent_of h.health himpl hd
  rw [if_neg (by simp)] at hev
  simp only [makeEvent, hst] at hev
  obtain ⟨k1, k2, k3, k4, k5, k6⟩ := hkeep ⟨off, eo, na, off + headerSize p.version.toNat + (utf8 name).length + ba, name, 0⟩
      { p.withReader (p.reader.consume (p.pending + headerSize p.version.toNat + (utf8 name).length)) with log := lg }
  rw [← hP] at k1 k2 k3 k4 k5 k6
  exact ⟨_, hev, ⟨k1, k2, k3, by simp only [k4]; exact SameDev.consume _ _⟩, k5.trans h.health, rfl, rfl, htl, k4, by rw [k6]; exact hlg⟩

theorem marker_header (v : Nat) : marker v = header v 0 0 0 0 := by
  simp only [marker, header, le_eq, leBytes_zero, zeros, headerSize, List.replicate_append_replicate]
  congr 1
  omega

/-- The core on a marker. -/
theorem impl_marker {p : Parser} {off : Nat} {t : Bytes} (h : Ready p off (marker p.version.toNat ++ t))
    (hend : ∀ n r, p.started = n :: r → off < n.endOff) :
    nextEventImpl p = explicitEnd (p.withReader (p.reader.consume (p.pending + headerSize p.version.toNat))) := by
  have hw : 0 < 256 ^ width p.version.toNat := Nat.pow_pos (by decide)
  rw [impl_header h hend 0 0 0 0 (by rw [marker_header]) hw hw hw (by decide), if_pos (by rfl)]

/-- A node closed by a marker. -/
theorem end_marker {p : Parser} {off : Nat} {t : Bytes} (h : Ready p off (marker p.version.toNat ++ t)) (n : Started) (r : List Started)
    (hs : p.started = n :: r) (he : n.endOff = off + headerSize p.version.toNat) (hk : n.attrCount = 0 ∨ n.kids ≠ 0) :
    nextEvent p = (.ok .endNode, { p with reader := p.reader.consume (p.pending + headerSize p.version.toNat), started := r, last := some .endNode }) := by
  have hsz : 0 < headerSize p.version.toNat := by simp [headerSize]
  have hoff := h.off
  have himpl : nextEventImpl p = (.ok .endNode, { p with reader := p.reader.consume (p.pending + headerSize p.version.toNat), started := r }) := by
    rw [impl_marker h (by intro n' r' hs'; rw [hs] at hs'; cases hs'; omega), explicitEnd, M.get_bind]
    simp only [withReader, hs]
    rw [M.set_bind]
    rw [if_neg (by simp only [consume_position]; omega), if_neg (by rintro ⟨x, y⟩; rcases hk with hk | hk <;> contradiction)]
    rfl
  rw [nextEvent_of h.health himpl (by simp [depthOk, depth, hs])]
  rfl

/-- A node that ends without a marker. -/
theorem end_implicit {p : Parser} {off : Nat} {bs : Bytes} (h : Ready p off bs) (n : Started) (r : List Started)
    (hs : p.started = n :: r) (he : n.endOff = off) (hk : n.attrCount ≠ 0) (hl : p.last ≠ some .endNode) :
    nextEvent p = (.ok .endNode, { p with reader := p.reader.consume p.pending, started := r, last := some .endNode }) := by
  have hoff := h.off
  have himpl : nextEventImpl p = (.ok .endNode, { p with reader := p.reader.consume p.pending, started := r }) := by
    rw [nextEventImpl, M.get_bind, M.assert_bind, if_pos (by simp [h.health]), M.assert_bind, if_pos (by simp [h.last])]
    refine (M.bind_val (skipUnread_ready h) _).trans ?_
    rw [M.get_bind]
    refine (M.bind_val (a := true) (s1 := { p with reader := p.reader.consume p.pending, started := r }) ?_ _).trans rfl
    rw [tryImplicitEnd, M.get_bind]
    simp only [withReader, hs, consume_position, he, hoff, Nat.lt_irrefl, if_false, if_true, hl, hk, false_or, ne_eq, not_true_eq_false,
      not_false_eq_true]
    rfl
  rw [nextEvent_of h.health himpl (by simp [depthOk, depth, hs])]
  rfl

theorem withAttrs_each {Z : Zlib} {α β : Type} (buffered : Bool) (enc : β → Bytes) (view : β → DAttr) (ls : List (Loader α)) (ds : List β) (p : Parser)
    (t : Bytes) (vals : List (Option α)) (n : Started) (r : List Started) (hs : p.started = n :: r)
    (hv : presentAll buffered ls ((ds.map view).map DAttr.value) = some vals)
    (hf : Fine p.reader) (hsk : p.reader.seekable = true ∨ drainsAll buffered ls (ds.map view)) (hh : p.health = .running)
    (hc : n.attrCount = ds.length) (htop : p.toplevel ≠ 0)
    (hfit : ∀ d ∈ ds.take ls.length, AP.LoadsOne Z α buffered enc view d) (h : p.reader.rest = ds.flatMap enc ++ t) :
    ∃ k, k ≤ (ds.flatMap enc).length ∧ (p.reader.seekable = true ∨ k = (ds.flatMap enc).length) ∧
      withAttrs (loadEach Z buffered ls) p = (.ok vals, { p with reader := p.reader.consume k }) := by
  have ho : AP.ofParser p = .ok ⟨p, ⟨n.attrCount, n.attrCount, p.reader.position⟩⟩ := by
    simp only [AP.ofParser, hs]
  obtain ⟨k, at', h1, h3, h2⟩ := AP.loadEach_each buffered enc view ls ds ⟨p, ⟨n.attrCount, n.attrCount, p.reader.position⟩⟩ t vals hv hf
    (hsk.imp_right fun h => ⟨rfl, h⟩) hh hc
    (by simp) (fun _ => htop) (by simp) (by simp) hfit (by simpa using h)
  refine ⟨k, by simpa using h1, h3, ?_⟩
  simp only [withAttrs, ho, h2]

theorem withAttrs_loadEach {Z : Zlib} (hZ : Z.Lawful) {α : Type} (buffered : Bool) (ls : List (Loader α)) (ds : List DAttr) (p : Parser)
    (t : Bytes) (vals : List (Option α)) (n : Started) (r : List Started) (hs : p.started = n :: r)
    (hv : presentAll buffered ls (ds.map DAttr.value) = some vals)
    (hf : Fine p.reader) (hsk : p.reader.seekable = true ∨ drainsAll buffered ls ds) (hh : p.health = .running)
    (hc : n.attrCount = ds.length) (htop : p.toplevel ≠ 0)
    (hfit : ∀ d ∈ ds, attrFits Z d) (h : p.reader.rest = ds.flatMap (attrBytes Z) ++ t) :
    ∃ k, k ≤ (ds.flatMap (attrBytes Z)).length ∧ (p.reader.seekable = true ∨ k = (ds.flatMap (attrBytes Z)).length) ∧
      withAttrs (loadEach Z buffered ls) p = (.ok vals, { p with reader := p.reader.consume k }) :=
  withAttrs_each buffered (attrBytes Z) id ls ds p t vals n r hs (by simpa using hv) hf (by simpa using hsk) hh hc htop
    (fun d hd => AP.loadsOne_fine buffered d (fun _ => hZ.roundtrip _) (hfit d (List.mem_of_mem_take hd))) h

theorem nodes_length_ge {α : Type} (v : Nat) (enc : α → Bytes) (f : Forest α) : ∀ off, f ≠ .nil → 0 < (nodes v enc f off).length := by
  intro off hf
  cases f with
  | nil => contradiction
  | cons n as ch r => simp [nodes, header, le_eq, width]; omega

/-- Number of `next_event` calls for a forest. -/
def eventCount {α : Type} (f : Forest α) : Nat := 2 * f.count

theorem flatMap_attr_length (Z : Zlib) (ds : List DAttr) : ds.length ≤ (ds.flatMap (attrBytes Z)).length := by
  induction ds with
  | nil => simp
  | cons d ds ih => simp only [List.flatMap_cons, List.length_append, List.length_cons, attrBytes]; omega

theorem flatMap_length_ge {β : Type} {enc : β → Bytes} (henc : ∀ b, enc b ≠ []) (bs : List β) : bs.length ≤ (bs.flatMap enc).length := by
  induction bs with
  | nil => simp
  | cons b bs ih =>
    have := List.length_pos_iff.mpr (henc b)
    simp only [List.flatMap_cons, List.length_append, List.length_cons]; omega

theorem _root_.Fbx.Spec.Forest.count_map {α β : Type} (g : α → β) (F : Forest α) : (F.map g).count = F.count := by
  induction F with
  | nil => rfl
  | cons n as ch r ih1 ih2 => simp only [Forest.map, Forest.count, ih1, ih2]

theorem _root_.Fbx.Spec.Forest.map_id {α : Type} (F : Forest α) : F.map id = F := by
  induction F with
  | nil => rfl
  | cons n as ch r ih1 ih2 => simp only [Forest.map, ih1, ih2, List.map_id]

/-- The attributes `as` of a node can be loaded as `view` says, from a source that can or cannot seek. -/
def Loads (Z : Zlib) (α : Type) {β : Type} (seek buffered : Bool) (enc : β → Bytes) (view : β → DAttr) (as : List β) : Prop :=
  ∀ (ls : List (Loader α)) (vals : List (Option α)), presentAll buffered ls ((as.map view).map DAttr.value) = some vals →
  (seek = true ∨ drainsAll buffered ls (as.map view)) →
  ∀ (p : Parser) (t : Bytes) (n : Started) (r : List Started), p.started = n :: r → Fine p.reader → p.reader.seekable = seek → p.health = .running →
    n.attrCount = as.length → p.toplevel ≠ 0 → p.reader.rest = as.flatMap enc ++ t →
    ∃ k, k ≤ (as.flatMap enc).length ∧ (seek = true ∨ k = (as.flatMap enc).length) ∧ withAttrs (loadEach Z buffered ls) p = (.ok vals, { p with reader := p.reader.consume k })

/-- The client on a forest inside a document; `enc` gives the bytes of an attribute and `view` what is read from them. -/
theorem drive_nodes {Z : Zlib} {α β : Type} (seek buffered : Bool) (plan : Nat → String → Nat → List (Loader α)) (v : Nat) (enc : β → Bytes) (view : β → DAttr)
    (fits : β → Prop) (henc : ∀ b, enc b ≠ []) :
    ∀ (f : Forest β) (off k : Nat) (p : Parser) (t : Bytes) (calls : Nat) (seen : List (Obs α)),
      p.version.toNat = v → p.reader.seekable = seek → Ready p off (nodes v enc f off ++ t) →
      (∀ n r, p.started = n :: r → off + (nodes v enc f off).length ≤ n.endOff) →
      (f.All (fun name _ => name ≠ "") ∨ tolerant p) → forestFits v enc fits f off → planOk buffered plan (f.map view) k →
      (seek = true ∨ planDrains buffered plan (f.map view) k) →
      f.All (fun _ as => Loads Z α seek buffered enc view as) →
      ∃ q, drive Z buffered plan (eventCount f + calls) k seen p =
          drive Z buffered plan calls (k + f.count) (seen ++ expected buffered plan (f.map view) k) q ∧
        Same p q ∧ Ready q (off + (nodes v enc f off).length) t ∧ q.started = addKids (roots f) p.started ∧
        q.last = (if f.isNil then p.last else some .endNode) ∧ ∃ new, q.log = new ++ p.log ∧ (∀ e ∈ new, e.1 = .emptyNodeName) ∧ new.length = emptyNames f := by
  intro f
  induction f with
  | nil =>
    intro off k p t calls seen _ _ hr _ _ _ _ _ _
    refine ⟨p, by simp [eventCount, Forest.map, Forest.count, expected], Same.refl p, by simpa [nodes] using hr, ?_, by simp [Forest.isNil], [], rfl, by simp, rfl⟩
    cases p.started <;> simp [roots, addKids]
  | cons name attrs children rest ihc ihr =>
    intro off k p t calls seen hv hsk hr hend hnames hfit hplan hdrain hload
    subst hv
    simp only [forestFits] at hfit
    obtain ⟨hname, hattrs, heo64, heo32, hfitc, hfitr⟩ := hfit
    obtain ⟨hld, hldc, hldr⟩ := hload
    simp only [Forest.map, planOk, List.length_map, Forest.count_map] at hplan
    obtain ⟨hpl, hplc, hplr⟩ := hplan
    simp only [Forest.map, planDrains, List.length_map, Forest.count_map] at hdrain
    generalize hcs : nodes p.version.toNat enc children (off + headerSize p.version.toNat + (utf8 name).length + (attrs.flatMap enc).length) = cs at *
    generalize hmk : (if needsMarker attrs children then headerSize p.version.toNat else 0) = mk at *
    have hmkl : (if needsMarker attrs children then marker p.version.toNat else []).length = mk := by
      rw [← hmk]; split <;> simp [marker]
    generalize heo : off + headerSize p.version.toNat + (utf8 name).length + (attrs.flatMap enc).length + cs.length + mk = eo at *
    have hnodes : nodes p.version.toNat enc (.cons name attrs children rest) off =
        header p.version.toNat eo attrs.length (attrs.flatMap enc).length (utf8 name).length ++ utf8 name ++ attrs.flatMap enc ++
        cs ++ (if needsMarker attrs children then marker p.version.toNat else []) ++ nodes p.version.toNat enc rest eo := by
      simp only [nodes, hcs, hmkl, heo]
    have hhl : ∀ a b c d, (header p.version.toNat a b c d).length = headerSize p.version.toNat := by
      intro a b c d; simp [header, headerSize, le_eq]; omega
    have hlen : (nodes p.version.toNat enc (.cons name attrs children rest) off).length =
        headerSize p.version.toNat + (utf8 name).length + (attrs.flatMap enc).length + cs.length + mk +
        (nodes p.version.toNat enc rest eo).length := by
      rw [hnodes]; simp only [List.length_append, hhl, hmkl]
    have hsz : 0 < headerSize p.version.toNat := by simp [headerSize]
    have hal := flatMap_length_ge henc attrs
    -- the sizes fit
    have hfw : eo < 256 ^ width p.version.toNat ∧ attrs.length < 256 ^ width p.version.toNat ∧
        (attrs.flatMap enc).length < 256 ^ width p.version.toNat := by
      by_cases hv : p.version.toNat < 7500
      · have := heo32 hv
        simp only [width, hv, if_true]
        omega
      · simp only [width, hv, if_false]
        omega
    rw [hnodes] at hr
    simp only [List.append_assoc] at hr
    -- start
    obtain ⟨q1, hev1, hs1, hh1, hl1, hst1, htl1, hrd1, hlog1⟩ := start_event hr
      (by intro n r hs; have := hend n r hs; omega) name eo attrs.length (attrs.flatMap enc).length _ rfl
      hfw.1 hfw.2.1 hfw.2.2 hname (.inl (by omega)) (by simp) (hnames.imp (fun h => h.1) id)
    have htop1 : q1.toplevel ≠ 0 := by
      rw [htl1]; split
      · omega
      · rename_i hne; exact hr.top hne
    have hbase : p.reader.rest.drop p.pending = _ := hr.rest
    have hd1 : q1.reader.rest = attrs.flatMap enc ++ (cs ++ ((if needsMarker attrs children then marker p.version.toNat else []) ++
        (nodes p.version.toNat enc rest eo ++ t))) := by
      rw [hrd1, consume_rest, Nat.add_assoc, ← List.drop_drop, hbase, ← List.append_assoc]
      exact List.drop_left' (by simp [hhl])
    have hlen1 : p.reader.rest.length = p.pending + (headerSize p.version.toNat + ((utf8 name).length + q1.reader.rest.length)) := by
      have := congrArg List.length hbase
      have hle := hr.le
      rw [hd1]
      simp only [List.length_drop, List.length_append, hhl] at this ⊢
      omega
    have hf1 : Fine q1.reader := by rw [hrd1]; exact hr.fine.consume (by omega)
    have hpos1 : q1.reader.position = off + headerSize p.version.toNat + (utf8 name).length := by
      rw [hrd1, consume_position, ← hr.off]; omega
    -- attributes
    obtain ⟨vals, hvals⟩ := Option.isSome_iff_exists.mp hpl
    obtain ⟨j, hj, hjd, hload⟩ := hld (plan k name attrs.length) vals hvals (hdrain.imp_right And.left) q1 _ _ _ hst1 hf1
      (hs1.dev.seekable.trans hsk) hh1 rfl htop1 hd1
    -- before the children
    obtain ⟨q2, hq2⟩ : ∃ q2 : Parser, q2 = { q1 with reader := q1.reader.consume j } := ⟨_, rfl⟩
    rw [← hq2] at hload
    have hpend2 : q2.pending = (attrs.flatMap enc).length - j := by
      rw [hq2]; simp only [pending, hst1, consume_position, hpos1]; omega
    have hq2st : q2.started = q1.started := by rw [hq2]
    have hr2 : Ready q2 (off + headerSize p.version.toNat + (utf8 name).length + (attrs.flatMap enc).length)
        (nodes p.version.toNat enc children (off + headerSize p.version.toNat + (utf8 name).length + (attrs.flatMap enc).length) ++
         ((if needsMarker attrs children then marker p.version.toNat else []) ++ (nodes p.version.toNat enc rest eo ++ t))) := by
      have hl := congrArg List.length hd1
      simp only [List.length_append] at hl
      refine ⟨by rw [hq2]; exact hh1, by rw [hq2]; simp [hl1], by rw [hq2]; exact hf1.consume (by omega), by rw [hq2]; exact fun _ => htop1, ?_, ?_, ?_, ?_⟩
      · rw [hpend2, hq2]; simp only [consume_position]; omega
      · rw [hpend2, hq2]; simp only [consume_rest, List.length_drop]; omega
      · rw [hpend2, hq2, hcs]
        simp only [consume_rest, List.drop_drop]
        rw [show j + ((attrs.flatMap enc).length - j) = (attrs.flatMap enc).length by omega, hd1, List.drop_left]
      · rw [hpend2, hq2]
        refine hjd.imp (fun h => ?_) (fun h => by omega)
        exact (hs1.dev.seekable.trans hsk).trans h
    have hs2 : Same p q2 := by rw [hq2]; exact ⟨hs1.version, hs1.handler, hs1.checks, hs1.dev.trans (SameDev.consume _ _)⟩
    obtain ⟨q3, hdr3, hs3, hr3, hst3, hl3, hlog3⟩ := ihc _ (k + 1) q2 _ (1 + (eventCount rest + calls)) (seen ++ [.start name attrs.length vals])
      (by rw [hs2.version]) (hs2.dev.seekable.trans hsk) hr2
      (by
        intro n r hs
        rw [hq2st, hst1] at hs
        simp only [List.cons.injEq] at hs
        rw [← hs.1, hcs]
        simp only; omega)
      (hnames.imp (fun h => h.2.1) hs2.tolerant) hfitc hplc (hdrain.imp_right fun h => h.2.1) hldc
    rw [hcs] at hr3
    -- the end of the node
    have hst3' : q3.started = ⟨off, eo, attrs.length, off + headerSize p.version.toNat + (utf8 name).length + (attrs.flatMap enc).length, name, 0 + roots children⟩
        :: addKids 1 p.started := by
      rw [hst3, hq2st, hst1]; rfl
    have hv3 : q3.version = p.version := by rw [hs3.version, hs2.version]
    have hend4 : ∃ q4 j4, nextEvent q3 = (.ok .endNode, q4) ∧
        q4 = { q3 with reader := q3.reader.consume j4, started := addKids 1 p.started, last := some .endNode } ∧
        q3.reader.position + j4 = eo ∧ j4 ≤ q3.reader.rest.length ∧ q3.reader.rest.drop j4 = nodes p.version.toNat enc rest eo ++ t := by
      have hb3 := hr3.rest
      have ho3 := hr3.off
      have hle3 := hr3.le
      by_cases hm : needsMarker attrs children = true
      · rw [if_pos hm] at hmk
        simp only [hm, if_true] at hr3 hb3
        have hb3' := congrArg List.length hb3
        simp only [List.length_drop, List.length_append, marker, List.length_replicate] at hb3'
        refine ⟨_, q3.pending + headerSize p.version.toNat, end_marker (by rw [hv3]; exact hr3) _ _ hst3' ?_ ?_, by rw [hv3], by omega, by omega, ?_⟩
        · simp only [hv3]; omega
        · simp only [needsMarker, Bool.or_eq_true, List.isEmpty_iff, Bool.not_eq_true', ] at hm
          rcases hm with hm | hm
          · left; simp [hm]
          · right
            cases children with
            | nil => simp [Forest.isNil] at hm
            | cons => simp [roots]
        · rw [← List.drop_drop, hb3]
          exact List.drop_left' (by simp [marker])
      · rw [if_neg hm] at hmk
        simp only [hm, Bool.false_eq_true, if_false, List.nil_append] at hr3 hb3
        simp only [needsMarker, Bool.or_eq_true, List.isEmpty_iff, Bool.not_eq_true', not_or, Bool.not_eq_false] at hm
        refine ⟨_, q3.pending, end_implicit hr3 _ _ hst3' ?_ ?_ ?_, rfl, by omega, hle3, hb3⟩
        · simp only; omega
        · simp only; intro h0; exact hm.1 (List.eq_nil_of_length_eq_zero h0)
        · rw [hl3, if_pos hm.2, hq2]; simp [hl1]
    obtain ⟨q4, j4, hev4, hq4, hj4, hj4le, hd4⟩ := hend4
    have hs4 : Same p q4 := by rw [hq4]; exact hs2.trans ⟨hs3.version, hs3.handler, hs3.checks, hs3.dev.trans (SameDev.consume _ _)⟩
    have hr4 : Ready q4 eo (nodes p.version.toNat enc rest eo ++ t) := by
      have hp4 : q4.pending = 0 := by
        rw [hq4]
        simp only [pending]
        cases hps : p.started with
        | nil => rfl
        | cons n r =>
          simp only [addKids, consume_position, hj4]
          have hpo := hr.off
          simp only [pending, hps] at hpo
          omega
      refine ⟨by rw [hq4]; exact hr3.health, by rw [hq4]; simp, by rw [hq4]; exact hr3.fine.consume hj4le, ?_, ?_, ?_, ?_, .inr hp4⟩
      · rw [hq4]; exact fun _ => hr3.top (by rw [hst3']; simp)
      · rw [hp4, hq4]; exact hj4
      · rw [hp4]; omega
      · rw [hp4, hq4]; exact hd4
    -- following siblings
    obtain ⟨q5, hdr5, hs5, hr5, hst5, hl5, hlog5⟩ := ihr eo (k + 1 + children.count) q4 t calls
      (seen ++ [.start name attrs.length vals] ++ expected buffered plan (children.map view) (k + 1) ++ [.end]) (by rw [hs4.version]) (hs4.dev.seekable.trans hsk) hr4
      (by
        intro n r hs
        rw [hq4] at hs
        simp only at hs
        cases hps : p.started with
        | nil => rw [hps] at hs; simp [addKids] at hs
        | cons n' r' =>
          rw [hps] at hs
          simp only [addKids, List.cons.injEq] at hs
          have := hend n' r' hps
          rw [← hs.1]
          simp only
          omega)
      (hnames.imp (fun h => h.2.2) hs4.tolerant) hfitr hplr (hdrain.imp_right fun h => h.2.2) hldr
    refine ⟨q5, ?_, hs4.trans hs5, ?_, ?_, ?_, ?_⟩
    · rw [show eventCount (.cons name attrs children rest) + calls = (eventCount children + (1 + (eventCount rest + calls))) + 1 by
        simp only [eventCount, Forest.count]; omega, drive]
      refine (M.bind_val hev1 _).trans ?_
      refine (M.bind_val hload _).trans ?_
      rw [hdr3, show 1 + (eventCount rest + calls) = (eventCount rest + calls) + 1 by omega, drive]
      refine (M.bind_val hev4 _).trans ?_
      simp only
      rw [hdr5]
      simp only [expected, Forest.map, List.length_map, Forest.count_map, Forest.count, hvals, Option.getD_some, List.append_assoc, List.cons_append, List.nil_append]
      congr 1
      omega
    · rw [hlen]
      rw [show off + (headerSize p.version.toNat + (utf8 name).length + (attrs.flatMap enc).length + cs.length + mk +
        (nodes p.version.toNat enc rest eo).length) = eo + (nodes p.version.toNat enc rest eo).length by omega]
      exact hr5
    · rw [hst5, hq4]
      cases p.started
      · rfl
      · simp only [addKids, roots, List.cons.injEq, Started.mk.injEq, and_true, true_and]; omega
    · rw [hl5, hq4, if_neg (show ¬ (Forest.cons name attrs children rest).isNil = true by simp [Forest.isNil])]; split <;> rfl
    · obtain ⟨n5, a5, b5, c5⟩ := hlog5
      obtain ⟨n3, a3, b3, c3⟩ := hlog3
      obtain ⟨n1, a1, b1, c1⟩ := hlog1
      refine ⟨n5 ++ (n3 ++ n1), ?_, ?_, ?_⟩
      · rw [a5, hq4]
        simp only
        rw [a3, hq2]
        simp only
        rw [a1]
        simp only [List.append_assoc]
      · intro e he
        simp only [List.mem_append] at he
        rcases he with he | he | he
        · exact b5 e he
        · exact b3 e he
        · exact b1 e he
      · simp only [List.length_append, c5, c3, c1, emptyNames]; omega

theorem loads_each {Z : Zlib} {α β : Type} (seek buffered : Bool) {enc : β → Bytes} {view : β → DAttr} {as : List β} (h : ∀ d ∈ as, AP.LoadsOne Z α buffered enc view d) :
    Loads Z α seek buffered enc view as := by
  intro ls vals hv hd p t n r hs hf hsk hh hc htop hrest
  rw [← hsk] at hd ⊢
  exact withAttrs_each buffered enc view ls as p t vals n r hs hv hf hd hh hc htop (fun d hd => h d (List.mem_of_mem_take hd)) hrest

theorem loads_all {Z : Zlib} (hZ : Z.Lawful) {α : Type} (seek buffered : Bool) (v : Nat) (f : Forest DAttr) : ∀ (off : Nat), forestFits v (attrBytes Z) (attrFits Z) f off →
      f.All (fun _ as => Loads Z α seek buffered (attrBytes Z) id as) := by
  induction f with
  | nil => intro _ _; trivial
  | cons name attrs ch rest ih1 ih2 =>
    intro off h
    obtain ⟨-, h2, -, -, h5, h6⟩ := h
    exact ⟨loads_each seek buffered (fun d hd => AP.loadsOne_fine buffered d (fun _ => hZ.roundtrip _) (h2 d hd)), ih1 _ h5, ih2 _ h6⟩

/-- The client on a forest inside a document. -/
theorem drive_forest {Z : Zlib} (hZ : Z.Lawful) {α : Type} (buffered : Bool) (plan : Nat → String → Nat → List (Loader α)) (v : Nat) :
    ∀ (f : Forest DAttr) (off k : Nat) (p : Parser) (t : Bytes) (calls : Nat) (seen : List (Obs α)),
      p.version.toNat = v → p.reader.seekable = true → Ready p off (nodes v (attrBytes Z) f off ++ t) →
      (∀ n r, p.started = n :: r → off + (nodes v (attrBytes Z) f off).length ≤ n.endOff) →
      (f.All (fun name _ => name ≠ "") ∨ tolerant p) → forestFits v (attrBytes Z) (attrFits Z) f off → planOk buffered plan f k →
      ∃ q, drive Z buffered plan (eventCount f + calls) k seen p =
          drive Z buffered plan calls (k + f.count) (seen ++ expected buffered plan f k) q ∧
        Same p q ∧ Ready q (off + (nodes v (attrBytes Z) f off).length) t ∧ q.started = addKids (roots f) p.started ∧
        q.last = (if f.isNil then p.last else some .endNode) ∧ ∃ new, q.log = new ++ p.log ∧ (∀ e ∈ new, e.1 = .emptyNodeName) ∧ new.length = emptyNames f := by
  intro f off k p t calls seen hv hsk hr hend hnames hfit hplan
  have := drive_nodes (Z := Z) true buffered plan v (attrBytes Z) id (attrFits Z) (fun d => by simp [attrBytes]) f off k p t calls seen hv hsk hr hend hnames hfit
    (by rw [Forest.map_id]; exact hplan) (.inl rfl) (loads_all hZ true buffered v f off hfit)
  rwa [Forest.map_id] at this

end Parser
end Fbx
