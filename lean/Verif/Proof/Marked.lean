import Verif.Proof.ReadDocument

/-! # Documents with more end markers than usual -/

namespace Fbx
open Spec Reader
open Writer (le_eq)

namespace Parser

/-- A node has an end marker: as usual, or because `mark` says so. -/
def marks {β : Type} (mark : List β → Bool) (attrs : List β) (children : Forest β) : Bool :=
  attrs.isEmpty || !children.isNil || mark attrs

/-- A forest laid out from offset `off`. -/
def marked {β : Type} (v : Nat) (enc : β → Bytes) (mark : List β → Bool) : Forest β → (off : Nat) → Bytes
  | .nil, _ => []
  | .cons name attrs children rest, off =>
    let attrs' := attrs.flatMap enc
    let childrenOff := off + headerSize v + (utf8 name).length + attrs'.length
    let children' := marked v enc mark children childrenOff
    let marker' := if marks mark attrs children then marker v else []
    let endOff := childrenOff + children'.length + marker'.length
    header v endOff attrs.length attrs'.length (utf8 name).length ++ utf8 name ++ attrs' ++ children' ++
      marker' ++ marked v enc mark rest endOff

def markedFits {β : Type} (v : Nat) (enc : β → Bytes) (mark : List β → Bool) : Forest β → (off : Nat) → Prop
  | .nil, _ => True
  | .cons name attrs children rest, off =>
    let attrs' := attrs.flatMap enc
    let childrenOff := off + headerSize v + (utf8 name).length + attrs'.length
    let endOff := childrenOff + (marked v enc mark children childrenOff).length + (if marks mark attrs children then headerSize v else 0)
    (utf8 name).length < 256 ∧ endOff < 2 ^ 64 ∧ (v < 7500 → endOff < 2 ^ 32) ∧
    markedFits v enc mark children childrenOff ∧ markedFits v enc mark rest endOff

/-- The loaders `ls` do with the attributes `as` what `view` says. -/
def LoadsWith (Z : Zlib) {α β : Type} (buffered : Bool) (enc : β → Bytes) (view : β → DAttr) (as : List β) (ls : List (Loader α)) : Prop :=
  ∀ (vals : List (Option α)), presentAll buffered ls ((as.map view).map DAttr.value) = some vals →
  ∀ (p : Parser) (t : Bytes) (n : Started) (r : List Started), p.started = n :: r → Fine p.reader → p.reader.seekable = true → p.health = .running →
    n.attrCount = as.length → p.toplevel ≠ 0 → p.reader.rest = as.flatMap enc ++ t →
    ∃ k, k ≤ (as.flatMap enc).length ∧ withAttrs (loadEach Z buffered ls) p = (.ok vals, { p with reader := p.reader.consume k })

def planLoads (Z : Zlib) {α β : Type} (buffered : Bool) (enc : β → Bytes) (view : β → DAttr) (plan : Nat → String → Nat → List (Loader α)) : Forest β → Nat → Prop
  | .nil, _ => True
  | .cons name attrs children rest, k =>
    LoadsWith Z buffered enc view attrs (plan k name attrs.length) ∧ planLoads Z buffered enc view plan children (k + 1) ∧
      planLoads Z buffered enc view plan rest (k + 1 + children.count)

/-- A node closed by a marker, needed or not. -/
theorem end_marker_any {p : Parser} {off : Nat} {t : Bytes} (h : Ready p off (marker p.version.toNat ++ t)) (ht : tolerant p) (n : Started) (r : List Started)
    (hs : p.started = n :: r) (he : n.endOff = off + headerSize p.version.toNat) :
    ∃ lg, (∀ e ∈ lg, e.1 = .extraNodeEndMarker) ∧ nextEvent p = (.ok .endNode, { p with
      reader := p.reader.consume (p.pending + headerSize p.version.toNat), started := r, last := some .endNode, log := lg ++ p.log }) := by
  by_cases hk : n.attrCount = 0 ∨ n.kids ≠ 0
  · exact ⟨[], by simp, end_marker h n r hs he hk⟩
  have hsz : 0 < headerSize p.version.toNat := by simp [headerSize]
  have hoff := h.off
  obtain ⟨P, hP⟩ : ∃ P : Parser, P = { p with reader := p.reader.consume (p.pending + headerSize p.version.toNat), started := r } := ⟨_, rfl⟩
  have htP : tolerant P := by rw [hP]; exact ht
  have himpl : ∃ lg, (∀ e ∈ lg, e.1 = .extraNodeEndMarker) ∧ nextEventImpl p = (.ok .endNode, { P with log := lg ++ p.log }) := by
    rw [impl_marker h (by intro n' r' hs'; rw [hs] at hs'; cases hs'; omega), explicitEnd, M.get_bind]
    simp only [withReader, hs]
    rw [M.set_bind]
    rw [if_neg (by simp only [consume_position]; omega), if_pos (by omega), ← hP]
    have hpos : ∃ pos, position P = (.ok pos, P) := ⟨_, position_ok (by rw [hP]; intro _; exact h.top (by rw [hs]; simp))⟩
    obtain ⟨pos, hpos⟩ := hpos
    refine ⟨[(.extraNodeEndMarker, pos)], by simp, ?_⟩
    refine (M.bind_val hpos _).trans ?_
    refine (M.bind_val (warn_tolerant htP _ _) _).trans ?_
    rw [hP]; rfl
  obtain ⟨lg, hlg, himpl⟩ := himpl
  refine ⟨lg, hlg, ?_⟩
  rw [nextEvent_of h.health himpl (by rw [hP]; simp [depthOk, depth, hs]), hP]
  rfl

/-- The client on a forest inside a document, laid out with more markers than usual. -/
theorem drive_marked {Z : Zlib} {α β : Type} (buffered : Bool) (plan : Nat → String → Nat → List (Loader α)) (v : Nat) (enc : β → Bytes) (view : β → DAttr)
    (mark : List β → Bool) (henc : ∀ b, enc b ≠ []) :
    ∀ (f : Forest β) (off k : Nat) (p : Parser) (t : Bytes) (calls : Nat) (seen : List (Spec.Obs α)),
      p.version.toNat = v → p.reader.seekable = true → Ready p off (marked v enc mark f off ++ t) →
      (∀ n r, p.started = n :: r → off + (marked v enc mark f off).length ≤ n.endOff) →
      tolerant p → markedFits v enc mark f off → planOk buffered plan (f.map view) k →
      planLoads Z buffered enc view plan f k →
      ∃ q, drive Z buffered plan (eventCount f + calls) k seen p =
          drive Z buffered plan calls (k + f.count) (seen ++ expected buffered plan (f.map view) k) q ∧
        Same p q ∧ Ready q (off + (marked v enc mark f off).length) t ∧ q.started = addKids (roots f) p.started ∧
        q.last = (if f.isNil then p.last else some .endNode) ∧ ∃ new, q.log = new ++ p.log ∧
          (∀ e ∈ new, e.1 = .emptyNodeName ∨ e.1 = .extraNodeEndMarker) := by
  intro f
  induction f with
  | nil =>
    intro off k p t calls seen _ _ hr _ _ _ _ _
    refine ⟨p, by simp [eventCount, Forest.map, Forest.count, expected], Same.refl p, by simpa [marked] using hr, ?_, by simp [Forest.isNil], [], rfl, by simp⟩
    cases p.started <;> simp [roots, addKids]
  | cons name attrs children rest ihc ihr =>
    intro off k p t calls seen hv hsk hr hend hnames hfit hplan hload
    subst hv
    simp only [markedFits] at hfit
    obtain ⟨hname, heo64, heo32, hfitc, hfitr⟩ := hfit
    obtain ⟨hld, hldc, hldr⟩ := hload
    simp only [Forest.map, planOk, List.length_map, Forest.count_map] at hplan
    obtain ⟨hpl, hplc, hplr⟩ := hplan
    generalize hcs : marked p.version.toNat enc mark children (off + headerSize p.version.toNat + (utf8 name).length + (attrs.flatMap enc).length) = cs at *
    generalize hmk : (if marks mark attrs children then headerSize p.version.toNat else 0) = mk at *
    have hmkl : (if marks mark attrs children then marker p.version.toNat else []).length = mk := by
      rw [← hmk]; split <;> simp [marker]
    generalize heo : off + headerSize p.version.toNat + (utf8 name).length + (attrs.flatMap enc).length + cs.length + mk = eo at *
    have hnodes : marked p.version.toNat enc mark (.cons name attrs children rest) off =
        header p.version.toNat eo attrs.length (attrs.flatMap enc).length (utf8 name).length ++ utf8 name ++ attrs.flatMap enc ++
        cs ++ (if marks mark attrs children then marker p.version.toNat else []) ++ marked p.version.toNat enc mark rest eo := by
      simp only [marked, hcs, hmkl, heo]
    have hhl : ∀ a b c d, (header p.version.toNat a b c d).length = headerSize p.version.toNat := by
      intro a b c d; simp [header, headerSize, le_eq]; omega
    have hlen : (marked p.version.toNat enc mark (.cons name attrs children rest) off).length =
        headerSize p.version.toNat + (utf8 name).length + (attrs.flatMap enc).length + cs.length + mk +
        (marked p.version.toNat enc mark rest eo).length := by
      rw [hnodes]; simp only [List.length_append, hhl, hmkl]
    have hsz : 0 < headerSize p.version.toNat := by simp [headerSize]
    have hal := flatMap_length_ge henc attrs
    -- the sizes fit
    have hfw : eo < 256 ^ width p.version.toNat ∧ attrs.length < 256 ^ width p.version.toNat ∧
        (attrs.flatMap enc).length < 256 ^ width p.version.toNat := by
      by_cases hv : p.version.toNat < 7500
      · have := heo32 hv
        simp only [width, hv, if_true]
        omega
      · simp only [width, hv, if_false]
        omega
    rw [hnodes] at hr
    simp only [List.append_assoc] at hr
    -- start
    obtain ⟨q1, hev1, hs1, hh1, hl1, hst1, htl1, hrd1, hlog1⟩ := start_event hr
      (by intro n r hs; have := hend n r hs; omega) name eo attrs.length (attrs.flatMap enc).length _ rfl
      hfw.1 hfw.2.1 hfw.2.2 hname (.inl (by omega)) (by simp) (.inr hnames)
    have htop1 : q1.toplevel ≠ 0 := by
      rw [htl1]; split
      · omega
      · rename_i hne; exact hr.top hne
    have hbase : p.reader.rest.drop p.pending = _ := hr.rest
    have hd1 : q1.reader.rest = attrs.flatMap enc ++ (cs ++ ((if marks mark attrs children then marker p.version.toNat else []) ++
        (marked p.version.toNat enc mark rest eo ++ t))) := by
      rw [hrd1, consume_rest, Nat.add_assoc, ← List.drop_drop, hbase, ← List.append_assoc]
      exact List.drop_left' (by simp [hhl])
    have hlen1 : p.reader.rest.length = p.pending + (headerSize p.version.toNat + ((utf8 name).length + q1.reader.rest.length)) := by
      have := congrArg List.length hbase
      have hle := hr.le
      rw [hd1]
      simp only [List.length_drop, List.length_append, hhl] at this ⊢
      omega
    have hf1 : Fine q1.reader := by rw [hrd1]; exact hr.fine.consume (by omega)
    have hpos1 : q1.reader.position = off + headerSize p.version.toNat + (utf8 name).length := by
      rw [hrd1, consume_position, ← hr.off]; omega
    -- attributes
    obtain ⟨vals, hvals⟩ := Option.isSome_iff_exists.mp hpl
    obtain ⟨j, hj, hload⟩ := hld vals hvals q1 _ _ _ hst1 hf1
      (hs1.dev.seekable.trans hsk) hh1 rfl htop1 hd1
    -- before the children
    obtain ⟨q2, hq2⟩ : ∃ q2 : Parser, q2 = { q1 with reader := q1.reader.consume j } := ⟨_, rfl⟩
    rw [← hq2] at hload
    have hpend2 : q2.pending = (attrs.flatMap enc).length - j := by
      rw [hq2]; simp only [pending, hst1, consume_position, hpos1]; omega
    have hq2st : q2.started = q1.started := by rw [hq2]
    have hr2 : Ready q2 (off + headerSize p.version.toNat + (utf8 name).length + (attrs.flatMap enc).length)
        (marked p.version.toNat enc mark children (off + headerSize p.version.toNat + (utf8 name).length + (attrs.flatMap enc).length) ++
         ((if marks mark attrs children then marker p.version.toNat else []) ++ (marked p.version.toNat enc mark rest eo ++ t))) := by
      have hl := congrArg List.length hd1
      simp only [List.length_append] at hl
      refine ⟨by rw [hq2]; exact hh1, by rw [hq2]; simp [hl1], by rw [hq2]; exact hf1.consume (by omega), by rw [hq2]; exact fun _ => htop1, ?_, ?_, ?_, ?_⟩
      · rw [hpend2, hq2]; simp only [consume_position]; omega
      · rw [hpend2, hq2]; simp only [consume_rest, List.length_drop]; omega
      · rw [hpend2, hq2, hcs]
        simp only [consume_rest, List.drop_drop]
        rw [show j + ((attrs.flatMap enc).length - j) = (attrs.flatMap enc).length by omega, hd1, List.drop_left]
      · left; rw [hq2]; exact hs1.dev.seekable.trans hsk
    have hs2 : Same p q2 := by rw [hq2]; exact ⟨hs1.version, hs1.handler, hs1.checks, hs1.dev.trans (SameDev.consume _ _)⟩
    obtain ⟨q3, hdr3, hs3, hr3, hst3, hl3, hlog3⟩ := ihc _ (k + 1) q2 _ (1 + (eventCount rest + calls)) (seen ++ [.start name attrs.length vals])
      (by rw [hs2.version]) (hs2.dev.seekable.trans hsk) hr2
      (by
        intro n r hs
        rw [hq2st, hst1] at hs
        simp only [List.cons.injEq] at hs
        rw [← hs.1, hcs]
        simp only; omega)
      (hs2.tolerant hnames) hfitc hplc hldc
    rw [hcs] at hr3
    -- the end of the node
    have hst3' : q3.started = ⟨off, eo, attrs.length, off + headerSize p.version.toNat + (utf8 name).length + (attrs.flatMap enc).length, name, 0 + roots children⟩
        :: addKids 1 p.started := by
      rw [hst3, hq2st, hst1]; rfl
    have hv3 : q3.version = p.version := by rw [hs3.version, hs2.version]
    have hend4 : ∃ q4 j4 lg, nextEvent q3 = (.ok .endNode, q4) ∧
        q4 = { q3 with reader := q3.reader.consume j4, started := addKids 1 p.started, last := some .endNode, log := lg ++ q3.log } ∧
        (∀ e ∈ lg, e.1 = .extraNodeEndMarker) ∧
        q3.reader.position + j4 = eo ∧ j4 ≤ q3.reader.rest.length ∧ q3.reader.rest.drop j4 = marked p.version.toNat enc mark rest eo ++ t := by
      have hb3 := hr3.rest
      have ho3 := hr3.off
      have hle3 := hr3.le
      by_cases hm : marks mark attrs children = true
      · rw [if_pos hm] at hmk
        simp only [hm, if_true] at hr3 hb3
        have hb3' := congrArg List.length hb3
        simp only [List.length_drop, List.length_append, marker, List.length_replicate] at hb3'
        obtain ⟨lg, hlg, hev⟩ := end_marker_any (p := q3) (by rw [hv3]; exact hr3) (hs3.tolerant (hs2.tolerant hnames)) _ _ hst3' (by simp only [hv3]; omega)
        refine ⟨_, q3.pending + headerSize p.version.toNat, lg, hev, by rw [hv3], hlg, by omega, by omega, ?_⟩
        · rw [← List.drop_drop, hb3]
          exact List.drop_left' (by simp [marker])
      · rw [if_neg hm] at hmk
        simp only [hm, Bool.false_eq_true, if_false, List.nil_append] at hr3 hb3
        simp only [marks, Bool.or_eq_true, List.isEmpty_iff, Bool.not_eq_true', not_or, Bool.not_eq_false] at hm
        refine ⟨_, q3.pending, [], end_implicit hr3 _ _ hst3' ?_ ?_ ?_, rfl, by simp, by omega, hle3, hb3⟩
        · simp only; omega
        · simp only; intro h0; exact hm.1.1 (List.eq_nil_of_length_eq_zero h0)
        · rw [hl3, if_pos hm.1.2, hq2]; simp [hl1]
    obtain ⟨q4, j4, lg4, hev4, hq4, hlg4, hj4, hj4le, hd4⟩ := hend4
    have hs4 : Same p q4 := by rw [hq4]; exact hs2.trans ⟨hs3.version, hs3.handler, hs3.checks, hs3.dev.trans (SameDev.consume _ _)⟩
    have hr4 : Ready q4 eo (marked p.version.toNat enc mark rest eo ++ t) := by
      have hp4 : q4.pending = 0 := by
        rw [hq4]
        simp only [pending]
        cases hps : p.started with
        | nil => rfl
        | cons n r =>
          simp only [addKids, consume_position, hj4]
          have hpo := hr.off
          simp only [pending, hps] at hpo
          omega
      refine ⟨by rw [hq4]; exact hr3.health, by rw [hq4]; simp, by rw [hq4]; exact hr3.fine.consume hj4le, ?_, ?_, ?_, ?_, .inr hp4⟩
      · rw [hq4]; exact fun _ => hr3.top (by rw [hst3']; simp)
      · rw [hp4, hq4]; exact hj4
      · rw [hp4]; omega
      · rw [hp4, hq4]; exact hd4
    -- following siblings
    obtain ⟨q5, hdr5, hs5, hr5, hst5, hl5, hlog5⟩ := ihr eo (k + 1 + children.count) q4 t calls
      (seen ++ [.start name attrs.length vals] ++ expected buffered plan (children.map view) (k + 1) ++ [.end]) (by rw [hs4.version]) (hs4.dev.seekable.trans hsk) hr4
      (by
        intro n r hs
        rw [hq4] at hs
        simp only at hs
        cases hps : p.started with
        | nil => rw [hps] at hs; simp [addKids] at hs
        | cons n' r' =>
          rw [hps] at hs
          simp only [addKids, List.cons.injEq] at hs
          have := hend n' r' hps
          rw [← hs.1]
          simp only
          omega)
      (hs4.tolerant hnames) hfitr hplr hldr
    refine ⟨q5, ?_, hs4.trans hs5, ?_, ?_, ?_, ?_⟩
    · rw [show eventCount (.cons name attrs children rest) + calls = (eventCount children + (1 + (eventCount rest + calls))) + 1 by
        simp only [eventCount, Forest.count]; omega, drive]
      refine (M.bind_val hev1 _).trans ?_
      refine (M.bind_val hload _).trans ?_
      rw [hdr3, show 1 + (eventCount rest + calls) = (eventCount rest + calls) + 1 by omega, drive]
      refine (M.bind_val hev4 _).trans ?_
      simp only
      rw [hdr5]
      simp only [expected, Forest.map, List.length_map, Forest.count_map, Forest.count, hvals, Option.getD_some, List.append_assoc, List.cons_append, List.nil_append]
      congr 1
      omega
    · rw [hlen]
      rw [show off + (headerSize p.version.toNat + (utf8 name).length + (attrs.flatMap enc).length + cs.length + mk +
        (marked p.version.toNat enc mark rest eo).length) = eo + (marked p.version.toNat enc mark rest eo).length by omega]
      exact hr5
    · rw [hst5, hq4]
      cases p.started
      · rfl
      · simp only [addKids, roots, List.cons.injEq, Started.mk.injEq, and_true, true_and]; omega
    · rw [hl5, hq4, if_neg (show ¬ (Forest.cons name attrs children rest).isNil = true by simp [Forest.isNil])]; split <;> rfl
    · obtain ⟨n5, a5, b5⟩ := hlog5
      obtain ⟨n3, a3, b3⟩ := hlog3
      obtain ⟨n1, a1, b1, -⟩ := hlog1
      refine ⟨n5 ++ (lg4 ++ (n3 ++ n1)), ?_, ?_⟩
      · rw [a5, hq4]
        simp only
        rw [a3, hq2]
        simp only
        rw [a1]
        simp only [List.append_assoc]
      · intro e he
        simp only [List.mem_append] at he
        rcases he with he | he | he | he
        · exact b5 e he
        · exact .inr (hlg4 e he)
        · exact b3 e he
        · exact .inl (b1 e he)

/-- Everything before the footer. -/
def bodyMarked {β : Type} (v : Nat) (enc : β → Bytes) (mark : List β → Bool) (F : Forest β) : Bytes :=
  signature ++ le 4 v ++ marked v enc mark F 27 ++ marker v

theorem parse_marked {Z : Zlib} {α β : Type} (enc : β → Bytes) (view : β → DAttr) (mark : List β → Bool) (henc : ∀ b, enc b ≠ []) (buffered : Bool) (plan : Nat → String → Nat → List (Loader α))
    (checks : Bool) (h : Option Handler) (ending : Option IoErr) (cursor limit : Nat) (v : FbxVersion) (F : Forest β) (bs : Bytes)
    (hv : supported v.toNat) (hfit : markedFits v.toNat enc mark F 27) (hplan : planOk buffered plan (F.map view) 0)
    (hload : planLoads Z buffered enc view plan F 0)
    (hlen : (bodyMarked v.toNat enc mark F ++ bs).length < 2 ^ 64)
    (hlim : cursor + (bodyMarked v.toNat enc mark F ++ bs).length ≤ limit)
    (hnames : indulgent h) :
    ∃ P : Parser,
      P.reader = ⟨bs, ending, cursor + (bodyMarked v.toNat enc mark F).length,
        (bodyMarked v.toNat enc mark F).length, true, limit⟩ ∧ P.version = v ∧ P.handler = h ∧ Fine P.reader ∧
      (∀ e ∈ P.log, e.1 = .emptyNodeName ∨ e.1 = .extraNodeEndMarker) ∧
      parseFile Z checks h ending cursor limit buffered plan (2 * F.count + 1) (bodyMarked v.toNat enc mark F ++ bs) =
        some (.ok (expected buffered plan (F.map view) 0 ++ [.fbx (footerResult (readFooter P).1)]), (readFooter P).2) := by
  generalize hn : marked v.toNat enc mark F 27 = N
  have hs : signature.length = 23 := by decide
  have hbl : (bodyMarked v.toNat enc mark F).length = 27 + N.length + headerSize v.toNat := by
    simp [bodyMarked, hn, hs, le_eq, marker]; omega
  have hdoc : bodyMarked v.toNat enc mark F ++ bs = signature ++ le 4 v.toNat ++ (N ++ (marker v.toNat ++ (bs))) := by
    simp only [bodyMarked, hn, List.append_assoc]
  rw [hdoc] at hlen hlim ⊢
  have hlen' : 27 + (N ++ (marker v.toNat ++ (bs))).length < 2 ^ 64 := by
    simp only [List.length_append, hs, le_eq, leBytes_length] at hlen ⊢; omega
  have hlim' : true = true → cursor + 27 + (N ++ (marker v.toNat ++ (bs))).length ≤ limit := by
    intro hsk
    simp only [List.length_append, hs, le_eq, leBytes_length] at hlim ⊢; omega
  obtain ⟨p, hp⟩ : ∃ p, p = fresh v ⟨N ++ (marker v.toNat ++ (bs)), ending, cursor + 27, 27, true, limit⟩ checks h := ⟨_, rfl⟩
  have hpe : p.pending = 0 := by rw [hp]; rfl
  have hr : Ready p 27 (marked v.toNat enc mark F 27 ++ (marker v.toNat ++ (bs))) := by
    rw [hn]
    refine ⟨by rw [hp]; rfl, by rw [hp]; simp [fresh], ?_, by rw [hp]; simp [fresh], by rw [hpe, hp]; rfl, by rw [hpe]; simp, by rw [hpe, hp]; rfl, .inr hpe⟩
    rw [hp]
    exact ⟨hlen', hlim'⟩
  obtain ⟨q, hdr, hsame, hrq, hst, hla, new, hl1, hl2⟩ := drive_marked (Z := Z) buffered plan v.toNat enc view mark henc F 27 0 p (marker v.toNat ++ (bs)) 1 []
    (by rw [hp]; rfl) (by rw [hp]; rfl) hr (by rw [hp]; simp [fresh]) (fun f hf => hnames f (by rw [hp] at hf; exact hf)) hfit hplan hload
  have hqv : q.version = v := by rw [hsame.version, hp]; rfl
  have hqs : q.started = [] := by rw [hst, hp]; rfl
  obtain ⟨P, hP, hP1, hP2, hP3, hev⟩ := fbx_event (p := q) (by rw [hqv]; exact hrq) hqs
  have hPr : P.reader = ⟨bs, ending, cursor + (bodyMarked v.toNat enc mark F).length, (bodyMarked v.toNat enc mark F).length, true, limit⟩ := by
    obtain ⟨a, b, c, d⟩ := hsame.dev.trans (SameDev.consume q.reader (headerSize q.version.toNat))
    have e : P.reader = q.reader.consume (headerSize q.version.toNat) := by rw [hP]
    rw [← e] at a b c d
    have hp1 : p.reader.position = 27 := by rw [hp]; rfl
    have hp2 : p.reader.cursor = cursor + 27 := by rw [hp]; rfl
    have hp3 : p.reader.ending = ending ∧ p.reader.seekable = true ∧ p.reader.seekLimit = limit := by rw [hp]; exact ⟨rfl, rfl, rfl⟩
    rw [hn, hqv] at hP2
    generalize P.reader = R at *
    obtain ⟨r1, r2, r3, r4, r5, r6⟩ := R
    simp only at a b c d hP1 hP2
    simp only [Reader.mk.injEq]
    refine ⟨hP1, a.trans hp3.1, by omega, by omega, b.trans hp3.2.1, c.trans hp3.2.2⟩
  refine ⟨P, hPr, ?_, ?_, hP3, ?_, ?_⟩
  · rw [hP]; exact hqv
  · rw [hP]; simp only [hsame.handler, hp, fresh]
  · rw [hP]; simp only [hl1, hp, fresh, List.append_nil]; exact hl2
  · simp only [parseFile]
    rw [open_ok checks v hv _ ending cursor limit hlen' true]
    simp only
    have hp' : { fresh v ⟨N ++ (marker v.toNat ++ (bs)), ending, cursor + 27, 27, true, limit⟩ checks none with handler := h } = p := by
      rw [hp]; rfl
    rw [hp']
    congr 1
    have : eventCount F + 1 = 2 * F.count + 1 := rfl
    rw [← this, hdr, drive]
    refine (M.bind_val hev _).trans ?_
    simp

end Parser
end Fbx
