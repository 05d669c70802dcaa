import Verif.Proof.Crash
import Verif.Proof.Decision
import Verif.Proof.ReadDocument

/-!
# Reading files that were not finished
-/

namespace Fbx.Parser
open Spec Reader

/-- The client on a file that begins with the nodes of a forest, up to the end of these nodes. -/
theorem parse_prefix {Z : Zlib} (hZ : Z.Lawful) (buffered checks : Bool) (h : Option Handler) (ending : Option IoErr)
    (cursor limit : Nat) (v : FbxVersion) (F : Forest DAttr) (t : Bytes)
    (hv : supported v.toNat) (hfit : forestFits v.toNat (attrBytes Z) (attrFits Z) F 27)
    (hlen : (signature ++ le 4 v.toNat ++ nodes v.toNat (attrBytes Z) F 27 ++ t).length < 2 ^ 64)
    (hlim : cursor + (signature ++ le 4 v.toNat ++ nodes v.toNat (attrBytes Z) F 27 ++ t).length ≤ limit)
    (hnames : F.All (fun name _ => name ≠ "") ∨ indulgent h) (calls : Nat) :
    ∃ q, parseFile Z checks h ending cursor limit buffered everything (2 * F.count + calls)
        (signature ++ le 4 v.toNat ++ nodes v.toNat (attrBytes Z) F 27 ++ t) =
          some (drive Z buffered everything calls F.count (events F) q) ∧
      Ready q (27 + (nodes v.toNat (attrBytes Z) F 27).length) t ∧ q.started = [] ∧ q.version = v ∧ q.handler = h ∧
      q.reader.ending = ending := by
  generalize hn : nodes v.toNat (attrBytes Z) F 27 = N at *
  have hs : signature.length = 23 := by decide
  rw [List.append_assoc _ N t] at hlen hlim ⊢
  have hlen' : 27 + (N ++ t).length < 2 ^ 64 := by
    simp only [List.length_append, hs, Writer.le_eq, leBytes_length] at hlen ⊢; omega
  have hlim' : cursor + 27 + (N ++ t).length ≤ limit := by
    simp only [List.length_append, hs, Writer.le_eq, leBytes_length] at hlim ⊢; omega
  obtain ⟨p, hp⟩ : ∃ p, p = fresh v ⟨N ++ t, ending, cursor + 27, 27, true, limit⟩ checks h := ⟨_, rfl⟩
  have hpe : p.pending = 0 := by rw [hp]; rfl
  have hr : Ready p 27 (nodes v.toNat (attrBytes Z) F 27 ++ t) := by
    rw [hn]
    refine ⟨by rw [hp]; rfl, by rw [hp]; simp [fresh], ?_, by rw [hp]; simp [fresh], by rw [hpe, hp]; rfl, by rw [hpe]; simp, by rw [hpe, hp]; rfl, .inr hpe⟩
    rw [hp]
    exact ⟨hlen', fun _ => hlim'⟩
  obtain ⟨q, hdr, hsame, hrq, hst, -, -⟩ := drive_forest hZ buffered everything v.toNat F 27 0 p t calls []
    (by rw [hp]; rfl) (by rw [hp]; rfl) hr (by rw [hp]; simp [fresh])
    (hnames.imp id (fun hh f hf => hh f (by rw [hp] at hf; exact hf))) hfit (everything_ok _ _ _)
  refine ⟨q, ?_, by rw [← hn]; exact hrq, by rw [hst, hp]; rfl, by rw [hsame.version, hp]; rfl, by rw [hsame.handler, hp]; rfl,
    by rw [hsame.dev.ending, hp]; rfl⟩
  simp only [parseFile]
  rw [open_ok checks v hv _ ending cursor limit hlen' true]
  simp only
  have hp' : { fresh v ⟨N ++ t, ending, cursor + 27, 27, true, limit⟩ checks none with handler := h } = p := by
    rw [hp]; rfl
  rw [hp', show 2 * F.count = eventCount F from rfl, hdr, everything_expected, List.nil_append, Nat.zero_add]

/-- `next_event` fails when its core fails. -/
theorem nextEvent_err {p p' : Parser} {e : PErr} (hh : p.health = .running) (h : nextEventImpl p = (.err e, p'))
    (htop : p'.started ≠ [] → p'.toplevel ≠ 0) :
    nextEvent p = (.err (e.andPosition p'.synPos), p'.setAborted p'.synPos) := by
  have he : ensureContinuable p = (.ok (), p) := by simp only [ensureContinuable, hh]
  rw [nextEvent, M.get_bind]
  refine (M.bind_val he _).trans ?_
  simp only [h, position_ok htop]

/-- Nothing but a part of a header is left. -/
theorem eof_event {p : Parser} {off : Nat} {bs : Bytes} (h : Ready p off bs) (hst : p.started = [])
    (hb : bs.length < headerSize p.version.toNat) :
    ∃ e q, nextEvent p = (.err e, q) ∧ e.kind = .io (p.reader.ending.getD .unexpectedEof) := by
  have hpe : p.pending = 0 := by simp only [pending, hst]
  have hrest := h.rest
  rw [hpe, List.drop_zero] at hrest
  have hw : headerSize p.version.toNat = 3 * headWidth p.version + 1 := by
    simp only [headerSize, width, headWidth]
    rfl
  have hfine := h.fine.position
  have himpl : nextEventImpl p = (.err (PErr.ofIo (p.reader.ending.getD .unexpectedEof)), { p with reader := p.reader.consume p.reader.rest.length }) := by
    rw [nextEventImpl, M.get_bind, M.assert_bind, if_pos (by simp [h.health]), M.assert_bind, if_pos (by simp [h.last])]
    refine (M.bind_val (skipUnread_ready h) _).trans ?_
    rw [hpe, consume_zero, show p.withReader p.reader = p from rfl, M.get_bind]
    have hi : tryImplicitEnd p = (.ok false, p) := by
      rw [tryImplicitEnd, M.get_bind]
      simp only [hst]; rfl
    refine (M.bind_val hi _).trans ?_
    simp only [Bool.false_eq_true, if_false]
    exact bind_err (readNodeHeader_short (by rw [hrest, ← hw]; exact hb) hfine)
  exact ⟨_, _, nextEvent_err h.health himpl (fun hx => absurd hst hx), rfl⟩

/-- A header in front, but not all of the name. -/
theorem eof_name_event {p : Parser} {off : Nat} {bs t : Bytes} (h : Ready p off bs) (hst : p.started = [])
    (eo na ba nl : Nat) (hb : bs = header p.version.toNat eo na ba nl ++ t)
    (h1 : eo < 256 ^ width p.version.toNat) (h2 : na < 256 ^ width p.version.toNat) (h3 : ba < 256 ^ width p.version.toNat)
    (h4 : nl < 256) (ht : t.length < nl) :
    ∃ e q, nextEvent p = (.err e, q) ∧ e.kind = .io (p.reader.ending.getD .unexpectedEof) := by
  have hpe : p.pending = 0 := by simp only [pending, hst]
  have hrest := h.rest
  rw [hpe, List.drop_zero] at hrest
  have hfine := h.fine.position
  have hl : (header p.version.toNat eo na ba nl).length = headerSize p.version.toNat := by
    simp [header, headerSize, Writer.le_eq]; omega
  have hlen : p.reader.rest.length = headerSize p.version.toNat + t.length := by rw [hrest, hb, List.length_append, hl]
  have himpl := impl_header h (by rw [hst]; simp) eo na ba nl hb h1 h2 h3 h4
  rw [if_neg (by simp [NodeHeader.isNodeEnd]; omega), hpe, Nat.zero_add] at himpl
  obtain ⟨r, hr⟩ : ∃ r, p.reader.consume (headerSize p.version.toNat) = r := ⟨_, rfl⟩
  have hr1 : r.rest = t := by
    rw [← hr, consume_rest, hrest, hb]; exact List.drop_left' hl
  have hr2 : r.position + r.rest.length < 2 ^ 64 := by
    rw [hr1, ← hr, consume_position]; omega
  rw [hr] at himpl
  have hfail : startNode off ⟨eo, na, ba, nl⟩ (p.withReader r) =
      (.err (PErr.ofIo (r.ending.getD .unexpectedEof)), { p.withReader r with reader := r.consume r.rest.length }) := by
    rw [startNode]
    simp only
    rw [if_neg (by omega)]
    exact bind_err (io_fail (readExact_dry (by show r.rest.length < nl; rw [hr1]; exact ht) hr2))
  rw [hfail] at himpl
  refine ⟨_, _, nextEvent_err h.health himpl (fun hx => absurd hst hx), ?_⟩
  rw [show r.ending = p.reader.ending by rw [← hr]; rfl]
  rfl

/-- A node whose header was not completed: it starts, and the next call fails. -/
theorem unfinished_events {p : Parser} {off : Nat} {bs t : Bytes} (h : Ready p off bs) (hst : p.started = []) (hoff : 0 < off)
    (name : String) (hname : name ≠ "") (hl : (utf8 name).length < 256)
    (hb : bs = header p.version.toNat 0 0 0 (utf8 name).length ++ (utf8 name ++ t)) :
    ∃ q, nextEvent p = (.ok (.startNode name 0), q) ∧ q.started ≠ [] ∧
      ∃ q', nextEvent q = (.err ⟨.data (.nodeLengthMismatch 0 none), some q.synPos⟩, q') := by
  have hz : 0 < 256 ^ width p.version.toNat := Nat.pos_of_ne_zero (by simp)
  obtain ⟨q, h1, -, h3, h4, h5, h6, h7, -⟩ := start_event h (by rw [hst]; simp) name 0 0 0 t hb hz hz hz hl (.inr hname) (by omega) (.inl hname)
  refine ⟨q, h1, by rw [h5]; simp, ?_⟩
  have hpe : p.pending = 0 := by simp only [pending, hst]
  have hpos := h.off
  rw [hpe] at hpos h7
  have hq : q.reader.position = off + headerSize p.version.toNat + (utf8 name).length := by
    rw [h7, consume_position]; omega
  have htop : q.toplevel ≠ 0 := by rw [h6, if_pos hst]; omega
  have hsk : skipUnreadAttributes q = (.ok (), q) := by
    rw [skipUnreadAttributes, M.get_bind, h5]
    simp only
    rw [if_neg (by omega)]
    rfl
  have hi : tryImplicitEnd q = (.err (PErr.ofData (.nodeLengthMismatch 0 none)), q) := by
    rw [tryImplicitEnd, M.get_bind, h5]
    simp only
    rw [if_pos (by omega)]
    rfl
  have himpl : nextEventImpl q = (.err (PErr.ofData (.nodeLengthMismatch 0 none)), q) := by
    rw [nextEventImpl, M.get_bind, M.assert_bind, if_pos (by simp [h3]), M.assert_bind, if_pos (by simp [h4])]
    refine (M.bind_val hsk _).trans ?_
    rw [M.get_bind]
    exact bind_err hi
  exact ⟨_, nextEvent_err h3 himpl (fun _ => htop)⟩

/-! ## The client -/

theorem drive_err (Z : Zlib) (b : Bool) {α : Type} (plan : Nat → String → Nat → List (Loader α)) (n k : Nat) (seen : List (Spec.Obs α)) {q q' : Parser} {e : PErr}
    (h : nextEvent q = (.err e, q')) : drive Z b plan (n + 1) k seen q = (.err e, q') := by
  rw [drive]
  exact bind_err h

theorem drive_start (Z : Zlib) (b : Bool) (n k : Nat) (seen : List (Spec.Obs AttrValue)) {q q' : Parser} {name : String}
    (h : nextEvent q = (.ok (.startNode name 0), q')) (hs : q'.started ≠ []) :
    drive Z b everything (n + 1) k seen q = drive Z b everything n (k + 1) (seen ++ [.start name 0 []]) q' := by
  rw [drive]
  refine (M.bind_val h _).trans ?_
  have ha : withAttrs (loadEach Z b (everything k name 0)) q' = (.ok [], q') := by
    cases hq : q'.started with
    | nil => exact absurd hq hs
    | cons m r => simp only [withAttrs, AP.ofParser, hq]; rfl
  exact M.bind_val ha _

/-! ## What was written -/

/-- The device after the calls of a forest. -/
theorem written_prefix {Z : Zlib} {s s0 : Sink} {v : FbxVersion} {w0 w : Writer} {F : Forest Writer.Append}
    (h0 : Writer.new s v = (.ok w0, s0)) (h1 : Writer.run Z (calls F) w0 = (.ok (), w)) (hi : F.All (fun _ as => ∀ a ∈ as, intact a)) :
    supported v.toNat ∧ forestFits v.toNat (attrBytes Z) (attrFits Z) (F.map denote) 27 ∧ w.opened = [] ∧ w.version = v ∧
      w.sink.buf = signature ++ le 4 v.toNat ++ nodes v.toNat (attrBytes Z) (F.map denote) 27 ++
        s.buf.drop (27 + (nodes v.toNat (attrBytes Z) (F.map denote) 27).length) ∧
      w.sink.pos = 27 + (nodes v.toNat (attrBytes Z) (F.map denote) 27).length := by
  have hia := Writer.intact_all Z F hi
  obtain ⟨g1, g2, -⟩ := (Writer.new_ok_iff s.clear rfl v _ _).mp (Writer.new_calm s s0 v w0 h0)
  have g3 := Writer.run_calm Z (calls F) _ _ _ h1
  rw [g2] at g3
  obtain ⟨g4, g5⟩ := (Writer.forest_ok_iff Z v F _ _ [] (by simp [Writer.TopOk]) _ _).mp g3
  have hl : (signature ++ le 4 v.toNat).length = 27 := by
    simp [Writer.le_eq, show signature.length = 23 by decide]
  rw [hl] at g4 g5
  have hn : nodes v.toNat (Writer.produced Z) F 27 = nodes v.toNat (attrBytes Z) (F.map denote) 27 := by
    rw [Writer.nodes_congr v.toNat _ _ F 27 hia]
    exact nodes_map v.toNat denote (attrBytes Z) F 27
  rw [hn] at g5
  refine ⟨g1, ?_, ?_, ?_, ?_, ?_⟩
  · refine forestFits_map v.toNat denote (attrBytes Z) (callFits Z) (attrFits Z) (fun a h => h.2) F 27 ?_
    exact (Writer.forestFits_congr v.toNat _ _ (callFits Z) F 27 hia).mp g4
  · have : w.clear.opened = _ := congrArg Writer.opened g5
    refine this.trans ?_
    cases F <;> rfl
  · exact (congrArg Writer.version g5 :)
  · refine (congrArg (fun w => w.sink.buf) g5 : _).trans ?_
    simp only [Writer.At, List.drop_drop]
    rfl
  · refine (congrArg (fun w => w.sink.pos) g5 : _).trans ?_
    simp only [Writer.At]
    rw [List.length_append, hl]

/-- Bytes of the footer: the version is not zero. -/
theorem version_byte {v : Nat} (hv : supported v) : ∃ b, (le 4 v)[1]? = some b ∧ b ≠ 0 := by
  refine ⟨UInt8.ofNat (v / 256), by simp [le, List.range, List.range.loop], ?_⟩
  intro h
  have := congrArg UInt8.toNat h
  simp only [supported] at hv
  simp at this
  omega

/-- No strict prefix of a footer is a footer. -/
theorem footer_strict {v : Nat} (hv : supported v) {f : Foot} {pos : Nat} (h1 : f.unknown1.length = 16) (h2 : f.unknown2.length = 4)
    (h3 : f.unknown3.length = 16) {y : Bytes} (hy : y <+: footer v f pos) (hne : y ≠ footer v f pos) (g : Footer) : ¬ startsWithFooter v y g := by
  rintro ⟨a1, a2, a3, a4, a5, t, ht⟩
  obtain ⟨b, hb, hb0⟩ := version_byte hv
  have hl4 : (le 4 v).length = 4 := by simp [Writer.le_eq]
  generalize hp : padLen f pos = p at *
  generalize hi : g.paddingLen = i at *
  have hlen : y.length < (footer v f pos).length := by
    rcases Nat.lt_or_ge y.length (footer v f pos).length with h | h
    · exact h
    · exact absurd (hy.eq_of_length_le h) hne
  have hget : ∀ k, k < y.length → y[k]? = (footer v f pos)[k]? := by
    intro k hk
    obtain ⟨z, hz⟩ := hy
    rw [← hz, List.getElem?_append_left hk]
  have hfl : (footer v f pos).length = 160 + p := by
    simp only [footer, hp, List.length_append, List.length_replicate, h1, h2, h3, hl4]; omega
  have hyl : y.length = 160 + i + t.length := by
    rw [ht]; simp only [a1, a3, a5, List.length_append, List.length_replicate, hl4, List.length_cons, List.length_nil]; omega
  -- zeros of the footer
  have z1 : ∀ k, k < p → (footer v f pos)[16 + k]? = some 0 := by
    intro k hk
    simp only [footer, hp, List.append_assoc]
    rw [List.getElem?_append_right (by omega), h1, List.getElem?_append_left (by simp; omega), List.getElem?_replicate, if_pos (by omega)]
  have z2 : ∀ k, k < 120 → (footer v f pos)[16 + p + 8 + k]? = some 0 := by
    intro k hk
    simp only [footer, hp, List.append_assoc]
    rw [List.getElem?_append_right (by omega), h1, List.getElem?_append_right (by simp; omega), List.length_replicate,
      List.getElem?_append_right (by omega), h2, List.getElem?_append_right (by omega), hl4, List.getElem?_append_left (by simp; omega),
      List.getElem?_replicate, if_pos (by omega)]
  have y1 : y[16 + i + 5]? = some b := by
    rw [ht]
    simp only [List.append_assoc]
    rw [List.getElem?_append_right (by omega), a1, List.getElem?_append_right (by simp; omega), List.length_replicate,
      List.getElem?_append_right (by rw [a3]; simp; omega), a3, List.getElem?_append_left (by rw [hl4]; simp; omega), ← hb]
    congr 1
    simp; omega
  have y2 : y[16 + i + 128]? = some 0xf8 := by
    rw [ht]
    simp only [List.append_assoc]
    rw [List.getElem?_append_right (by omega), a1, List.getElem?_append_right (by simp; omega), List.length_replicate,
      List.getElem?_append_right (by rw [a3]; simp; omega), a3, List.getElem?_append_right (by rw [hl4]; simp; omega), hl4,
      List.getElem?_append_right (by simp; omega), a5, List.length_replicate,
      show 16 + i + 128 - 16 - i - [0, 0, 0, (0 : UInt8)].length - 4 - 120 = 0 by simp; omega]
    rfl
  have c1 : p ≤ i + 5 := by
    rcases Nat.lt_or_ge (i + 5) p with h | h
    · have := hget (16 + i + 5) (by omega)
      rw [y1, show 16 + i + 5 = 16 + (i + 5) by omega, z1 _ h] at this
      cases this
      exact absurd rfl hb0
    · exact h
  have := hget (16 + i + 128) (by omega)
  rw [y2, show 16 + i + 128 = 16 + p + 8 + (i + 120 - p) by omega, z2 _ (by omega)] at this
  exact absurd this (by decide)

end Fbx.Parser
