import Verif.Proof.CrashRead
import Verif.Props.ParseWritten
import Verif.Props.Files

/-!
# C62 Writing that is interrupted

`Wrote`, `goOn` and `staysOpen` are in `Verif/Spec/Crash.lean`. The device fails wherever its schedule says.
-/

namespace Fbx
open Spec Parser
variable {Z : Zlib} {s : Sink} {v : FbxVersion} {F : Forest Writer.Append} {w : Writer}

namespace Crash

theorem head_length (n : Nat) : (signature ++ le 4 n).length = 27 := by
  simp [Writer.le_eq, show signature.length = 23 by decide]

/-- A device whose first bytes are those of the nodes of a forest. -/
theorem parse_kept (hZ : Z.Lawful) (h : Wrote Z s v F w) (hi : F.All (fun _ as => ∀ a ∈ as, intact a))
    (buffered checks : Bool) (H : Option Handler) (hH : indulgent H) (ending : Option IoErr) (cursor limit : Nat) {buf t : Bytes}
    (hb : buf = signature ++ le 4 v.toNat ++ nodes v.toNat (attrBytes Z) (F.map denote) 27 ++ t) (hlen : buf.length < 2 ^ 64)
    (hlim : cursor + buf.length ≤ limit) (n : Nat) :
    ∃ q, parseFile Z checks H ending cursor limit buffered everything (2 * F.count + n) buf =
        some (drive Z buffered everything n F.count (events (F.map denote)) q) ∧
      Ready q (27 + (nodes v.toNat (attrBytes Z) (F.map denote) 27).length) t ∧ q.started = [] ∧ q.version = v ∧ q.reader.ending = ending := by
  obtain ⟨w0, s0, h0, h1⟩ := h
  obtain ⟨g1, g2, -⟩ := written_prefix h0 h1 hi
  subst hb
  obtain ⟨q, a1, a2, a3, a4, -, a5⟩ := parse_prefix hZ buffered checks H ending cursor limit v (F.map denote) t g1 g2 hlen hlim (.inr hH) n
  rw [count_map] at a1
  exact ⟨q, a1, a2, a3, a4, a5⟩

theorem of_take {P buf : Bytes} (h : buf.take P.length = P) : buf = P ++ buf.drop P.length := by
  rw [← h]
  have := congrArg List.length h
  simp only [List.length_take] at this
  simp [show min P.length buf.length = P.length by omega]

/-- The writer without its faults. -/
theorem wrote_at (h : Wrote Z s v F w) (hi : F.All (fun _ as => ∀ a ∈ as, intact a)) :
    supported v.toNat ∧ forestFits v.toNat (attrBytes Z) (attrFits Z) (F.map denote) 27 ∧
    w.clear = Writer.At v (signature ++ le 4 v.toNat ++ nodes v.toNat (attrBytes Z) (F.map denote) 27)
      (s.buf.drop (27 + (nodes v.toNat (attrBytes Z) (F.map denote) 27).length)) [] := by
  obtain ⟨w0, s0, h0, h1⟩ := h
  obtain ⟨g1, g2, g3, g4, g5, g6⟩ := written_prefix h0 h1 hi
  obtain ⟨⟨b, p, f⟩, v', o⟩ := w
  simp only at g3 g4 g5 g6
  refine ⟨g1, g2, ?_⟩
  simp only [Writer.clear, Sink.clear, Writer.At, g3, g4, g5, g6, List.length_append (as := signature ++ le 4 v.toNat), head_length]

end Crash
open Crash

/-- **C62** (what is written stays). Once the calls for the nodes `F` have succeeded, these nodes are safe: whatever is
called afterwards, whether these calls succeed or not and wherever the device fails, and also after a `finalize`, a
client sees exactly these nodes at the beginning of what is on the device. -/
theorem C62_kept (Z : Zlib) (hZ : Z.Lawful) (h : Wrote Z s v F w) (hi : F.All (fun _ as => ∀ a ∈ as, intact a)) (later : List Writer.Op) (d : Sink)
    (hd : d = (goOn Z w later).sink ∨ ∃ f, d = (Writer.finalize f (goOn Z w later)).2.sink) (hlen : d.buf.length < 2 ^ 64)
    (buffered checks : Bool) (H : Option Handler) (hH : indulgent H) (ending : Option IoErr) (cursor limit : Nat)
    (hlim : cursor + d.buf.length ≤ limit) :
    ∃ q, parseFile Z checks H ending cursor limit buffered everything (2 * F.count) d.buf = some (.ok (events (F.map denote)), q) := by
  obtain ⟨-, -, hw⟩ := wrote_at h hi
  have ha : Writer.Above (signature ++ le 4 v.toNat ++ nodes v.toNat (attrBytes Z) (F.map denote) 27) 0 w := by
    have hb : w.sink.buf = _ := (congrArg (fun w => w.sink.buf) hw :)
    have hp : w.sink.pos = _ := (congrArg (fun w => w.sink.pos) hw :)
    have ho : w.opened = _ := (congrArg Writer.opened hw :)
    refine ⟨?_, Nat.le_of_eq hp.symm, Nat.zero_le _, ?_⟩
    · rw [hb]; simp only [Writer.At, List.take_left']
    · simp [Writer.heads, ho, Writer.At]
  obtain ⟨P, hP⟩ : ∃ P, P = signature ++ le 4 v.toNat ++ nodes v.toNat (attrBytes Z) (F.map denote) 27 := ⟨_, rfl⟩
  rw [← hP] at ha
  have hk : d.buf.take P.length = P := by
    rcases hd with rfl | ⟨f, rfl⟩
    · exact (Writer.Above.goOn Z later ha).kept
    · exact (Writer.Above.finalize f _ (Writer.Above.goOn Z later ha)).1.kept
  have hb := of_take hk
  rw [hP] at hb
  obtain ⟨q, hq, -⟩ := parse_kept hZ h hi buffered checks H hH ending cursor limit hb hlen hlim 0
  exact ⟨q, hq⟩

namespace Crash

/-- A node has been started and not closed. -/
theorem open_kept (h : Wrote Z s v F w) (hi : F.All (fun _ as => ∀ a ∈ as, intact a)) {name : String} {w1 : Writer}
    (hnew : Writer.newNode name w = (.ok (), w1)) {more : List Writer.Op} (hm : staysOpen more) {d : Sink}
    (hd : d = (Writer.run Z more w1).2.sink ∨ ∃ f, d = (Writer.finalize f (Writer.run Z more w1).2).2.sink) :
    (utf8 name).length < 256 ∧ ∃ t, d.buf = signature ++ le 4 v.toNat ++ nodes v.toNat (attrBytes Z) (F.map denote) 27 ++
      (header v.toNat 0 0 0 (utf8 name).length ++ (utf8 name ++ t)) := by
  obtain ⟨-, -, hw⟩ := wrote_at h hi
  have hn := Writer.newNode_calm name _ _ _ hnew
  rw [hw] at hn
  obtain ⟨g1, -, g3⟩ := (Writer.newNode_ok_iff v _ _ [] (by simp [Writer.TopOk]) name _ _).mp hn
  refine ⟨g1, ?_⟩
  generalize hP : signature ++ le 4 v.toNat ++ nodes v.toNat (attrBytes Z) (F.map denote) 27 = P at *
  have ha : Writer.Above (P ++ (header v.toNat 0 0 0 (utf8 name).length ++ utf8 name)) 1 w1 ∧ w1.opened.length = 1 + 0 := by
    have hb : w1.sink.buf = _ := (congrArg (fun w => w.sink.buf) g3 :)
    have hp : w1.sink.pos = _ := (congrArg (fun w => w.sink.pos) g3 :)
    have ho : w1.opened = _ := (congrArg Writer.opened g3 :)
    have hl : w1.opened.length = 1 := by rw [ho]; rfl
    refine ⟨⟨?_, Nat.le_of_eq hp.symm, ?_, ?_⟩, hl⟩
    · rw [hb]; simp only [Writer.At, List.take_left']
    · simp [Writer.heads, hl]
    · simp [Writer.heads, hl]
  have hr := Writer.Above.run Z more 0 ha.1 ha.2 (fun i => by rw [Nat.zero_add]; exact hm i)
  obtain ⟨Q, hQ⟩ : ∃ Q, Q = P ++ (header v.toNat 0 0 0 (utf8 name).length ++ utf8 name) := ⟨_, rfl⟩
  rw [← hQ] at hr
  have hk : d.buf.take Q.length = Q := by
    rcases hd with rfl | ⟨f, rfl⟩
    · exact hr.kept
    · exact (Writer.Above.finalize f _ hr).1.kept
  refine ⟨d.buf.drop Q.length, (of_take hk).trans ?_⟩
  rw [hQ]
  simp only [List.append_assoc]

/-- The client on a file with a node that was not finished. -/
theorem parse_open (hZ : Z.Lawful) (h : Wrote Z s v F w) (hi : F.All (fun _ as => ∀ a ∈ as, intact a))
    (buffered checks : Bool) (H : Option Handler) (hH : indulgent H) (ending : Option IoErr) (cursor limit : Nat) {buf t : Bytes} {name : String} (hname : name ≠ "")
    (hl : (utf8 name).length < 256)
    (hb : buf = signature ++ le 4 v.toNat ++ nodes v.toNat (attrBytes Z) (F.map denote) 27 ++
      (header v.toNat 0 0 0 (utf8 name).length ++ (utf8 name ++ t))) (hlen : buf.length < 2 ^ 64)
    (hlim : cursor + buf.length ≤ limit) :
    (∃ q, parseFile Z checks H ending cursor limit buffered everything (2 * F.count + 1) buf =
      some (.ok (events (F.map denote) ++ [.start name 0 []]), q)) ∧
    ∀ n, ∃ e q, parseFile Z checks H ending cursor limit buffered everything (2 * F.count + 2 + n) buf = some (.err e, q) ∧
      e.kind = .data (.nodeLengthMismatch 0 none) := by
  constructor
  · obtain ⟨q, a1, a2, a3, a4, a5⟩ := parse_kept hZ h hi buffered checks H hH ending cursor limit hb hlen hlim 1
    subst a4
    obtain ⟨q1, b1, b2, b3⟩ := unfinished_events a2 a3 (by omega) name hname hl rfl
    exact ⟨q1, by rw [a1, drive_start Z buffered 0 _ _ b1 b2]; rfl⟩
  · intro n
    obtain ⟨q, a1, a2, a3, a4, a5⟩ := parse_kept hZ h hi buffered checks H hH ending cursor limit hb hlen hlim (n + 2)
    subst a4
    obtain ⟨q1, b1, b2, q2, b3⟩ := unfinished_events a2 a3 (by omega) name hname hl rfl
    refine ⟨⟨.data (.nodeLengthMismatch 0 none), some q1.synPos⟩, q2, ?_, rfl⟩
    rw [show 2 * F.count + 2 + n = 2 * F.count + (n + 2) by omega, a1, drive_start Z buffered (n + 1) _ _ b1 b2, drive_err Z buffered everything n _ _ b3]

end Crash

/-- **C62** (inside a node). If the writing stops while a top-level node with a non-empty name is open (after any calls inside
it, none of which closes it, and wherever the device failed; also if `finalize` is tried), then a client sees the nodes
finished before, the start of the open node, and then the error that its length is wrong. It never sees the end of the
document. -/
theorem C62_open (Z : Zlib) (hZ : Z.Lawful) (h : Wrote Z s v F w) (hi : F.All (fun _ as => ∀ a ∈ as, intact a)) {name : String} (hname : name ≠ "")
    {w1 : Writer} (hnew : Writer.newNode name w = (.ok (), w1)) {more : List Writer.Op} (hm : staysOpen more) (d : Sink)
    (hd : d = (Writer.run Z more w1).2.sink ∨ ∃ f, d = (Writer.finalize f (Writer.run Z more w1).2).2.sink) (hlen : d.buf.length < 2 ^ 64)
    (buffered checks : Bool) (H : Option Handler) (hH : indulgent H) (ending : Option IoErr) (cursor limit : Nat)
    (hlim : cursor + d.buf.length ≤ limit) :
    (∃ q, parseFile Z checks H ending cursor limit buffered everything (2 * F.count + 1) d.buf =
      some (.ok (events (F.map denote) ++ [.start name 0 []]), q)) ∧
    ∀ n, ∃ e q, parseFile Z checks H ending cursor limit buffered everything (2 * F.count + 2 + n) d.buf = some (.err e, q) ∧
      e.kind = .data (.nodeLengthMismatch 0 none) := by
  obtain ⟨hl, t, ht⟩ := open_kept h hi hnew hm hd
  exact parse_open hZ h hi buffered checks H hH ending cursor limit hname hl ht hlen hlim

/-- **C62** (inside a node without a name; a defect). If the open top-level node has an empty name, what is on the device
looks like a complete document: the header of the open node is taken for the end of the document, and what follows for
the footer. -/
theorem C62_open_nameless (Z : Zlib) (hZ : Z.Lawful) (h : Wrote Z s v F w) (hi : F.All (fun _ as => ∀ a ∈ as, intact a))
    {w1 : Writer} (hnew : Writer.newNode "" w = (.ok (), w1)) {more : List Writer.Op} (hm : staysOpen more) (d : Sink)
    (hd : d = (Writer.run Z more w1).2.sink ∨ ∃ f, d = (Writer.finalize f (Writer.run Z more w1).2).2.sink) (hlen : d.buf.length < 2 ^ 64)
    (buffered checks : Bool) (H : Option Handler) (hH : indulgent H) (ending : Option IoErr) (cursor limit : Nat)
    (hlim : cursor + d.buf.length ≤ limit) :
    ∃ footer q, parseFile Z checks H ending cursor limit buffered everything (2 * F.count + 1) d.buf =
        some (.ok (events (F.map denote) ++ [.fbx footer]), q) ∧
      ∀ g, footer = .ok g ↔ startsWithFooter v.toNat (d.buf.drop (body v.toNat (attrBytes Z) (F.map denote)).length) g := by
  obtain ⟨-, t, ht⟩ := open_kept h hi hnew hm hd
  obtain ⟨g1, g2, -⟩ := wrote_at h hi
  have hz : header v.toNat 0 0 0 (utf8 "").length = marker v.toNat := by
    simp only [header, marker, headerSize, show (utf8 "").length = 0 by rfl]
    unfold width
    split <;> decide
  have hb : d.buf = body v.toNat (attrBytes Z) (F.map denote) ++ t := by
    rw [ht, hz, show utf8 "" = [] from rfl]
    simp only [body, List.append_assoc, List.nil_append]
  rw [hb] at hlen hlim ⊢
  obtain ⟨footer, q, a1, a2⟩ := C20_footer_acceptance Z hZ v g1 (F.map denote) g2 t hlen buffered checks everything (everything_ok _ _ _) H hH ending
    cursor limit hlim
  rw [count_map, everything_expected] at a1
  exact ⟨footer, q, a1, by rw [List.drop_left' rfl]; exact a2⟩

/-- **C62** (between nodes). If the writing stops when no node is open, or while a top-level node with a non-empty name is being
started, on a device that was empty at first, then a client sees the nodes finished before and then an error: the end of
the data, or the wrong length of the node. It never sees the end of the document. -/
theorem C62_between (Z : Zlib) (hZ : Z.Lawful) (h : Wrote Z s v F w) (hs : s.buf = []) (hi : F.All (fun _ as => ∀ a ∈ as, intact a)) (d : Sink)
    (hd : d = w.sink ∨ ∃ name, name ≠ "" ∧ d = (Writer.newNode name w).2.sink) (hlen : d.buf.length < 2 ^ 64)
    (buffered checks : Bool) (H : Option Handler) (hH : indulgent H) (ending : Option IoErr) (cursor limit : Nat)
    (hlim : cursor + d.buf.length ≤ limit) (n : Nat) :
    ∃ e q, parseFile Z checks H ending cursor limit buffered everything (2 * F.count + 2 + n) d.buf = some (.err e, q) ∧
      (e.kind = .io (ending.getD .unexpectedEof) ∨ e.kind = .data (.nodeLengthMismatch 0 none)) := by
  obtain ⟨g1, g2, hw⟩ := wrote_at h hi
  rw [hs, List.drop_nil] at hw
  have hbuf : w.sink.buf = _ := (congrArg (fun w => w.sink.buf) hw :)
  have hpos : w.sink.pos = _ := (congrArg (fun w => w.sink.pos) hw :)
  have ho : w.opened = [] := (congrArg Writer.opened hw :)
  have hv : w.version = v := (congrArg Writer.version hw :)
  simp only [Writer.At, List.append_nil] at hbuf hpos
  -- nothing but a part of a header
  have short : ∀ x : Bytes, x.length < headerSize v.toNat → d.buf = w.sink.buf ++ x →
      ∃ e q, parseFile Z checks H ending cursor limit buffered everything (2 * F.count + 2 + n) d.buf = some (.err e, q) ∧
        (e.kind = .io (ending.getD .unexpectedEof) ∨ e.kind = .data (.nodeLengthMismatch 0 none)) := by
    intro x hx hb
    rw [hbuf] at hb
    obtain ⟨q, a1, a2, a3, a4, a5⟩ := parse_kept hZ h hi buffered checks H hH ending cursor limit hb hlen hlim (n + 2)
    subst a4
    obtain ⟨e, q', b1, b2⟩ := eof_event a2 a3 hx
    refine ⟨e, q', ?_, .inl (by rw [b2, a5])⟩
    rw [show 2 * F.count + 2 + n = 2 * F.count + (n + 2) by omega, a1, drive_err Z buffered everything (n + 1) _ _ b1]
  have hz : 0 < headerSize v.toNat := by simp only [headerSize]; omega
  rcases hd with rfl | ⟨name, hname, rfl⟩
  · exact short [] hz (by simp)
  rcases Decidable.em (¬ (utf8 name).length < 256) with hl | hl
  · exact short [] hz (by rw [Writer.newNode_long ho name hl, List.append_nil])
  rw [Decidable.not_not] at hl
  obtain ⟨x, hx, hb, -⟩ := Writer.newNode_extends (show Writer.AtEnd w by rw [Writer.AtEnd, hpos, hbuf]) ho name
  rw [hv] at hx
  have hlh : (header v.toNat 0 0 0 (utf8 name).length).length = headerSize v.toNat := by
    simp [header, headerSize, Writer.le_eq]; omega
  rcases Nat.lt_or_ge x.length (headerSize v.toNat) with hlt | hge
  · exact short x hlt hb
  obtain ⟨y, rfl⟩ := List.prefix_of_prefix_length_le (List.prefix_append _ _) hx (by omega)
  have hy : y <+: utf8 name := (List.prefix_append_right_inj _).mp hx
  rw [hbuf] at hb
  rcases Nat.lt_or_ge y.length (utf8 name).length with hlt | hge
  · obtain ⟨q, a1, a2, a3, a4, a5⟩ := parse_kept hZ h hi buffered checks H hH ending cursor limit hb hlen hlim (n + 2)
    subst a4
    have hp0 : 0 < 256 ^ width q.version.toNat := Nat.pos_of_ne_zero (by simp)
    obtain ⟨e, q', b1, b2⟩ := eof_name_event a2 a3 0 0 0 _ rfl hp0 hp0 hp0 hl hlt
    refine ⟨e, q', ?_, .inl (by rw [b2, a5])⟩
    rw [show 2 * F.count + 2 + n = 2 * F.count + (n + 2) by omega, a1, drive_err Z buffered everything (n + 1) _ _ b1]
  · have : y = utf8 name := hy.eq_of_length_le hge
    subst this
    obtain ⟨e, q, a1, a2⟩ := (parse_open hZ h hi buffered checks H hH ending cursor limit hname hl (t := []) (by rw [hb, List.append_nil]) hlen hlim).2 n
    exact ⟨e, q, a1, .inr a2⟩

/-- **C62** (in `finalize`). If the device fails during `finalize`, and it was empty at first, then a client sees the nodes and
then either the end of the data, or the end of the document with an error instead of a footer; unless the document is
complete on the device. -/
theorem C62_finalize (Z : Zlib) (hZ : Z.Lawful) (h : Wrote Z s v F w) (hs : s.buf = []) (hi : F.All (fun _ as => ∀ a ∈ as, intact a))
    {f : Writer.FooterSpec} (hf : footSized f) (d : Sink) (hd : d = (Writer.finalize f w).2.sink) (hlen : d.buf.length < 2 ^ 64)
    (buffered checks : Bool) (H : Option Handler) (hH : indulgent H) (ending : Option IoErr) (cursor limit : Nat)
    (hlim : cursor + d.buf.length ≤ limit) :
    d.buf = document v.toNat (attrBytes Z) (F.map denote) (footOf f) ∨
    (∃ e q, parseFile Z checks H ending cursor limit buffered everything (2 * F.count + 1) d.buf = some (.err e, q) ∧
      e.kind = .io (ending.getD .unexpectedEof)) ∨
    ∃ e q, parseFile Z checks H ending cursor limit buffered everything (2 * F.count + 1) d.buf =
      some (.ok (events (F.map denote) ++ [.fbx (.error e)]), q) := by
  obtain ⟨g1, g2, hw⟩ := wrote_at h hi
  rw [hs, List.drop_nil] at hw
  have hbuf : w.sink.buf = _ := (congrArg (fun w => w.sink.buf) hw :)
  have hpos : w.sink.pos = _ := (congrArg (fun w => w.sink.pos) hw :)
  have ho : w.opened = [] := (congrArg Writer.opened hw :)
  have hv : w.version = v := (congrArg Writer.version hw :)
  simp only [Writer.At, List.append_nil] at hbuf hpos
  obtain ⟨x, hx, hb, -⟩ := Writer.finalize_extends (show Writer.AtEnd w by rw [Writer.AtEnd, hpos, hbuf]) ho f
  rw [hv] at hx
  subst hd
  rw [hbuf] at hb
  have hlm : (marker v.toNat).length = headerSize v.toNat := by simp [marker]
  rcases Nat.lt_or_ge x.length (headerSize v.toNat) with hlt | hge
  · obtain ⟨q, a1, a2, a3, a4, a5⟩ := parse_kept hZ h hi buffered checks H hH ending cursor limit hb hlen hlim 1
    subst a4
    obtain ⟨e, q', b1, b2⟩ := eof_event a2 a3 hlt
    exact .inr (.inl ⟨e, q', by rw [a1, drive_err Z buffered everything 0 _ _ b1], by rw [b2, a5]⟩)
  obtain ⟨y, rfl⟩ := List.prefix_of_prefix_length_le (List.prefix_append _ _) hx (by omega)
  have hy := (List.prefix_append_right_inj _).mp hx
  have hb' : (Writer.finalize f w).2.sink.buf = body v.toNat (attrBytes Z) (F.map denote) ++ y := by
    rw [hb]; simp only [body, List.append_assoc]
  have hbl : w.sink.buf.length + headerSize v.toNat = (body v.toNat (attrBytes Z) (F.map denote)).length := by
    rw [hbuf]; simp only [body, List.length_append, hlm]
  rw [hbl] at hy
  by_cases hye : y = footer v.toNat (footOf f) (body v.toNat (attrBytes Z) (F.map denote)).length
  · exact .inl (by rw [hb', hye]; rfl)
  refine .inr (.inr ?_)
  rw [hb'] at hlen hlim ⊢
  obtain ⟨footer, q, a1, a2⟩ := C20_footer_acceptance Z hZ v g1 (F.map denote) g2 y hlen buffered checks everything (everything_ok _ _ _) H hH ending
    cursor limit hlim
  rw [count_map, everything_expected] at a1
  obtain ⟨l1, l2, l3⟩ := footSized_lengths hf
  cases footer with
  | ok g => exact absurd ((a2 g).mp rfl) (footer_strict g1 l1 l2 l3 hy hye g)
  | error e => exact ⟨e, q, a1⟩

/-- **C62** (in `FbxWriter::new`). If the device fails while the file header is written, and it was empty at first, then what is
on the device cannot be opened, or ends before the first event. -/
theorem C62_new (Z : Zlib) (hZ : Z.Lawful) (s : Sink) (hs : s.buf = []) (v : FbxVersion) (d : Sink) (hd : d = (Writer.new s v).2)
    (buffered checks : Bool) (H : Option Handler) (hH : indulgent H) (ending : Option IoErr) (cursor limit : Nat)
    (hlim : cursor + d.buf.length ≤ limit) (n : Nat) :
    parseFile Z checks H ending cursor limit buffered everything (n + 1) d.buf = none ∨
    ∃ e q, parseFile Z checks H ending cursor limit buffered everything (n + 1) d.buf = some (.err e, q) ∧
      e.kind = .io (ending.getD .unexpectedEof) := by
  obtain ⟨h1, h2⟩ := Writer.new_extends hs v
  rw [← hd] at h1 h2
  have hl := head_length v.toNat
  have hle := h1.length_le
  rcases Nat.lt_or_ge d.buf.length 27 with hlt | hge
  · refine .inl ?_
    have h23 : d.buf.length < 23 ∨ (d.buf.take 23 = signature ∧ d.buf.length < 27) := by
      rcases Nat.lt_or_ge d.buf.length 23 with h | h
      · exact .inl h
      · refine .inr ⟨?_, hlt⟩
        obtain ⟨z, hz⟩ := h1
        have := congrArg (List.take 23) hz
        rw [List.take_append_of_le_length h, List.take_left' (by decide)] at this
        exact this
    have := C01_header_short ⟨d.buf, ending, cursor, 0, true, limit⟩ (by simp only; omega) h23
    simp only [parseFile, anyParser]
    generalize loadHeader ⟨d.buf, ending, cursor, 0, true, limit⟩ = x at this
    obtain ⟨x, r⟩ := x
    simp only at this
    rw [this]
  · have he : d.buf = signature ++ le 4 v.toNat := h1.eq_of_length_le (by omega)
    have hsup := h2 (by intro h; rw [h] at hge; simp at hge)
    refine .inr ?_
    have hb : d.buf = signature ++ le 4 v.toNat ++ nodes v.toNat (attrBytes Z) .nil 27 ++ [] := by rw [he]; simp [nodes]
    rw [hb] at hlim ⊢
    obtain ⟨q, a1, a2, a3, a4, -, a5⟩ := parse_prefix hZ buffered checks H ending cursor limit v .nil [] hsup trivial (by simp [nodes, hl]) hlim (.inr hH) (n + 1)
    obtain ⟨e, q', b1, b2⟩ := eof_event a2 a3 (by simp only [headerSize, List.length_nil]; omega)
    refine ⟨e, q', ?_, by rw [b2, a5]⟩
    simp only [Forest.count, Nat.mul_zero, Nat.zero_add] at a1
    rw [a1, drive_err Z buffered everything n _ _ b1]

/-! ## Trees -/

namespace Crash

theorem no_tree {checks : Bool} {bytes : Bytes} {ending : Option IoErr} {cursor limit : Nat} (hlen : bytes.length + 2 ^ 32 ≤ 2 ^ 64) (m : Nat)
    (hall : ∀ n, ∃ e q, parseFile Z checks (some fun _ _ _ => none) ending cursor limit false everything (m + n) bytes = some (.err e, q)) (r) :
    anyTree Z checks true bytes ending cursor limit ≠ .ok r := by
  intro h
  obtain ⟨v', t, footer⟩ := r
  obtain ⟨p, q, G, h1, h2, -⟩ := C52_document Z hlen h (m + (2 * bytes.length + 1)) (by omega)
  obtain ⟨e, q', h3⟩ := hall (2 * bytes.length + 1)
  simp only [parseFile, h1] at h3
  rw [show { p with handler := some fun _ _ _ => none } = p.setHandler (fun _ _ _ => none) from rfl, h2] at h3
  cases h3

end Crash

/-- **C62** (trees, inside a node). No tree is loaded from what an interrupted session left inside a top-level node with a
non-empty name. -/
theorem C62_open_tree (Z : Zlib) (hZ : Z.Lawful) (h : Wrote Z s v F w) (hi : F.All (fun _ as => ∀ a ∈ as, intact a)) {name : String} (hname : name ≠ "")
    {w1 : Writer} (hnew : Writer.newNode name w = (.ok (), w1)) {more : List Writer.Op} (hm : staysOpen more) (d : Sink)
    (hd : d = (Writer.run Z more w1).2.sink ∨ ∃ f, d = (Writer.finalize f (Writer.run Z more w1).2).2.sink) (hlen : d.buf.length + 2 ^ 32 ≤ 2 ^ 64)
    (checks : Bool) (ending : Option IoErr) (cursor limit : Nat) (hlim : cursor + d.buf.length ≤ limit) (r) :
    anyTree Z checks true d.buf ending cursor limit ≠ .ok r := by
  refine no_tree hlen (2 * F.count + 2) (fun n => ?_) r
  obtain ⟨e, q, h1, -⟩ := (C62_open Z hZ h hi hname hnew hm d hd (by omega) false checks (some fun _ _ _ => none)
    (by intro f hf; cases hf; intros; rfl) ending cursor limit hlim).2 n
  exact ⟨e, q, h1⟩

/-- **C62** (trees, between nodes). No tree is loaded from what a session left that was interrupted between top-level nodes, or while
starting one with a non-empty name, on a device that was empty at first. -/
theorem C62_between_tree (Z : Zlib) (hZ : Z.Lawful) (h : Wrote Z s v F w) (hs : s.buf = []) (hi : F.All (fun _ as => ∀ a ∈ as, intact a)) (d : Sink)
    (hd : d = w.sink ∨ ∃ name, name ≠ "" ∧ d = (Writer.newNode name w).2.sink) (hlen : d.buf.length + 2 ^ 32 ≤ 2 ^ 64)
    (checks : Bool) (ending : Option IoErr) (cursor limit : Nat) (hlim : cursor + d.buf.length ≤ limit) (r) :
    anyTree Z checks true d.buf ending cursor limit ≠ .ok r := by
  refine no_tree hlen (2 * F.count + 2) (fun n => ?_) r
  obtain ⟨e, q, h1, -⟩ := C62_between Z hZ h hs hi d hd (by omega) false checks (some fun _ _ _ => none)
    (by intro f hf; cases hf; intros; rfl) ending cursor limit hlim n
  exact ⟨e, q, h1⟩

/-- **C62** (trees, in `finalize`). If the device failed during `finalize`, and it was empty at first, then a tree with a proper
footer is loaded only if the document is complete on the device. -/
theorem C62_finalize_tree (Z : Zlib) (hZ : Z.Lawful) (h : Wrote Z s v F w) (hs : s.buf = []) (hi : F.All (fun _ as => ∀ a ∈ as, intact a))
    {f : Writer.FooterSpec} (hf : footSized f) (d : Sink) (hd : d = (Writer.finalize f w).2.sink) (hlen : d.buf.length + 2 ^ 32 ≤ 2 ^ 64)
    (checks : Bool) (ending : Option IoErr) (cursor limit : Nat) (hlim : cursor + d.buf.length ≤ limit) {v' : FbxVersion} {t : Tree} {g : Footer}
    (ht : anyTree Z checks true d.buf ending cursor limit = .ok (v', t, .ok g)) :
    d.buf = document v.toNat (attrBytes Z) (F.map denote) (footOf f) := by
  have hlen' : d.buf.length < 2 ^ 64 := by omega
  obtain ⟨p, q, G, h1, h2, -⟩ := C52_document Z hlen ht (2 * d.buf.length + 1 + (2 * F.count + 1)) (by omega)
  have hpf : ∀ n, parseFile Z checks (some fun _ _ _ => none) ending cursor limit false everything n d.buf =
      some (drive Z false everything n 0 [] (p.setHandler fun _ _ _ => none)) := by
    intro n
    simp only [parseFile, h1]
    rfl
  have key : ∀ x q', parseFile Z checks (some fun _ _ _ => none) ending cursor limit false everything (2 * F.count + 1) d.buf = some (x, q') →
      Ended [] x → x = .ok (events G.plain ++ [.fbx (.ok g)]) := by
    intro x q' hk hx
    rw [hpf] at hk
    have hk' := Option.some.inj hk
    have := drive_unique (Z := Z) (buffered := false) (plan := everything) (m := 2 * F.count + 1) (n := 2 * d.buf.length + 1 + (2 * F.count + 1)) (k := 0) (seen := [])
      (p := p.setHandler fun _ _ _ => none) (by rw [hk']; exact hx) (by rw [h2]; exact ⟨events G.plain, .ok g, rfl⟩)
    rw [hk', h2] at this
    exact (Prod.mk.inj this).1
  rcases C62_finalize Z hZ h hs hi hf d hd hlen' false checks (some fun _ _ _ => none) (by intro f hf; cases hf; intros; rfl) ending cursor limit hlim with
    k | ⟨e, q', k, -⟩ | ⟨e, q', k⟩
  · exact k
  · exact absurd (key _ _ k trivial) (by simp)
  · have := key _ _ k ⟨events (F.map denote), .error e, rfl⟩
    have := congrArg List.getLast? (Res.ok.inj this)
    simp at this

/-! ## Examples -/

/-- A document of one node. -/
def exCrashed : Forest Writer.Append := .cons "A" [.i32 5] .nil .nil
/-- An empty device that fails at operation `n` with `k` bytes of it stored. -/
def exFailing (n k : Nat) : Sink := ⟨[], 0, fun i => if i = n then some ⟨k, .other 0⟩ else none⟩
/-- The writer made on it. -/
def exBegun (s : Sink) : Writer := match Writer.new s 7400 with
  | (.ok w, _) => w
  | (_, s') => ⟨s', 7400, []⟩
/-- The node is written. -/
def exStored (s : Sink) : Writer := (Writer.run Zlib.stored (calls exCrashed) (exBegun s)).2

theorem exStored_wrote (n k : Nat) (h : (Writer.new (exFailing n k) 7400).1 matches .ok _ := by decide +kernel)
    (h' : (Writer.run Zlib.stored (calls exCrashed) (exBegun (exFailing n k))).1 = .ok () := by decide +kernel) :
    Wrote Zlib.stored (exFailing n k) 7400 exCrashed (exStored (exFailing n k)) := by
  refine ⟨exBegun (exFailing n k), (Writer.new (exFailing n k) 7400).2, ?_, pair_eq h'⟩
  unfold exBegun
  revert h
  rcases Writer.new (exFailing n k) 7400 with ⟨_ | _ | _, s'⟩ <;> simp

theorem exCrashed_intact : exCrashed.All (fun _ as => ∀ a ∈ as, intact a) := by simp [exCrashed, Forest.All, intact]
theorem indulgent_none : indulgent none := by intro f hf; cases hf

/-- The device fails at operation 29, in the middle of writing an attribute of a second node: the first node is safe. -/
example : ∃ q, parseFile Zlib.stored true none none 0 (2 ^ 64) false everything 2
      (goOn Zlib.stored (exStored (exFailing 29 1)) [.newNode "B", .append (.i64 1), .append (.i64 1)]).sink.buf =
    some (.ok [.start "A" 1 [some (.i32 5)], .end], q) :=
  C62_kept Zlib.stored Zlib.stored_lawful (exStored_wrote 29 1) exCrashed_intact _ _ (.inl rfl) (by decide +kernel) false true none indulgent_none none 0 (2 ^ 64)
    (by decide +kernel)
example : (Writer.run Zlib.stored [.newNode "B", .append (.i64 1), .append (.i64 1)] (exStored (exFailing 29 1))).1 = .err (.io (.other 0)) := by
  decide +kernel

/-- The same device, seen as one on which the second node is open. -/
example := C62_open Zlib.stored Zlib.stored_lawful (exStored_wrote 29 1) exCrashed_intact (name := "B") (by decide) (pair_eq (by decide +kernel))
  (more := [.append (.i64 1), .append (.i64 1)]) (fun i => by rcases i with _ | _ | i <;> simp [closes, opens]) _ (.inl rfl) (by decide +kernel) false true none
  indulgent_none none 0 (2 ^ 64) (by decide +kernel)
example := C62_open_tree Zlib.stored Zlib.stored_lawful (exStored_wrote 29 1) exCrashed_intact (name := "B") (by decide) (pair_eq (by decide +kernel))
  (more := [.append (.i64 1), .append (.i64 1)]) (fun i => by rcases i with _ | _ | i <;> simp [closes, opens]) _ (.inl rfl) (by decide +kernel) true
  none 0 (2 ^ 64) (by decide +kernel)

/-- It fails at operation 22, with two bytes of a field of the header of the second node stored. -/
example := C62_between Zlib.stored Zlib.stored_lawful (exStored_wrote 22 2) rfl exCrashed_intact _ (.inr ⟨"B", by decide, rfl⟩) (by decide +kernel) false true none
  indulgent_none none 0 (2 ^ 64) (by decide +kernel)
example : (Writer.newNode "B" (exStored (exFailing 22 2))).1 = .err (.io (.other 0)) ∧
    (Writer.newNode "B" (exStored (exFailing 22 2))).2.sink.buf.length = (exStored (exFailing 22 2)).sink.buf.length + 6 := by decide +kernel
example := C62_between_tree Zlib.stored Zlib.stored_lawful (exStored_wrote 22 2) rfl exCrashed_intact _ (.inr ⟨"B", by decide, rfl⟩) (by decide +kernel) true
  none 0 (2 ^ 64) (by decide +kernel)

/-- It fails at operation 26, in `finalize`, with one byte of the padding stored: the third possibility. -/
example := C62_finalize Zlib.stored Zlib.stored_lawful (exStored_wrote 26 1) rfl exCrashed_intact (f := exFooter)
  ⟨by simp [exFooter], by simp [exFooter], by simp [exFooter]⟩ _ rfl (by decide +kernel) false true none indulgent_none none 0 (2 ^ 64) (by decide +kernel)
example : (Writer.finalize exFooter (exStored (exFailing 26 1))).1 = .err (.io (.other 0)) ∧
    ending? (anyTree Zlib.stored true true (Writer.finalize exFooter (exStored (exFailing 26 1))).2.sink.buf none 0 (2 ^ 64)) = .ok 7400 := by decide +kernel

/-- A tree and a proper footer. -/
def exSound : Res AnyTreeError (FbxVersion × Tree × Except PErr Footer) → Bool
  | .ok (_, _, .ok _) => true
  | _ => false

/-- It fails after the last byte of the footer: the document is complete. -/
example : ∃ v' t g, anyTree Zlib.stored true true (Writer.finalize exFooter (exStored (exFailing 30 16))).2.sink.buf none 0 (2 ^ 64) = .ok (v', t, .ok g) ∧
    (Writer.finalize exFooter (exStored (exFailing 30 16))).1 = .err (.io (.other 0)) := by
  have h : exSound (anyTree Zlib.stored true true (Writer.finalize exFooter (exStored (exFailing 30 16))).2.sink.buf none 0 (2 ^ 64)) = true := by
    decide +kernel
  have h' : (Writer.finalize exFooter (exStored (exFailing 30 16))).1 = .err (.io (.other 0)) := by decide +kernel
  generalize anyTree Zlib.stored true true (Writer.finalize exFooter (exStored (exFailing 30 16))).2.sink.buf none 0 (2 ^ 64) = x at h ⊢
  rcases x with ⟨v, t, _ | g⟩ | _ | _
  · cases h
  · exact ⟨v, t, g, rfl, h'⟩
  · cases h
  · cases h

/-- It fails in the signature. -/
example := C62_new Zlib.stored Zlib.stored_lawful (exFailing 1 5) rfl 7400 _ rfl false true none indulgent_none none 0 (2 ^ 64) (by decide +kernel) 0
example : ((Writer.new (exFailing 1 5) 7400).2.buf) = signature.take 5 := by decide +kernel

/-- The defect: a second node without a name is open, with an attribute; the device fails while its child is started. A tree
is loaded nevertheless, and nothing but the missing footer shows that something is lost. -/
example := C62_open_nameless Zlib.stored Zlib.stored_lawful (exStored_wrote 29 1) exCrashed_intact (pair_eq (by decide +kernel))
  (more := [.append (.i64 1), .append (.i64 1)]) (fun i => by rcases i with _ | _ | i <;> simp [closes, opens]) _ (.inl rfl) (by decide +kernel) false true none
  indulgent_none none 0 (2 ^ 64) (by decide +kernel)
example : ending? (anyTree Zlib.stored true true (Writer.run Zlib.stored [.newNode "", .append (.i64 1), .append (.i64 1)] (exStored (exFailing 29 1))).2.sink.buf
    none 0 (2 ^ 64)) = .ok 7400 := by decide +kernel

end Fbx
