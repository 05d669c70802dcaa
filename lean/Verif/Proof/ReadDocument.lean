import Verif.Proof.ReadFooter
import Verif.Proof.Handler
import Verif.Model.Loaders
import Verif.Props.Low
import Verif.Props.WriterLayout

/-! # The parser on complete documents -/

namespace Fbx
open Spec Reader
open Writer (le_eq)

namespace Parser

/-- Two parsers about to read a footer that begins with the same bytes. -/
def Alike (A : Bytes) (p q : Parser) : Prop :=
  (tolerant p ∧ tolerant q ∨ q.handler = p.handler ∧ q.log = p.log) ∧ q.version = p.version ∧
  p.reader.position + A.length < 2 ^ 64 ∧
  ∃ t1 t2 sk, p.reader.rest = A ++ t1 ∧ q.reader = ⟨A ++ t2, p.reader.ending, p.reader.cursor, p.reader.position, sk, p.reader.seekLimit⟩

theorem warn_eq (w : Warning) (pos : SynPos) (p : Parser) :
    warn w pos p = ((match p.handler with
      | none => .ok ()
      | some h => match h p.log w pos with
        | none => .ok ()
        | some e => .err (e.andPosition pos)), { p with log := (w, pos) :: p.log }) := by
  obtain ⟨a, b, c, d, e, f, handler, l, k⟩ := p
  cases handler with
  | none => rfl
  | some h =>
    simp only [warn]
    cases h l w pos <;> rfl

theorem warnIf_alike {A : Bytes} {p q : Parser} (h : Alike A p q) (c : Bool) (w : Warning) (pos : SynPos) :
    Agree (Alike A) (warnIf c w pos p) (warnIf c w pos q) := by
  rcases h with ⟨⟨h1, h2⟩ | ⟨h1, h2⟩, h3⟩
  · rw [warnIf_tolerant h1, warnIf_tolerant h2]
    exact ⟨rfl, .inl ⟨h1, h2⟩, h3⟩
  · cases c
    · exact ⟨rfl, .inr ⟨h1, h2⟩, h3⟩
    · simp only [warnIf, if_true]
      rw [warn_eq, warn_eq, Agree]
      simp only [h1, h2]
      exact ⟨trivial, .inr ⟨rfl, rfl⟩, h3⟩

theorem io_alike {A : Bytes} {p q : Parser} (h : Alike A p q) (n : Nat) (hn : n ≤ A.length) :
    ∃ p' q', io (readExact n) p = (.ok (A.take n), p') ∧ io (readExact n) q = (.ok (A.take n), q') ∧ Alike (A.drop n) p' q' ∧
      p'.reader.position = p.reader.position + n ∧ p'.version = p.version := by
  obtain ⟨h1, h3, hlt, t1, t2, sk, h4, h5⟩ := h
  refine ⟨p.withReader (p.reader.consume n), q.withReader (q.reader.consume n), ?_, ?_, ⟨h1, h3, ?_, t1, t2, sk, ?_, ?_⟩, rfl, rfl⟩
  · refine (io_ok_iff _ _ _ _).mpr ⟨_, (readExact_ok_iff _ _ _ _).mpr ⟨?_, ?_, ?_, rfl⟩, rfl⟩
    · simp [h4]; omega
    · omega
    · simp [h4, List.take_append_of_le_length hn]
  · refine (io_ok_iff _ _ _ _).mpr ⟨_, (readExact_ok_iff _ _ _ _).mpr ⟨?_, ?_, ?_, rfl⟩, rfl⟩
    · simp [h5]; omega
    · rw [h5]; simp only; omega
    · simp [h5, List.take_append_of_le_length hn]
  · simp [withReader, consume]; omega
  · simp [withReader, consume, h4, List.drop_append_of_le_length hn]
  · simp [withReader, consume, h5, List.drop_append_of_le_length hn]

theorem le_le32 (n : Nat) (h : n < 2 ^ 32) : ∃ a b c d, le 4 n = [a, b, c, d] ∧ le32 a b c d = n := by
  obtain ⟨a, b, c, d, h4⟩ := list4 (l := le 4 n) (by rw [le_eq]; simp)
  refine ⟨a, b, c, d, h4, ?_⟩
  rw [← fromLe4, ← h4, le_eq, fromLe_leBytes (by exact h)]

/-- The version field is where it should be. -/
theorem version_place (n i v : Nat) (u2 X : Bytes) (hi : i ≤ 15) (h2 : u2.length = 4) (hv0 : v ≠ 0) (hv : v < 2 ^ 32)
    (h : fromLe (((List.replicate n (0 : UInt8) ++ u2 ++ le 4 v ++ List.replicate 120 0 ++ X).drop (i + 4)).take 4) = v) : i ≤ n := by
  apply Classical.byContradiction
  intro hlt
  obtain ⟨d, rfl⟩ : ∃ d, i = n + (d + 1) := ⟨i - n - 1, by omega⟩
  obtain ⟨a, b, c, e, h4, h32⟩ := le_le32 v hv
  have hz : ∀ k, k + 4 ≤ 120 → (((List.replicate 120 (0 : UInt8) ++ X).drop k).take 4) = [0, 0, 0, 0] := by
    intro k hk
    rw [List.drop_append_of_le_length (by simp; omega), List.take_append_of_le_length (by simp; omega), List.drop_replicate, List.take_replicate]
    rw [show min 4 (120 - k) = 4 by omega]; rfl
  have hz3 : ∀ j, j ≤ 4 → (List.replicate 120 (0 : UInt8) ++ X).take j = List.replicate j 0 := by
    intro k hk
    rw [List.take_append_of_le_length (by simp; omega), List.take_replicate, show min k 120 = k by omega]
  have hd : (List.replicate n (0 : UInt8) ++ u2 ++ le 4 v ++ List.replicate 120 0 ++ X).drop (n + (d + 1) + 4) =
      (a :: b :: c :: e :: (List.replicate 120 (0 : UInt8) ++ X)).drop (d + 1) := by
    rw [h4, show n + (d + 1) + 4 = n + 4 + (d + 1) by omega, ← List.drop_drop]
    congr 1
    simp only [List.append_assoc]
    rw [← List.append_assoc]
    rw [List.drop_left' (by simp [h2])]
    rfl
  rw [hd] at h
  have hb := b.toNat_lt
  have hc := c.toNat_lt
  have he := e.toNat_lt
  match d with
  | 0 =>
    simp only [List.drop_succ_cons, List.drop_zero, List.take_succ_cons, hz3 1 (by omega)] at h
    simp only [List.replicate, fromLe4, le32] at h h32
    simp at h
    omega
  | 1 =>
    simp only [List.drop_succ_cons, List.drop_zero, List.take_succ_cons, hz3 2 (by omega)] at h
    simp only [List.replicate, fromLe4, le32] at h h32
    simp at h
    omega
  | 2 =>
    simp only [List.drop_succ_cons, List.drop_zero, List.take_succ_cons, hz3 3 (by omega)] at h
    simp only [List.replicate, fromLe4, le32] at h h32
    simp at h
    omega
  | k + 3 =>
    simp only [List.drop_succ_cons, hz k (by omega)] at h
    exact hv0 h.symm

theorem bind_fst {ε σ τ α β : Type} {m : M ε σ α} {m' : M ε τ α} {f : α → M ε σ β} {f' : α → M ε τ β} {s : σ} {s' : τ} {R : σ → τ → Prop}
    (h : Agree R (m s) (m' s')) (hf : ∀ a t t', R t t' → m s = (.ok a, t) → (f a t).1 = (f' a t').1) : ((m >>= f) s).1 = ((m' >>= f') s').1 := by
  rw [M.bind_apply, M.bind_apply]
  obtain ⟨h1, h2⟩ := h
  rcases hm : m s with ⟨r, t⟩
  rcases hm' : m' s' with ⟨r', t'⟩
  rw [hm, hm'] at h1 h2
  simp only at h1 h2
  subst h1
  cases r with
  | ok a => exact hf a t t' h2 hm
  | err e => rfl
  | panic p => rfl

theorem ite_fst {ε σ τ α : Type} {c c' : Prop} [Decidable c] [Decidable c'] {m n : M ε σ α} {m' n' : M ε τ α} {s : σ} {s' : τ} (hc : c ↔ c') (h1 : c → (m s).1 = (m' s').1)
    (h2 : ¬ c → (n s).1 = (n' s').1) : ((if c then m else n) s).1 = ((if c' then m' else n') s').1 := by
  by_cases h : c
  · rw [if_pos h, if_pos (hc.mp h)]; exact h1 h
  · rw [if_neg h, if_neg (fun g => h (hc.mpr g))]; exact h2 h

theorem readFooter_alike {p q : Parser} {ft : Foot} (h1 : ft.unknown1.length = 16) (h2 : ft.unknown2.length = 4) (h3 : ft.unknown3.length = 16)
    (h : Alike (footer p.version.toNat ft p.reader.position) p q) (hv : p.version ≠ 0) :
    (readFooter p).1 = (readFooter q).1 := by
  generalize hA : footer p.version.toNat ft p.reader.position = A at h
  have hlen : A.length = 160 + padLen ft p.reader.position := by rw [← hA]; simp [footer, le_eq, h1, h2, h3]; omega
  have hpos : q.reader.position = p.reader.position := by obtain ⟨-, -, -, t1, t2, sk, -, h5⟩ := h; rw [h5]
  obtain ⟨p1, q1, e1, e2, h, ep1, ev1⟩ := io_alike h 16 (by omega)
  rw [readFooter, M.get_bind, M.get_bind]
  rw [M.bind_val e1, M.bind_val e2, M.get_bind, M.get_bind]
  have hpos1 : q1.reader.position = p1.reader.position := by obtain ⟨-, -, -, t1, t2, sk, -, h5⟩ := h; rw [h5]
  rw [hpos, hpos1]
  refine bind_fst (warnIf_alike h _ _ _) fun _ p2 q2 h hw => ?_
  have ev2 : p2.version = p.version := by rw [← ev1, warnIf_ok hw]
  obtain ⟨p3, q3, e1, e2, h, ep3, ev3⟩ := io_alike h 144 (by simp; omega)
  have ev4 : p3.version = p.version := ev3.trans ev2
  rw [M.bind_val e1, M.bind_val e2]
  generalize hB : List.take 144 (List.drop 16 A) = buf
  cases hi : (buf.drop 128).findIdx? (fun x => decide (x ≠ 0)) with
  | none => rfl
  | some i =>
    have hbl : buf.length = 144 := by rw [← hB]; simp; omega
    have hi16 : i < 16 := by
      have := (List.findIdx?_eq_some_iff_getElem.mp hi).1
      rw [List.length_drop] at this
      omega
    have hpl : (128 + i) % 16 = i := by omega
    have ha : ∀ (s : Parser), M.assert (ε := PErr) (decide ((128 + i) % 16 < 16)) .footerAssert s = (.ok (), s) := by
      intro s; rw [decide_eq_true (by omega)]; rfl
    have hb : ∀ (s : Parser), M.assert (ε := PErr) (decide (128 + i = (128 + i) % 16 + 128)) .footerAssert s = (.ok (), s) := by
      intro s; rw [decide_eq_true (by omega)]; rfl
    simp only
    rw [M.bind_val (ha _), M.bind_val (ha _), M.bind_val (hb _), M.bind_val (hb _)]
    rw [hpl]
    refine ite_fst .rfl (fun _ => rfl) fun c1 => ?_
    refine ite_fst .rfl (fun _ => rfl) fun c2 => ?_
    rw [M.get_bind, M.get_bind, h.2.1]
    refine ite_fst .rfl (fun _ => rfl) fun c3 => ?_
    refine ite_fst .rfl (fun _ => rfl) fun c4 => ?_
    have hin : i ≤ padLen ft p.reader.position := by
      have c3 := Classical.not_not.mp c3
      have hv1 : p.version.toNat ≠ 0 := fun h0 => hv (UInt32.toNat_inj.mp h0)
      refine version_place (padLen ft p.reader.position) i p.version.toNat ft.unknown2 ft.unknown3 (by omega) h2 hv1 p.version.toNat_lt ?_
      rw [← hB, List.drop_take, List.take_take, show min 4 (144 - (i + 4)) = 4 by omega, ← hA] at c3
      simp only [footer, List.append_assoc] at c3 ⊢
      rw [List.drop_left' h1, ev4] at c3
      have c3 := congrArg UInt32.toNat c3
      rw [UInt32.toNat_ofNat', Nat.mod_eq_of_lt] at c3
      · exact c3
      refine Nat.lt_of_lt_of_le (fromLe_lt _) (Nat.pow_le_pow_right (n := 256) (j := 4) (by omega) (List.length_take_le _ _))
    obtain ⟨p5, q5, e1, e2, h, ep5, ev5⟩ := io_alike h (16 - (buf.drop (i + 128)).length) (by simp [hbl]; omega)
    rw [M.bind_val e1, M.bind_val e2]
    refine ite_fst .rfl (fun _ => rfl) fun c5 => ?_
    exact bind_fst (warnIf_alike h _ _ _) fun _ p2 q2 h hw => rfl

/-- A parser that was just created. -/
def fresh (v : FbxVersion) (r : Reader) (checks : Bool) (h : Option Handler) : Parser :=
  { version := v, health := .running, started := [], last := none, toplevel := 0, reader := r, handler := h, log := [], checks }

theorem open_ok (checks : Bool) (v : FbxVersion) (hv : supported v.toNat) (t : Bytes) (ending : Option IoErr) (cursor limit : Nat)
    (hlen : 27 + t.length < 2 ^ 64) (seekable : Bool) :
    anyParser checks seekable (signature ++ le 4 v.toNat ++ t) ending cursor limit =
      .ok (fresh v ⟨t, ending, cursor + 27, 27, seekable, limit⟩ checks none) := by
  obtain ⟨a, b, c, d, h4, h32⟩ := le_le32 v.toNat (UInt32.toNat_lt v)
  have hs : signature.length = 23 := by decide
  have := (C01_header_ok_iff ⟨signature ++ le 4 v.toNat ++ t, ending, cursor, 0, seekable, limit⟩
    (by simp [le_eq, hs]; omega) v ⟨t, ending, cursor + 27, 27, seekable, limit⟩).mpr
      ⟨a, b, c, d, t, by simp only [h4], h32.symm, rfl⟩
  simp only [anyParser, this, (fromFbxVersion_iff v).mpr hv, Parser.create, ne_eq, not_true_eq_false, if_false]
  rfl

/-- The client on a complete document, up to the footer (for any attributes that can be loaded). -/
theorem parse_nodes {Z : Zlib} {α β : Type} (enc : β → Bytes) (view : β → DAttr) (fits : β → Prop) (henc : ∀ b, enc b ≠ []) (seek buffered : Bool) (plan : Nat → String → Nat → List (Loader α))
    (checks : Bool) (h : Option Handler) (ending : Option IoErr) (cursor limit : Nat) (v : FbxVersion) (F : Forest β) (bs : Bytes)
    (hv : supported v.toNat) (hfit : forestFits v.toNat enc fits F 27) (hplan : planOk buffered plan (F.map view) 0)
    (hdrain : seek = true ∨ planDrains buffered plan (F.map view) 0)
    (hload : F.All (fun _ as => Loads Z α seek buffered enc view as))
    (hlen : (body v.toNat enc F ++ bs).length < 2 ^ 64)
    (hlim : seek = true → cursor + (body v.toNat enc F ++ bs).length ≤ limit)
    (hnames : F.All (fun name _ => name ≠ "") ∨ indulgent h) :
    ∃ P : Parser,
      P.reader = ⟨bs, ending, cursor + (body v.toNat enc F).length,
        (body v.toNat enc F).length, seek, limit⟩ ∧ P.version = v ∧ P.handler = h ∧ Fine P.reader ∧
      (∀ e ∈ P.log, e.1 = .emptyNodeName) ∧ P.log.length = emptyNames F ∧
      parseSource seek Z checks h ending cursor limit buffered plan (2 * F.count + 1) (body v.toNat enc F ++ bs) =
        some (.ok (expected buffered plan (F.map view) 0 ++ [.fbx (footerResult (readFooter P).1)]), (readFooter P).2) := by
  generalize hn : nodes v.toNat enc F 27 = N
  have hs : signature.length = 23 := by decide
  have hbl : (body v.toNat enc F).length = 27 + N.length + headerSize v.toNat := by
    simp [body, hn, hs, le_eq, marker]; omega
  have hdoc : body v.toNat enc F ++ bs = signature ++ le 4 v.toNat ++ (N ++ (marker v.toNat ++ (bs))) := by
    simp only [body, hn, List.append_assoc]
  rw [hdoc] at hlen hlim ⊢
  have hlen' : 27 + (N ++ (marker v.toNat ++ (bs))).length < 2 ^ 64 := by
    simp only [List.length_append, hs, le_eq, leBytes_length] at hlen ⊢; omega
  have hlim' : seek = true → cursor + 27 + (N ++ (marker v.toNat ++ (bs))).length ≤ limit := by
    intro hsk
    have hlim := hlim hsk
    simp only [List.length_append, hs, le_eq, leBytes_length] at hlim ⊢; omega
  obtain ⟨p, hp⟩ : ∃ p, p = fresh v ⟨N ++ (marker v.toNat ++ (bs)), ending, cursor + 27, 27, seek, limit⟩ checks h := ⟨_, rfl⟩
  have hpe : p.pending = 0 := by rw [hp]; rfl
  have hr : Ready p 27 (nodes v.toNat enc F 27 ++ (marker v.toNat ++ (bs))) := by
    rw [hn]
    refine ⟨by rw [hp]; rfl, by rw [hp]; simp [fresh], ?_, by rw [hp]; simp [fresh], by rw [hpe, hp]; rfl, by rw [hpe]; simp, by rw [hpe, hp]; rfl, .inr hpe⟩
    rw [hp]
    exact ⟨hlen', hlim'⟩
  obtain ⟨q, hdr, hsame, hrq, hst, hla, new, hl1, hl2, hl3⟩ := drive_nodes (Z := Z) seek buffered plan v.toNat enc view fits henc F 27 0 p (marker v.toNat ++ (bs)) 1 []
    (by rw [hp]; rfl) (by rw [hp]; rfl) hr (by rw [hp]; simp [fresh]) (hnames.imp id (fun hh f hf => hh f (by rw [hp] at hf; exact hf))) hfit hplan hdrain hload
  have hqv : q.version = v := by rw [hsame.version, hp]; rfl
  have hqs : q.started = [] := by rw [hst, hp]; rfl
  obtain ⟨P, hP, hP1, hP2, hP3, hev⟩ := fbx_event (p := q) (by rw [hqv]; exact hrq) hqs
  have hPr : P.reader = ⟨bs, ending, cursor + (body v.toNat enc F).length, (body v.toNat enc F).length, seek, limit⟩ := by
    obtain ⟨a, b, c, d⟩ := hsame.dev.trans (SameDev.consume q.reader (headerSize q.version.toNat))
    have e : P.reader = q.reader.consume (headerSize q.version.toNat) := by rw [hP]
    rw [← e] at a b c d
    have hp1 : p.reader.position = 27 := by rw [hp]; rfl
    have hp2 : p.reader.cursor = cursor + 27 := by rw [hp]; rfl
    have hp3 : p.reader.ending = ending ∧ p.reader.seekable = seek ∧ p.reader.seekLimit = limit := by rw [hp]; exact ⟨rfl, rfl, rfl⟩
    rw [hn, hqv] at hP2
    generalize P.reader = R at *
    obtain ⟨r1, r2, r3, r4, r5, r6⟩ := R
    simp only at a b c d hP1 hP2
    simp only [Reader.mk.injEq]
    refine ⟨hP1, a.trans hp3.1, by omega, by omega, b.trans hp3.2.1, c.trans hp3.2.2⟩
  refine ⟨P, hPr, ?_, ?_, hP3, ?_, ?_, ?_⟩
  · rw [hP]; exact hqv
  · rw [hP]; simp only [hsame.handler, hp, fresh]
  · rw [hP]; simp only [hl1, hp, fresh, List.append_nil]; exact hl2
  · rw [hP]; simp only [hl1, hp, fresh, List.append_nil]; exact hl3
  · simp only [parseSource]
    rw [open_ok checks v hv _ ending cursor limit hlen' seek]
    simp only
    have hp' : { fresh v ⟨N ++ (marker v.toNat ++ (bs)), ending, cursor + 27, 27, seek, limit⟩ checks none with handler := h } = p := by
      rw [hp]; rfl
    rw [hp']
    congr 1
    have : eventCount F + 1 = 2 * F.count + 1 := rfl
    rw [← this, hdr, drive]
    refine (M.bind_val hev _).trans ?_
    simp

/-- The client on a complete document, up to the footer. -/
theorem parse_body {Z : Zlib} (hZ : Z.Lawful) {α : Type} (buffered : Bool) (plan : Nat → String → Nat → List (Loader α))
    (checks : Bool) (h : Option Handler) (ending : Option IoErr) (cursor limit : Nat) (v : FbxVersion) (F : Forest DAttr) (bs : Bytes)
    (hv : supported v.toNat) (hfit : forestFits v.toNat (attrBytes Z) (attrFits Z) F 27) (hplan : planOk buffered plan F 0)
    (hlen : (body v.toNat (attrBytes Z) F ++ bs).length < 2 ^ 64)
    (hlim : cursor + (body v.toNat (attrBytes Z) F ++ bs).length ≤ limit)
    (hnames : F.All (fun name _ => name ≠ "") ∨ indulgent h) :
    ∃ P : Parser,
      P.reader = ⟨bs, ending, cursor + (body v.toNat (attrBytes Z) F).length,
        (body v.toNat (attrBytes Z) F).length, true, limit⟩ ∧ P.version = v ∧ P.handler = h ∧ Fine P.reader ∧
      (∀ e ∈ P.log, e.1 = .emptyNodeName) ∧ P.log.length = emptyNames F ∧
      parseFile Z checks h ending cursor limit buffered plan (2 * F.count + 1) (body v.toNat (attrBytes Z) F ++ bs) =
        some (.ok (expected buffered plan F 0 ++ [.fbx (footerResult (readFooter P).1)]), (readFooter P).2) := by
  have := parse_nodes (Z := Z) (attrBytes Z) id (attrFits Z) (fun d => by simp [attrBytes]) true buffered plan checks h ending cursor limit v F bs hv hfit
    (by rw [Forest.map_id]; exact hplan) (.inl rfl) (loads_all hZ true buffered v.toNat F 27 hfit) hlen (fun _ => hlim) hnames
  rwa [Forest.map_id] at this

/-- The same for a source that cannot seek and a client that reads every attribute to its end. -/
theorem parse_plain {Z : Zlib} (hZ : Z.Lawful) {α : Type} (buffered : Bool) (plan : Nat → String → Nat → List (Loader α))
    (checks : Bool) (h : Option Handler) (ending : Option IoErr) (cursor limit : Nat) (v : FbxVersion) (F : Forest DAttr) (bs : Bytes)
    (hv : supported v.toNat) (hfit : forestFits v.toNat (attrBytes Z) (attrFits Z) F 27) (hplan : planOk buffered plan F 0)
    (hdrain : planDrains buffered plan F 0)
    (hlen : (body v.toNat (attrBytes Z) F ++ bs).length < 2 ^ 64)
    (hnames : F.All (fun name _ => name ≠ "") ∨ indulgent h) :
    ∃ P : Parser,
      P.reader = ⟨bs, ending, cursor + (body v.toNat (attrBytes Z) F).length,
        (body v.toNat (attrBytes Z) F).length, false, limit⟩ ∧ P.version = v ∧ P.handler = h ∧ Fine P.reader ∧
      (∀ e ∈ P.log, e.1 = .emptyNodeName) ∧ P.log.length = emptyNames F ∧
      parseSource false Z checks h ending cursor limit buffered plan (2 * F.count + 1) (body v.toNat (attrBytes Z) F ++ bs) =
        some (.ok (expected buffered plan F 0 ++ [.fbx (footerResult (readFooter P).1)]), (readFooter P).2) := by
  have := parse_nodes (Z := Z) (attrBytes Z) id (attrFits Z) (fun d => by simp [attrBytes]) false buffered plan checks h ending cursor limit v F bs hv hfit
    (by rw [Forest.map_id]; exact hplan) (.inr (by rw [Forest.map_id]; exact hdrain)) (loads_all hZ false buffered v.toNat F 27 hfit) hlen
    (fun h => nomatch h) hnames
  rwa [Forest.map_id] at this

/-! ## Loaders that come with the crate -/

theorem feed_collect {e α : Type} (fin : List e → α) : ∀ (xs : List e) (acc : List e),
    feedSeq (collectSeq fin (xs.length + 1) acc) xs = .ok (fin (acc.reverse ++ xs)) := by
  intro xs
  induction xs with
  | nil => intro acc; simp [collectSeq, feedSeq]
  | cons x xs ih =>
    intro acc
    simp only [List.length_cons]
    rw [collectSeq, feedSeq]
    simp only
    rw [ih]
    simp

theorem feed_readToEnd {α : Type} (fin : Bytes → Except PErr α) (bs : Bytes) :
    feedBytes (readToEnd bs.length fin (bs.length + 1) []) bs = fin bs := by
  cases bs with
  | nil => simp [readToEnd, feedBytes]
  | cons b bs =>
    simp only [List.length_cons]
    rw [readToEnd, feedBytes]
    simp only [List.take_succ_cons, List.take_length, List.drop_succ_cons, List.drop_length]
    cases bs with
    | nil => simp [readToEnd, feedBytes]
    | cons => simp [readToEnd, feedBytes]

theorem present_direct (b : Bool) (v : AttrValue) : present b directLoader v = .ok v := by
  cases v <;> simp only [present, directLoader, feed_collect, List.reverse_nil, List.nil_append, readBinary, readString, ite_self]
  · rw [feed_readToEnd, show stringOfUtf8 (utf8 _) = some _ from stringOfUtf8_strBytes _]
  · rw [feed_readToEnd]

theorem presentAll_direct (b : Bool) (vs : List AttrValue) :
    presentAll b (List.replicate vs.length directLoader) vs = some (vs.map some) := by
  induction vs with
  | nil => rfl
  | cons v vs ih => simp [List.replicate_succ, presentAll, present_direct, ih]

theorem everything_all (b : Bool) (attrs : List DAttr) (k : Nat) (name : String) :
    presentAll b (everything k name attrs.length) (attrs.map DAttr.value) = some (attrs.map (fun a => some a.value)) := by
  have := presentAll_direct b (attrs.map DAttr.value)
  simpa [everything, Function.comp_def] using this

theorem everything_ok (b : Bool) (F : Forest DAttr) : ∀ k, planOk b everything F k := by
  induction F with
  | nil => intro k; trivial
  | cons name attrs ch r ih1 ih2 => intro k; exact ⟨by rw [everything_all]; rfl, ih1 _, ih2 _⟩

theorem everything_expected (b : Bool) (F : Forest DAttr) : ∀ k, expected b everything F k = events F := by
  induction F with
  | nil => intro k; rfl
  | cons name attrs ch r ih1 ih2 => intro k; simp only [expected, events, everything_all, ih1, ih2, Option.getD_some]

/-- A plan does not change the events. -/
theorem expected_bare {α : Type} (b : Bool) (plan : Nat → String → Nat → List (Loader α)) (F : Forest DAttr) :
    ∀ k, (expected b plan F k).map Obs.bare = (events F).map Obs.bare := by
  induction F with
  | nil => intro k; rfl
  | cons name attrs ch r ih1 ih2 => intro k; simp [expected, events, ih1, ih2, Obs.bare]

/-! ## Documents left by the writer -/

theorem nodes_map {α β : Type} (v : Nat) (g : α → β) (e : β → Bytes) (F : Forest α) :
    ∀ off, nodes v (fun a => e (g a)) F off = nodes v e (F.map g) off := by
  induction F with
  | nil => intro off; rfl
  | cons name attrs ch r ih1 ih2 =>
    intro off
    have hm : needsMarker (attrs.map g) (ch.map g) = needsMarker attrs ch := by
      cases attrs <;> cases ch <;> rfl
    simp only [nodes, Forest.map, ih1, ih2, List.flatMap_map, hm, List.length_map]

theorem forestFits_map {α β : Type} (v : Nat) (g : α → β) (e : β → Bytes) (fits : α → Prop) (fits' : β → Prop)
    (hf : ∀ a, fits a → fits' (g a)) (F : Forest α) :
    ∀ off, forestFits v (fun a => e (g a)) fits F off → forestFits v e fits' (F.map g) off := by
  induction F with
  | nil => intro off _; trivial
  | cons name attrs ch r ih1 ih2 =>
    intro off
    have hm : needsMarker (attrs.map g) (ch.map g) = needsMarker attrs ch := by
      cases attrs <;> cases ch <;> rfl
    simp only [forestFits, Forest.map, nodes_map, List.flatMap_map, hm, List.length_map]
    rintro ⟨h1, h2, h3, h4, h5, h6⟩
    refine ⟨h1, ?_, h3, h4, ih1 _ h5, ih2 _ h6⟩
    intro a ha
    obtain ⟨b, hb, rfl⟩ := List.mem_map.mp ha
    exact hf b (h2 b hb)

theorem document_map {α β : Type} (v : Nat) (g : α → β) (e : β → Bytes) (F : Forest α) (ft : Foot) :
    document v (fun a => e (g a)) F ft = document v e (F.map g) ft := by
  simp only [document, body, nodes_map]

/-- What the writer leaves, in terms of attributes. -/
theorem session_document (Z : Zlib) (s s' : Sink) (v : FbxVersion) (ops : List Writer.Op) (f : Writer.FooterSpec)
    (hl : Writer.legal false ops = true) (h : Writer.session Z s v ops f = (.ok (), s')) :
    ∃ F, ops = calls F ∧ supported v.toNat ∧
      (F.All (fun _ as => ∀ a ∈ as, intact a) →
        forestFits v.toNat (attrBytes Z) (attrFits Z) (F.map denote) 27 ∧
        ∃ t, s'.buf = document v.toNat (attrBytes Z) (F.map denote) (footOf f) ++ t) := by
  obtain ⟨F, h1, h2, h3, -, h4, -⟩ := session_layout Z s s' v ops f hl h
  refine ⟨F, h1, h2, fun hi => ?_⟩
  have hia := Writer.intact_all Z F hi
  refine ⟨?_, s.buf.drop (document v.toNat (Writer.produced Z) F (footOf f)).length, ?_⟩
  · refine forestFits_map v.toNat denote (attrBytes Z) (callFits Z) (attrFits Z) (fun a h => h.2) F 27 ?_
    exact (Writer.forestFits_congr v.toNat _ _ (callFits Z) F 27 hia).mp h3
  · rw [h4]
    congr 1
    rw [Writer.document_congr v.toNat _ _ F (footOf f) hia]
    exact document_map v.toNat denote (attrBytes Z) F (footOf f)

theorem count_map {α β : Type} (g : α → β) (F : Forest α) : (F.map g).count = F.count := by
  induction F with
  | nil => rfl
  | cons n as ch r ih1 ih2 => simp only [Forest.map, Forest.count, ih1, ih2]

theorem all_map {α β : Type} (g : α → β) (F : Forest α) (P : String → Prop) : (F.map g).All (fun n _ => P n) ↔ F.All (fun n _ => P n) := by
  induction F with
  | nil => rfl
  | cons n as ch r ih1 ih2 => simp only [Forest.map, Forest.All, ih1, ih2]

theorem emptyNames_map {α β : Type} (g : α → β) (F : Forest α) : emptyNames (F.map g) = emptyNames F := by
  induction F with
  | nil => rfl
  | cons n as ch r ih1 ih2 => simp only [Forest.map, emptyNames, ih1, ih2]

end Parser
end Fbx
