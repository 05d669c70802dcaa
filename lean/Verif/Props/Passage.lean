import Verif.Props.Relay
import Verif.Props.PlainSources
import Verif.Proof.DriveRuns
import Verif.Spec.Passage

/-! # C97: a document, event by event, from one stream to another -/

namespace Fbx
open Spec
variable {ρ δ α : Type} {S : Source ρ} {J : ρ → Prop} {tape : ρ → Tape}
variable {D : Dest δ} {I : δ → Prop} {P : Fault → Prop} {content : δ → Bytes} {cursor : δ → Nat} {Z : Zlib}

/-- What happens in a history is observed. -/
theorem observe_runs : ∀ (h : History α) {s t : Client}, Runs Z s h t → h.calm → observe Z s (h.map (·.1)) = (h.map (·.2), t) := by
  intro h
  induction h with
  | nil => intro s t hr _; rw [hr.nil_eq]; rfl
  | cons x h ih =>
    obtain ⟨c, o⟩ := x
    intro s t hr hc
    obtain ⟨u, h1, h2⟩ := hr.uncons
    have := ih h2 (fun c x hx => hc c x (List.mem_cons_of_mem _ hx))
    simp only [List.map_cons, observe, h1]
    cases o with
    | panic x => exact absurd List.mem_cons_self (hc c x)
    | _ => simp only [this]

theorem loadCalls_everything (b : Bool) : ∀ (as : List DAttr),
    (loadCalls b (List.replicate as.length directLoader) (as.map fun a => some a.value)).map (·.1) =
      (as.map fun _ => WCall.load b Device.direct).map WCall.call ∧
    (loadCalls b (List.replicate as.length directLoader) (as.map fun a => some a.value)).map (·.2) = as.map fun a => .value a.value
  | [] => ⟨rfl, rfl⟩
  | a :: as => by
    obtain ⟨h1, h2⟩ := loadCalls_everything b as
    simp only [List.length_cons, List.replicate_succ, List.map_cons, loadCalls, h1, h2]
    exact ⟨rfl, trivial⟩

theorem hist_everything (b : Bool) : ∀ (F : Forest DAttr) (k : Nat) (os : List (Obs AttrValue)), ∃ k',
    (hist b everything k (events F ++ os)).map (·.1) = (perusal b F).map WCall.call ++ (hist b everything k' os).map (·.1) ∧
    (hist b everything k (events F ++ os)).map (·.2) = told F ++ (hist b everything k' os).map (·.2) := by
  intro F
  induction F with
  | nil => intro k os; exact ⟨k, rfl, rfl⟩
  | cons name attrs children rest ih1 ih2 =>
    intro k os
    obtain ⟨k1, h1, h2⟩ := ih1 (k + 1) (.end :: (events rest ++ os))
    obtain ⟨k2, h3, h4⟩ := ih2 k1 os
    obtain ⟨h5, h6⟩ := loadCalls_everything b attrs
    refine ⟨k2, ?_⟩
    simp only [events, List.cons_append, List.append_assoc, hist, List.map_cons, List.map_append, perusal, told, h1, h2, h3, h4]
    simp only [everything, h5, h6]
    exact ⟨rfl, trivial⟩

/-- What a client reads from a source of any type that stands for the bytes of a file. -/
theorem beholds_of (hS : Delivers S J tape) {x : ρ} (hx : J x) {seekable checks buffered : Bool} {v : FbxVersion} {F : Forest DAttr} {n : Nat}
    {footer : Except PErr Footer} {q : Parser}
    (h : parseSource seekable Z checks none (tape x).ending (tape x).pos (tape x).limit buffered everything n (tape x).rest = some (.ok (events F ++ [.fbx footer]), q))
    (hv : ∀ p, anyParser checks seekable (tape x).rest (tape x).ending (tape x).pos (tape x).limit = .ok p → p.version = v ∧ p.handler = none) :
    Beholds S tape Z checks seekable x v (perusal buffered F ++ [.next]) (told F ++ [.event (.endFbx footer)]) := by
  unfold parseSource at h
  split at h
  case h_2 => cases h
  case h_1 p hp =>
    obtain ⟨hv1, hv2⟩ := hv p hp
    have e : { p with handler := none } = p := by cases p; simp only at hv2; subst hv2; rfl
    simp only [e, Option.some.injEq] at h
    obtain ⟨hr, -⟩ := drive_runs (Z := Z) buffered everything n 0 [] (events F) p q footer none (by rw [h]; rfl)
    have ho := observe_runs _ hr (hist_calm _ _ _ _)
    obtain ⟨k', h1, h2⟩ := hist_everything buffered F 0 [.fbx footer]
    rw [h1, h2] at ho
    have ho : observe Z ⟨p, none⟩ ((perusal buffered F ++ [WCall.next]).map WCall.call) = (told F ++ [.event (.endFbx footer)], ⟨q, none⟩) := by
      rw [List.map_append]; exact ho
    obtain ⟨f0, y, g1, g2⟩ := C95_calls (α := AttrValue) hS Z checks seekable x hx
    obtain ⟨f1, t, g3, -⟩ := g2 p hp (perusal buffered F ++ [.next])
    refine ⟨max f0 f1, p, y, t, hv1, fun fuel hf => ⟨?_, ?_⟩⟩
    · rw [g1 fuel (by omega), hp]; rfl
    · rw [g3 fuel (by omega), ho]

/-- The version of a parser just opened. -/
theorem opened_of {v : FbxVersion} (hv : supported v.toNat) {checks seekable : Bool} {bytes : Bytes} {ending : Option IoErr} {cursor limit : Nat} {p : Parser}
    (hb : ∃ t, bytes = signature ++ le 4 v.toNat ++ t) (hlen : bytes.length < 2 ^ 64) (h : anyParser checks seekable bytes ending cursor limit = .ok p) :
    p.version = v ∧ p.handler = none := by
  have hs : signature.length = 23 := by decide
  obtain ⟨t, rfl⟩ := hb
  rw [Parser.open_ok checks v hv t ending cursor limit (by simp [Writer.le_eq, hs] at hlen; omega)] at h
  cases h
  exact ⟨rfl, rfl⟩

theorem document_starts {β : Type} {v : Nat} {enc : β → Bytes} {F : Forest β} {ft : Foot} {t bytes : Bytes} (h : bytes = document v enc F ft ++ t) :
    ∃ t, bytes = signature ++ le 4 v ++ t := by
  rw [h]
  exact ⟨nodes v enc F 27 ++ (marker v ++ (footer v ft (body v enc F).length ++ t)), by simp only [document, body, List.append_assoc]⟩

/-- **C97** (write, then read). A forest is written, call by call, to a destination of any type, which may fail at any time; all calls succeed. Then
a client that reads the document from a source of any type that stands for what the destination contains, sees exactly the nodes and the values that were
written, in their order, and then the end of the document. -/
theorem C97_passage (hS : Delivers S J tape) (hD : Sound D I P content cursor) (Z : Zlib) (hZ : Z.Lawful) {d d' : δ} (hd : I d) {v : FbxVersion}
    {ops : List Writer.Op} {f : Writer.FooterSpec} (hl : Writer.legal false ops = true) (h : AnyDest.session D Z d v ops f = (.ok (), d'))
    (hlen : (content d').length < 2 ^ 64) {x : ρ} (hx : J x) (hxr : (tape x).rest = content d')
    (hlim : (tape x).pos + (content d').length ≤ (tape x).limit) (checks buffered : Bool) :
    ∃ F, ops = calls F ∧ (F.All (fun _ as => ∀ a ∈ as, intact a) →
      ∃ footer, Beholds S tape Z checks true x v (perusal buffered (F.map denote) ++ [.next]) (told (F.map denote) ++ [.event (.endFbx footer)])) := by
  obtain ⟨fault, -, h2⟩ := C93_any hD Z d hd v ops f
  rw [h] at h2
  obtain ⟨h3, h4, -, -⟩ := h2
  rcases hs : Writer.session Z ⟨content d, cursor d, fault⟩ v ops f with ⟨y, s'⟩
  rw [hs] at h3 h4
  simp only at h3 h4
  subst h3
  rw [h4] at hlen hxr hlim
  obtain ⟨F, k1, k2⟩ := C21_round_trip Z hZ _ _ v ops f hl hs hlen buffered checks none (by intro f hf; cases hf) (tape x).ending (tape x).pos (tape x).limit hlim
  refine ⟨F, k1, fun hi => ?_⟩
  obtain ⟨footer, q, k3⟩ := k2 hi
  subst k1
  obtain ⟨hv, t, ht, -⟩ := Parser.parse_forest hZ hs hi
  refine ⟨footer, beholds_of hS hx (by rw [hxr]; exact k3) fun p hp => opened_of hv (document_starts (hxr.trans ht)) (by rw [hxr]; exact hlen) hp⟩

/-- **C97** (nothing to warn of). If the names are not empty and the footer is as by default, then the footer is read with success, too. -/
theorem C97_footer (hS : Delivers S J tape) (hD : Sound D I P content cursor) (Z : Zlib) (hZ : Z.Lawful) {d d' : δ} (hd : I d) {v : FbxVersion}
    {F : Forest Writer.Append} {f : Writer.FooterSpec} (h : AnyDest.session D Z d v (calls F) f = (.ok (), d'))
    (hi : F.All (fun _ as => ∀ a ∈ as, intact a)) (hnames : F.All (fun name _ => name ≠ "")) (hf : footSized f)
    (hpad : f.padding = .default) (hu1 : ∀ u, f.unknown1 = some u → usualField1 u) (hu2 : f.unknown2 = none) (hu3 : f.unknown3 = none)
    (hlen : (content d').length < 2 ^ 64) {x : ρ} (hx : J x) (hxr : (tape x).rest = content d')
    (hlim : (tape x).pos + (content d').length ≤ (tape x).limit) (checks buffered : Bool) :
    ∃ footer, Beholds S tape Z checks true x v (perusal buffered (F.map denote) ++ [.next]) (told (F.map denote) ++ [.event (.endFbx (.ok footer))]) := by
  obtain ⟨fault, -, h2⟩ := C93_any hD Z d hd v (calls F) f
  rw [h] at h2
  obtain ⟨h3, h4, -, -⟩ := h2
  rcases hs : Writer.session Z ⟨content d, cursor d, fault⟩ v (calls F) f with ⟨y, s'⟩
  rw [hs] at h3 h4
  simp only at h3 h4
  subst h3
  rw [h4] at hlen hxr hlim
  obtain ⟨footer, q, k3, -⟩ := C22_no_warnings Z hZ _ _ v F f hs hi hlen hnames hf hpad hu1 hu2 hu3 buffered checks everything
    (Parser.everything_ok _ _ _) none (tape x).ending (tape x).pos (tape x).limit hlim
  rw [Parser.everything_expected] at k3
  obtain ⟨hv, t, ht, -⟩ := Parser.parse_forest hZ hs hi
  refine ⟨footer, beholds_of hS hx (by rw [hxr]; exact k3) fun p hp => opened_of hv (document_starts (hxr.trans ht)) (by rw [hxr]; exact hlen) hp⟩

/-- **C97** (sources that cannot seek). If no array was compressed, then the same holds for a source that cannot seek. -/
theorem C97_plain (hS : Delivers S J tape) (hD : Sound D I P content cursor) (Z : Zlib) (hZ : Z.Lawful) {d d' : δ} (hd : I d) {v : FbxVersion}
    {F : Forest Writer.Append} {f : Writer.FooterSpec} (h : AnyDest.session D Z d v (calls F) f = (.ok (), d'))
    (hi : F.All (fun _ as => ∀ a ∈ as, intact a)) (hdir : F.All (fun _ as => ∀ a ∈ as, (denote a).enc = .direct))
    (hlen : (content d').length < 2 ^ 64) {x : ρ} (hx : J x) (hxr : (tape x).rest = content d') (checks buffered : Bool) :
    ∃ footer, Beholds S tape Z checks false x v (perusal buffered (F.map denote) ++ [.next]) (told (F.map denote) ++ [.event (.endFbx footer)]) := by
  obtain ⟨fault, -, h2⟩ := C93_any hD Z d hd v (calls F) f
  rw [h] at h2
  obtain ⟨h3, h4, -, -⟩ := h2
  rcases hs : Writer.session Z ⟨content d, cursor d, fault⟩ v (calls F) f with ⟨y, s'⟩
  rw [hs] at h3 h4
  simp only at h3 h4
  subst h3
  rw [h4] at hlen hxr
  obtain ⟨footer, q, k3⟩ := C30_round_trip Z hZ _ _ v F f hs hi hdir hlen buffered checks none (by intro f hf; cases hf) (tape x).ending (tape x).pos (tape x).limit
  obtain ⟨hv, t, ht, -⟩ := Parser.parse_forest hZ hs hi
  exact ⟨footer, beholds_of hS hx (by rw [hxr]; exact k3) fun p hp => opened_of hv (document_starts (hxr.trans ht)) (by rw [hxr]; exact hlen) hp⟩

/-- **C97** (`BufWriter`, then `BufReader`). A forest is written call by call and completed with `finalize_and_flush` through a `BufWriter` of any
capacity to a file, which may fail at any operation. If all calls succeed, then a client that reads the file through a `BufReader` of any capacity,
whatever the pieces in which the file delivers its bytes, sees exactly what was written. -/
theorem C97_buffered (Z : Zlib) (hZ : Z.Lawful) (cap : Nat) (s : Sink) (v : FbxVersion) (ops : List Writer.Op) (f : Writer.FooterSpec)
    (hl : Writer.legal false ops = true) {b : BufOut} (h : AnyDest.flushedSession BufOut.dest Z (BufOut.create cap s) v ops f = (.ok (), b))
    (hlen : b.inner.buf.length < 2 ^ 64) {plan : Schedule} (hf : Fair plan) (bufs : Disk → Nat) (copyBuf cap' : Nat) (checks buffered : Bool)
    (ending : Option IoErr) (limit n : Nat) (hlim : b.inner.buf.length ≤ limit) :
    ∃ F, ops = calls F ∧ (F.All (fun _ as => ∀ a ∈ as, intact a) →
      ∃ footer, Beholds ((Disk.source bufs copyBuf).bufReader cap') (bufTape diskTape) Z checks true (⟨b.inner.buf, 0, ending, limit, plan, n⟩, []) v
        (perusal buffered (F.map denote) ++ [.next]) (told (F.map denote) ++ [.event (.endFbx footer)])) := by
  obtain ⟨I, hI, hS⟩ := C93_bufwriter cap s
  obtain ⟨fault, -, h2⟩ := C93_any_flushed hS Z _ hI v ops f
  have hheld := withNew_flushed h
  simp only [h] at h2
  obtain ⟨h3, h4, h5, -⟩ := h2
  have hc : b.content = b.inner.buf := if_pos hheld
  rw [hc] at h4
  obtain ⟨s', k, hb, hpos⟩ := afterNew_flush (s := ⟨s.buf, s.pos, fault⟩) (v := v) (m := Writer.run Z ops) (f := f) rfl h3.symm
  have hb : b.inner.buf = s'.buf := h4.trans hb
  rw [hb] at hlen hlim ⊢
  have hs : Writer.session Z ⟨s.buf, s.pos, fault⟩ v ops f = (.ok (), s') := k
  obtain ⟨F, k1, k2⟩ := C21_round_trip Z hZ _ _ v ops f hl hs hlen buffered checks none (by intro f hf; cases hf) ending 0 limit (by omega)
  refine ⟨F, k1, fun hi => ?_⟩
  obtain ⟨footer, q, k3⟩ := k2 hi
  subst k1
  obtain ⟨hv, t, ht, -⟩ := Parser.parse_forest hZ hs hi
  refine ⟨footer, beholds_of (C95_bufreader (C95_file hf bufs copyBuf) cap') (x := (⟨s'.buf, 0, ending, limit, plan, n⟩, []))
    ⟨rfl, Nat.zero_le _, List.nil_prefix⟩ k3 fun p hp => opened_of hv (document_starts ht) hlen hp⟩

/-! ## Examples -/

/-- The forest of C21 is written through a `BufWriter`. -/
def exPassage : Res WErr Unit × BufOut := AnyDest.flushedSession BufOut.dest Zlib.stored (BufOut.create 64 exSink) 7500 (calls exForest) exFooter

theorem exPassage_ok : exPassage.1 = .ok () := by decide +kernel

theorem exPassage_eq : exPassage = (.ok (), exPassage.2) := by rw [← exPassage_ok]

theorem exPassage_length : exPassage.2.inner.buf.length ≤ 5000 := by decide +kernel

/-- It is read through a `BufReader`, call by call. -/
example : ∃ footer, Beholds ((Disk.source (fun d => d.calls % 3) 1).bufReader 5) (bufTape diskTape) Zlib.stored true true
    (⟨exPassage.2.inner.buf, 0, none, 5000, exSchedule, 0⟩, []) 7500
    [.next, .load true Device.direct, .load true Device.direct, .load true Device.direct, .next, .next, .next,
      .next, .load true Device.direct, .next, .next]
    [.event (.startNode "A" 3), .value (.i32 5), .value (.string "xy"), .value (.arrI32 [1, 2]), .event (.startNode "B" 0), .event .endNode, .event .endNode,
      .event (.startNode "C" 1), .value (.bool true), .event .endNode, .event (.endFbx footer)] := by
  have hl := exPassage_length
  have h := exPassage_eq
  generalize exPassage.2 = b at h hl ⊢
  unfold exPassage at h
  obtain ⟨F, h1, h2⟩ := C97_buffered Zlib.stored Zlib.stored_lawful 64 exSink 7500 (calls exForest) exFooter (by decide +kernel) h (by omega)
    exSchedule_fair (fun d => d.calls % 3) 1 5 true true none 5000 0 hl
  have := C06_forest_unique _ _ h1
  subst this
  exact h2 (by simp [exForest, Forest.All, intact])

/-- The same with `finalize`, of what device and buffer contain. -/
def exPassed : Res WErr Unit × BufOut := AnyDest.session BufOut.dest Zlib.stored (BufOut.create 64 exSink) 7400 (calls exForest) exFooter

theorem exPassed_ok : exPassed.1 = .ok () := by decide +kernel

theorem exPassed_eq : exPassed = (.ok (), exPassed.2) := by rw [← exPassed_ok]

theorem exPassed_length : exPassed.2.content.length ≤ 5000 := by decide +kernel

example : ∃ footer, Beholds (Disk.source (fun d => d.calls % 3) 1) diskTape Zlib.stored false true (exRelayDisk exPassed.2.content) 7400
    (perusal false (exForest.map denote) ++ [.next]) (told (exForest.map denote) ++ [.event (.endFbx (.ok footer))]) := by
  obtain ⟨I, hI, hD⟩ := C93_bufwriter 64 exSink
  have hl := exPassed_length
  have h := exPassed_eq
  generalize exPassed.2 = b at h hl ⊢
  unfold exPassed at h
  exact C97_footer (C95_file exSchedule_fair (fun d => d.calls % 3) 1) hD Zlib.stored Zlib.stored_lawful hI h (by simp [exForest, Forest.All, intact])
    (by simp [exForest, Forest.All]) (by unfold footSized; decide +kernel) rfl (by intro u hu; cases hu) rfl rfl (by omega)
    (x := exRelayDisk b.content) rfl (exRelayDisk_rest _) (by show 0 + _ ≤ 5000; omega) false false

example : ∃ F, calls exForest = calls F ∧ (F.All (fun _ as => ∀ a ∈ as, intact a) → ∃ footer,
    Beholds (Disk.source (fun d => d.calls % 3) 1) diskTape Zlib.stored true true (exRelayDisk exPassed.2.content) 7400
      (perusal true (F.map denote) ++ [.next]) (told (F.map denote) ++ [.event (.endFbx footer)])) := by
  obtain ⟨I, hI, hD⟩ := C93_bufwriter 64 exSink
  have hl := exPassed_length
  have h := exPassed_eq
  generalize exPassed.2 = b at h hl ⊢
  unfold exPassed at h
  exact C97_passage (C95_file exSchedule_fair (fun d => d.calls % 3) 1) hD Zlib.stored Zlib.stored_lawful hI (by decide +kernel) h (by omega)
    (x := exRelayDisk b.content) rfl (exRelayDisk_rest _) (by show 0 + _ ≤ 5000; omega) true true

/-- A forest without compressed arrays. -/
def exUnpacked : Forest Writer.Append := .cons "A" [.i32 5, .string "xy", .arrI32 none [.ok 1, .ok 2]] .nil (.cons "C" [.bool true] .nil .nil)

def exStreamed : Res WErr Unit × BufOut := AnyDest.session BufOut.dest Zlib.stored (BufOut.create 64 exSink) 7400 (calls exUnpacked) exFooter

theorem exStreamed_ok : exStreamed.1 = .ok () := by decide +kernel

theorem exStreamed_eq : exStreamed = (.ok (), exStreamed.2) := by rw [← exStreamed_ok]

theorem exStreamed_length : exStreamed.2.content.length ≤ 5000 := by decide +kernel

example : ∃ footer, Beholds (Disk.source (fun d => d.calls % 3) 1) diskTape Zlib.stored true false (exRelayDisk exStreamed.2.content) 7400
    (perusal true (exUnpacked.map denote) ++ [.next]) (told (exUnpacked.map denote) ++ [.event (.endFbx footer)]) := by
  obtain ⟨I, hI, hD⟩ := C93_bufwriter 64 exSink
  have hl := exStreamed_length
  have h := exStreamed_eq
  generalize exStreamed.2 = b at h hl ⊢
  unfold exStreamed at h
  exact C97_plain (C95_file exSchedule_fair (fun d => d.calls % 3) 1) hD Zlib.stored Zlib.stored_lawful hI h (by simp [exUnpacked, Forest.All, intact])
    (by simp [exUnpacked, Forest.All, denote]) (by omega) (x := exRelayDisk b.content) rfl (exRelayDisk_rest _) true true

end Fbx
