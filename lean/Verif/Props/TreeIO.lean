import Verif.Proof.TreeWrite
import Verif.Proof.TreeFile
import Verif.Props.Tree
import Verif.Props.ParserHistory

/-! # C23, C46, C47: loading and writing trees -/

namespace Fbx
open Spec Tree Writer
open Forest (plain)

variable {α : Type} {Z : Zlib}

/-! ## C46 The loader and its parser -/

/-- A parser knows whether it emitted an event. -/
theorem used_iff {p : Parser} {bytes : Bytes} (hp : Opens p bytes) (hsz : Sized bytes) {h : History α} {s : Client}
    (hr : Runs Z ⟨p, none⟩ h s) :
    (s.parser.isUsed = true ↔ ∃ x ∈ h, x.2.isEvent = true) ∧ (s.parser.isUsed = false → s.parser.started = []) ∨ ∃ c x, (c, .panic x) ∈ h := by
  obtain ⟨hi, hL⟩ := open_inv hp hsz
  have hstep : ∀ (h : History α) (c : Call α) (o : Outcome α), (∃ x ∈ h ++ [(c, o)], x.2.isEvent = true) ↔ (∃ x ∈ h, x.2.isEvent = true) ∨ o.isEvent = true := by
    intro h c o
    constructor
    · rintro ⟨x, hx, he⟩
      rcases List.mem_append.mp hx with hx | hx
      · exact .inl ⟨x, hx, he⟩
      · rw [List.mem_singleton.mp hx] at he; exact .inr he
    · rintro (⟨x, hx, he⟩ | he)
      · exact ⟨x, List.mem_append.mpr (.inl hx), he⟩
      · exact ⟨(c, o), by simp, he⟩
  refine hr.ind (P := fun h s => ((s.parser.isUsed = true ↔ ∃ x ∈ h, x.2.isEvent = true) ∧ (s.parser.isUsed = false → s.parser.started = [])) ∨ ∃ c x, (c, .panic x) ∈ h) hL hi ?_ ?_
  · obtain ⟨ck, v, e, c, sk, lim, hp⟩ := hp
    unfold Parser.create at hp
    split at hp
    · cases hp
    · cases hp
      left
      simp [Parser.isUsed]
  · intro h t u c o hr hi ih hn hd _
    have ih := ih.resolve_right (fun ⟨c, x, hx⟩ => hn c x hx)
    rw [hstep]
    cases hd with
    | @event ev hrun he hi ha =>
      left
      have : u.parser.isUsed = true := by
        cases he with
        | start hs hst hq => rw [hq]; rfl
        | endNode hs hq => rw [hq]; rfl
        | endFbx hs hq => rw [Parser.isUsed, hq.last]; rfl
      simp [this, Outcome.isEvent]
    | nextRefused hp hr ha => left; rw [hp]; simpa [Outcome.isEvent] using ih
    | nextFailed hrun hf hi hp he ha =>
      left
      have : u.parser.isUsed = t.parser.isUsed ∧ (t.parser.started = [] → u.parser.started = []) := by
        rw [hp]
        simp only [Parser.isUsed, Parser.setAborted]
        rcases hf with hq | ⟨p', n, outer, hq, hst, rfl⟩
        · exact ⟨by rw [hq.last], fun h => hq.started.trans h⟩
        · refine ⟨by rw [hq.last], fun h => ?_⟩
          rw [h] at hst; cases hst
      rw [this.1]
      refine ⟨by simpa [Outcome.isEvent] using ih.1, fun h => this.2 (ih.2 h)⟩
    | nextPanic hx => right; exact ⟨_, _, List.mem_append.mpr (.inr (List.mem_singleton.mpr rfl))⟩
    | value ha hp hrun hr ht =>
      left
      subst ht
      have := hr.1
      rw [Parser.isUsed, this.last, ← hp, this.started, ← hp]
      simpa [Outcome.isEvent, Parser.isUsed] using ih
    | noValue ha hrun h0 ht => left; subst ht; simpa [Outcome.isEvent] using ih
    | loadRefused ha ht hr => left; subst ht; simpa [Outcome.isEvent] using ih
    | @loadFailed b l e a c pos ha hp hrun hr hpos ht he =>
      left
      subst ht
      have hq : Parser.Quiet a.parser c.parser := by rcases hr with hr | hr <;> exact hr.1
      simp only [Parser.setAborted, Parser.isUsed]
      rw [hq.last, ← hp, hq.started, ← hp]
      simpa [Outcome.isEvent, Parser.isUsed] using ih
    | skip hst hm hi hge hpos hplain ht =>
      left
      subst ht
      have : t.parser.isUsed = true := by
        cases hu : t.parser.isUsed with
        | true => rfl
        | false => rw [ih.2 hu] at hst; cases hst
      simp [Parser.isUsed, ih.1.mp this]
    | skipFailed hst hm hi hge ht =>
      left
      subst ht
      have : t.parser.isUsed = true := by
        cases hu : t.parser.isUsed with
        | true => rfl
        | false => rw [ih.2 hu] at hst; cases hst
      simp [Parser.isUsed, ih.1.mp this]
    | skipPanic hx => right; exact ⟨_, _, List.mem_append.mpr (.inr (List.mem_singleton.mpr rfl))⟩
    | handler ht => left; subst ht; simpa [Outcome.isEvent, Parser.isUsed, Parser.setHandler] using ih

/-- The state of a client without its attribute reader. -/
theorem CInv.bare {L : Nat} {s : Client} (h : CInv L s) : CInv L ⟨s.parser, none⟩ :=
  ⟨h.parser, h.last, h.fin, fun a ha => by cases ha⟩

/-- **C46** (unused parsers). After any history without events (`set_warning_handler` may have been called, and `next_event`
may have failed), the loader does what a client does that pulls events and loads every attribute with `DirectLoader`:
- if the client sees a document, the loader returns the tree of that document, and the client's result for the footer;
- if something fails, the loader fails with the same error;
- the only panic is that of C24; the loader's own assertions hold.

In all cases the parser is left in the same state. The client may call `next_event` any number `n` of times that exceeds
twice the number of bytes left. -/
theorem C46_load {p : Parser} {bytes : Bytes} (hp : Opens p bytes) (hsz : Sized bytes) {h : History α} {s : Client}
    (hr : Runs Z ⟨p, none⟩ h s) (hn : h.calm) (hev : ∀ x ∈ h, x.2.isEvent = false) (n : Nat) (hlen : 2 * s.parser.reader.rest.length < n) :
    match drive Z false everything n 0 [] s.parser with
    | (.ok obs, q) => ∃ (F : Forest AttrValue) (footer : Except PErr Footer) (t : Tree), obs = events F.plain ++ [.fbx footer] ∧
        Load.load Z s.parser = (.ok (t, footer), q) ∧ WF t ∧ Rep t t.root (.node "" [] F.roses)
    | (.err e, q) => Load.load Z s.parser = (.err (.parser e), q)
    | (.panic x, q) => Load.load Z s.parser = (.panic x, q) ∧ x = .attrEndOverflow ∧ s.parser.checks = true ∧ ¬ s.parser.version < 7500 := by
  obtain ⟨hi, hL⟩ := open_inv hp hsz
  obtain ⟨h1, h2⟩ := (used_iff hp hsz hr).resolve_right (fun ⟨c, x, hx⟩ => hn c x hx)
  have hu : s.parser.isUsed = false := by
    cases hu : s.parser.isUsed with
    | false => rfl
    | true =>
      obtain ⟨x, hx, he⟩ := h1.mp hu
      rw [hev x hx] at he; cases he
  exact Load.load_spec hL (hr.inv hL hi hn).bare (by simpa [Parser.isUsed] using hu) (h2 hu) n hlen

/-- **C46** (used parsers). The loader rejects a parser exactly if it has emitted an event; then it leaves the parser
alone. -/
theorem C46_bad_parser {p : Parser} {bytes : Bytes} (hp : Opens p bytes) (hsz : Sized bytes) {h : History α} {s : Client}
    (hr : Runs Z ⟨p, none⟩ h s) (hn : h.calm) :
    ((Load.load Z s.parser).1 = .err .badParser ↔ ∃ x ∈ h, x.2.isEvent = true) ∧
    ((∃ x ∈ h, x.2.isEvent = true) → Load.load Z s.parser = (.err .badParser, s.parser)) := by
  obtain ⟨h1, h2⟩ := (used_iff hp hsz hr).resolve_right (fun ⟨c, x, hx⟩ => hn c x hx)
  have hbad : (∃ x ∈ h, x.2.isEvent = true) → Load.load Z s.parser = (.err .badParser, s.parser) := by
    intro h
    simp [Load.load, h1.mpr h]
  refine ⟨⟨fun hb => ?_, fun h => by rw [hbad h]⟩, hbad⟩
  refine Classical.byContradiction fun hne => ?_
  have hev : ∀ x ∈ h, x.2.isEvent = false := by
    intro x hx
    cases he : x.2.isEvent with
    | false => rfl
    | true => exact absurd ⟨x, hx, he⟩ hne
  have := C46_load hp hsz hr hn hev (2 * s.parser.reader.rest.length + 1) (by omega)
  generalize drive Z false everything _ 0 [] s.parser = d at this
  obtain ⟨_ | _ | _, q⟩ := d
  · obtain ⟨F, f, t, -, h3, -⟩ := this
    rw [h3] at hb; cases hb
  · rw [this] at hb; cases hb
  · rw [this.1] at hb; cases hb

theorem noEvents_of_all {h : History α} (hh : h.all (fun x => !x.2.isEvent) = true) : ∀ x ∈ h, x.2.isEvent = false := by
  intro x hx
  simpa using List.all_eq_true.mp hh x hx

theorem event_of_any {h : History α} (hh : h.any (fun x => x.2.isEvent) = true) : ∃ x ∈ h, x.2.isEvent = true := by
  simpa using hh

/-- A fresh parser of the example file with a handler set. -/
theorem exHandled : Runs Zlib.stored exClient (exClient.history Zlib.stored [(.setHandler (fun _ _ _ => none) : Call Unit)])
    (exClient.after Zlib.stored [(.setHandler (fun _ _ _ => none) : Call Unit)]) := runs_history _ _ (by decide +kernel)

example (n : Nat) (hn : 2 * _ < n) := C46_load (exParser_opens true true 7400 exBody (by decide)) exBody_sized exHandled
  (calm_of_all (by decide +kernel)) (noEvents_of_all (by decide +kernel)) n hn

/-- The same file after one event. -/
theorem exUsed : Runs Zlib.stored exClient (exClient.history Zlib.stored [(.next : Call Unit)])
    (exClient.after Zlib.stored [(.next : Call Unit)]) := runs_history _ _ (by decide +kernel)

example : Load.load Zlib.stored (exClient.after Zlib.stored [(.next : Call Unit)]).parser = (.err .badParser, (exClient.after Zlib.stored [(.next : Call Unit)]).parser) :=
  (C46_bad_parser (exParser_opens true true 7400 exBody (by decide)) exBody_sized exUsed (calm_of_all (by decide +kernel))).2
    (event_of_any (by decide +kernel))

/-- A parser whose first `next_event` failed. -/
example : (match (Load.load Zlib.stored ((Client.mk (exParser true true 7400 [1]) none).after Zlib.stored [(.next : Call Unit)]).parser).1 with
    | .err (.parser e) => some e.kind
    | _ => none) = some (.op .alreadyAborted) := by
  decide +kernel

/-! ## C23 Trees are read back as they were written -/

theorem parse_load_source {checks sk : Bool} {H : Option Handler} {ending : Option IoErr} {cursor limit : Nat} {bytes : Bytes}
    (hlen : bytes.length + 2 ^ 32 ≤ 2 ^ 64) {n : Nat} {F : Forest AttrValue} {footer : Except PErr Footer} {q : Parser}
    (h : parseSource sk Z checks H ending cursor limit false everything n bytes = some (.ok (events F.plain ++ [.fbx footer]), q)) :
    ∃ p t, anyParser checks sk bytes ending cursor limit = .ok p ∧ Load.load Z { p with handler := H } = (.ok (t, footer), q) ∧ WF t ∧
      Rep t t.root (.node "" [] F.roses) := by
  unfold parseSource at h
  cases hp : anyParser checks sk bytes ending cursor limit with
  | err e => rw [hp] at h; cases h
  | panic x => rw [hp] at h; cases h
  | ok p =>
    rw [hp] at h
    simp only [Option.some.injEq] at h
    obtain ⟨ho, -⟩ := C24_any_parser (by omega) hp
    have hsz : Sized (bytes.drop 27) := by
      simp only [Sized, headerLen, List.length_drop]
      omega
    obtain ⟨hi, hL⟩ := open_inv ho hsz
    obtain ⟨ck, v, e, c, sk', lim, hc⟩ := ho
    have hf : p.last = none ∧ p.started = [] := by
      unfold Parser.create at hc
      split at hc
      · cases hc
      · cases hc; exact ⟨rfl, rfl⟩
    have hi' : CInv (headerLen + (bytes.drop 27).length) ⟨{ p with handler := H }, none⟩ := ⟨⟨hi.parser.reader, hi.parser.top, hi.parser.ends⟩, hi.last, hi.fin, fun a h => by cases h⟩
    obtain ⟨t, h1, h2, h3⟩ := Load.load_of_drive hL hi' hf.1 hf.2 h
    exact ⟨p, t, rfl, h1, h2, h3⟩

theorem parse_load {checks : Bool} {H : Option Handler} {ending : Option IoErr} {cursor limit : Nat} {bytes : Bytes}
    (hlen : bytes.length + 2 ^ 32 ≤ 2 ^ 64) {n : Nat} {F : Forest AttrValue} {footer : Except PErr Footer} {q : Parser}
    (h : parseFile Z checks H ending cursor limit false everything n bytes = some (.ok (events F.plain ++ [.fbx footer]), q)) :
    ∃ t, loadFile Z checks H ending cursor limit bytes = some (.ok (t, footer), q) ∧ WF t ∧ Rep t t.root (.node "" [] F.roses) := by
  obtain ⟨p, t, h1, h2, h3⟩ := parse_load_source (sk := true) hlen h
  refine ⟨t, ?_, h3⟩
  simp only [loadFile, h1, h2]

/-- The documents below the root of a tree. -/
theorem root_forest {t : Tree} (ht : WF t) : ∃ (name : String) (F : Forest AttrValue), t.name? t.root = some name ∧
    RepList t (t.children t.root) F.roses ∧ Rep t t.root (.node name (t.nodes t.root).attrs F.roses) := by
  obtain ⟨r, hr⟩ := ht.rep t.root ht.root
  cases hr with
  | @mk _ name kids hn hk =>
    obtain ⟨F, rfl⟩ := roses_exists _ kids (Nat.le_refl _)
    exact ⟨name, F, hn, hk, .mk hn hk⟩

theorem map_denote (F : Forest AttrValue) : (F.map appendOf).map denote = F.plain := by
  induction F with
  | nil => rfl
  | cons n as ch r ih1 ih2 => simp only [Forest.map, plain, List.map_map, Function.comp_def, denote_appendOf] at *; rw [ih1, ih2]

/-- The trees found when loading a file written by `write_tree`. -/
theorem written_loaded {t u : Tree} (ht : WF t) (hn : t.name? t.root = some "") (ha : (t.nodes t.root).attrs = []) {F : Forest AttrValue}
    (hF : RepList t (t.children t.root) F.roses) (hu : WF u) (hr : Rep u u.root (.node "" [] F.roses)) : strictEq t u = .ok true := by
  have h1 : Rep t t.root (.node "" (t.nodes t.root).attrs F.roses) := .mk hn hF
  rw [ha] at h1
  obtain ⟨x, h2, h3⟩ := nodesStrictEq_ok ht hu ht.root hu.root h1 hr
  rw [strictEq, h2, h3.mpr rfl]

theorem fits_map {α β : Type} (v : Nat) (g : α → β) (e : β → Bytes) (fits : β → Prop) (F : Forest α) :
    ∀ off, forestFits v (fun a => e (g a)) (fun a => fits (g a)) F off ↔ forestFits v e fits (F.map g) off := by
  induction F with
  | nil => intro off; exact .rfl
  | cons name attrs ch r ih1 ih2 =>
    intro off
    have hm : needsMarker (attrs.map g) (ch.map g) = needsMarker attrs ch := by
      cases attrs <;> cases ch <;> rfl
    simp only [forestFits, Forest.map, Parser.nodes_map, List.flatMap_map, hm, List.length_map, ih1, ih2, List.forall_mem_map]

theorem allOk_ok {α : Type} (l : List α) : allOk (l.map (Except.ok (ε := WErr))) = true := by
  induction l with
  | nil => rfl
  | cons x xs ih => simpa [allOk] using ih

theorem user_appendOf (v : AttrValue) : noUserError (appendOf v) = True := by
  cases v <;> simp [appendOf, noUserError, allOk_ok]

/-- Names below the root. -/
theorem names_below {t : Tree} (ht : WF t) (hnames : ∀ i, i < t.size → i ≠ t.root → Anc t t.root i → t.name? i ≠ some "") :
    ∀ (F : Forest AttrValue) (is : List Nat), RepList t is F.roses → (∀ c ∈ is, c < t.size ∧ c ≠ t.root ∧ Anc t t.root c) →
    (F.map appendOf).All (fun name _ => name ≠ "") := by
  intro F
  induction F with
  | nil => intro is _ _; trivial
  | cons n as ch r ih1 ih2 =>
    intro is h hc
    simp only [Forest.roses] at h
    generalize hro : Rose.node n as ch.roses = ro at h
    cases h with
    | @cons i is _ _ h1 h2 =>
      cases h1 with
      | @mk _ name kids hn hk =>
        cases hro
        obtain ⟨hi, hir, hia⟩ := hc i (by simp)
        refine ⟨fun h => hnames i hi hir hia (by rw [hn, h]), ih1 _ hk ?_, ih2 _ h2 (fun c hm => hc c (by simp [hm]))⟩
        intro c hm
        have hcv := ht.child_valid hi hm
        have hcp := (ht.mem_children hcv hi).mpr hm
        refine ⟨hcv, ?_, .step hcp hia⟩
        rintro rfl
        obtain ⟨d, hd⟩ := ht.acyclic _ hcv
        exact hd.not_self ⟨i, hcp, hia⟩

theorem root_names {t : Tree} (ht : WF t) (hnames : ∀ i, i < t.size → i ≠ t.root → Anc t t.root i → t.name? i ≠ some "") {F : Forest AttrValue}
    (hF : RepList t (t.children t.root) F.roses) : (F.map appendOf).All (fun name _ => name ≠ "") := by
  refine names_below ht hnames F _ hF ?_
  intro c hm
  have hcv := ht.child_valid ht.root hm
  have hcp := (ht.mem_children hcv ht.root).mpr hm
  refine ⟨hcv, ?_, .step hcp .refl⟩
  rintro rfl
  exact ht.not_self hcv hcp

/-- **C23** (what `write_tree` needs). On a working device, `write_tree` followed by `finalize` succeeds exactly if the
version is supported and the document below the root fits (C10, C11). -/
theorem C23_write_success {t : Tree} (ht : Reachable t) :
    ∃ F : Forest AttrValue, RepList t (t.children t.root) F.roses ∧
      ∀ (Z : Zlib) (s : Sink) (v : FbxVersion) (f : FooterSpec), s.fault = (fun _ => none) →
      ((treeSession Z s v t f).1 = .ok () ↔ supported v.toNat ∧ forestFits v.toNat (attrBytes Z) (attrFits Z) F.plain 27 ∧
        (document v.toNat (attrBytes Z) F.plain (footOf f)).length < 2 ^ 64) := by
  have ht := C43_reachable_well_formed ht
  obtain ⟨name, F, hn, hF, hr⟩ := root_forest ht
  refine ⟨F, hF, fun Z s v f hs => ?_⟩
  rw [treeSession_eq ht hF, C11_success_iff Z s hs v _ (intact_forest F) f]
  have e1 : ∀ off, forestFits v.toNat (callBytes Z) (callFits Z) (F.map appendOf) off ↔ forestFits v.toNat (attrBytes Z) (attrFits Z) F.plain off := by
    intro off
    rw [plain, ← fits_map v.toNat appendOf (callBytes Z) (callFits Z), ← fits_map v.toNat (fun v => ({ value := v } : DAttr)) (attrBytes Z) (attrFits Z)]
    simp only [callBytes, callFits, denote_appendOf, user_appendOf, true_and]
  have e2 : document v.toNat (callBytes Z) (F.map appendOf) (footOf f) = document v.toNat (attrBytes Z) F.plain (footOf f) := by
    rw [plain, ← Parser.document_map v.toNat appendOf (callBytes Z), ← Parser.document_map v.toNat (fun v => ({ value := v } : DAttr)) (attrBytes Z)]
    simp only [callBytes, denote_appendOf]
  rw [e1, e2]

/-- Round trip for well-formed trees. -/
theorem wf_round_trip (hZ : Z.Lawful) {t : Tree} (hw : WF t) (hn : t.name? t.root = some "") (ha : (t.nodes t.root).attrs = [])
    {s s' : Sink} {v : FbxVersion} {f : FooterSpec} (h : treeSession Z s v t f = (.ok (), s')) (hlen : s'.buf.length + 2 ^ 32 ≤ 2 ^ 64)
    (checks : Bool) (H : Option Handler) (hH : indulgent H) (ending : Option IoErr) (cursor limit : Nat) (hlim : cursor + s'.buf.length ≤ limit) :
    ∃ u footer q, loadFile Z checks H ending cursor limit s'.buf = some (.ok (u, footer), q) ∧ WF u ∧ strictEq t u = .ok true ∧
      ∃ p, anyParser checks true s'.buf ending cursor limit = .ok p ∧ p.version = v := by
  obtain ⟨name, F, -, hF, hr⟩ := root_forest hw
  rw [treeSession_eq hw hF] at h
  obtain ⟨h2, tl, htl, hp⟩ := Parser.parse_forest hZ h (intact_forest F)
  rw [map_denote] at htl hp
  have hopen : ∃ p, anyParser checks true s'.buf ending cursor limit = .ok p ∧ p.version = v := by
    obtain ⟨X, hX⟩ : ∃ X, s'.buf = signature ++ le 4 v.toNat ++ X := ⟨_, by rw [htl, document, body, List.append_assoc, List.append_assoc, List.append_assoc]⟩
    rw [hX] at hlen ⊢
    rw [List.length_append, List.length_append, show (le 4 v.toNat).length = 4 by rw [le_eq]; simp, show signature.length = 23 by decide] at hlen
    exact ⟨_, Parser.open_ok checks v h2 X ending cursor limit (by omega) true, rfl⟩
  suffices ∃ u footer q, loadFile Z checks H ending cursor limit s'.buf = some (.ok (u, footer), q) ∧ WF u ∧ strictEq t u = .ok true by
    obtain ⟨u, footer, q, h1, h2, h3⟩ := this
    exact ⟨u, footer, q, h1, h2, h3, hopen⟩
  simp only [htl, document, List.append_assoc] at hlen hlim ⊢
  obtain ⟨P, -, -, -, -, -, -, hP⟩ := hp _ false checks everything H ending cursor limit _ (Parser.everything_ok _ _ _) (by omega) hlim (.inr hH)
  rw [Parser.everything_expected] at hP
  obtain ⟨u, hu1, hu2, hu3⟩ := parse_load (by omega) hP
  exact ⟨u, _, _, hu1, hu2, written_loaded hw hn ha hF hu2 hu3⟩

/-- **C23** (round trip). The tree may be any that the API can build, with names, attributes, detached nodes and removed
nodes as it pleases; only the root must not have been given attributes (`C23_root_attributes_lost`). If `write_tree` and
`finalize` succeed, then loading the file, with any handler that never objects, gives a strictly equal tree. -/
theorem C23_round_trip (Z : Zlib) (hZ : Z.Lawful) {t : Tree} (ht : Reachable t) (ha : (t.nodes t.root).attrs = [])
    (s s' : Sink) (v : FbxVersion) (f : FooterSpec) (h : treeSession Z s v t f = (.ok (), s')) (hlen : s'.buf.length + 2 ^ 32 ≤ 2 ^ 64)
    (checks : Bool) (H : Option Handler) (hH : indulgent H) (ending : Option IoErr) (cursor limit : Nat) (hlim : cursor + s'.buf.length ≤ limit) :
    ∃ u footer q, loadFile Z checks H ending cursor limit s'.buf = some (.ok (u, footer), q) ∧ strictEq t u = .ok true := by
  obtain ⟨u, footer, q, h1, -, h2, -⟩ := wf_round_trip hZ (C43_reachable_well_formed ht) ht.root ha h hlen checks H hH ending cursor limit hlim
  exact ⟨u, footer, q, h1, h2⟩

/-- The same for `AnyTree`, which also returns the version written. -/
theorem C23_any_tree (Z : Zlib) (hZ : Z.Lawful) {t : Tree} (ht : Reachable t) (ha : (t.nodes t.root).attrs = [])
    (s s' : Sink) (v : FbxVersion) (f : FooterSpec) (h : treeSession Z s v t f = (.ok (), s')) (hlen : s'.buf.length + 2 ^ 32 ≤ 2 ^ 64)
    (checks : Bool) (ending : Option IoErr) (cursor limit : Nat) (hlim : cursor + s'.buf.length ≤ limit) :
    ∃ u footer, anyTree Z checks true s'.buf ending cursor limit = .ok (v, u, footer) ∧ strictEq t u = .ok true := by
  obtain ⟨u, footer, q, h1, -, h2, p, h3, h4⟩ := wf_round_trip hZ (C43_reachable_well_formed ht) ht.root ha h hlen checks (some (fun _ _ _ => none))
    (fun g hg => by cases hg; intro _ _ _; rfl) ending cursor limit hlim
  refine ⟨u, footer, ?_, h2⟩
  simp only [loadFile, h3, Option.some.injEq] at h1
  simp only [anyTree, h3, Parser.setHandler, h1]
  rw [h4]

/-- **C23** (no warnings). If moreover the nodes below the root have non-empty names, and the footer has the default
padding and the usual fields, then the footer is fine and there is not a single warning, so that the handler may be any. -/
theorem C23_no_warnings (Z : Zlib) (hZ : Z.Lawful) {t : Tree} (ht : Reachable t) (ha : (t.nodes t.root).attrs = [])
    (hnames : ∀ i, i < t.size → i ≠ t.root → Anc t t.root i → t.name? i ≠ some "")
    (s s' : Sink) (v : FbxVersion) (f : FooterSpec) (h : treeSession Z s v t f = (.ok (), s')) (hlen : s'.buf.length + 2 ^ 32 ≤ 2 ^ 64)
    (hf : footSized f) (hpad : f.padding = .default) (hu1 : ∀ u, f.unknown1 = some u → usualField1 u) (hu2 : f.unknown2 = none) (hu3 : f.unknown3 = none)
    (checks : Bool) (H : Option Handler) (ending : Option IoErr) (cursor limit : Nat) (hlim : cursor + s'.buf.length ≤ limit) :
    ∃ u footer q, loadFile Z checks H ending cursor limit s'.buf = some (.ok (u, .ok footer), q) ∧ strictEq t u = .ok true ∧ q.log = [] := by
  have hw := C43_reachable_well_formed ht
  obtain ⟨name, F, hn, hF, hr⟩ := root_forest hw
  rw [treeSession_eq hw hF] at h
  have hne : (F.map appendOf).All (fun name _ => name ≠ "") := root_names hw hnames hF
  obtain ⟨footer, q, hP, hlog⟩ := C22_no_warnings Z hZ s s' v _ f h (intact_forest F) (by omega) hne hf hpad hu1 hu2 hu3 false checks everything
    (Parser.everything_ok _ _ _) H ending cursor limit hlim
  rw [Parser.everything_expected, map_denote] at hP
  obtain ⟨u, k1, k2, k3⟩ := parse_load hlen hP
  exact ⟨u, footer, q, k1, written_loaded hw ht.root ha hF k2 k3, hlog⟩

/-! ### Examples -/

/-- The example tree, written. -/
def exWritten : Res WErr Unit × Sink := treeSession Zlib.stored exSink 7400 exTree exFooter

theorem exWritten_ok : treeSession Zlib.stored exSink 7400 exTree exFooter = (.ok (), exWritten.2) := pair_eq (by decide +kernel)

theorem exWritten_len : exWritten.2.buf.length = 352 := by decide +kernel

example : ∃ u footer q, loadFile Zlib.stored true none none 0 (2 ^ 64) exWritten.2.buf = some (.ok (u, footer), q) ∧ strictEq exTree u = .ok true :=
  C23_round_trip Zlib.stored Zlib.stored_lawful exTree_reachable (by decide) exSink _ 7400 exFooter exWritten_ok (by rw [exWritten_len]; decide)
    true none (by intro f hf; cases hf) none 0 (2 ^ 64) (by rw [exWritten_len]; decide)

example : ∃ u footer, anyTree Zlib.stored true true exWritten.2.buf none 0 (2 ^ 64) = .ok (7400, u, footer) ∧ strictEq exTree u = .ok true :=
  C23_any_tree Zlib.stored Zlib.stored_lawful exTree_reachable (by decide) exSink _ 7400 exFooter exWritten_ok (by rw [exWritten_len]; decide)
    true none 0 (2 ^ 64) (by rw [exWritten_len]; decide)

theorem exTree_names : ∀ i, i < exTree.size → i ≠ exTree.root → Anc exTree exTree.root i → exTree.name? i ≠ some "" := by
  intro i hv hi _
  have : ∀ i, i < 6 → i ≠ 0 → exTree.name? i ≠ some "" := by decide
  exact this i hv hi

example : ∃ u footer q, loadFile Zlib.stored true (some (fun _ _ _ => some (PErr.ofData .brokenFbxFooter))) none 0 (2 ^ 64) exWritten.2.buf = some (.ok (u, .ok footer), q) ∧
    strictEq exTree u = .ok true ∧ q.log = [] :=
  C23_no_warnings Zlib.stored Zlib.stored_lawful exTree_reachable (by decide) exTree_names exSink _ 7400 exFooter exWritten_ok (by rw [exWritten_len]; decide)
    ⟨by simp [exFooter], by simp [exFooter], by simp [exFooter]⟩ rfl (by simp [exFooter]) rfl rfl
    true _ none 0 (2 ^ 64) (by rw [exWritten_len]; decide)

/-- A tree whose root has an attribute. -/
def exRooted : Tree := Tree.after [.appendNew 0 "A", .setAttributes 0 [.bool true]]

theorem exRooted_reachable : Reachable exRooted :=
  .step (op := .setAttributes 0 [.bool true]) (.step (op := .appendNew 0 "A") .empty trivial rfl) trivial rfl

/-- Load what was written and compare. -/
def compared (t : Tree) (w : Res WErr Unit × Sink) : Option Bool := match w with
  | (.ok (), s) => match anyTree Zlib.stored true true s.buf none 0 (2 ^ 64) with
    | .ok (_, u, _) => match strictEq t u with
      | .ok b => some b
      | _ => none
    | _ => none
  | _ => none

theorem of_compared {t : Tree} {w : Res WErr Unit × Sink} {b : Bool} (h : compared t w = some b) :
    ∃ s' v u footer, w = (.ok (), s') ∧ anyTree Zlib.stored true true s'.buf none 0 (2 ^ 64) = .ok (v, u, footer) ∧ strictEq t u = .ok b := by
  obtain ⟨_ | _ | _, s⟩ := w
  · simp only [compared] at h
    split at h
    · rename_i v u f hu
      split at h
      · rename_i b' hb; cases h; exact ⟨s, v, u, f, rfl, hu, hb⟩
      · cases h
    · cases h
  · cases h
  · cases h

/-- **C23** (the exception). Attributes of the root are not written, so they are lost. -/
theorem C23_root_attributes_lost :
    ∃ (t u : Tree) (v : FbxVersion) (footer : Except PErr Footer) (s' : Sink), Reachable t ∧ treeSession Zlib.stored exSink 7400 t exFooter = (.ok (), s') ∧
      anyTree Zlib.stored true true s'.buf none 0 (2 ^ 64) = .ok (v, u, footer) ∧ strictEq t u = .ok false := by
  obtain ⟨s', v, u, f, h1, h2, h3⟩ := of_compared (t := exRooted) (w := treeSession Zlib.stored exSink 7400 exRooted exFooter) (b := false) (by decide +kernel)
  exact ⟨exRooted, u, v, f, s', exRooted_reachable, h1, h2, h3⟩

/-! ## C47 Load, write, load -/

/-- What the loader returns. -/
theorem loadFile_ok {checks : Bool} {H : Option Handler} {ending : Option IoErr} {cursor limit : Nat} {bytes : Bytes}
    (hlen : bytes.length + 2 ^ 32 ≤ 2 ^ 64) {t : Tree} {footer : Except PErr Footer} {q : Parser}
    (h : loadFile Z checks H ending cursor limit bytes = some (.ok (t, footer), q)) :
    WF t ∧ t.name? t.root = some "" ∧ (t.nodes t.root).attrs = [] := by
  unfold loadFile at h
  cases hp : anyParser checks true bytes ending cursor limit with
  | err e => rw [hp] at h; cases h
  | panic x => rw [hp] at h; cases h
  | ok p =>
    rw [hp] at h
    simp only [Option.some.injEq] at h
    obtain ⟨ho, -⟩ := C24_any_parser (by omega) hp
    have hsz : Sized (bytes.drop 27) := by
      simp only [Sized, headerLen, List.length_drop]
      omega
    obtain ⟨hi, hL⟩ := open_inv ho hsz
    obtain ⟨ck, v, e, c, sk', lim, hc⟩ := ho
    have hf : p.last = none ∧ p.started = [] := by
      unfold Parser.create at hc
      split at hc
      · cases hc
      · cases hc; exact ⟨rfl, rfl⟩
    have hi' : CInv (headerLen + (bytes.drop 27).length) ⟨{ p with handler := H }, none⟩ := ⟨⟨hi.parser.reader, hi.parser.top, hi.parser.ends⟩, hi.last, hi.fin, fun a h => by cases h⟩
    have := Load.load_spec (Z := Z) hL hi' hf.1 hf.2 _ (Nat.lt_succ_self _)
    rw [h] at this
    generalize drive Z false everything _ 0 [] _ = d at this
    obtain ⟨_ | _ | _, q'⟩ := d
    · obtain ⟨F, f, u, -, h1, h2, h3⟩ := this
      cases h1
      generalize hro : Rose.node "" [] F.roses = ro at h3
      generalize hra : t.root = i at h3
      cases h3 with
      | mk hn hk =>
        simp only [Rose.node.injEq] at hro
        exact ⟨h2, by rw [hn, hro.1], hro.2.1.symm⟩
    · cases this
    · cases this.1

/-- **C47** (load, write, load). Whatever file the first tree was loaded from (by whatever handler): if writing it
succeeds, in whatever version, then loading the result gives a strictly equal tree. -/
theorem C47_load_write_load (Z : Zlib) (hZ : Z.Lawful) {checks : Bool} {H : Option Handler} {ending : Option IoErr} {cursor limit : Nat} {bytes : Bytes}
    (hlen : bytes.length + 2 ^ 32 ≤ 2 ^ 64) {t : Tree} {footer : Except PErr Footer} {q : Parser}
    (hload : loadFile Z checks H ending cursor limit bytes = some (.ok (t, footer), q))
    (s s' : Sink) (v : FbxVersion) (f : FooterSpec) (h : treeSession Z s v t f = (.ok (), s')) (hlen' : s'.buf.length + 2 ^ 32 ≤ 2 ^ 64)
    (checks' : Bool) (H' : Option Handler) (hH : indulgent H') (ending' : Option IoErr) (cursor' limit' : Nat) (hlim : cursor' + s'.buf.length ≤ limit') :
    ∃ u footer' q', loadFile Z checks' H' ending' cursor' limit' s'.buf = some (.ok (u, footer'), q') ∧ strictEq t u = .ok true := by
  obtain ⟨h1, h2, h3⟩ := loadFile_ok hlen hload
  obtain ⟨u, footer, q, h4, -, h5, -⟩ := wf_round_trip hZ h1 h2 h3 h hlen' checks' H' hH ending' cursor' limit' hlim
  exact ⟨u, footer, q, h4, h5⟩

/-- **C47** (same bytes). Strictly equal trees, whether built or loaded, are written in the same way, so that the second
file of C47 is a fixed point. -/
theorem C47_equal_trees_same_bytes {t u : Tree} (ht : WF t) (hu : WF u) (h : strictEq t u = .ok true) (Z : Zlib) (s : Sink) (v : FbxVersion)
    (f : FooterSpec) : treeSession Z s v t f = treeSession Z s v u f := by
  obtain ⟨name, F, hn, hF, hr⟩ := root_forest ht
  obtain ⟨name', G, hn', hG, hr'⟩ := root_forest hu
  obtain ⟨x, h2, h3⟩ := nodesStrictEq_ok ht hu ht.root hu.root hr hr'
  rw [strictEq, h2] at h
  cases h
  have := h3.mp rfl
  simp only [Rose.node.injEq] at this
  rw [treeSession_eq ht hF, treeSession_eq hu hG, Forest.roses_inj this.2.2]

/-- The example file is loaded, the tree is written and loaded again. -/
example : ∃ t f q s' u f' q', loadFile Zlib.stored true none none 0 (2 ^ 64) exWritten.2.buf = some (.ok (t, f), q) ∧
    treeSession Zlib.stored exSink 7400 t exFooter = (.ok (), s') ∧
    loadFile Zlib.stored true none none 0 (2 ^ 64) s'.buf = some (.ok (u, f'), q') ∧ strictEq t u = .ok true := by
  obtain ⟨t, f, q, h1, h2⟩ := C23_round_trip Zlib.stored Zlib.stored_lawful exTree_reachable (by decide) exSink _ 7400 exFooter exWritten_ok (by rw [exWritten_len]; decide)
    true none (by intro f hf; cases hf) none 0 (2 ^ 64) (by rw [exWritten_len]; decide)
  have hlen : exWritten.2.buf.length + 2 ^ 32 ≤ 2 ^ 64 := by rw [exWritten_len]; decide
  have h3 := C47_equal_trees_same_bytes exTree_wf (loadFile_ok hlen h1).1 h2 Zlib.stored exSink 7400 exFooter
  rw [exWritten_ok] at h3
  obtain ⟨u, f', q', h4, h5⟩ := C47_load_write_load Zlib.stored Zlib.stored_lawful hlen h1 exSink _ 7400 exFooter h3.symm hlen
    true none (by intro f hf; cases hf) none 0 (2 ^ 64) (by rw [exWritten_len]; decide)
  exact ⟨t, f, q, _, u, f', q', h1, h3.symm, h4, h5⟩

end Fbx
