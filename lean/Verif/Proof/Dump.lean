import Verif.Proof.AnyLoader
import Verif.Proof.Debug
import Verif.Props.ParserHistory
import Verif.Spec.Dump

/-! # `dump-pull-parser-events` prints the outline -/

namespace Fbx
open Reader Parser Spec
variable {Z : Zlib} {α : Type} {S : Dump.Shows}

/-! ## Texts -/

theorem dump_indent (depth : Nat) (t : Text) : Dump.indent depth ++ t ++ ['\n'] = outlineLine depth t := by
  simp only [Dump.indent, outlineLine, Nat.mul_comm]

theorem dump_utf8 (s : String) : utf8 s = strBytes s := rfl

theorem dump_typeName (t : AttrType) : Dump.typeName t = kind t := by cases t <;> rfl

theorem dump_length (v : AttrValue) : Dump.lengthText S v = attributeText (lengthShown S v) := by
  cases v <;> simp only [Dump.lengthText, lengthShown, lengthOf, Dump.attributeLabel, attributeText, Debug.attr_compact, Dump.typeAndLen, summary,
    dump_typeName, List.append_assoc, dump_utf8, Debug.int_decimal]

theorem dump_full (v : AttrValue) : Dump.fullText S v = attributeText (fullShown S v) := by
  cases v <;> simp only [Dump.fullText, fullShown, lengthOf, Dump.attributeLabel, attributeText, Debug.attr_compact, Dump.typeAndLen, summary,
    dump_typeName, List.append_assoc, dump_utf8, Debug.int_decimal, Dump.valueText, Debug.list_compact, contentText, content, Debug.map_truth]

theorem dump_footer (f : Footer) : Dump.footer f = lines (footerLines f) := by
  have hb : ∀ bs : Bytes, lines (block ['['] [']'] (bs.map (fun x => [decimal x.toNat]))) = Debug.list true (bs.map (fun y => Debug.int y.toNat)) ∧
      Debug.Good (block ['['] [']'] (bs.map (fun x => [decimal x.toNat]))) := by
    intro bs
    have := Debug.list_ones (f := fun x : UInt8 => decimal x.toNat) bs (fun x => Debug.decimal_line _)
    rw [List.map_map] at this
    exact this
  have ht := Debug.tuple_pretty ['F', 'b', 'x', 'V', 'e', 'r', 's', 'i', 'o', 'n'] (Debug.good_one (Debug.decimal_line f.version.toNat))
  have hg : Debug.Good (block ['F', 'b', 'x', 'V', 'e', 'r', 's', 'i', 'o', 'n', '('] [')'] [[decimal f.version.toNat]]) := by
    refine Debug.good_block (by decide) (by decide) ?_
    intro ls hl
    rw [List.mem_singleton] at hl
    rw [hl]
    exact Debug.good_one (Debug.decimal_line _)
  have := Debug.struct_pretty ['F', 'b', 'x', 'F', 'o', 'o', 't', 'e', 'r']
    (fs := [(['u', 'n', 'k', 'n', 'o', 'w', 'n', '1'], block ['['] [']'] (f.unknown1.map (fun x => [decimal x.toNat]))),
      (['p', 'a', 'd', 'd', 'i', 'n', 'g', '_', 'l', 'e', 'n'], [decimal f.paddingLen]),
      (['u', 'n', 'k', 'n', 'o', 'w', 'n', '2'], block ['['] [']'] (f.unknown2.map (fun x => [decimal x.toNat]))),
      (['f', 'b', 'x', '_', 'v', 'e', 'r', 's', 'i', 'o', 'n'], block ['F', 'b', 'x', 'V', 'e', 'r', 's', 'i', 'o', 'n', '('] [')'] [[decimal f.version.toNat]]),
      (['u', 'n', 'k', 'n', 'o', 'w', 'n', '3'], block ['['] [']'] (f.unknown3.map (fun x => [decimal x.toNat])))])
    (by simp) (by
      intro x hx
      simp only [List.mem_cons, List.not_mem_nil, or_false] at hx
      rcases hx with rfl | rfl | rfl | rfl | rfl
      · exact ⟨by simp, (hb _).2⟩
      · exact ⟨by simp, Debug.good_one (Debug.decimal_line _)⟩
      · exact ⟨by simp, (hb _).2⟩
      · exact ⟨by simp, hg⟩
      · exact ⟨by simp, (hb _).2⟩)
  refine Eq.trans ?_ this
  simp only [List.map_cons, List.map_nil, (hb _).1, Dump.footer, Debug.lines_one, Debug.int_decimal]
  simp only [Debug.lines_one] at ht
  rw [ht]
  rfl

theorem dump_close (f : Except PErr Footer) : Dump.close S f = closingText S f := by
  cases f with
  | ok f =>
    simp only [Dump.close, closingText, footerText, dump_footer, Debug.lines_labelled]
    simp only [List.cons_append, List.nil_append]
  | error e => rfl

/-! ## Attributes -/

theorem dump_loop {L : Nat} (hL : L + 2 ^ 32 ≤ 2 ^ 64) (m : Skipping) (e : Ending) (total depth : Nat) (l : Loader α) (text : α → Text)
    (onError : PErr → Dump.End) : ∀ (n next : Nat) (s : Client) (out : Text),
    CInv L s → s.attrs = some ⟨total, n, next⟩ → s.parser.health = .running → tolerant s.parser → s.parser.reader.skipping = m → s.parser.reader.ending = e →
    ∃ ap : AP, look ap.parser = (attributesFor Z m e false total (List.replicate n l) n next (look s.parser)).ahead ∧
      ap.parser.log = (attributesFor Z m e false total (List.replicate n l) n next (look s.parser)).warnings ++ s.parser.log ∧
      Dump.loop Z l text onError depth (n + 1) ⟨s.parser, ⟨total, n, next⟩⟩ out =
        (match (attributesFor Z m e false total (List.replicate n l) n next (look s.parser)).error with | some x => onError x | none => .ok, ap,
          out ++ (((attributesFor Z m e false total (List.replicate n l) n next (look s.parser)).values.filterMap (Option.map text)).map
            (outlineLine depth)).flatten) ∧
      ((attributesFor Z m e false total (List.replicate n l) n next (look s.parser)).error = none →
        ap.parser.health = .running ∧ ap.parser.handler = s.parser.handler ∧ ∃ h at_, Runs (α := α) Z s h ⟨ap.parser, at_⟩ ∧ h.calm ∧ h.events = 0) := by
  intro n
  induction n with
  | zero =>
    intro next s out hi ha hrun ht hm hend
    have hl := AP.load_none (Z := Z) false l ⟨s.parser, ⟨total, 0, next⟩⟩ hrun rfl
    obtain ⟨sp, sa⟩ := s
    refine ⟨⟨sp, ⟨total, 0, next⟩⟩, rfl, rfl, ?_, fun _ => ⟨hrun, rfl, [], _, .nil, (fun _ _ h => by cases h), rfl⟩⟩
    simp only [Dump.loop, hl, List.replicate_zero, attributesFor, List.filterMap_nil, List.map_nil, List.flatten_nil, List.append_nil]
  | succ n ih =>
    intro next s out hi ha hrun ht hm hend
    obtain ⟨o, t, hc, hans, hhd⟩ := answers_loadFor (Z := Z) hL hi ha (by simp) hrun ht false l
    obtain ⟨ap, hap, hlo⟩ := load_call ha hc
    rw [hend, hm] at hans
    simp only [LoadAnswersFor] at hans
    simp only [List.replicate_succ, attributesFor]
    rcases hx : (look s.parser).skip m e (next - (look s.parser).pos) with ⟨_ | x, here⟩
    · rw [hx] at hans
      simp only at hans ⊢
      obtain ⟨hlook, hlog, hans⟩ := hans
      generalize inFrontFor Z e false l here.bytes = x at *
      cases hl : x.answer with
      | error k =>
        rw [hl] at hans
        obtain ⟨rfl, h3⟩ := hans
        subst hap
        refine ⟨ap, hlook, hlog, ?_, by simp⟩
        simp only at hlo ⊢
        rw [Dump.loop]
        simp only [hlo, List.filterMap_nil, List.map_nil, List.flatten_nil, List.append_nil]
      | ok v =>
        rw [hl] at hans
        simp only at hans ⊢
        obtain ⟨rfl, h3, h4⟩ := hans
        have hcalm : ∀ x, (Outcome.value v : Outcome α) ≠ .panic x := by intro x h; cases h
        obtain ⟨c1, c2⟩ := call_skipping hL hi hc hcalm
        obtain ⟨aq, g1, g2, g3, g4⟩ := ih (here.pos + x.len) t (out ++ outlineLine depth (text v)) ((call_did hL hi hc).inv hi hcalm) h4 h3
          (fun f hf => ht f (by rw [← hhd]; exact hf)) (c1.trans hm) (c2.trans hend)
        have hat : ap = ⟨t.parser, ⟨total, n, here.pos + x.len⟩⟩ := by
          rw [hap] at h4 ⊢
          simp only [Option.some.injEq, Nat.add_sub_cancel] at h4
          rw [← h4]
        rw [hlook] at g1 g2 g3 g4
        refine ⟨aq, g1, by rw [g2, hlog, List.append_assoc], ?_, ?_⟩
        · generalize attributesFor Z m e false total (List.replicate n l) n (here.pos + x.len) (here.move x.read) = r at *
          simp only at hlo
          rw [hat] at hlo
          rw [Dump.loop]
          simp only [hlo, List.append_assoc]
          rw [show Dump.indent depth ++ (text v ++ ['\n']) = outlineLine depth (text v) by rw [← dump_indent, List.append_assoc], g3]
          simp only [List.filterMap_cons, Option.map_some, List.map_cons, List.flatten_cons, List.append_assoc]
        · intro he
          obtain ⟨k1, k2, h, at_, k3, k4, k5⟩ := g4 he
          refine ⟨k1, k2.trans hhd, _, at_, Runs.trans (Runs.snoc .nil (by simp) hc) (by
            intro c x hm
            simp only [List.nil_append, List.mem_singleton, Prod.mk.injEq] at hm
            cases hm.2) k3, ?_, ?_⟩
          · refine calm_append.mpr ⟨?_, k4⟩
            intro c x hm
            simp only [List.nil_append, List.mem_singleton, Prod.mk.injEq] at hm
            cases hm.2
          · simp only [History.events, List.countP_append] at k5 ⊢
            rw [k5]
            rfl
    · rw [hx] at hans
      obtain ⟨rfl, h2, h3, h4⟩ := hans
      subst hap
      refine ⟨ap, h2, h3, ?_, by simp⟩
      simp only at hlo ⊢
      rw [Dump.loop]
      simp only [hlo, List.filterMap_nil, List.map_nil, List.flatten_nil, List.append_nil]

/-! ## Depth -/

theorem ite_opened (c : Prop) [Decidable c] (a : Ahead) (j k : Nat) (o : Option IoErr) :
    (if c then (none, a.move j) else (o, a.move k) : Option IoErr × Ahead).2.opened = a.opened := by
  split <;> rfl

theorem skip_opened {m : Skipping} {e : Ending} {k : Nat} {a b : Ahead} {x : Option IoErr} (h : a.skip m e k = (x, b)) : b.opened = a.opened := by
  have : (a.skip m e k).2.opened = a.opened := by
    cases m with
    | reads => rfl
    | seeks far => exact ite_opened _ a _ _ _
  rw [h] at this
  exact this

theorem attributesFor_opened (m : Skipping) (e : Ending) (b : Bool) (total : Nat) : ∀ (ls : List (Loader α)) (n next : Nat) (a : Ahead),
    (attributesFor Z m e b total ls n next a).ahead.opened = a.opened := by
  intro ls
  induction ls with
  | nil => intro n next a; rfl
  | cons l ls ih =>
    intro n next a
    cases n with
    | zero => exact ih 0 next a
    | succ n =>
      simp only [attributesFor]
      rcases hx : a.skip m e (next - a.pos) with ⟨_ | x, here⟩
      · simp only
        generalize inFrontFor Z e b l here.bytes = x at *
        have hmv : (here.move x.read).opened = a.opened := (show (here.move x.read).opened = here.opened from rfl).trans (skip_opened hx)
        cases x.answer with
        | error k => exact hmv
        | ok v => exact (ih n _ _).trans hmv
      · exact skip_opened hx

/-- A node which starts is one more open node, one which ends is one less. -/
def deepens (a : Ahead) : Verdict × Option (Warning × SynPos) × Ahead → Prop
  | (.starts _ _, _, b) => b.opened.length = a.opened.length + 1
  | (.ends, _, b) => a.opened.length = b.opened.length + 1
  | _ => True

theorem header_deepens (a : Ahead) (checks : Bool) : deepens a (a.header checks) := by
  unfold Ahead.header
  split
  · trivial
  split
  · simp only
    split
    · trivial
    · rename_i n outer ho
      split
      · trivial
      · simp only [deepens, ho, List.length_cons]
  · simp only [Ahead.start]
    split
    · trivial
    split
    · trivial
    · split
      · trivial
      · simp only [deepens, Ahead.enter]
        split
        · rename_i ho
          have : a.opened = [] := ho
          simp [this]
        · rename_i m outer ho
          have : a.opened = m :: outer := ho
          simp [this]

theorem nextFrom_deepens (m : Skipping) (e : Ending) (a : Ahead) (checks : Bool) : deepens a (a.nextFrom m e checks) := by
  unfold Ahead.nextFrom
  rcases hx : a.skip m e a.unread with ⟨_ | x, b⟩
  · have hb := skip_opened hx
    have : deepens b (b.resume checks) := by
      unfold Ahead.resume
      split
      · exact header_deepens b checks
      · rename_i n outer ho
        split
        · trivial
        split
        · simp only [deepens, ho, List.length_cons]
        · exact header_deepens b checks
    simp only
    revert this
    rcases b.resume checks with ⟨vd, w, c⟩
    cases vd <;> simp only [deepens, hb] <;> exact id
  · trivial

/-! ## The program -/

theorem Spec.Prints.after {v : FbxVersion} {fmt : Dump.Format} {r : Outline} {text before : Text} {ws log : List (Warning × SynPos)}
    {x : Dump.End × List (Warning × SynPos) × Text} (h : Prints S v fmt r (before ++ text) (ws ++ log) x) : Prints S v fmt (r.after text ws) before log x := by
  unfold Prints at h ⊢
  simp only [Outline.after]
  simp only [List.append_assoc] at h ⊢
  exact h

/-- What of the result is visible. -/
def Dump.visible (x : Dump.End × Parser × Text) : Dump.End × List (Warning × SynPos) × Text := (x.1, x.2.1.log, x.2.2)

theorem dump_run {checks : Bool} {v : FbxVersion} {r0 : Reader} {p : Parser} {m : Skipping} {e : Ending}
    (hp : Parser.create checks v r0 = .ok p) (hpos : r0.position = headerLen) (hsz : Sized r0.rest) (hm : r0.skipping = m) (he : r0.ending = e)
    (fmt : Dump.Format) (l : Loader α) (text : α → Text) (onError : PErr → Dump.End)
    (hattr : ∀ depth a out, Dump.attributes S Z depth a out fmt =
      Dump.loop Z l (fun v => attributeText (text v)) onError depth (a.attrs.rest + 1) a out)
    (hshow : ∀ count b, attributesShown S Z m e count b fmt = allWith Z m e l text count b)
    (herr : ∀ x, onError x = if fmt = .type then .unwrapped x else .failed x) :
    ∀ (n : Nat) (out : Text) (h : History α) (s : Client), Runs Z ⟨p, none⟩ h s → h.calm → s.parser.health = .running → tolerant s.parser →
      Prints S v fmt (outline S Z m e checks fmt n (look s.parser)) out s.parser.log
        (Dump.visible (Dump.run S Z fmt n (look s.parser).opened.length s.parser out)) ∧
      (2 * r0.rest.length + 2 ≤ n + h.events → (outline S Z m e checks fmt n (look s.parser)).close ≠ .more) := by
  intro n
  induction n with
  | zero =>
    intro out h s hr hn hrun ht
    refine ⟨by simp [outline, Prints, Dump.run, Dump.visible], fun hle => ?_⟩
    obtain ⟨bytes, ending, cursor, position, seekable, limit⟩ := r0
    simp only at hpos hsz
    subst hpos
    have h1 := C27_terminates ⟨_, _, _, _, _, _, hp⟩ hsz hr hn
    have h2 := Nat.div_le_self bytes.length (if p.version < 7500 then 13 else 25)
    simp only at hle
    omega
  | succ n ih =>
    intro out h s hr hn hrun ht
    obtain ⟨bytes, ending, cursor, position, seekable, limit⟩ := r0
    simp only at hpos hsz
    subst hpos
    obtain ⟨hi, hL⟩ := open_inv ⟨_, _, _, _, _, _, hp⟩ hsz
    have hst := Opens.state ⟨_, _, _, _, _, _, hp⟩
    have hpe := create_eq hp
    have hfr := hr.frame hL hi hn
    have hv : s.parser.version = v := hfr.1.trans (by rw [hpe])
    have hck : s.parser.checks = checks := hfr.2.trans (by rw [hpe])
    obtain ⟨hm1, he1⟩ := hr.source hL hi hn
    have hms : s.parser.reader.skipping = m := hm1.trans (by rw [hpe]; exact hm)
    have hes : s.parser.reader.ending = e := he1.trans (by rw [hpe]; exact he)
    have hkids := hr.kids hL hi hn hst.2.1 hrun
    obtain ⟨o, t, hc, hans⟩ := answers_nextFrom (Z := Z) (α := α) hL (hr.inv hL hi hn) hrun ht (fun n outer h => (hkids n outer h).1)
    rw [hck, hms, hes] at hans
    have hne := nextEvent_call_as hc
    have hcalm : ∀ {o' : Outcome α}, (∀ x, o' ≠ .panic x) → (h ++ [((.next : Call α), o')]).calm := by
      intro o' ho
      refine calm_append.mpr ⟨hn, ?_⟩
      intro c x hm
      simp only [List.mem_singleton, Prod.mk.injEq] at hm
      exact ho x hm.2.symm
    have hhd : ∀ {u : Parser}, u.handler = s.parser.handler → tolerant u := fun hu f hf => ht f (hu ▸ hf)
    have hev1 : ∀ ev : Event, (h ++ [((.next : Call α), (.event ev : Outcome α))] : History α).events = h.events + 1 := by
      intro ev
      simp [History.events, List.countP_append, Outcome.isEvent]
    have hdeep := nextFrom_deepens m e (look s.parser) checks
    obtain ⟨⟨vd, w, bb⟩, hx⟩ : ∃ x, (look s.parser).nextFrom m e checks = x := ⟨_, rfl⟩
    rw [hx] at hans hdeep
    rw [Dump.run]
    simp only [outline]
    rw [hx]
    cases vd with
    | fails kd =>
      obtain ⟨rfl, h2, h3, h4⟩ := hans
      simp only at hne
      simp only [hne]
      refine ⟨?_, by simp⟩
      simp only [Prints, Dump.visible, h2, List.append_nil]
    | overflows =>
      cases hans
      simp only at hne
      simp only [hne]
      refine ⟨?_, by simp⟩
      simp only [Prints, Dump.visible, List.append_nil]
      trivial
    | finishes =>
      obtain ⟨rfl, h2, footer, rfl, h4⟩ := hans
      simp only at hne
      simp only [hne.1]
      refine ⟨⟨footer, rfl, ?_, ?_⟩, by simp⟩
      · simp only [Dump.visible, dump_close, List.append_nil]
      · rw [hv] at h4
        exact h4
    | ends =>
      obtain ⟨rfl, h2, h3, h4⟩ := hans
      simp only at hne
      simp only [deepens] at hdeep
      simp only [hne.1]
      have hd := call_did hL (hr.inv hL hi hn) hc
      have hr' := Runs.snoc hr hn hc
      have hn' := hcalm (o' := .event .endNode) (by simp)
      have hht : t.parser.handler = s.parser.handler := by
        cases hd with
        | event hrun he hi' ha => exact he.frame.2.2
      obtain ⟨i1, i2⟩ := ih (out ++ outlineLine bb.opened.length endText) _ t hr' hn' h4 (hhd hht)
      rw [h3, h2] at i1
      rw [h3] at i2
      rw [if_neg (by omega), show (look s.parser).opened.length - 1 = bb.opened.length by omega]
      refine ⟨?_, fun hle => ?_⟩
      · refine Prints.after ?_
        have : out ++ Dump.indent bb.opened.length ++ ['N', 'o', 'd', 'e', ' ', 'e', 'n', 'd', '\n'] = out ++ outlineLine bb.opened.length endText := by
          rw [← dump_indent]
          simp only [endText, List.append_assoc, List.cons_append, List.nil_append]
        rw [this]
        exact i1
      · refine i2 ?_
        rw [hev1]
        simp only at hle ⊢
        omega
    | starts name c =>
      obtain ⟨rfl, h2, h3, h4⟩ := hans
      simp only at hne
      simp only [deepens] at hdeep
      have hd := call_did hL (hr.inv hL hi hn) hc
      have hr' := Runs.snoc hr hn hc
      have hn' := hcalm (o' := .event (.startNode name c)) (by simp)
      have hht : t.parser.handler = s.parser.handler ∧ t.attrs = some ⟨c, c, t.parser.reader.position⟩ := by
        cases hd with
        | event hrun he hi' ha => exact ⟨he.frame.2.2, ha⟩
      obtain ⟨c1, c2⟩ := call_skipping hL (hr.inv hL hi hn) hc (by simp)
      obtain ⟨ap, g1, g2, g3, g4⟩ := dump_loop (Z := Z) hL m e c ((look s.parser).opened.length + 1) l (fun v => attributeText (text v)) onError c
        t.parser.reader.position t (out ++ outlineLine (look s.parser).opened.length (startText S name)) (hr'.inv hL hi hn') hht.2 h4 (hhd hht.1)
        (c1.trans hms) (c2.trans hes)
      rw [h3, show t.parser.reader.position = bb.pos by rw [← h3]; rfl] at g1 g2 g3 g4
      simp only
      have hof : AP.ofParser t.parser = .ok ⟨t.parser, ⟨c, c, bb.pos⟩⟩ := by
        have h5 := hne.2
        rw [hht.2] at h5
        rw [show bb.pos = t.parser.reader.position by rw [← h3]; rfl]
        simp only [attrsOf] at h5
        unfold AP.ofParser at h5 ⊢
        split at h5
        · rename_i a ha
          split at ha
          · cases ha
          · cases ha
            cases h5
            rfl
        · cases h5
      have hline : out ++ Dump.indent (look s.parser).opened.length ++ ['N', 'o', 'd', 'e', ' ', 's', 't', 'a', 'r', 't', ':', ' '] ++ S.str name ++ ['\n'] =
          out ++ outlineLine (look s.parser).opened.length (startText S name) := by
        rw [← dump_indent]
        simp only [startText, List.append_assoc, List.cons_append, List.nil_append]
      simp only [hne.1, hof, hattr, hline, hshow, allWith]
      have hop := attributesFor_opened (Z := Z) m e false c (List.replicate c l) c bb.pos bb
      rw [show bb.opened.length - 1 = (look s.parser).opened.length by omega]
      rw [← hdeep] at g3
      rw [← hdeep]
      have hsh : ∀ vals : List (Option α), ((vals.filterMap (Option.map (fun v => attributeText (text v)))).map (outlineLine bb.opened.length)) =
          (vals.filterMap (Option.map text)).map (fun t => outlineLine bb.opened.length (attributeText t)) := by
        intro vals
        induction vals with
        | nil => rfl
        | cons x xs ih => cases x <;> simp [ih]
      rw [hsh] at g3
      generalize attributesFor Z m e false c (List.replicate c l) c bb.pos bb = r at g1 g2 g3 g4 hop ⊢
      simp only [g3]
      cases he : r.error with
      | some x =>
        simp only
        refine ⟨?_, by simp⟩
        rw [herr]
        by_cases hf : fmt = .type
        · simp only [if_pos hf, Prints, Dump.visible, g2, h2, List.append_assoc]
        · simp only [if_neg hf, Prints, Dump.visible, g2, h2, List.append_assoc]
      | none =>
        simp only
        obtain ⟨g4, g5, hz, at_, hr2, hn2, hev⟩ := g4 he
        obtain ⟨i1, i2⟩ := ih (out ++ outlineLine (look s.parser).opened.length (startText S name) ++
          ((r.values.filterMap (Option.map text)).map (fun t => outlineLine bb.opened.length (attributeText t))).flatten) _ ⟨ap.parser, at_⟩
          (hr'.trans hn' hr2) (calm_append.mpr ⟨hn', hn2⟩) g4 (hhd (g5.trans hht.1))
        simp only [g1, g2, h2, hop] at i1 i2
        refine ⟨?_, fun hle => ?_⟩
        · refine Prints.after ?_
          simp only [List.append_assoc] at i1 ⊢
          exact i1
        · refine i2 ?_
          rw [show ∀ a b : History α, (a ++ b).events = a.events + b.events from fun a b => List.countP_append, hev1, hev]
          show 2 * bytes.length + 2 ≤ _
          have hle' : 2 * bytes.length + 2 ≤ n + 1 + h.events := hle
          omega

end Fbx
