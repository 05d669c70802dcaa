import Verif.Props.WriterLayout

/-! # Properties C08–C10, C12, C14–C17: single calls of the writer -/

namespace Fbx
open Spec Writer

/-! A concrete reachable situation for the examples: one open node "A" with one attribute. -/

/-- The device after `Writer::new`, `new_node("A")`, `append_i32(5)`, with the given failures from now on. -/
def exOpen (fault : Nat → Option Fault) : Writer :=
  ⟨⟨signature ++ [0xe8, 0x1c, 0, 0] ++ [0, 0, 0, 0, 0, 0, 0, 0, 0, 0, 0, 0, 1, 0x41, 0x49, 5, 0, 0, 0], 46, fault⟩, 7400,
    [⟨27, 41, ⟨0, 1, 0, 1⟩, false, false⟩]⟩

/-- `exOpen` is what those calls lead to. -/
theorem exOpen_reach : Reach Zlib.stored ⟨exOpen (fun _ => none), true⟩ := by
  have h0 : Reach Zlib.stored ⟨⟨⟨signature ++ [0xe8, 0x1c, 0, 0], 27, fun _ => none⟩, 7400, []⟩, false⟩ := by
    refine .start ⟨[], 0, fun _ => none⟩ ⟨signature ++ [0xe8, 0x1c, 0, 0], 27, fun _ => none⟩ 7400 _ ?_
    exact (new_ok_iff _ rfl 7400 _ _).mpr ⟨by simp [supported], rfl, rfl⟩
  refine .step _ _ (.append (.i32 5)) (.ok ()) (.step _ _ (.newNode "A") (.ok ()) h0 rfl trivial) rfl trivial

example : SessionOk ⟨exOpen (fun _ => none), true⟩ := reach_ok _ _ exOpen_reach

/-! ## C08 Unbalanced use -/

/-- `close_node` without an open node: an error, nothing changes. On any device. -/
theorem C08_close_none (w : Writer) (h : w.opened = []) : closeNode w = (.err .noNodesToClose, w) := by
  simp [closeNode, finalizeAttributes, h]

/-- `finalize` with open nodes: an error with their number, nothing changes. On any device. -/
theorem C08_finalize_open (w : Writer) (f : FooterSpec) (h : w.opened ≠ []) :
    finalize f w = (.err (.unclosedNode w.opened.length), w) := by
  simp [finalize, h]

/-- The number of open nodes is the number of (successful) `new_node` calls minus that of `close_node` calls. -/
theorem C08_open_count (Z : Zlib) (ops : List Op) : ∀ (w w' : Writer), run Z ops w = (.ok (), w') →
    w'.opened.length + closes ops = w.opened.length + opens ops := by
  induction ops with
  | nil => intro w w' h; simp only [run, M.pure_ok_iff] at h; rw [h.2]; rfl
  | cons o os ih =>
    intro w w' h
    simp only [run, M.bind_ok_iff] at h
    obtain ⟨_, w1, h1, h2⟩ := h
    have k := ih w1 w' h2
    cases o with
    | newNode name =>
      have := newNode_depth name w w1 _ h1
      simp only [opens, closes] at *; omega
    | closeNode =>
      have := closeNode_depth w w1 _ h1
      simp only [opens, closes] at *; omega
    | append a =>
      have := congrArg List.length (append_opened Z a w w1 _ h1)
      have hb : (bumpTop w.opened).length = w.opened.length := by cases w.opened <;> rfl
      simp only [opens, closes] at *; omega

/-- A session whose calls leave nodes open fails with their number, on any device. -/
theorem C08_session_unclosed (Z : Zlib) (s s1 : Sink) (v : FbxVersion) (w w' : Writer) (ops : List Op) (f : FooterSpec)
    (hn : new s v = (.ok w, s1)) (h : run Z ops w = (.ok (), w')) (ho : closes ops < opens ops) :
    session Z s v ops f = (.err (.unclosedNode (opens ops - closes ops)), w'.sink) := by
  have hw : w.opened = [] := by
    have := (new_ok_iff s.clear rfl v w.clear s1.clear).mp (new_calm _ _ _ _ hn)
    exact congrArg Writer.opened this.2.1
  have hc := C08_open_count Z ops w w' h
  rw [hw] at hc
  simp only [List.length_nil] at hc
  have hne : w'.opened ≠ [] := by intro hz; rw [hz] at hc; simp at hc; omega
  have hlen : w'.opened.length = opens ops - closes ops := by omega
  simp only [session, hn]
  rw [bind_eq h, C08_finalize_open w' f hne, hlen]

example : (session Zlib.stored exSink 7400 [.newNode "A", .newNode "B", .closeNode] exFooter).1 = .err (.unclosedNode 1) := by
  decide +kernel
example : (session Zlib.stored exSink 7400 [.newNode "A", .closeNode, .closeNode] exFooter).1 = .err .noNodesToClose := by
  decide +kernel

/-! ## C09 Name length -/

theorem reach_top (Z : Zlib) (w : Writer) (alive : Bool) (h : Reach Z ⟨w, alive⟩) : TopOk w.sink.pos w.opened := by
  have := reach_ok Z _ h
  intro n r hn
  simp only [SessionOk, Writer.Inv, hn] at this
  exact .inr this.2.1

/-- On a working device: too long names are rejected with their length; no byte is written, no node opened. -/
theorem C09_long_name (Z : Zlib) (w : Writer) (alive : Bool) (hr : Reach Z ⟨w, alive⟩) (hf : w.sink.fault = fun _ => none)
    (name : String) (hl : 255 < (utf8 name).length) :
    ∃ w', newNode name w = (.err (.nodeNameTooLong (utf8 name).length), w') ∧ w'.sink = w.sink ∧
      w'.opened.length = w.opened.length := by
  rw [newNode, bind_eq (finalizeAttributes_free hf (reach_top Z w alive hr))]
  simp only [M.modify_bind]
  rw [utf8_eq] at *
  rw [if_neg (by omega)]
  refine ⟨_, rfl, modifyTop_sink _ _, ?_⟩
  cases w.opened <;> rfl

/-- On a working device with room: names of up to 255 bytes are accepted. (They are written completely:
`C06_layout`.) -/
theorem C09_short_name (Z : Zlib) (w : Writer) (alive : Bool) (hr : Reach Z ⟨w, alive⟩) (hf : w.sink.fault = fun _ => none)
    (name : String) (hl : (utf8 name).length ≤ 255) (hp : w.sink.pos + 280 < 2 ^ 64) :
    ∃ w', newNode name w = (.ok (), w') ∧ w'.opened.length = w.opened.length + 1 ∧
      w'.sink.buf = Sink.store w.sink.buf w.sink.pos (header w.version.toNat 0 0 0 (utf8 name).length ++ utf8 name) := by
  have hsz : headerSize w.version.toNat ≤ 25 := by simp only [headerSize, width]; split <;> omega
  have := newNode_free hf (reach_top Z w alive hr) name (by omega)
  rw [if_neg (by omega)] at this
  rcases hx : newNode name w with ⟨q, w'⟩
  rw [hx] at this
  simp only at this
  subst this
  have hd := newNode_depth name w w' _ hx
  refine ⟨w', rfl, hd, ?_⟩
  rw [newNode, bind_eq (finalizeAttributes_free hf (reach_top Z w alive hr))] at hx
  simp only [M.modify_bind] at hx
  rw [if_pos (by rw [← utf8_eq]; omega)] at hx
  generalize hg : modifyTop (fun n => { n with hasChild := true }) { w with opened := finTop w.sink.pos w.opened } = w1 at hx
  have hs : w1.sink = w.sink := by rw [← hg, modifyTop_sink]
  have hv : w1.version = w.version := by
    rw [← hg]; simp only [modifyTop]; split <;> rfl
  have hf1 : Free w1 := by rw [Free, hs]; exact hf
  have h75 : (7500 : UInt32).toNat = 7500 := rfl
  have hw : writeNodeHeader ⟨0, 0, 0, (strBytes name).length⟩ w1 =
      (.ok (), wrote w1 (header w.version.toNat 0 0 0 (strBytes name).length)) := by
    have hl : ∀ k n, leBytes (k + 1) n ≠ [] := by intro k n; simp [leBytes]
    simp only [writeNodeHeader, M.get_bind, hv, UInt32.lt_iff_toNat_lt, h75, header, width, le_eq]
    by_cases hlt : w.version.toNat < 7500
    · simp only [hlt, if_true, putU32, Nat.two_pow_pos]
      rw [bind_eq (put_first hf1 (hl 3 _) (by simp [hs]; omega)), bind_eq (put_wrote (by simp [hs]; omega)),
        bind_eq (put_wrote (by simp [hs]; omega)), put_wrote (by simp [hs]; omega)]
    · simp only [hlt, if_false]
      rw [bind_eq (put_first hf1 (hl 7 _) (by simp [hs]; omega)), bind_eq (put_wrote (by simp [hs]; omega)),
        bind_eq (put_wrote (by simp [hs]; omega)), put_wrote (by simp [hs]; omega)]
  rw [bind_eq (tell_free hf1), bind_eq hw, bind_eq (put_wrote (by rw [hs, header_length, ← utf8_eq]; omega)),
    bind_eq (tell_free (wrote_free _ _)), M.modify_apply] at hx
  simp only [Prod.mk.injEq, true_and] at hx
  rw [← hx, utf8_eq]
  simp only [wrote, hs]

/-- On any device and in any state: the error is only returned for names longer than 255 bytes, with their length. -/
theorem C09_only_long (w w' : Writer) (name : String) (n : Nat) (h : newNode name w = (.err (.nodeNameTooLong n), w')) :
    255 < (utf8 name).length ∧ n = (utf8 name).length := by
  have hput : ∀ bs w, M.wp (put bs) (fun _ _ => True) (fun e _ => ∀ n, e ≠ .nodeNameTooLong n) (fun _ _ => True) w := by
    intro bs w
    exact wp_put (fun _ _ => trivial) (fun _ e n h => by cases h)
  have htell : ∀ w, M.wp (io Sink.tell) (fun _ _ => True) (fun e _ => ∀ n, e ≠ .nodeNameTooLong n) (fun _ _ => True) w := by
    intro w
    exact wp_tell (fun _ _ => trivial) (fun _ e n h => by cases h)
  have hb : ∀ {α β : Type} {m : M WErr Writer α} {f : α → M WErr Writer β} {E : WErr → Writer → Prop} {w : Writer},
      M.wp m (fun _ _ => True) E (fun _ _ => True) w → (∀ a w, M.wp (f a) (fun _ _ => True) E (fun _ _ => True) w) →
      M.wp (m >>= f) (fun _ _ => True) E (fun _ _ => True) w := by
    intro α β m f E w h1 h2
    rw [M.wp_bind]
    exact M.wp_mono h1 (fun a w _ => h2 a w) (fun _ _ h => h) (fun _ _ h => h)
  have : M.wp (newNode name) (fun _ _ => True)
      (fun e _ => ∀ n, e = .nodeNameTooLong n → 255 < (utf8 name).length ∧ n = (utf8 name).length) (fun _ _ => True) w := by
    have weak : ∀ {α : Type} {m : M WErr Writer α} {w : Writer},
        M.wp m (fun _ _ => True) (fun e _ => ∀ n, e ≠ .nodeNameTooLong n) (fun _ _ => True) w →
        M.wp m (fun _ _ => True) (fun e _ => ∀ n, e = .nodeNameTooLong n → 255 < (utf8 name).length ∧ n = (utf8 name).length)
          (fun _ _ => True) w := by
      intro α m w h
      exact M.wp_mono h (fun _ _ h => h) (fun _ _ h n he => absurd he (h n)) (fun _ _ h => h)
    unfold newNode
    refine hb (weak ?_) (fun _ w => ?_)
    · unfold finalizeAttributes
      rw [M.wp_bind, M.wp_get]
      split
      · trivial
      · simp only [M.wp_ite]
        split
        · trivial
        · refine hb (htell _) (fun _ w => hb ?_ (fun _ w => trivial))
          rw [M.wp_assert]; split <;> trivial
    · rw [M.wp_bind, M.wp_modify]
      simp only [M.wp_ite]
      split
      · refine weak (hb (htell _) (fun _ w => hb ?_ (fun _ w => hb (hput _ _) (fun _ w => hb (htell _) (fun _ w => trivial)))))
        unfold writeNodeHeader
        rw [M.wp_bind, M.wp_get]
        simp only [M.wp_ite]
        have hu : ∀ n e w, (∀ k, e ≠ .nodeNameTooLong k) →
            M.wp (putU32 n e) (fun _ _ => True) (fun e _ => ∀ n, e ≠ .nodeNameTooLong n) (fun _ _ => True) w := by
          intro n e w he
          unfold putU32
          simp only [M.wp_ite]
          split
          · exact hput _ _
          · exact he
        split
        · exact hb (hu _ _ _ (by simp)) fun _ _ => hb (hu _ _ _ (by simp)) fun _ _ => hb (hu _ _ _ (by simp)) fun _ _ => hput _ _
        · exact hb (hput _ _) fun _ _ => hb (hput _ _) fun _ _ => hb (hput _ _) fun _ _ => hput _ _
      · intro n hn
        simp only [WErr.nodeNameTooLong.injEq] at hn
        rw [utf8_eq]
        omega
  rw [M.wp, h] at this
  exact this n rfl

example : (utf8 (String.ofList (List.replicate 256 'a'))).length = 256 := by decide +kernel
example : (newNode (String.ofList (List.replicate 256 'a')) (exOpen (fun _ => none))).1 = .err (.nodeNameTooLong 256) := by
  decide +kernel
example : (newNode (String.ofList (List.replicate 255 'a')) (exOpen (fun _ => none))).1 = .ok () := by decide +kernel

/-! ## C10 Errors for sizes that do not fit -/

/-- The error for a node whose end offset, number of attributes or attribute byte length does not fit below
version 7.5. -/
def nodeError (version endOffset count bytelen : Nat) : Option WErr :=
  if 7500 ≤ version then none
  else if 2 ^ 32 ≤ endOffset then some (.fileTooLarge endOffset)
  else if 2 ^ 32 ≤ count then some (.tooManyAttributes count)
  else if 2 ^ 32 ≤ bytelen then some (.attributeTooLong bytelen)
  else none

/-- Result of a call that can only fail with the given error. -/
def outcome : Option WErr → Res WErr Unit
  | none => .ok ()
  | some e => .err e

theorem reach_run_step (Z : Zlib) (ops : List Op) : ∀ (w w' : Writer) (alive : Bool), Writer.Inv alive w →
    legal alive ops = true → run Z ops w = (.ok (), w') → ∃ alive', Writer.Inv alive' w' := by
  induction ops with
  | nil => intro w w' alive h _ hr; simp only [run, M.pure_ok_iff] at hr; rw [hr.2]; exact ⟨alive, h⟩
  | cons o os ih =>
    intro w w' alive h hl hr
    simp only [run, M.bind_ok_iff] at hr
    obtain ⟨_, w1, h1, h2⟩ := hr
    cases o with
    | newNode name =>
      have := step_safe Z ⟨w, alive⟩ h (.newNode name) (.ok ()) ⟨w1, true⟩ (by
        simp only [exec] at h1; simp [Session.step, exec, h1])
      exact ih w1 w' true this hl h2
    | closeNode =>
      have := step_safe Z ⟨w, alive⟩ h .closeNode (.ok ()) ⟨w1, false⟩ (by
        simp only [exec] at h1; simp [Session.step, exec, h1])
      exact ih w1 w' false this hl h2
    | append a =>
      simp only [legal, Bool.and_eq_true] at hl
      obtain ⟨rfl, hl⟩ := hl
      have := step_safe Z ⟨w, true⟩ h (.append a) (.ok ()) ⟨w1, true⟩ (by
        simp only [exec] at h1; simp [Session.step, exec, h1])
      exact ih w1 w' true this hl h2

theorem legal_attrs (as : List Append) (ops : List Op) : legal true (as.map Op.append ++ ops) = legal true ops := by
  induction as with
  | nil => rfl
  | cons a as ih => simpa [legal] using ih

theorem legal_calls (F : Forest Append) : ∀ (alive : Bool) (ops : List Op), (∀ b c, legal b ops = legal c ops) →
    legal alive (calls F ++ ops) = legal false ops := by
  induction F with
  | nil => intro alive ops h; exact h _ _
  | cons n as ch r ih1 ih2 =>
    intro alive ops h
    simp only [calls, List.cons_append, legal, List.append_assoc, legal_attrs]
    rw [ih1 true _ (fun _ _ => rfl)]
    simp only [legal]
    exact ih2 false ops h

theorem Free_of_run (Z : Zlib) (ops : List Op) (w w' : Writer) (u : Unit) (hf : Free w) (h : run Z ops w = (.ok u, w')) : Free w' := by
  have h2 := run_calm Z ops w u w' h
  have hw : w.clear = w := by
    obtain ⟨⟨b, p, f⟩, v, o⟩ := w
    simp only [Free] at hf
    subst hf
    rfl
  rw [hw, h] at h2
  simp only [Prod.mk.injEq, true_and] at h2
  rw [h2]; rfl

theorem pair_eq {α β : Type} {x : α × β} {a : α} (h : x.1 = a) : x = (a, x.2) := by cases x; cases h; rfl

theorem headerError_outcome (v a b c : Nat) :
    (match headerError v a b c with | some e => .err e | none => .ok ()) = outcome (nodeError v a b c) := by
  have : headerError v a b c = nodeError v a b c := by
    simp only [headerError, nodeError]
    by_cases hv : v < 7500
    · rw [if_pos hv, if_neg (show ¬ 7500 ≤ v by omega)]
    · rw [if_neg hv, if_pos (show 7500 ≤ v by omega)]
  rw [this]
  cases nodeError v a b c <;> rfl

/-- On a working device: after `new_node`, attributes and complete children, `close_node` fails with
`FileTooLarge` / `TooManyAttributes` / `AttributeTooLong` exactly if the end offset / number of attributes / byte
length of the attributes does not fit. The end offset includes the marker, if one is due. -/
theorem C10_close_errors (Z : Zlib) (w w0 w1 w2 : Writer) (alive : Bool) (hr : Reach Z ⟨w, alive⟩)
    (hf : w.sink.fault = fun _ => none) (name : String) (attrs : List Append) (children : Forest Append)
    (h0 : newNode name w = (.ok (), w0)) (h1 : run Z (attrs.map Op.append) w0 = (.ok (), w1))
    (h2 : run Z (calls children) w1 = (.ok (), w2)) (hp : w2.sink.pos + 25 < 2 ^ 64) :
    (closeNode w2).1 = outcome (nodeError w2.version.toNat
      (w2.sink.pos + (if !children.isNil || attrs.isEmpty then (if w2.version.toNat < 7500 then 13 else 25) else 0))
      attrs.length (w1.sink.pos - w0.sink.pos)) := by
  have k0 := newNode_opened name w w0 _ h0
  have k1 := run_attrs_opened Z attrs w0 w1 _ _ _ k0 h1
  have k2 := run_forest_opened Z children w1 w2 _ h2
  have hrun : run Z (.newNode name :: (attrs.map Op.append ++ calls children)) w = (.ok (), w2) := by
    simp only [run, exec, run_append]
    rw [bind_eq h0, bind_eq h1, h2]
  have hfree : Free w2 := Free_of_run Z _ w w2 _ hf hrun
  have hinv : ∃ a, Writer.Inv a w2 := by
    refine reach_run_step Z _ w w2 alive (reach_ok Z _ hr) ?_ hrun
    have := legal_calls children true [] (fun _ _ => rfl)
    simp only [List.append_nil] at this
    simp only [legal, legal_attrs, this]
  obtain ⟨a, hinv⟩ := hinv
  have hsz : headerSize w2.version.toNat = if w2.version.toNat < 7500 then 13 else 25 := by
    simp only [headerSize, width]; split <;> rfl
  have hsz' : headerSize w2.version.toNat ≤ 25 := by rw [hsz]; split <;> omega
  -- the node being closed
  have hn : ∃ n r, w2.opened = n :: r ∧ n.header.numAttrs = attrs.length ∧
      (n.hasChild = true ↔ children.isNil = false) ∧ (fin w2.sink.pos n).header.bytelenAttrs = w1.sink.pos - w0.sink.pos := by
    rw [k1] at k2
    cases children with
    | nil =>
      rw [if_pos (by simp [Forest.isNil])] at k2
      simp only [calls, run, M.pure_ok_iff] at h2
      refine ⟨_, _, k2, by simp [bumpBy], by simp [bumpBy, Forest.isNil], ?_⟩
      simp [fin, bumpBy, h2.2]
    | cons a b c d =>
      rw [if_neg (by simp [Forest.isNil]), childTop] at k2
      refine ⟨_, _, k2, by simp [fin, bumpBy], by simp [Forest.isNil], ?_⟩
      simp [fin, bumpBy]
  obtain ⟨n, r, ho, hn1, hn2, hn3⟩ := hn
  have htop : TopOk w2.sink.pos w2.opened := by
    intro n' r' hn'
    simp only [Writer.Inv, hn'] at hinv
    exact .inr hinv.2.1
  simp only [Writer.Inv, ho] at hinv
  obtain ⟨i1, i2, -, i4⟩ := hinv
  have hcons : Consistent (fin w2.sink.pos n) := by
    by_cases hfi : n.finalized = true
    · simp only [hfi, if_true] at i4
      rw [fin_of_finalized hfi]; exact i4.1
    · simp only [hfi] at i4
      have i4 : n.header.numAttrs = 0 ↔ w2.sink.pos = n.bodyPos := i4
      simp only [Consistent, fin, hfi]
      have : (n.header.numAttrs = 0 ↔ w2.sink.pos - n.bodyPos = 0) := by rw [i4]; omega
      exact this
  rw [closeNode_free hfree ho htop (by omega) hcons (by omega), hn1, hn3, hsz]
  have hif : (n.hasChild = true ∨ attrs.length = 0) ↔ ((!children.isNil || attrs.isEmpty) = true) := by
    rw [hn2]; cases children.isNil <;> cases attrs <;> simp
  simp only [hif]
  exact headerError_outcome _ _ _ _

example : ∃ w w0 w1 w2, Reach Zlib.stored ⟨w, true⟩ ∧ w.sink.fault = (fun _ => none) ∧ newNode "B" w = (.ok (), w0) ∧
    run Zlib.stored ([.bool true].map Op.append) w0 = (.ok (), w1) ∧
    run Zlib.stored (calls (.cons "C" [] .nil .nil)) w1 = (.ok (), w2) ∧ w2.sink.pos + 25 < 2 ^ 64 := by
  refine ⟨exOpen (fun _ => none), _, _, _, exOpen_reach, rfl, pair_eq ?_, pair_eq ?_, pair_eq ?_, ?_⟩ <;> decide +kernel

/-- On a working device, for the innermost open node (with fewer than `2^64 - 1` attributes) and room for the
attribute: every `append_*` call returns exactly the error due (`Spec.callError`): the first error of its items,
`TooManyArrayAttributeElements` for more than `2^32 - 1` elements, `AttributeTooLong` for more than `2^32 - 1` bytes,
and otherwise succeeds. -/
theorem C10_append_errors (Z : Zlib) (w : Writer) (hf : w.sink.fault = fun _ => none) (n : OpenNode) (r : List OpenNode)
    (ho : w.opened = n :: r) (hn : n.header.numAttrs + 1 < 2 ^ 64) (a : Append) (hp : w.sink.pos + volume Z a < 2 ^ 64) :
    (append Z a w).1 = outcome (callError Z a) := by
  rw [(append_free Z hf ho hn a hp).1]
  cases callError Z a <;> rfl

/-- A binary attribute of `2^32` bytes is too long, one of `2^32 - 1` bytes is not. -/
example (bytes : Bytes) (h : bytes.length = 2 ^ 32) :
    (append Zlib.stored (.binary bytes) (exOpen (fun _ => none))).1 = .err (.attributeTooLong (2 ^ 32)) ∧
    (append Zlib.stored (.binary bytes.tail) (exOpen (fun _ => none))).1 = .ok () := by
  have hpos : (exOpen (fun _ => none)).sink.pos < 100 := by decide +kernel
  constructor
  · rw [C10_append_errors _ _ rfl _ _ rfl (by decide +kernel) _ (by
      simp only [volume, denoteBefore, denote, attrBytes, attrBody, List.length_cons, List.length_append, le_eq, leBytes_length]; omega)]
    simp [callError, lengthError, outcome, h]
  · rw [C10_append_errors _ _ rfl _ _ rfl (by decide +kernel) _ (by
      simp only [volume, denoteBefore, denote, attrBytes, attrBody, List.length_cons, List.length_append, le_eq, leBytes_length, List.length_tail]; omega)]
    simp [callError, lengthError, outcome, h]

/-! ## C12 Panic after an I/O error -/

/-- The claim that no history of calls makes `close_node` panic is false: the device rejects the byte of the type
code of the first attribute; the following `close_node` panics. -/
theorem C12_close_panics_after_io_error :
    ¬ ∀ (s : Sink) (w : Writer) (s' : Sink), new s 7400 = (.ok w, s') →
      ∀ w1 w2, newNode "A" w = (.ok (), w1) → (append Zlib.stored (.bool true) w1).2 = w2 →
        ∀ p, (closeNode w2).1 ≠ .panic p := by
  intro h
  have := h ⟨[], 0, fun i => if i = 10 then some ⟨0, .other 0⟩ else none⟩ _ _ rfl _ _ rfl rfl .attrLenAssert
  exact this (by decide +kernel)

/-- In that history the failing call is an I/O error of the device. -/
theorem C12_the_error_is_io :
    ∃ w s' w1, new ⟨[], 0, fun i => if i = 10 then some ⟨0, .other 0⟩ else none⟩ 7400 = (.ok w, s') ∧ newNode "A" w = (.ok (), w1) ∧
      (∃ e, (append Zlib.stored (.bool true) w1).1 = .err (.io e)) ∧
      (closeNode (append Zlib.stored (.bool true) w1).2).1 = .panic .attrLenAssert :=
  ⟨_, _, _, rfl, rfl, ⟨.other 0, by decide +kernel⟩, by decide +kernel⟩

/-- Without an I/O error before, `close_node` cannot panic, whatever happened before and whatever the device does
during the call. -/
theorem C12_no_panic_without_io_error (Z : Zlib) (w : Writer) (alive : Bool) (h : Reach Z ⟨w, alive⟩) (p : Panic) :
    (closeNode w).1 ≠ .panic p :=
  C11_no_panic Z ⟨w, alive⟩ _ .closeNode _ h rfl p

/-! ## C14 Binary attributes -/

/-- On a working device with room: appending the same bytes directly, from an iterator, from an iterator of
results and from a reader (however it splits them) gives the same result and leaves the same state. -/
theorem C14_binary_agree (Z : Zlib) (w : Writer) (hf : w.sink.fault = fun _ => none) (n : OpenNode) (r : List OpenNode)
    (ho : w.opened = n :: r) (hn : n.header.numAttrs + 1 < 2 ^ 64) (bytes : Bytes)
    (hp : w.sink.pos + 5 + bytes.length < 2 ^ 64) (chunks : List Bytes) (hc : chunks.flatten = bytes) :
    append Z (.binaryIter (bytes.map .ok)) w = append Z (.binary bytes) w ∧
    append Z (.binaryReader chunks none) w = append Z (.binary bytes) w := by
  have h1 : ∀ l : List Byte, oks (l.map (Except.ok (ε := WErr))) = l := by
    intro l; induction l <;> simp_all [oks]
  have h2 : ∀ l : List Byte, before (l.map (Except.ok (ε := WErr))) = l := by
    intro l; induction l <;> simp_all [before]
  have h3 : ∀ l : List Byte, firstError (l.map (Except.ok (ε := WErr))) = none := by
    intro l; induction l <;> simp_all [firstError]
  subst hc
  simp only [append, appendBinaryIter, appendDirect, appendBinaryReader]
  rw [bind_eq (initializeSpecial_free hf ho hn _ (by omega)), bind_eq (initializeSpecial_free hf ho hn _ (by omega)),
    bind_eq (initializeSpecial_free hf ho hn _ (by omega)),
    bind_eq (put_wrote (by simp only [List.length_cons, leBytes_length]; omega)), M.bind_apply, M.bind_apply,
    putEach_free _ _ _ _ (by simp only [List.length_cons, leBytes_length, h2]; omega),
    copyChunks_free _ _ _ _ _ (by simp only [List.length_cons, leBytes_length]; omega)]
  simp only [itemsResult, h1, h2, h3, toRes, Nat.zero_add, List.append_nil, and_self]

example : append Zlib.stored (.binaryReader [[1], [], [2, 3]] none) (exOpen (fun _ => none)) =
    append Zlib.stored (.binary [1, 2, 3]) (exOpen (fun _ => none)) :=
  (C14_binary_agree _ _ rfl _ _ rfl (by decide) [1, 2, 3] (by decide) _ rfl).2

/-! ## C15 Strings from characters -/

/-- On a working device with room, `append_string_from_iter(s.chars())` agrees with `append_string_direct(s)`
exactly if all characters take 4 bytes. -/
theorem C15_agree_iff (Z : Zlib) (w : Writer) (hf : w.sink.fault = fun _ => none) (n : OpenNode) (r : List OpenNode)
    (ho : w.opened = n :: r) (hn : n.header.numAttrs + 1 < 2 ^ 64) (s : String) (hs : (utf8 s).length < 2 ^ 32)
    (hp : w.sink.pos + 5 + 4 * s.toList.length < 2 ^ 64) :
    append Z (.stringIter (s.toList.map .ok)) w = append Z (.string s) w ↔ ∀ c ∈ s.toList, c.utf8Size = 4 := by
  have h1 : ∀ l : List Char, oks (l.map (Except.ok (ε := WErr))) = l := by
    intro l; induction l <;> simp_all [oks]
  have h2 : ∀ l : List Char, before (l.map (Except.ok (ε := WErr))) = l := by
    intro l; induction l <;> simp_all [before]
  have h3 : ∀ l : List Char, firstError (l.map (Except.ok (ε := WErr))) = none := by
    intro l; induction l <;> simp_all [firstError]
  have hu : strBytes s = s.toList.flatMap String.utf8EncodeChar := by
    have := strLen_eq s.toList
    rw [String.ofList_toList] at this
    exact this
  have hcl : charLen s.toList = (strBytes s).length := by rw [hu]; rfl
  have hle := charLen_le s.toList
  rw [hcl] at hle
  rw [utf8_eq] at hs
  simp only [append, appendStringIter, appendDirect]
  rw [bind_eq (initializeSpecial_free hf ho hn _ (by omega)), bind_eq (initializeSpecial_free hf ho hn _ (by omega)),
    bind_eq (put_wrote (by simp only [List.length_cons, leBytes_length]; omega)), M.bind_apply,
    putChars_free _ _ _ _ _ (by simp) (by simp only [List.length_cons, leBytes_length, h2]; omega)]
  simp only [itemsResult, h1, h2, h3, toRes, Nat.zero_add, hcl]
  constructor
  · intro heq
    have hpos : ∀ (p : Nat) (x : Bytes), p + 4 < 2 ^ 64 →
        (finalizeSpecial p (strBytes s).length (wrote { w with opened := bump n :: r } x)).2.sink.pos = w.sink.pos + x.length := by
      intro p x hp4
      simp only [finalizeSpecial, hs, if_true]
      rw [bind_eq (tell_free (wrote_free _ _)), bind_eq (seek_free (wrote_free _ _) _),
        bind_eq (put_first (moved_free _ _) (by simp [leBytes]) (by simpa using hp4)), seek_free (wrote_free _ _)]
      rfl
    have h := congrArg (fun x => x.2.sink.pos) heq
    simp only [hpos _ _ (show w.sink.pos + 1 + 4 < 2 ^ 64 by omega), List.length_append] at h
    rw [charOut_length _ _ (by simp)] at h
    apply Classical.byContradiction
    intro hne
    have : ∃ c ∈ s.toList, c.utf8Size ≠ 4 := by
      apply Classical.byContradiction
      intro hx
      exact hne fun c hc => Classical.byContradiction fun hc4 => hx ⟨c, hc, hc4⟩
    have := charLen_lt s.toList this
    rw [hcl] at this
    omega
  · intro h4
    rw [charOut_four _ _ (by simp) h4, ← hu]

/-- So the claim that the two agree is false. -/
theorem C15_disagree : ¬ ∀ (w : Writer) (alive : Bool) (s : String), Reach Zlib.stored ⟨w, alive⟩ → alive = true →
    append Zlib.stored (.stringIter (s.toList.map .ok)) w = append Zlib.stored (.string s) w := by
  intro h
  have := (C15_agree_iff Zlib.stored (exOpen fun _ => none) rfl _ _ rfl (by decide) "a" (by decide +kernel) (by decide +kernel)).mp
    (h _ true "a" exOpen_reach rfl)
  revert this
  decide +kernel

/-- What is written instead: for `"ab"`, the length 2 and 8 bytes. -/
example : (append Zlib.stored (.stringIter ("ab".toList.map .ok)) (exOpen fun _ => none)).2.sink.buf.drop 46 =
    [0x53, 2, 0, 0, 0, 0x61, 0, 0, 0, 0x62, 0, 0, 0] := by decide +kernel
example : (append Zlib.stored (.string "ab") (exOpen fun _ => none)).2.sink.buf.drop 46 =
    [0x53, 2, 0, 0, 0, 0x61, 0x62] := by decide +kernel

/-! ## C16 Errors of the user's iterators -/

/-- Items after the first error are never looked at: the call behaves as if the iterator ended there. -/
theorem C16_rest_not_pulled (Z : Zlib) (a : Append) : append Z (cutAfterError a) = append Z a := by
  have he : ∀ {α : Type} (f : α → Bytes) (xs : List (Except WErr α)),
      elemBytes f (cutAfterError.cut xs) = cutAfterError.cut (elemBytes f xs) := by
    intro α f xs
    induction xs with
    | nil => rfl
    | cons x xs ih =>
      cases x
      · rfl
      · simp only [cutAfterError.cut, elemBytes, List.map_cons] at ih ⊢; rw [ih]
  have h1 : ∀ (xs : List (Except WErr Bytes)) k, writeElements (cutAfterError.cut xs) k = writeElements xs k := by
    intro xs
    induction xs with
    | nil => intro k; rfl
    | cons x xs ih =>
      intro k
      cases x
      · rfl
      · simp only [cutAfterError.cut, writeElements, ih]
  have h2 : ∀ (xs : List (Except WErr Bytes)), okPrefix (cutAfterError.cut xs) = okPrefix xs := by
    intro xs
    induction xs with
    | nil => rfl
    | cons x xs ih =>
      cases x
      · rfl
      · simp only [cutAfterError.cut, okPrefix, ih]
  have h3 : ∀ (xs : List (Except WErr Bytes)) k, elementsResult (cutAfterError.cut xs) k = elementsResult xs k := by
    intro xs
    induction xs with
    | nil => intro k; rfl
    | cons x xs ih =>
      intro k
      cases x
      · rfl
      · simp only [cutAfterError.cut, elementsResult, ih]
  have harr : ∀ {α : Type} (t : AttrType) (enc : Option ArrEnc) (f : α → Bytes) (xs : List (Except WErr α)),
      appendArray Z t enc (elemBytes f (cutAfterError.cut xs)) = appendArray Z t enc (elemBytes f xs) := by
    intro α t enc f xs
    rw [he]
    have : ∀ e, writeArrayElements Z e (cutAfterError.cut (elemBytes f xs)) = writeArrayElements Z e (elemBytes f xs) := by
      intro e
      cases e <;> simp only [writeArrayElements, writeElementsZlib, h1, h2, h3]
    simp only [appendArray, this]
  have h4 : ∀ (xs : List (Except WErr Byte)) k, putEach (cutAfterError.cut xs) k = putEach xs k := by
    intro xs
    induction xs with
    | nil => intro k; rfl
    | cons x xs ih =>
      intro k
      cases x
      · rfl
      · simp only [cutAfterError.cut, putEach, ih]
  have h5 : ∀ (xs : List (Except WErr Char)) b k, putChars (cutAfterError.cut xs) b k = putChars xs b k := by
    intro xs
    induction xs with
    | nil => intro b k; rfl
    | cons x xs ih =>
      intro b k
      cases x
      · rfl
      · simp only [cutAfterError.cut, putChars, ih]
  cases a <;> simp only [cutAfterError, append, appendBinaryIter, appendStringIter, harr, h4, h5]

/-- Bytes left by a failing call: the type code, the placeholder of the header, the elements before the error. -/
def leftover (a : Append) : Bytes :=
  match a with
  | .arrBool _ _ | .arrI32 _ _ | .arrI64 _ _ | .arrF32 _ _ | .arrF64 _ _ =>
    UInt8.ofNat (typeChar (denoteBefore a).value).toNat :: (List.replicate 12 0 ++ arrayData (denoteBefore a).value)
  | .binaryIter xs => 0x52 :: (List.replicate 4 0 ++ before xs)
  | _ => []

/-- Uncompressed array or byte iterator. -/
def plainItems : Append → Bool
  | .arrBool enc _ | .arrI32 enc _ | .arrI64 enc _ | .arrF32 enc _ | .arrF64 enc _ => enc.getD .direct == .direct
  | .binaryIter _ => true
  | _ => false

/-- On a working device with room: if an item is an error, the call returns the first such error. -/
theorem C16_first_error (Z : Zlib) (w : Writer) (hf : w.sink.fault = fun _ => none) (n : OpenNode) (r : List OpenNode)
    (ho : w.opened = n :: r) (hn : n.header.numAttrs + 1 < 2 ^ 64) (a : Append) (hp : w.sink.pos + volume Z a < 2 ^ 64)
    (e : WErr) (he : itemError a = some e) : (append Z a w).1 = .err e := by
  rw [C10_append_errors Z w hf n r ho hn a hp]
  cases a <;> simp only [itemError] at he <;> try (cases he; done)
  case binaryReader cs x =>
    cases x with
    | none => simp at he
    | some x => simp only [Option.map_some, Option.some.injEq] at he; simp [callError, outcome, he]
  all_goals simp only [callError, arrayError, he, outcome, Option.some_or]

/-- ... and has written exactly the elements before it (after type code and header placeholder). -/
theorem C16_elements_before (Z : Zlib) (w : Writer) (hf : w.sink.fault = fun _ => none) (n : OpenNode) (r : List OpenNode)
    (ho : w.opened = n :: r) (hn : n.header.numAttrs + 1 < 2 ^ 64) (a : Append) (hp : w.sink.pos + volume Z a < 2 ^ 64)
    (e : WErr) (he : itemError a = some e) (hpl : plainItems a = true) :
    (append Z a w).2.sink.buf = Sink.store w.sink.buf w.sink.pos (leftover a) ∧
    (append Z a w).2.sink.pos = w.sink.pos + (leftover a).length := by
  have hz : arrHdr ⟨0, .direct, 0⟩ = List.replicate 12 0 := by decide
  have hz4 : leBytes 4 0 = List.replicate 4 0 := by decide
  have key : soFar Z a = leftover a := by
    cases a <;> simp only [plainItems, Bool.false_eq_true, beq_iff_eq] at hpl
    case binaryIter xs => simp only [soFar, leftover, hz4]; rfl
    case arrBool enc xs =>
      simp only [soFar, leftover, hpl, hz, arrSoFar, denoteBefore, arrayData]
      rw [← flatMap_singleton_map]; rfl
    all_goals simp only [soFar, leftover, hpl, hz, arrSoFar, denoteBefore, arrayData, le_eq]; rfl
  rw [(append_free Z hf ho hn a hp).2 e he, key]
  exact ⟨rfl, rfl⟩

example : append Zlib.stored (.arrI32 none [.ok 7, .error (.userDefined 3), .ok 8, .error (.userDefined 4)]) (exOpen fun _ => none)
    = (.err (.userDefined 3), (append Zlib.stored (.arrI32 none [.ok 7, .error (.userDefined 3)]) (exOpen fun _ => none)).2) := by
  rw [← C16_rest_not_pulled]; rfl
example : (append Zlib.stored (.arrI32 none [.ok 7, .error (.userDefined 3), .ok 8]) (exOpen fun _ => none)).2.sink.buf.drop 46 =
    [0x69, 0, 0, 0, 0, 0, 0, 0, 0, 0, 0, 0, 0, 7, 0, 0, 0] := by decide +kernel

/-! ## C17 A rejected `new_node` still has an effect -/

/-- After `new_node` was rejected inside an open node, closing that node writes an end marker, although it may
have attributes and no child. On any device. -/
theorem C17_marker_after_rejection (w w1 w2 : Writer) (name : String) (k : Nat) (ho : w.opened ≠ [])
    (h1 : newNode name w = (.err (.nodeNameTooLong k), w1)) (h2 : closeNode w1 = (.ok (), w2)) :
    w1.sink.buf = w.sink.buf ∧ w2.sink.pos = w.sink.pos + (if w1.version.toNat < 7500 then 13 else 25) := by
  have hlong := (C09_only_long w w1 name k h1).1
  rw [utf8_eq] at hlong
  have hsz : headerSize w1.version.toNat = if w1.version.toNat < 7500 then 13 else 25 := by
    simp only [headerSize, width]; split <;> rfl
  obtain ⟨n, k1, k2⟩ := closeNode_opened w1 w2 _ h2
  have : M.wp finalizeAttributes (fun _ w' => w'.sink.buf = w.sink.buf ∧ w'.sink.pos = w.sink.pos)
      (fun e _ => ∀ k, e ≠ .nodeNameTooLong k) (fun _ _ => True) w := by
    unfold finalizeAttributes
    rw [M.wp_bind, M.wp_get]
    split
    · exact ⟨rfl, rfl⟩
    · simp only [M.wp_ite]
      split
      · exact ⟨rfl, rfl⟩
      · rw [M.wp_bind]
        have ht : M.wp (io Sink.tell) (fun _ w' => w'.sink.buf = w.sink.buf ∧ w'.sink.pos = w.sink.pos)
            (fun e _ => ∀ k, e ≠ .nodeNameTooLong k) (fun _ _ => True) w := by
          simp only [io, M.wp_mapErr, M.wp_zoom]
          simp only [M.wp, Sink.tell]
          cases w.sink.fault 0
          · exact ⟨rfl, rfl⟩
          · intro k hk; cases hk
        refine M.wp_mono ht (fun a w' hw' => ?_) (fun _ _ h => h) (fun _ _ h => h)
        rw [M.wp_bind, M.wp_assert]
        split
        · rw [M.wp_modify, modifyTop_sink]; exact hw'
        · trivial
  rw [newNode] at h1
  rcases hf : finalizeAttributes w with ⟨q, w0⟩
  rw [M.wp, hf] at this
  rw [M.bind_apply, hf] at h1
  match q, this, h1 with
  | .ok _, this, h1 =>
    simp only [M.modify_bind] at h1
    rw [if_neg (by omega)] at h1
    simp only [M.throw_apply, Prod.mk.injEq] at h1
    have hw1 := h1.2.symm
    obtain ⟨t1, t2⟩ := this
    have hs : w1.sink = w0.sink := by rw [hw1, modifyTop_sink]
    refine ⟨by rw [hs, t1], ?_⟩
    have hc : n.hasChild = true := by
      have ho0 := (finalizeAttributes_opened w w0 _ hf).1
      rw [hw1] at k1
      cases hx : w.opened with
      | nil => exact absurd hx ho
      | cons m q =>
        rw [hx] at ho0
        simp only [modifyTop, ho0, finTop, List.cons.injEq] at k1
        rw [← k1.1]
    rw [k2, hsz, hs, t2]
    simp [hc]
  | .err e, this, h1 =>
    simp only [Prod.mk.injEq, Res.err.injEq] at h1
    exact absurd h1.1 (this k)
  | .panic p, _, h1 => simp at h1

/-- So the claim that a rejected `new_node` leaves the document unaffected is false. -/
theorem C17_rejection_changes_document :
    ¬ ∀ (w : Writer) (alive : Bool) (name : String) (k : Nat) (w1 : Writer), Reach Zlib.stored ⟨w, alive⟩ →
      newNode name w = (.err (.nodeNameTooLong k), w1) → (closeNode w1).2.sink.buf = (closeNode w).2.sink.buf := by
  intro h
  have := h (exOpen fun _ => none) true (String.ofList (List.replicate 256 'a')) 256 _ exOpen_reach
    (pair_eq (by decide +kernel))
  revert this
  decide +kernel

end Fbx
