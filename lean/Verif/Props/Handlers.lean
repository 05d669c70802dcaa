import Verif.Proof.HandlerRuns
import Verif.Props.Sources

/-! # C34: warning handlers -/

namespace Fbx
open Reader Parser Spec
variable {α : Type} {Z : Zlib}

section
variable {p : Parser} {bytes : Bytes} {β : Type} {g : History β} {s : Client}

/-- The history of a client with a handler, set at any time: if the handler has accepted all warnings since, the same
history, with the same final state, is the history of a client without a handler. -/
theorem C34_accepted (ho : Opens p bytes) (hsz : Sized bytes) (hg : Runs Z ⟨p, none⟩ g s) (hn : g.calm) (h0 : s.parser.handler = none) (f : Handler)
    {h : History α} {t : Client} (hr : Runs Z ⟨s.parser.setHandler f, none⟩ h t) (hs : NoSet h) (hcalm : h.calm)
    (ha : Accepted (some f) s.parser.log t.parser.log) :
    Runs Z ⟨s.parser, none⟩ h ⟨{ t.parser with handler := none }, t.attrs⟩ := by
  obtain ⟨hi, hL⟩ := open_inv ho hsz
  rcases runs_twin hL (set_twin h0 f) (set_inv (hg.inv hL hi hn) f) hr hs with ⟨s', h1, h2⟩ | ⟨⟨a, c1, o1, b, s1, t1, t2, w, pos, rest, e0, g1, g2, g3, g4, g5, g6, g7, g8, g9, g10⟩⟩
  · rw [← h2.eq]; exact h1
  · rw [(g10 hcalm).1, g6] at ha
    exact absurd ha (not_accepted g7 g8)

/-- A handler that always returns `Ok` is only told: with it and without it, the same histories are possible, with the same
outcomes, the same final states and the same warnings. -/
theorem C34_advisory (ho : Opens p bytes) (hsz : Sized bytes) (hg : Runs Z ⟨p, none⟩ g s) (hn : g.calm) (h0 : s.parser.handler = none) {f : Handler}
    (hf : ∀ log w pos, f log w pos = none) {h : History α} (hs : NoSet h) (t : Client) (ht : t.parser.handler = none) :
    Runs Z ⟨s.parser.setHandler f, none⟩ h ⟨t.parser.setHandler f, t.attrs⟩ ↔ Runs Z ⟨s.parser, none⟩ h t := by
  obtain ⟨hi, hL⟩ := open_inv ho hsz
  have hti := set_inv (hg.inv hL hi hn) f
  constructor
  · intro hr
    rcases runs_twin hL (set_twin h0 f) hti hr hs with ⟨s', h1, h2⟩ | ⟨⟨a, c1, o1, b, s1, t1, t2, w, pos, rest, e0, g1, g2, g3, g4, g5, g6, g7, g8, g9, g10⟩⟩
    · have := h2.eq
      rw [this] at h1
      obtain ⟨tp, ta⟩ := t
      cases tp
      simp only at ht
      subst ht
      exact h1
    · exact absurd g8 (accepted_ok hf _ _ _ _)
  · intro hr
    have key : ∃ t', Runs Z ⟨s.parser.setHandler f, none⟩ h t' ∧ t.Twin (some f) s.parser.log t' := by
      clear ht
      induction hr with
      | nil => exact ⟨_, .nil, set_twin h0 f⟩
      | @snoc h v u c o hr hn' hc ih =>
        obtain ⟨t', k1, k2⟩ := ih (fun x hx => hs x (by simp [hx]))
        rcases call_twin hL k2 (k1.inv hL hti hn') (Z := Z) (c := c) (hs (c, o) (by simp)) with ⟨h3, _⟩ | ⟨o', s'', t'', h3, h4, h5⟩ | ⟨o', t', w, pos, rest, e0, h3, h4, h5, h6, h7⟩
        · rw [h3] at hc; cases hc
        · rw [h3] at hc; cases hc
          exact ⟨t'', k1.snoc hn' h4, h5⟩
        · exact absurd h6 (accepted_ok hf _ _ _ _)
    obtain ⟨t', k1, k2⟩ := key
    obtain ⟨⟨k3, k4, _⟩, k5⟩ := k2
    obtain ⟨tp, ta⟩ := t'
    simp only at k4 k5
    subst k4 k5
    exact k1

/-- Two handlers that always return `Ok` give the same histories. -/
theorem C34_handlers_agree (ho : Opens p bytes) (hsz : Sized bytes) (hg : Runs Z ⟨p, none⟩ g s) (hn : g.calm) (h0 : s.parser.handler = none) {f f' : Handler}
    (hf : ∀ log w pos, f log w pos = none) (hf' : ∀ log w pos, f' log w pos = none) {h : History α} (hs : NoSet h) (t : Client)
    (ht : t.parser.handler = none) :
    Runs Z ⟨s.parser.setHandler f, none⟩ h ⟨t.parser.setHandler f, t.attrs⟩ ↔ Runs Z ⟨s.parser.setHandler f', none⟩ h ⟨t.parser.setHandler f', t.attrs⟩ :=
  (C34_advisory ho hsz hg hn h0 hf hs t ht).trans (C34_advisory ho hsz hg hn h0 hf' hs t ht).symm

/-- Either the handler has accepted all warnings, or there is a first one, `w`, to which it objected: up to the call that
raised it the history is one of a client without a handler, that call reports the handler's error, and afterwards the
handler is not called again. -/
theorem C34_objection (ho : Opens p bytes) (hsz : Sized bytes) (hg : Runs Z ⟨p, none⟩ g s) (hn : g.calm) (h0 : s.parser.handler = none) (f : Handler)
    {h : History α} {t : Client} (hr : Runs Z ⟨s.parser.setHandler f, none⟩ h t) (hs : NoSet h) (hcalm : h.calm) :
    Accepted (some f) s.parser.log t.parser.log ∨
    ∃ before c o after q t1 w pos warned e, h = before ++ (c, o) :: after ∧
      Runs Z ⟨s.parser, none⟩ before q ∧ Runs Z ⟨s.parser.setHandler f, none⟩ (before ++ [(c, o)]) t1 ∧
      Accepted (some f) s.parser.log warned ∧ f warned w pos = some e ∧ t.parser.log = (w, pos) :: warned ∧
      Reports e pos o t1.parser ∧ t.parser.health = t1.parser.health ∧
      ∀ x ∈ after, x.1.reads = true → ∃ e', x.2 = .err e' ∧ Refused t1.parser e' := by
  obtain ⟨hi, hL⟩ := open_inv ho hsz
  have hti := set_inv (hg.inv hL hi hn) f
  rcases runs_twin hL (set_twin h0 f) hti hr hs with ⟨s', h1, h2⟩ | ⟨⟨a, c1, o1, b, s1, t1, t2, w, pos, rest, e0, g1, g2, g3, g4, g5, g6, g7, g8, g9, g10⟩⟩
  · exact .inl h2.1.2.2
  · right
    have hc2 : ∀ c x, (c, .panic x) ∉ a := fun c x hm => hcalm c x (by rw [g1]; simp [hm])
    have hr1 : Runs Z ⟨s.parser.setHandler f, none⟩ (a ++ [(c1, o1)]) t2 := g3.snoc hc2 g5
    refine ⟨a, c1, o1, b, s1, t2, w, pos, rest, e0, g1, g2, hr1, g7, g8, (g10 hcalm).1.trans g6, g9, (g10 hcalm).2, ?_⟩
    have hc3 : ∀ c x, (c, .panic x) ∉ a ++ [(c1, o1)] := fun c x hm => hcalm c x (by
      rw [g1]
      rcases List.mem_append.mp hm with hm | hm
      · simp [hm]
      · simp only [List.mem_singleton] at hm; simp [hm])
    rw [g1, show a ++ (c1, o1) :: b = (a ++ [(c1, o1)]) ++ b by simp] at hr
    obtain ⟨t3, k1, k2, _⟩ := hr.split
    have : t3 = t2 := by
      exact (Runs.det k1 hr1 rfl).2
    subst this
    intro x hx hrd
    exact k2.stuck hL (k1.inv hL hti hc3) (Reports.stopped g9) x.1 x.2 hx hrd

end

/-! ## Examples -/

/-- A node with an empty name and an attribute that is not a proper boolean, and a footer with a wrong padding. -/
def exWarnBody : Bytes := leBytes 4 42 ++ leBytes 4 1 ++ leBytes 4 2 ++ [0, 67, 2] ++ zeros 13 ++
  Writer.FooterSpec.field1 exFooter ++ zeros 3 ++ zeros 4 ++ leBytes 4 7400 ++ zeros 120 ++ footerUnknown3

/-- Objects to the second warning, whatever it is. -/
def exPicky : Handler := fun log _ _ => if log.length = 1 then some ⟨.warning .incorrectBool, none⟩ else none

/-- Objects to the third warning. -/
def exPicky3 : Handler := fun log _ _ => if log.length = 2 then some ⟨.warning .unexpectedFooterField, none⟩ else none

/-- Accepts everything. -/
def exMild : Handler := fun _ _ _ => none

def exWarnCalls : List (Call AttrValue) := [.next, .load false directLoader, .next, .next, .next]
def exWarnClient : Client := ⟨exParser true true 7400 exWarnBody, none⟩
def exWarnSet (f : Handler) : Client := ⟨exWarnClient.parser.setHandler f, none⟩

theorem exWarn_opens : Opens exWarnClient.parser exWarnBody := exParser_opens _ _ _ _ (by decide)
theorem exWarn_sized : Sized exWarnBody := by
  have : exWarnBody.length = 191 := by decide +kernel
  simp [Sized, this, headerLen]

theorem exWarn_noSet (os : List (Outcome AttrValue)) : NoSet (List.zip exWarnCalls os) := by
  intro x hx f h
  have := (List.of_mem_zip (a := x.1) (b := x.2) hx).1
  rw [h] at this
  simp [exWarnCalls] at this

theorem noSet_history (s : Client) : NoSet (s.history Zlib.stored exWarnCalls) := by
  simp only [Client.history]
  split
  · exact exWarn_noSet _
  · intro x hx; cases hx

/-- The accepting handler sees three warnings and nothing fails. -/
example : ((exWarnSet exMild).history Zlib.stored exWarnCalls).map (fun x => x.2.isErr) = [false, false, false, false, true] ∧
    ((exWarnSet exMild).after Zlib.stored exWarnCalls).parser.log.map Prod.fst = [.invalidFooterPadding 9 3, .incorrectBool, .emptyNodeName] := by decide +kernel

example : Runs Zlib.stored exWarnClient ((exWarnSet exMild).history Zlib.stored exWarnCalls)
    ⟨{ ((exWarnSet exMild).after Zlib.stored exWarnCalls).parser with handler := none }, ((exWarnSet exMild).after Zlib.stored exWarnCalls).attrs⟩ := by
  have hr := runs_history (Z := Zlib.stored) (exWarnSet exMild) exWarnCalls (by decide +kernel)
  rcases C34_objection exWarn_opens exWarn_sized (Z := Zlib.stored) (g := ([] : History Unit)) .nil (by intro c x h; cases h) rfl exMild hr (noSet_history _)
    (calm_of_all (by decide +kernel)) with h | ⟨_, _, _, _, _, _, _, _, _, _, _, _, _, _, h, _⟩
  · exact C34_accepted exWarn_opens exWarn_sized (g := ([] : History Unit)) .nil (by intro c x h; cases h) rfl exMild hr (noSet_history _) (calm_of_all (by decide +kernel)) h
  · cases h

/-- The handler's error is reported at the second warning; the parser is aborted. -/
theorem exPicky_history : ((exWarnSet exPicky).history Zlib.stored exWarnCalls).map Prod.snd =
    [.event (.startNode "" 1), .err ⟨.warning .incorrectBool, some ⟨42, 40, [(0, "")], some 0⟩⟩, .err ⟨.op .alreadyAborted, some ⟨42, 40, [(0, "")], some 0⟩⟩,
      .err ⟨.op .alreadyAborted, some ⟨42, 40, [(0, "")], some 0⟩⟩, .err ⟨.op .alreadyAborted, some ⟨42, 40, [(0, "")], some 0⟩⟩] := by decide +kernel

example : ¬ Accepted (some exPicky) [] ((exWarnSet exPicky).after Zlib.stored exWarnCalls).parser.log := by
  rw [show ((exWarnSet exPicky).after Zlib.stored exWarnCalls).parser.log =
    [(.incorrectBool, ⟨42, 40, [(0, "")], some 0⟩), (.emptyNodeName, ⟨40, 27, [(0, "")], none⟩)] by decide +kernel]
  exact not_accepted (.step .refl (by simp [Objects, exPicky])) (show exPicky _ _ _ = some _ from rfl)

/-- A handler's error about the footer does not abort the parser: it is wrapped in a successful end event, after which the
parser counts as finished. So "the call fails and the parser is aborted" is false for the warnings about the footer, and
`C34_objection` has to list this case. -/
theorem C34_footer_not_aborted : ∃ (bytes : Bytes) (f : Handler) (p : Parser) (e : PErr) (t : Client) (h : History AttrValue), Opens p bytes ∧ Sized bytes ∧
    Runs Zlib.stored ⟨p.setHandler f, none⟩ (h ++ [(.next, .event (.endFbx (.error e)))]) t ∧
    (∃ w pos rest e0, t.parser.log = (w, pos) :: rest ∧ f rest w pos = some e0 ∧ e.kind = e0.kind) ∧ t.parser.health = .finished := by
  refine ⟨exWarnBody, exPicky3, exWarnClient.parser, ⟨.warning .unexpectedFooterField, some ⟨71, 55, [], none⟩⟩, (exWarnSet exPicky3).after Zlib.stored (exWarnCalls.take 4),
    ((exWarnSet exPicky3).history Zlib.stored (exWarnCalls.take 3)), exWarn_opens, exWarn_sized, ?_, ?_, by decide +kernel⟩
  · have h1 := runs_history (Z := Zlib.stored) (exWarnSet exPicky3) (exWarnCalls.take 4) (by decide +kernel)
    have h2 : (exWarnSet exPicky3).history Zlib.stored (exWarnCalls.take 4) = (exWarnSet exPicky3).history Zlib.stored (exWarnCalls.take 3) ++
        [(.next, .event (.endFbx (.error ⟨.warning .unexpectedFooterField, some ⟨71, 55, [], none⟩⟩)))] := by
      rw [history_of _ (exWarnCalls.take 4) [.event (.startNode "" 1), .value (.bool false), .event .endNode, .event (.endFbx (.error ⟨.warning .unexpectedFooterField, some ⟨71, 55, [], none⟩⟩))] (by decide +kernel),
        history_of _ (exWarnCalls.take 3) [.event (.startNode "" 1), .value (.bool false), .event .endNode] (by decide +kernel)]
      rfl
    rw [h2] at h1
    exact h1
  · refine ⟨.invalidFooterPadding 9 3, ⟨71, 55, [], none⟩, _, ⟨.warning .unexpectedFooterField, none⟩,
      (show _ = _ :: [(.incorrectBool, ⟨42, 40, [(0, "")], some 0⟩), (.emptyNodeName, ⟨40, 27, [(0, "")], none⟩)] by decide +kernel), rfl, rfl⟩

end Fbx
