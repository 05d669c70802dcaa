import Verif.Proof.Within
import Verif.Props.AnyLoader

/-! # C73 Loading attributes does not influence later events of any file, within the bounds of the node -/

namespace Fbx
open Reader Parser Spec
variable {α : Type} {Z : Zlib}

/-- **C73**. Any bytes, a source which can seek, any calls before. From a state inside a node, let two clients load different attributes,
with different loaders, such that no call fails and nothing is read beyond the end of the attributes which the header of the node
declares, as far as the source can seek. Then the next call of `next_event` has the same result for both, raises the same warning,
and leaves the same ahead. -/
theorem C73_events {checks : Bool} {v : FbxVersion} {bytes : Bytes} {ending : Option IoErr} {cursor limit : Nat} {p : Parser}
    (hp : Parser.create checks v ⟨bytes, ending, cursor, headerLen, true, limit⟩ = .ok p) (hsz : Sized bytes) {h : History α} {s : Client}
    (hr : Runs Z ⟨p, none⟩ h s) (hn : h.calm) (hrun : s.parser.health = .running) (ht : tolerant s.parser)
    (hfar : reaches s.parser (limit + headerLen - cursor))
    {h₁ h₂ : History α} {t₁ t₂ : Client} (hr₁ : Runs Z s h₁ t₁) (hl₁ : onlyLoads h₁) (hw₁ : within t₁.parser)
    (hr₂ : Runs Z s h₂ t₂) (hl₂ : onlyLoads h₂) (hw₂ : within t₂.parser) :
    ∃ o u₁ u₂, t₁.call Z (.next : Call α) = some (o, u₁) ∧ t₂.call Z (.next : Call α) = some (o, u₂) ∧
      ((∀ x, o ≠ .panic x) → look u₁.parser = look u₂.parser ∧ u₁.attrs = u₂.attrs ∧ u₁.parser.health = u₂.parser.health ∧
        ∃ w : Option (Warning × SynPos), u₁.parser.log = w.toList ++ t₁.parser.log ∧ u₂.parser.log = w.toList ++ t₂.parser.log) := by
  obtain ⟨hi, hL⟩ := open_inv ⟨_, _, _, _, _, _, hp⟩ hsz
  have hpe := create_eq hp
  have hsk : s.parser.reader.skipping = .seeks (limit + headerLen - cursor) := (hr.source hL hi hn).1.trans (by rw [hpe]; rfl)
  obtain ⟨n, outer, hopen, hfar⟩ := hfar
  have key : ∀ {h' : History α} {t : Client}, Runs Z s h' t → onlyLoads h' → within t.parser →
      ∃ o u, t.call Z (.next : Call α) = some (o, u) ∧
        Answers t o u (((look s.parser).move (n.attrEnd - (look s.parser).pos)).resume checks) ∧ (∀ ev, o = .event ev → u.attrs = readerOf ev u.parser.reader.position) ∧
        (∀ x, o = .err x → u.attrs = none) := by
    intro h' t hr' hl' hw
    obtain ⟨k1, k2, k, k3⟩ := loads_move hL hr' hl' (hr.inv hL hi hn) hrun ht hsk
    have hcalm := onlyLoads_calm hl'
    obtain ⟨o, u, g1, g2⟩ := C61_next_event hp hsz (hr.trans hn hr') (calm_append.mpr ⟨hn, hcalm⟩) k1 (fun f hf => ht f (k2 ▸ hf))
    refine ⟨o, u, g1, ?_, ?_, ?_⟩
    · obtain ⟨n', outer', w1, w2⟩ := hw
      have e1 : (look t.parser).opened = t.parser.started := rfl
      have e2 : (look t.parser).pos = t.parser.reader.position := rfl
      rw [k3] at e1 e2 g2
      have e3 : t.parser.started = n :: outer := e1.symm.trans hopen
      rw [w1] at e3
      cases e3
      have : skippingOf true cursor limit = .seeks (limit + headerLen - cursor) := rfl
      rw [this, next_within (a := look s.parser) hopen (by simp only [Ahead.move] at e2; omega) hfar] at g2
      exact g2
    · intro ev he
      subst he
      cases (call_did hL ((hr.trans hn hr').inv hL hi (calm_append.mpr ⟨hn, hcalm⟩)) g1) with
      | event _ _ _ ha => exact ha
    · intro x hx
      subst hx
      simp only [Client.call] at g1
      rcases hne : nextEvent t.parser with ⟨_ | _ | _, q⟩ <;> rw [hne] at g1 <;> cases g1
      rfl
  obtain ⟨o₁, u₁, a1, a2, a3, a4⟩ := key hr₁ hl₁ hw₁
  obtain ⟨o₂, u₂, b1, b2, b3, b4⟩ := key hr₂ hl₂ hw₂
  have hgo := resume_goes (a := (look s.parser).move (n.attrEnd - (look s.parser).pos)) (n := n) (outer := outer) hopen checks
  have hpos : ∀ {u w : Client}, look u.parser = look w.parser → u.parser.reader.position = w.parser.reader.position := fun h => congrArg Ahead.pos h
  rcases hv : ((look s.parser).move (n.attrEnd - (look s.parser).pos)).resume checks with ⟨vd, w, b⟩
  rw [hv] at a2 b2 hgo
  cases vd with
  | starts name c =>
    obtain ⟨rfl, x1, x2, x3⟩ := a2
    obtain ⟨rfl, y1, y2, y3⟩ := b2
    have hl : look u₁.parser = look u₂.parser := x2.trans y2.symm
    exact ⟨_, u₁, u₂, a1, b1, fun _ => ⟨hl, by rw [a3 _ rfl, b3 _ rfl, hpos hl], x3.trans y3.symm, w, x1, y1⟩⟩
  | ends =>
    obtain ⟨rfl, x1, x2, x3⟩ := a2
    obtain ⟨rfl, y1, y2, y3⟩ := b2
    have hl : look u₁.parser = look u₂.parser := x2.trans y2.symm
    exact ⟨_, u₁, u₂, a1, b1, fun _ => ⟨hl, by rw [a3 _ rfl, b3 _ rfl, hpos hl], x3.trans y3.symm, w, x1, y1⟩⟩
  | finishes => exact absurd rfl hgo
  | fails kd =>
    obtain ⟨rfl, x1, x2, x3⟩ := a2
    obtain ⟨rfl, y1, y2, y3⟩ := b2
    exact ⟨_, u₁, u₂, a1, b1, fun _ => ⟨x2.trans y2.symm, by rw [a4 _ rfl, b4 _ rfl], x3.trans y3.symm, w, x1, y1⟩⟩
  | overflows =>
    cases a2
    cases b2
    exact ⟨_, u₁, u₂, a1, b1, fun h => absurd rfl (h _)⟩

/-! ## Examples -/

/-- A node `A` with the attributes 7 and true, and the child `B`. The header of `A` declares `len` bytes of attributes; there are 7. -/
def exBounds (len : UInt8) : Bytes :=
  [75, 0, 0, 0, 2, 0, 0, 0, len, 0, 0, 0, 1, 65] ++ [73, 7, 0, 0, 0, 67, 84] ++ [62, 0, 0, 0, 0, 0, 0, 0, 0, 0, 0, 0, 1, 66] ++ List.replicate 26 0

theorem exBounds_sized (len : UInt8) : Sized (exBounds len) := by
  have : (exBounds len).length = 61 := by simp [exBounds]
  simp [Sized, this, headerLen]

/-- After the start of `A` and `n` attributes. -/
def exBoundsAfter (len : UInt8) (n : Nat) : Client :=
  (⟨exParser true true 7400 (exBounds len), none⟩ : Client).after Zlib.stored (.next :: List.replicate n (.load false typeLoader : Call AttrType))

theorem onlyLoads_of {h : History α} (hl : h.all (fun x => x.1.isLoad && (match x.2 with | .noValue => true | .value _ => true | _ => false)) = true) : onlyLoads h := by
  intro x hx
  have := List.all_eq_true.mp hl x hx
  obtain ⟨c, o⟩ := x
  rw [Bool.and_eq_true] at this
  refine ⟨this.1, ?_⟩
  cases o <;> simp at this ⊢

/-- Only the name of the event. -/
def nameOf {α : Type} : Option (Outcome α × Client) → Option String
  | some (.event (.startNode name _), _) => some name
  | _ => none

/-- The declared end is the end: `B` comes next, whether no attribute, one or both are loaded. -/
example : [0, 1, 2].map (fun n => nameOf ((exBoundsAfter 7 n).call Zlib.stored (.next : Call AttrType))) = [some "B", some "B", some "B"] := by decide +kernel

/-- **C73** (beyond the bounds). The condition is necessary: if the header of a node declares fewer bytes of attributes than the attributes
have, then what comes next depends on which attributes are loaded. Here `B` comes next if both are, while a node without a name is
found if only the first one is. Loading beyond the end is no error and raises no warning. -/
theorem C73_beyond : nameOf ((exBoundsAfter 5 2).call Zlib.stored (.next : Call AttrType)) = some "B" ∧
    nameOf ((exBoundsAfter 5 1).call Zlib.stored (.next : Call AttrType)) = some "" ∧
    (exBoundsAfter 5 1).parser.log = [] ∧ (exBoundsAfter 5 2).parser.log = [] ∧
    (exBoundsAfter 5 1).parser.health = .running ∧ (exBoundsAfter 5 2).parser.health = .running := by decide +kernel

example := C73_events (Z := Zlib.stored) (α := AttrType) (exParser_create true true 7400 (exBounds 7) (by decide)) (exBounds_sized 7)
  (s := exBoundsAfter 7 0) (runs_history _ _ (by decide +kernel)) (calm_of_all (by decide +kernel)) (by decide +kernel) (exTolerant (by decide +kernel))
  ⟨_, _, rfl, by decide +kernel⟩
  (h₁ := []) (h₂ := (exBoundsAfter 7 0).history Zlib.stored (List.replicate 3 (.load true typeLoader))) .nil (by intro x h; cases h) ⟨_, _, rfl, by decide +kernel⟩
  (runs_history _ _ (by decide +kernel)) (onlyLoads_of (by decide +kernel)) ⟨_, _, rfl, by decide +kernel⟩

end Fbx
