import Verif.Proof.Typed
import Verif.Proof.Histories
import Verif.Props.Attribute

/-! # C60 Loaders for one type are `DirectLoader` with a check of the type in front -/

namespace Fbx
open Reader Parser Spec
variable {Z : Zlib} {α γ : Type}

/-- Whenever `TypeLoader` does not return a type (there are no more attributes, the attribute has a bad header, the parser
has stopped before, …), no loader whatsoever would have done anything else: same answer, same state afterwards. -/
theorem C60_stops {s u : Client} {buffered : Bool} {o : Outcome AttrType} {o' : Outcome α}
    (h : s.call Z (.load buffered typeLoader) = some (o, u)) (ho : Outcome.same o = some o') (l : Loader α) :
    s.call Z (.load buffered l) = some (o', u) := by
  cases ha : s.attrs with
  | none => simp only [Client.call, ha] at h; cases h
  | some a =>
    rw [AP.call_answer ha] at h ⊢
    rcases AP.type_cases (Z := Z) ⟨s.parser, a⟩ buffered with ⟨t, b, c, _, _, _, _, ht⟩ | hl
    · rw [ht] at h
      cases h
      cases ho
    · obtain ⟨o1, o2, w, h1, h2, h3⟩ := (hl α l).answers
      rw [h1] at h
      cases h
      rw [ho] at h3
      cases h3
      rw [h2]

/-- If there is an attribute of another type than the loader's, the loader fails with `UnexpectedAttribute`, which names
what was expected and what was found, at the position of the attribute. The parser has read what `TypeLoader` would have
read, and is aborted at that position. -/
theorem C60_other {p : Parser} {bytes : Bytes} (hp : Opens p bytes) (hsz : Sized bytes) {h : History γ} {s u : Client}
    (hr : Runs Z ⟨p, none⟩ h s) (hn : h.calm) {l : Loader α} {own : AttrType} {expecting : String} {get : AttrValue → Option α}
    (hl : TypedLoader α l own expecting get) {a : Attrs} (ha : s.attrs = some a) {buffered : Bool} {t : AttrType}
    (hc : s.call Z (.load buffered typeLoader) = some (.value t, u)) (ht : t ≠ own) :
    let pos : SynPos := { u.parser.synPos with compPos := a.next, attrIdx := some (a.total - a.rest) }
    s.call Z (.load buffered l) = some (.err ⟨.data (.unexpectedAttribute expecting (describe t)), some pos⟩, ⟨u.parser.setAborted pos, u.attrs⟩) := by
  obtain ⟨hi, hL⟩ := open_inv hp hsz
  have hi' := hr.inv hL hi hn
  have htop := ((call_did hL hi' hc).inv hi' (by simp)).parser.top
  rw [AP.call_answer ha] at hc ⊢
  rcases AP.type_cases (Z := Z) ⟨s.parser, a⟩ buffered with ⟨t', b, c, hh, hle, hx, hy, hz⟩ | hs
  · rw [hz] at hc
    cases hc
    have hb := AP.impl_blind (Z := Z) hl ht buffered a.next (a.total - a.rest) b
    rw [hy] at hb
    rw [AP.load_settle hh hle, AP.body_some hx, hb]
    rw [show passing (fun _ => (.error (unexpected expecting (describe t)) : Except PErr α)) (.ok t, c) = (.err (unexpected expecting (describe t)), c) from rfl]
    simp only [AP.wrap, AP.settle]
    rw [AP.position_eq, if_neg (fun hc => htop hc.1 hc.2)]
    rfl
  · obtain ⟨o1, o2, w, h1, h2, h3⟩ := (hs _ typeLoader).answers
    rw [h1] at hc
    cases hc
    cases h3

/-- If the attribute has the type of the loader, the loader does what `DirectLoader` does: it returns the contents of the
value, or fails in the same way, and leaves the same state. -/
theorem C60_own {s u : Client} {l : Loader α} {own : AttrType} {expecting : String} {get : AttrValue → Option α}
    (hl : TypedLoader α l own expecting get) {buffered : Bool}
    (hc : s.call Z (.load buffered typeLoader) = some (.value own, u)) :
    (∃ v x w, s.call Z (.load buffered directLoader) = some (.value v, w) ∧ v.type_ = own ∧ get v = some x ∧
      s.call Z (.load buffered l) = some (.value x, w)) ∨
    (∃ o o' w, s.call Z (.load buffered directLoader) = some (o, w) ∧ Outcome.same o = some o' ∧ s.call Z (.load buffered l) = some (o', w)) := by
  cases ha : s.attrs with
  | none => simp only [Client.call, ha] at hc; cases hc
  | some a =>
    rw [AP.call_answer ha] at hc ⊢
    rw [AP.call_answer ha]
    rcases AP.type_cases (Z := Z) ⟨s.parser, a⟩ buffered with ⟨t', b, c, hh, hle, hx, hy, hz⟩ | hs
    · rw [hz] at hc
      cases hc
      obtain ⟨f, hf, hd⟩ := AP.impl_own (Z := Z) hl buffered a.next (a.total - a.rest)
      have hd := hd b
      rw [AP.load_settle hh hle, AP.body_some hx, AP.load_settle hh hle, AP.body_some hx, hd]
      rcases AP.loadImpl Z buffered own l a.next (a.total - a.rest) b with ⟨r, w⟩
      cases r with
      | ok x => exact .inl ⟨f x, x, _, rfl, (hf x).2, (hf x).1, rfl⟩
      | err e =>
        obtain ⟨o, o', w, h1, h2, h3⟩ := (AP.Alike.settle (α := AttrValue) (β := α) (.inr (.inl ⟨e, w, rfl, rfl⟩)) a.next (a.total - a.rest)).answers
        exact .inr ⟨o, o', w, congrArg some h1, h3, congrArg some h2⟩
      | panic q =>
        obtain ⟨o, o', w, h1, h2, h3⟩ := (AP.Alike.settle (α := AttrValue) (β := α) (.inr (.inr ⟨q, w, rfl, rfl⟩)) a.next (a.total - a.rest)).answers
        exact .inr ⟨o, o', w, congrArg some h1, h3, congrArg some h2⟩
    · obtain ⟨o1, o2, w, h1, h2, h3⟩ := (hs _ typeLoader).answers
      rw [h1] at hc
      cases hc
      cases h3

/-- `TypeLoader` returns the type of the value `DirectLoader` would have returned. -/
theorem C60_type {s w : Client} {buffered : Bool} {v : AttrValue} (hc : s.call Z (.load buffered directLoader) = some (.value v, w)) :
    ∃ u, s.call Z (.load buffered typeLoader) = some (.value v.type_, u) := by
  cases ha : s.attrs with
  | none => simp only [Client.call, ha] at hc; cases hc
  | some a =>
    rw [AP.call_answer ha] at hc ⊢
    rcases AP.type_cases (Z := Z) ⟨s.parser, a⟩ buffered with ⟨t', b, c, hh, hle, hx, hy, hz⟩ | hs
    · rw [AP.load_settle hh hle, AP.body_some hx] at hc
      rcases hd : AP.loadImpl Z buffered t' directLoader a.next (a.total - a.rest) b with ⟨r, w'⟩
      simp only at hc
      rw [hd] at hc
      cases r with
      | ok v' =>
        cases hc
        refine ⟨⟨c.parser, some c.attrs⟩, ?_⟩
        rw [hz, ← AP.impl_direct_type hd]
        rfl
      | err e =>
        obtain ⟨o1, o2, w2, h1, h2, h3⟩ := (AP.Alike.settle (α := AttrValue) (β := AttrValue) (.inr (.inl ⟨e, w', rfl, rfl⟩)) a.next (a.total - a.rest)).answers
        simp only [AP.wrap] at hc
        rw [h1] at hc
        cases hc
        cases h3
      | panic q => cases hc
    · obtain ⟨o1, o2, w, h1, h2, h3⟩ := (hs _ directLoader).answers
      rw [h2] at hc
      cases hc
      cases o1 <;> cases h3

/-! ## Examples -/

/-- After one attribute: the next one is an array of booleans. -/
example := C60_other (α := List (BitVec 32)) ⟨_, _, _, _, _, _, exParser_create true true 7400 exAttrs (by decide)⟩ exAttrs_sized (exAttrsRuns 1 (by omega)) (calm_of_all (by decide +kernel))
  .arrI32 (a := ⟨3, 2, 43⟩) (by decide +kernel) (buffered := true) (t := .arrBool)
  (u := (exAttrsAfter 1).after Zlib.stored [.load true typeLoader]) (call_after _ _ _ (by decide +kernel)) (by decide)
example := C60_own (s := exAttrsAfter 1) (Z := Zlib.stored) .arrBool (buffered := true)
  (u := (exAttrsAfter 1).after Zlib.stored [.load true typeLoader]) (call_after _ _ _ (by decide +kernel))
example : ((exAttrsAfter 1).session Zlib.stored [.load true arrLoaderBool]).map Prod.fst = some [.value [false, true]] := by decide +kernel
example : ((exAttrsAfter 1).session Zlib.stored [.load true arrLoaderI32]).map Prod.fst =
    some [.err ⟨.data (.unexpectedAttribute "i32 array" "boolean array"), some ⟨56, 43, [(0, "A")], some 1⟩⟩] := by decide +kernel
example := C60_stops (s := exAttrsAfter 3) (Z := Zlib.stored) (buffered := false) (u := (exAttrsAfter 3).after Zlib.stored [.load false typeLoader]) (o := .noValue) (o' := .noValue)
  (call_after _ _ _ (by decide +kernel)) rfl stringLoader
example := C60_type (s := exAttrsAfter 0) (Z := Zlib.stored) (buffered := false) (v := .bool false) (w := (exAttrsAfter 0).after Zlib.stored [.load false directLoader]) (call_after _ _ _ (by decide +kernel))

end Fbx
