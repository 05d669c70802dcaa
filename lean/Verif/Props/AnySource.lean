import Verif.Proof.AnySource
import Verif.Props.Reference

/-! # C61 A file is decided by its bytes, from any source

The tables are those of `Verif/Spec/AnySource.lean`. -/

namespace Fbx
open Reader Parser Spec Tree
variable {α : Type} {Z : Zlib}

theorem skipping_opened (seekable : Bool) (bytes : Bytes) (ending : Option IoErr) (cursor limit : Nat) :
    (⟨bytes, ending, cursor, headerLen, seekable, limit⟩ : Reader).skipping = skippingOf seekable cursor limit := rfl

/-- **C61** (`next_event`). After any calls on any bytes of any source, while the parser is running and its handler does not
object, `next_event` answers what the table `Ahead.nextFrom` says. -/
theorem C61_next_event {checks seekable : Bool} {v : FbxVersion} {bytes : Bytes} {ending : Option IoErr} {cursor limit : Nat} {p : Parser}
    (hp : Parser.create checks v ⟨bytes, ending, cursor, headerLen, seekable, limit⟩ = .ok p) (hsz : Sized bytes) {h : History α} {s : Client}
    (hr : Runs Z ⟨p, none⟩ h s) (hn : h.calm) (hrun : s.parser.health = .running) (ht : tolerant s.parser) :
    ∃ o t, s.call Z (.next : Call α) = some (o, t) ∧
      Answers s o t ((look s.parser).nextFrom (skippingOf seekable cursor limit) ending checks) := by
  obtain ⟨hi, hL⟩ := open_inv ⟨_, _, _, _, _, _, hp⟩ hsz
  have hst := Opens.state ⟨_, _, _, _, _, _, hp⟩
  have hpe := create_eq hp
  obtain ⟨h1, h2⟩ := hr.source hL hi hn
  have hck : s.parser.checks = checks := (hr.frame hL hi hn).2.trans (by rw [hpe])
  have hkids := hr.kids hL hi hn hst.2.1 hrun
  have := answers_nextFrom (Z := Z) (α := α) hL (hr.inv hL hi hn) hrun ht (fun n outer h => (hkids n outer h).1)
  rw [hck, h1, h2, hpe] at this
  exact this

/-- **C61** (`load_next`). After any calls on any bytes of any source, while the parser is running and its handler does not
object, `load_next` with `DirectLoader` answers what the table `LoadAnswersFrom` says. -/
theorem C61_load {checks seekable : Bool} {v : FbxVersion} {bytes : Bytes} {ending : Option IoErr} {cursor limit : Nat} {p : Parser}
    (hp : Parser.create checks v ⟨bytes, ending, cursor, headerLen, seekable, limit⟩ = .ok p) (hsz : Sized bytes) {h : History AttrValue} {s : Client}
    (hr : Runs Z ⟨p, none⟩ h s) (hn : h.calm) {a : Attrs} (ha : s.attrs = some a) (hrest : a.rest ≠ 0)
    (hrun : s.parser.health = .running) (ht : tolerant s.parser) (buffered : Bool) :
    ∃ o t, s.call Z (.load buffered directLoader) = some (o, t) ∧ LoadAnswersFrom Z (skippingOf seekable cursor limit) ending s a o t := by
  obtain ⟨hi, hL⟩ := open_inv ⟨_, _, _, _, _, _, hp⟩ hsz
  have hpe := create_eq hp
  obtain ⟨h1, h2⟩ := hr.source hL hi hn
  obtain ⟨o, t, k1, k2, -⟩ := answers_loadFrom (Z := Z) hL (hr.inv hL hi hn) ha hrest hrun ht buffered
  rw [h1, h2, hpe] at k2
  exact ⟨o, t, k1, k2⟩

/-- **C61** (the pull parser). Whatever the bytes after the header of a file, in any source: a client that calls `next_event` at
most `n` times and loads every attribute with `DirectLoader` sees what the reference reader finds in these bytes: the events, the
values, the error with its position, and all warnings with their positions. -/
theorem C61_client (Z : Zlib) (checks seekable : Bool) {bytes body : Bytes} (ending : Option IoErr) (cursor limit : Nat) {a b c d : UInt8} {v : FbxVersion}
    (hlen : bytes.length + 2 ^ 32 ≤ 2 ^ 64) (hb : bytes = signature ++ [a, b, c, d] ++ body) (hv : v.toNat = le32 a b c d) (hs : supported v.toNat)
    (H : Option Handler) (hH : indulgent H) (buffered : Bool) (n : Nat) :
    ∃ x, parseSource seekable Z checks H ending cursor limit buffered everything n bytes = some x ∧
      Sees v (readingFrom Z (skippingOf seekable (cursor + 27) limit) ending checks n (bodyStart v ending body)) [] [] x := by
  obtain ⟨p, h1, h2, h3, h4⟩ := open_file (checks := checks) (seekable := seekable) (ending := ending) (cursor := cursor) (limit := limit) hlen hb hv hs
  obtain ⟨h, k1, k2, k3⟩ := handler_runs (Z := Z) p (by rw [h4]) H hH
  refine ⟨_, by simp only [parseSource, h1]; rfl, ?_⟩
  have := drive_readingFrom (Z := Z) h2 rfl h3 rfl rfl buffered n 0 [] h _ k1 k2 (by rw [h4]) k3
  subst h4
  exact this

/-- **C61** (trees). Whatever the bytes after the header of a file, in any source: `AnyTree` returns the tree of the document which
the reference reader finds, or the error; and the document is complete: its parts are those of a forest. -/
theorem C61_tree (Z : Zlib) (checks seekable : Bool) {bytes body : Bytes} (ending : Option IoErr) (cursor limit : Nat) {a b c d : UInt8} {v : FbxVersion}
    (hlen : bytes.length + 2 ^ 32 ≤ 2 ^ 64) (hb : bytes = signature ++ [a, b, c, d] ++ body) (hv : v.toNat = le32 a b c d) (hs : supported v.toNat) :
    let r := readBodyFrom Z (skippingOf seekable (cursor + 27) limit) ending checks v body
    match r.close with
    | .footer at_ => ∃ F t footer, r.parts = partsOf F ∧
        anyTree Z checks seekable bytes ending cursor limit = .ok (v, t, footer) ∧ WF t ∧ Rep t t.root (.node "" [] F.roses) ∧
        ∀ f, footer = .ok f ↔ startsWithFooter v.toNat at_.bytes f
    | .error e => anyTree Z checks seekable bytes ending cursor limit = .err (.load (.parser e))
    | .overflow => anyTree Z checks seekable bytes ending cursor limit = .panic .attrEndOverflow ∧ checks = true ∧ 7500 ≤ v.toNat
    | .more _ => False := by
  obtain ⟨p, h1, h2, h3, h4⟩ := open_file (checks := checks) (seekable := seekable) (ending := ending) (cursor := cursor) (limit := limit) hlen hb hv hs
  obtain ⟨x, k1, k2⟩ := C61_client Z checks seekable ending cursor limit hlen hb hv hs (some (fun _ _ _ => none)) (by intro f hf; cases hf; intros; rfl) false (2 * body.length + 1)
  simp only [parseSource, h1, Option.some.injEq] at k1
  exact tree_of_reading h1 h2 h3 h4 k1 k2

/-! ## Examples -/

/-- The body `exOdd` from a plain source: two bytes between the attributes and the child of the node `A` are passed over without
being counted, so the offset of the child's end is not where the parser believes to be, and a header is read there. -/
example : (readBodyFrom Zlib.stored .reads none true 7400 exOdd).parts = [.node "A" [.bool false], .node "" []] ∧
    (readBodyFrom Zlib.stored .reads none true 7400 exOdd).close =
      .error ⟨.data (.nodeLengthMismatch 58 (some 69)), some ⟨69, 27, [(0, "A")], none⟩⟩ := by decide +kernel

/-- From a source which can seek up to offset 44 only. -/
example : (readBodyFrom Zlib.stored (.seeks 44) none true 7400 exOdd).parts = [.node "A" [.bool false]] ∧
    (readBodyFrom Zlib.stored (.seeks 44) none true 7400 exOdd).close = .error ⟨.io .invalidSeek, some ⟨43, 27, [(0, "A")], none⟩⟩ := by decide +kernel

/-- From a source which can seek far enough. -/
example : (readBodyFrom Zlib.stored (.seeks 45) none true 7400 exOdd).parts = [.node "A" [.bool false], .node "" [], .end, .end] := by decide +kernel

example := C61_client Zlib.stored true false (body := exOdd) none 0 0 (a := 0xe8) (b := 0x1c) (c := 0) (d := 0) (v := 7400)
  (by decide +kernel) rfl (by decide) (by simp [supported]) none (by intro f hf; cases hf) false 5
example := C61_tree Zlib.stored true true (body := exOdd) (some (.other 3)) 0 44 (a := 0xe8) (b := 0x1c) (c := 0) (d := 0) (v := 7400)
  (by decide +kernel) rfl (by decide) (by simp [supported])

/-- The parser of `exAttrs` from a plain source, after the start of the node. -/
def exPlainAttrs : Client := ⟨exParser true false 7400 exAttrs, none⟩

example : ∃ o t, (exPlainAttrs.after Zlib.stored [(.next : Call AttrValue)]).call Zlib.stored (.next : Call AttrValue) = some (o, t) ∧
    Answers (exPlainAttrs.after Zlib.stored [(.next : Call AttrValue)]) o t
      ((look (exPlainAttrs.after Zlib.stored [(.next : Call AttrValue)]).parser).nextFrom .reads none true) :=
  C61_next_event (exParser_create true false 7400 exAttrs (by decide)) exAttrs_sized (runs_history _ _ (by decide +kernel)) (calm_of_all (by decide +kernel))
    (by decide +kernel) (exTolerant (by decide +kernel))

example : ∃ o t, (exPlainAttrs.after Zlib.stored [(.next : Call AttrValue)]).call Zlib.stored (.load true directLoader) = some (o, t) ∧
    LoadAnswersFrom Zlib.stored .reads none (exPlainAttrs.after Zlib.stored [(.next : Call AttrValue)]) ⟨3, 3, 41⟩ o t :=
  C61_load (exParser_create true false 7400 exAttrs (by decide)) exAttrs_sized (runs_history _ _ (by decide +kernel)) (calm_of_all (by decide +kernel))
    (by decide +kernel) (by decide) (by decide +kernel) (exTolerant (by decide +kernel)) true

end Fbx
