import Verif.Proof.ReadDocument
import Verif.Props.ParseWritten

/-! # Loading attributes -/

namespace Fbx
open Spec

namespace AP
open Reader

theorem load_at {Z : Zlib} (hZ : Z.Lawful) {α : Type} (buffered : Bool) (l : Loader α) {a : AP} {d : DAttr} (h : AtAttr Z a d) :
    ∃ k, k ≤ a.attrs.next - a.parser.reader.position + (attrBytes Z d).length ∧ load Z buffered l a =
      match present buffered l d.value with
      | .ok v => (.ok (some v), a.after (attrBytes Z d).length k)
      | .error e => (.err (e.andPosition (failPos (a.after (attrBytes Z d).length k) a.attrs.next (a.attrs.total - a.attrs.rest))),
          aborted (a.after (attrBytes Z d).length k) (failPos (a.after (attrBytes Z d).length k) a.attrs.next (a.attrs.total - a.attrs.rest))) := by
  obtain ⟨t, ht⟩ := h.bytes
  obtain ⟨k, k1, -, k2⟩ := load_fine buffered l d (fun _ => hZ.roundtrip _) a t (a.attrs.rest - 1) ⟨h.position, fun _ => h.cursor⟩ (.inl h.seekable) h.running (by have := h.some_left; omega) h.counted h.toplevel h.ahead h.within h.fits ht
  exact ⟨k, k1, k2⟩

theorem present_accepts {α : Type} {l : Loader α} {g : AttrValue → Option α} (h : Accepts α l g) (buffered : Bool) (v : AttrValue) :
    (∀ x, g v = some x → present buffered l v = .ok x) ∧
    (g v = none → ∃ expecting got, present buffered l v = .error (PErr.ofData (.unexpectedAttribute expecting got))) := by
  cases h <;> cases v <;> refine ⟨fun x hx => ?_, fun hx => ?_⟩ <;>
    first
    | (simp only [reduceCtorEq] at hx; done)
    | (simp only [Option.some.injEq] at hx; subst hx; first | rfl | exact Parser.feed_collect id _ [] | skip)
    | exact ⟨_, _, rfl⟩
    | (cases buffered <;> exact ⟨_, _, rfl⟩)
  · cases buffered <;> exact Parser.feed_readToEnd _ _
  · have : ∀ b, (if b = true then stringLoader.stringBuf else stringLoader.string) = readString id := by intro b; cases b <;> rfl
    simp only [present, this, readString]
    rw [Parser.feed_readToEnd, show stringOfUtf8 (utf8 _) = some _ from stringOfUtf8_strBytes _]
    rfl

end AP

/-! ## C36 Which values loaders accept -/

/-- A type-specific loader succeeds on a well-formed attribute exactly if the attribute has its type, and then returns
the value; otherwise it fails with `UnexpectedAttribute` and the parser is aborted. Both through `load_next` and
`load_next_buffered`. -/
theorem C36_accepts (Z : Zlib) (hZ : Z.Lawful) (a : AP) (d : DAttr) (h : AtAttr Z a d) (α : Type) (l : Loader α)
    (accepted : AttrValue → Option α) (hl : Accepts α l accepted) (buffered : Bool) :
    match accepted d.value with
    | some x => (AP.load Z buffered l a).1 = .ok (some x) ∧ (AP.load Z buffered l a).2.parser.health = .running
    | none => ∃ expecting got pos, (AP.load Z buffered l a).1 = .err ⟨.data (.unexpectedAttribute expecting got), some pos⟩ ∧
        (AP.load Z buffered l a).2.parser.health = .aborted pos := by
  obtain ⟨k, -, hk⟩ := AP.load_at hZ buffered l h
  obtain ⟨h1, h2⟩ := AP.present_accepts hl buffered d.value
  split
  · rename_i x hx
    rw [h1 x hx] at hk
    rw [hk]
    exact ⟨rfl, h.running⟩
  · rename_i hx
    obtain ⟨ex, got, he⟩ := h2 hx
    rw [he] at hk
    rw [hk]
    exact ⟨ex, got, _, rfl, rfl⟩

/-- `DirectLoader` returns the value and `TypeLoader` its type. -/
theorem C36_direct_and_type (Z : Zlib) (hZ : Z.Lawful) (a : AP) (d : DAttr) (h : AtAttr Z a d) (buffered : Bool) :
    (AP.load Z buffered directLoader a).1 = .ok (some d.value) ∧ (AP.load Z buffered typeLoader a).1 = .ok (some d.value.type_) := by
  obtain ⟨k, -, hk⟩ := AP.load_at hZ buffered directLoader h
  obtain ⟨j, -, hj⟩ := AP.load_at hZ buffered typeLoader h
  rw [Parser.present_direct] at hk
  have : present buffered typeLoader d.value = .ok d.value.type_ := by
    cases d.value <;> cases buffered <;> rfl
  rw [this] at hj
  rw [hk, hj]
  exact ⟨rfl, rfl⟩

/-- The hypothesis is met at every attribute of a node: it holds of the next attribute after a successful load. -/
theorem C36_next_attribute (Z : Zlib) (hZ : Z.Lawful) (a a' : AP) (d e : DAttr) (t : List UInt8) (h : AtAttr Z a d) (hr : 1 < a.attrs.rest) (he : attrFits Z e)
    (hb : a.parser.reader.rest.drop (a.attrs.next - a.parser.reader.position) = attrBytes Z d ++ (attrBytes Z e ++ t))
    (α : Type) (l : Loader α) (x : α) (buffered : Bool) (hx : AP.load Z buffered l a = (.ok (some x), a')) : AtAttr Z a' e := by
  obtain ⟨k, hk1, hk⟩ := AP.load_at hZ buffered l h
  rw [hk] at hx
  have h1 := h.position
  have h2 := h.cursor
  have h3 := h.ahead
  have h4 := h.within
  have h5 := h.counted
  have hlen := congrArg List.length hb
  simp only [List.length_drop, List.length_append] at hlen
  split at hx
  · simp only [Prod.mk.injEq] at hx
    obtain ⟨-, rfl⟩ := hx
    refine ⟨h.running, h.seekable, ?_, ?_, h.toplevel, ?_, ?_, ?_, ?_, he, t, ?_⟩
    · simp [AP.after, Reader.consume]; omega
    · simp [AP.after, Reader.consume]; omega
    · simp [AP.after]; omega
    · simp only [AP.after]; omega
    · simp only [AP.after, Reader.consume]; omega
    · simp [AP.after, Reader.consume]; omega
    · simp only [AP.after, Reader.consume, List.drop_drop]
      rw [show k + (a.attrs.next + (attrBytes Z d).length - (a.parser.reader.position + k)) =
        a.attrs.next - a.parser.reader.position + (attrBytes Z d).length by omega, ← List.drop_drop, hb, List.drop_left]
  · simp at hx

/-- The parser after the first event of the example document. -/
def exStarted : AP :=
  match anyParser true true (Writer.session Zlib.stored exSink 7400 (calls exForest) exFooter).2.buf none 0 (2 ^ 64) with
  | .ok p => match AP.ofParser (Parser.nextEvent p).2 with
    | .ok a => a
    | _ => ⟨p, ⟨0, 0, 0⟩⟩
  | _ => ⟨⟨7400, .running, [], none, 0, ⟨[], none, 0, 0, true, 0⟩, none, [], true⟩, ⟨0, 0, 0⟩⟩

/-- There the first attribute of node `A` is next. -/
example : AtAttr Zlib.stored exStarted { value := .i32 5 } := by
  refine ⟨by decide +kernel, by decide +kernel, by decide +kernel, by decide +kernel, by decide +kernel, by decide +kernel,
    by decide +kernel, by decide +kernel, by decide +kernel, trivial, exStarted.parser.reader.rest.drop 5, by decide +kernel⟩

/-- Three loads: an integer, the type of the next attribute, and then the wrong loader. -/
example : (AP.load Zlib.stored false primI32 exStarted).1 = .ok (some 5) ∧
    (AP.load Zlib.stored false typeLoader (AP.load Zlib.stored false primI32 exStarted).2).1 = .ok (some .string) ∧
    ∃ pos, (AP.load Zlib.stored false primBool exStarted).1 = .err ⟨.data (.unexpectedAttribute "single boolean" "i32"), some pos⟩ :=
  ⟨by decide +kernel, by decide +kernel, _, (by decide +kernel : (AP.load Zlib.stored false primBool exStarted).1 = .err ⟨.data (.unexpectedAttribute "single boolean" "i32"),
    some { bytePos := 46, compPos := 41, path := [(0, "A")], attrIdx := some 0 }⟩)⟩

end Fbx
