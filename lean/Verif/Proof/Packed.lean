import Verif.Proof.ReadDocument
import Verif.Spec.Packed

/-!
# Arrays compressed by any program
-/

namespace Fbx
open Spec

/-! ## What is read does not depend on the encoder -/

/-- Another encoder. -/
def Zlib.giving (Z : Zlib) (a b : Byte) (bs : Bytes) : Zlib := { Z with encHeader := (a, b), encEarly := fun _ => bs, encLate := fun _ => [] }

variable {Z : Zlib} {x y : Byte} {bs : Bytes}

theorem zRead_giving (fuel : Nat) : ∀ (n : Nat) (acc : Bytes) (s : Z.S) (r : Reader), Dec.zRead (Z.giving x y bs) fuel n acc (s, r) = Dec.zRead Z fuel n acc (s, r) := by
  induction fuel with
  | zero => intro n acc s r; rfl
  | succ fuel ih =>
    intro n acc s r
    have e : (Z.giving x y bs).step s = Z.step s := rfl
    simp only [Dec.zRead]
    rw [e]
    cases Z.step s with
    | need k =>
      rcases Reader.readU8 r with ⟨_ | _ | _, r'⟩
      · simp only [ih]; rfl
      · rfl
      · rfl
    | emit b s' => simp only [ih]; rfl
    | eof => rfl
    | fail => rfl

/-- The same decoder. -/
def Dec.same : Dec (Z.giving x y bs) → Dec Z
  | .direct => .direct
  | .zlib s => .zlib s

theorem readExact_giving (n : Nat) (d : Dec (Z.giving x y bs)) (r : Reader) :
    Dec.readExact n (d.same, r) = ((Dec.readExact n (d, r)).1, ((Dec.readExact n (d, r)).2.1.same, (Dec.readExact n (d, r)).2.2)) := by
  cases d with
  | direct => rfl
  | zlib s =>
    simp only [Dec.same, Dec.readExact]
    have := zRead_giving (Z := Z) (x := x) (y := y) (bs := bs) (n + r.rest.length + 1) n [] s r
    rw [this]

/-- The same iterator. -/
def ElemIter.same (it : ElemIter (Z.giving x y bs)) : ElemIter Z := ⟨it.dec.same, it.rest, it.hasError, it.odd⟩

theorem next_giving {e : Type} (t : ElemTy e) (it : ElemIter (Z.giving x y bs)) (r : Reader) :
    ElemIter.next t (it.same, r) = ((ElemIter.next t (it, r)).1, ((ElemIter.next t (it, r)).2.1.same, (ElemIter.next t (it, r)).2.2)) := by
  unfold ElemIter.next
  simp only [ElemIter.same, readExact_giving]
  split
  · rfl
  · rcases Dec.readExact t.size (it.dec, r) with ⟨_ | _ | _, d, r'⟩ <;> rfl

theorem run_giving {e α : Type} (t : ElemTy e) (c : SeqCons e α) : ∀ (it : ElemIter (Z.giving x y bs)) (r : Reader),
    ElemIter.run t c (it.same, r) = ((ElemIter.run t c (it, r)).1, ((ElemIter.run t c (it, r)).2.1.same, (ElemIter.run t c (it, r)).2.2)) := by
  induction c with
  | done q => intro it r; cases q <;> rfl
  | pull k ih =>
    intro it r
    simp only [ElemIter.run, M.bind_apply, next_giving]
    rcases ElemIter.next t (it, r) with ⟨v | _ | _, it', r'⟩
    · exact ih v it' r'
    · rfl
    · rfl

theorem create_giving (enc : ArrEnc) (r : Reader) :
    Dec.create Z enc r = (match (Dec.create (Z.giving x y bs) enc r).1 with | .ok d => .ok d.same | .err e => .err e | .panic p => .panic p, (Dec.create (Z.giving x y bs) enc r).2) := by
  cases enc with
  | direct => rfl
  | zlib =>
    simp only [Dec.create, M.bind_apply]
    rcases M.mapErr (fun e => PErr.ofData (.brokenCompression e)) Reader.readU8 r with ⟨a | _ | _, r'⟩
    · simp only
      rcases M.mapErr (fun e => PErr.ofData (.brokenCompression e)) Reader.readU8 r' with ⟨b | _ | _, r''⟩
      · simp only
        have e : (Z.giving x y bs).header a b = Z.header a b := rfl
        rw [e]
        cases Z.header a b <;> rfl
      · rfl
      · rfl
    · rfl
    · rfl

namespace AP

theorem runSeq_giving {e α : Type} (t : ElemTy e) (c : SeqCons e α) (d : Dec (Z.giving x y bs)) (count : Nat) : runSeq t c d.same count = runSeq t c d count := by
  funext a
  have h := run_giving t c ⟨d, count, false, false⟩ a.parser.reader
  simp only [ElemIter.same] at h
  simp only [runSeq, h]
  rcases ElemIter.run t c (⟨d, count, false, false⟩, a.parser.reader) with ⟨_ | _ | _, it, r⟩ <;> rfl

theorem loadSeq_giving {e α : Type} (t : ElemTy e) (c : Nat → SeqCons e α) (start idx : Nat) : loadSeq (Z.giving x y bs) t c start idx = loadSeq Z t c start idx := by
  funext a
  simp only [loadSeq, M.bind_apply]
  rcases readArrHeader a with ⟨h | _ | _, a1⟩
  · simp only
    rcases updateNext h.bytelen a1 with ⟨_ | _ | _, a2⟩
    · simp only [par, M.zoom_apply]
      rw [create_giving (Z := Z) (x := x) (y := y) (bs := bs) h.enc]
      rcases Dec.create (Z.giving x y bs) h.enc a2.parser.reader with ⟨d | _ | _, r⟩
      · simp only [runSeq_giving]
      · rfl
      · rfl
    · rfl
    · rfl
  · rfl
  · rfl

theorem load_giving {α : Type} (buffered : Bool) (l : Loader α) : load (Z.giving x y bs) buffered l = load Z buffered l := by
  have h : ∀ t start idx, loadImpl (Z.giving x y bs) buffered t l start idx = loadImpl Z buffered t l start idx := by
    intro t start idx
    cases t <;> first | rfl | exact loadSeq_giving _ _ _ _
  have : loadBody (Z.giving x y bs) buffered l = loadBody Z buffered l := by
    funext start idx
    unfold loadBody
    congr 1
    funext t
    cases t with
    | none => rfl
    | some t => simp only [h]
  unfold load
  rw [this]

/-- A conforming attribute is loaded. -/
theorem loads_packed {α : Type} (buffered : Bool) {p : Packed} (hfit : p.fits)
    (hdec : ∀ z, p.zipped = some z → ∃ a b rest s, z = a :: b :: rest ∧ Z.header a b = some s ∧ Z.Decodes s rest (arrayData p.value)) :
    LoadsOne Z α buffered Packed.bytes Packed.plain p := by
  obtain ⟨v, z⟩ := p
  cases z with
  | none =>
    have he : attrBytes Z ⟨v, .direct⟩ = attrBytes Zlib.stored ⟨v, .direct⟩ := by cases v <;> rfl
    have hf : attrFits Z ⟨v, .direct⟩ := by
      simp only [Packed.fits] at hfit
      cases v <;> exact hfit
    have := loadsOne_fine (α := α) buffered ⟨v, .direct⟩ (Z := Z) (by intro h; cases h) hf
    intro l a t m h1 h2 h3 h4 h5 h6 h7 h8 h9
    have := this l a t m h1 h2 h3 h4 h5 h6 h7 h8 (by rw [he]; exact h9)
    rw [he] at this
    exact this
  | some z =>
    obtain ⟨a, b, rest, s, rfl, h1, h2⟩ := hdec z rfl
    obtain ⟨g1, g2, g3⟩ := hfit
    have hd : ∀ {s : Z.S} {inp out : Bytes}, Z.Decodes s inp out → (Z.giving a b rest).Decodes s inp out := by
      intro s inp out h
      induction h with
      | done s inp => exact @Zlib.Decodes.done (Z.giving a b rest) s inp
      | need e _ ih => exact @Zlib.Decodes.need (Z.giving a b rest) _ _ _ _ _ e ih
      | emit e _ ih => exact @Zlib.Decodes.emit (Z.giving a b rest) _ _ _ _ _ e ih
    have hr : (Z.giving a b rest).Restores (arrayData v) := ⟨s, h1, by
      have := hd h2
      show (Z.giving a b rest).Decodes s (rest ++ []) _
      rwa [List.append_nil]⟩
    have hz : (Z.giving a b rest).encode (arrayData v) = a :: b :: rest := by
      simp [Zlib.encode, Zlib.giving]
    have he : attrBytes (Z.giving a b rest) ⟨v, .zlib⟩ = Packed.bytes ⟨v, some (a :: b :: rest)⟩ := by
      cases v <;> first | (simp only [attrBytes, attrBody, arrayPayload, hz, Packed.bytes]; done) | exact absurd g1 (by simp [Packed.isArray])
    have hf : attrFits (Z.giving a b rest) ⟨v, .zlib⟩ := by
      cases v <;> first | (simp only [attrFits, arrayPayload, hz]; exact ⟨g2, g3⟩) | exact absurd g1 (by simp [Packed.isArray])
    have := loadsOne_fine (α := α) buffered ⟨v, .zlib⟩ (fun _ => hr) hf
    intro l ap t m h1 h2 h3 h4 h5 h6 h7 h8 h9
    have := this l ap t m h1 h2 h3 h4 h5 h6 h7 h8 (by rw [he]; exact h9)
    rw [he, load_giving] at this
    exact this

end AP

theorem forest_loads_packed {α : Type} (seek buffered : Bool) (v : Nat) (F : Forest Packed) : ∀ (off : Nat), forestFits v Packed.bytes Packed.fits F off →
    F.All (fun _ as => ∀ p ∈ as, ∀ z, p.zipped = some z → ∃ a b rest s, z = a :: b :: rest ∧ Z.header a b = some s ∧ Z.Decodes s rest (arrayData p.value)) →
    F.All (fun _ as => Parser.Loads Z α seek buffered Packed.bytes Packed.plain as) := by
  induction F with
  | nil => intro _ _ _; trivial
  | cons name attrs ch rest ih1 ih2 =>
    intro off h g
    obtain ⟨-, h2, -, -, h5, h6⟩ := h
    obtain ⟨g1, g2, g3⟩ := g
    exact ⟨Parser.loads_each seek buffered (fun d hd => AP.loads_packed buffered (h2 d hd) (g1 d hd)), ih1 _ h5 g2, ih2 _ h6 g3⟩

end Fbx
