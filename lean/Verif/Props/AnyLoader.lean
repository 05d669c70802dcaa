import Verif.Proof.AnyLoader
import Verif.Props.AnySource

/-! # C72 `load_next` with any loader is decided by the bytes ahead

The tables are those of `Verif/Spec/AnyLoader.lean`. -/

namespace Fbx
open Reader Parser Spec
variable {α : Type} {Z : Zlib}

/-- **C72** (`load_next`). After any calls on any bytes of any source, while the parser is running and its handler does not object,
`load_next` and `load_next_buffered` with any loader answer what the table `LoadAnswersFor` says. -/
theorem C72_load {checks seekable : Bool} {v : FbxVersion} {bytes : Bytes} {ending : Option IoErr} {cursor limit : Nat} {p : Parser}
    (hp : Parser.create checks v ⟨bytes, ending, cursor, headerLen, seekable, limit⟩ = .ok p) (hsz : Sized bytes) {h : History α} {s : Client}
    (hr : Runs Z ⟨p, none⟩ h s) (hn : h.calm) {a : Attrs} (ha : s.attrs = some a) (hrest : a.rest ≠ 0)
    (hrun : s.parser.health = .running) (ht : tolerant s.parser) (buffered : Bool) (l : Loader α) :
    ∃ o t, s.call Z (.load buffered l) = some (o, t) ∧ LoadAnswersFor Z (skippingOf seekable cursor limit) ending buffered l s a o t := by
  obtain ⟨hi, hL⟩ := open_inv ⟨_, _, _, _, _, _, hp⟩ hsz
  have hpe := create_eq hp
  obtain ⟨h1, h2⟩ := hr.source hL hi hn
  obtain ⟨o, t, k1, k2, -⟩ := answers_loadFor (Z := Z) hL (hr.inv hL hi hn) ha hrest hrun ht buffered l
  rw [h1, h2, hpe] at k2
  exact ⟨o, t, k1, k2⟩

/-- **C72** (the pull parser). Whatever the bytes after the header of a file, in any source: a client that calls `next_event` at
most `n` times and loads attributes with any loaders, the choice of which may depend on the number of the node, its name and its
number of attributes, sees what the reference reader finds in these bytes: the events, what the loaders make of the attributes, the
error with its position, and all warnings with their positions. -/
theorem C72_client (Z : Zlib) (checks seekable : Bool) {bytes body : Bytes} (ending : Option IoErr) (cursor limit : Nat) {a b c d : UInt8} {v : FbxVersion}
    (hlen : bytes.length + 2 ^ 32 ≤ 2 ^ 64) (hb : bytes = signature ++ [a, b, c, d] ++ body) (hv : v.toNat = le32 a b c d) (hs : supported v.toNat)
    (H : Option Handler) (hH : indulgent H) (buffered : Bool) (plan : Nat → String → Nat → List (Loader α)) (n : Nat) :
    ∃ x, parseSource seekable Z checks H ending cursor limit buffered plan n bytes = some x ∧
      SeesFor v (readingFor Z (skippingOf seekable (cursor + 27) limit) ending checks buffered plan n 0 (bodyStart v ending body)) [] [] x := by
  obtain ⟨p, h1, h2, h3, h4⟩ := open_file (checks := checks) (seekable := seekable) (ending := ending) (cursor := cursor) (limit := limit) hlen hb hv hs
  obtain ⟨h, k1, k2, k3⟩ := handler_runs (Z := Z) p (by rw [h4]) H hH
  refine ⟨_, by simp only [parseSource, h1]; rfl, ?_⟩
  have := drive_readingFor (Z := Z) h2 rfl h3 rfl rfl buffered plan n 0 [] h _ k1 k2 (by rw [h4]) k3
  subst h4
  exact this

/-- **C72** (where the next attribute is). Whatever a loader reads of an attribute, the next attribute is found at the same place:
two loaders which do not fail agree about the length of the attribute. -/
theorem C72_next_attribute (e : Ending) (b₁ b₂ : Bool) {β : Type} (l₁ : Loader α) (l₂ : Loader β) (bs : Bytes) {v : α} {w : β}
    (h₁ : (inFrontFor Z e b₁ l₁ bs).answer = .ok v) (h₂ : (inFrontFor Z e b₂ l₂ bs).answer = .ok w) :
    (inFrontFor Z e b₁ l₁ bs).len = (inFrontFor Z e b₂ l₂ bs).len := by
  have num : ∀ (w : Nat) (f : Nat → Except PErr α) (g : Nat → Except PErr β) (bs : Bytes), (numberFor e w f bs).len = (numberFor e w g bs).len := by
    intro w f g bs
    simp only [numberFor]
    split <;> rfl
  have spec : ∀ (f : Nat → ReadCons α) (g : Nat → ReadCons β) (bs : Bytes), (specialFor e f bs).len = (specialFor e g bs).len := by
    intro f g bs
    simp only [specialFor]
    split <;> rfl
  have arr : ∀ {ε : Type} (w : Nat) (bools : Bool) (val : Bytes → ε) (f : Nat → SeqCons ε α) (g : Nat → SeqCons ε β) (bs : Bytes),
      (arrayFor Z e w bools val f bs).len = (arrayFor Z e w bools val g bs).len := by
    intro ε w bools val f g bs
    simp only [arrayFor]
    split
    · rfl
    · split
      · rfl
      · split
        · rfl
        · split <;> rfl
  cases bs with
  | nil => rfl
  | cons c bs =>
    simp only [inFrontFor]
    cases typeOfChar (Char.ofNat c.toNat) with
    | none => rfl
    | some t =>
      refine congrArg (1 + ·) ?_
      cases t with
      | bool => cases bs <;> rfl
      | i16 | i32 | i64 | f32 | f64 => exact num _ _ _ _
      | arrBool | arrI32 | arrI64 | arrF32 | arrF64 => exact arr _ _ _ _ _ _
      | binary | string => exact spec _ _ _

/-- **C72** (errors cannot be hidden). If `load_next` succeeds on an array, then every element which the loader asked for was there:
a loader which passes over the error of an element fails nevertheless. -/
theorem C72_no_hidden_error {ε : Type} (e : Ending) (w : Nat) (bools : Bool) (value : Bytes → ε) (f : Nat → SeqCons ε α) (bs : Bytes) {v : α}
    (h : (arrayFor Z e w bools value f bs).answer = .ok v) :
    ∃ enc d left, 12 ≤ bs.length ∧ ArrEnc.fromU32 (fromLe ((bs.drop 4).take 4)) = some enc ∧ dataStart Z e enc (bs.drop 12) = (.ok d, left) ∧
      (pulling Z e w bools value (f (fromLe (bs.take 4))) (fromLe (bs.take 4)) false false d left).failed = false ∧
      (pulling Z e w bools value (f (fromLe (bs.take 4))) (fromLe (bs.take 4)) false false d left).answer = .ok v := by
  simp only [arrayFor] at h
  split at h
  · cases h
  · split at h
    · cases h
    · split at h
      · cases h
      · split at h
        · cases h
        · rename_i _ enc henc _ _ d left hd
          refine ⟨enc, d, left, by omega, henc, hd, ?_⟩
          simp only at h
          generalize pulling Z e w bools value (f (fromLe (bs.take 4))) (fromLe (bs.take 4)) false false d left = p at *
          obtain ⟨_ | x, _ | _, odd, l⟩ := p <;> cases h
          exact ⟨rfl, rfl⟩

/-- **C72** (`TypeLoader`). `TypeLoader` answers the type in front, exactly if the number, or the lengths and for compressed arrays the
header of the data, are there. The elements, the contents of strings and of binary data do not matter. -/
theorem C72_type_loader (e : Ending) (buffered : Bool) (bs : Bytes) (t : AttrType) : (inFrontFor Z e buffered typeLoader bs).answer = .ok t ↔
    ∃ c rest, bs = c :: rest ∧ typeOfChar (Char.ofNat c.toNat) = some t ∧ headPart t ≤ rest.length ∧ canBegin Z t rest := by
  have num : ∀ (w : Nat) (u : AttrType) (bs : Bytes), headPart u = w → w ≠ 12 →
      ((numberFor e w (fun _ => .ok u) bs).answer = .ok t ↔ u = t ∧ headPart t ≤ bs.length ∧ canBegin Z t bs) := by
    intro w u bs hu hw
    simp only [numberFor]
    split
    · rename_i hlt
      constructor
      · intro h; cases h
      · rintro ⟨rfl, h, -⟩; omega
    · constructor
      · intro h
        cases h
        exact ⟨rfl, by omega, fun h => absurd (hu.symm.trans h) hw⟩
      · rintro ⟨rfl, -⟩; rfl
  have spec : ∀ (u : AttrType) (bs : Bytes), headPart u = 4 →
      ((specialFor e (fun _ => .done (.ok u)) bs).answer = .ok t ↔ u = t ∧ headPart t ≤ bs.length ∧ canBegin Z t bs) := by
    intro u bs hu
    simp only [specialFor]
    split
    · rename_i hlt
      constructor
      · intro h; cases h
      · rintro ⟨rfl, h, -⟩; omega
    · constructor
      · intro h
        cases h
        exact ⟨rfl, by omega, fun h => by omega⟩
      · rintro ⟨rfl, -⟩; rfl
  have arr : ∀ {ε : Type} (w : Nat) (bools : Bool) (val : Bytes → ε) (u : AttrType) (bs : Bytes), headPart u = 12 →
      ((arrayFor Z e w bools val (fun _ => .done (.ok u)) bs).answer = .ok t ↔ u = t ∧ headPart t ≤ bs.length ∧ canBegin Z t bs) := by
    intro ε w bools val u bs hu
    simp only [arrayFor]
    by_cases h8 : bs.length < 8
    · rw [if_pos h8]
      constructor
      · intro h; cases h
      · rintro ⟨rfl, h, -⟩; omega
    rw [if_neg h8]
    simp only [canBegin]
    generalize fromLe ((bs.drop 4).take 4) = code
    generalize fromLe ((bs.drop 8).take 4) = len
    generalize fromLe (bs.take 4) = count
    have done : ∀ (enc : ArrEnc), (if code = 0 then some ArrEnc.direct else if code = 1 then some .zlib else none) = some enc →
        (∀ d left, dataStart Z e enc (bs.drop 12) = (.ok d, left) → headPart t = 12 → code = 0 ∨ code = 1 ∧ ∃ a b rest, bs.drop 12 = a :: b :: rest ∧ (Z.header a b).isSome) := by
      intro enc henc d left hd _
      by_cases h0 : code = 0
      · exact .inl h0
      · rw [if_neg h0] at henc
        by_cases h1 : code = 1
        · rw [if_pos h1] at henc
          cases henc
          refine .inr ⟨h1, ?_⟩
          rcases hbs : bs.drop 12 with _ | ⟨a, _ | ⟨b, rest⟩⟩
          · rw [hbs] at hd; cases hd
          · rw [hbs] at hd; cases hd
          · rw [hbs] at hd
            simp only [dataStart] at hd
            refine ⟨a, b, rest, rfl, ?_⟩
            cases hh : Z.header a b with
            | none => rw [hh] at hd; cases hd
            | some s => rfl
        · rw [if_neg h1] at henc; cases henc
    cases henc : (if code = 0 then some ArrEnc.direct else if code = 1 then some ArrEnc.zlib else none) with
    | none =>
      constructor
      · intro h; cases h
      · rintro ⟨rfl, -, h⟩
        rcases h hu with h | ⟨h, -⟩ <;> rw [h] at henc <;> cases henc
    | some enc =>
      simp only
      by_cases h12 : bs.length < 12
      · rw [if_pos h12]
        constructor
        · intro h; cases h
        · rintro ⟨rfl, h, -⟩; omega
      rw [if_neg h12]
      rcases hd : dataStart Z e enc (bs.drop 12) with ⟨k | d, left⟩
      · simp only
        constructor
        · intro h; cases h
        · rintro ⟨rfl, -, h⟩
          rcases h hu with h | ⟨h, a, b, rest, hbs, hh⟩
          · rw [h] at henc
            cases henc
            cases hd
          · rw [h] at henc
            cases henc
            rw [hbs] at hd
            simp only [dataStart] at hd
            cases hz : Z.header a b with
            | none => rw [hz] at hh; cases hh
            | some s => rw [hz] at hd; cases hd
      · constructor
        · intro h
          cases h
          exact ⟨rfl, by omega, done enc henc d left hd⟩
        · rintro ⟨rfl, -⟩; rfl
  cases bs with
  | nil =>
    constructor
    · intro h; cases h
    · rintro ⟨c, rest, h, -⟩; cases h
  | cons c bs =>
    simp only [inFrontFor, List.cons.injEq]
    cases hty : typeOfChar (Char.ofNat c.toNat) with
    | none =>
      constructor
      · intro h; cases h
      · rintro ⟨c', rest, ⟨rfl, rfl⟩, h, -⟩
        rw [hty] at h; cases h
    | some u =>
      have key : ((contentsFor Z e buffered typeLoader u bs).answer = .ok t ↔ u = t ∧ headPart t ≤ bs.length ∧ canBegin Z t bs) := by
        cases u with
        | bool =>
          cases bs with
          | nil =>
            constructor
            · intro h; cases h
            · rintro ⟨rfl, h, -⟩; cases h
          | cons b bs =>
            constructor
            · intro h
              cases h
              exact ⟨rfl, by simp [headPart], fun h => by cases h⟩
            · rintro ⟨rfl, -⟩; rfl
        | i16 | i32 | i64 | f32 | f64 => exact num _ _ _ rfl (by decide)
        | arrBool | arrI32 | arrI64 | arrF32 | arrF64 => exact arr _ _ _ _ _ rfl
        | binary | string => cases buffered <;> exact spec _ _ rfl
      refine key.trans ?_
      constructor
      · rintro ⟨rfl, h⟩; exact ⟨c, bs, ⟨rfl, rfl⟩, hty, h⟩
      · rintro ⟨c', rest, ⟨rfl, rfl⟩, h, h'⟩
        rw [hty] at h
        cases h
        exact ⟨rfl, h'⟩

/-! ## Examples -/

/-- The fields. -/
def Spec.Taking.summary (x : Taking α) : Option α × Bool × Nat × Nat := (x.answer.toOption, x.odd, x.read, x.len)

/-- The fields of a node. -/
def Spec.Obs.loads : Obs α → Option (String × Nat × List (Option α))
  | .start name n vs => some (name, n, vs)
  | _ => none

/-- A loader which counts elements, and lets errors pass. -/
def countSeq {ε : Type} : Nat → Nat → SeqCons ε Nat
  | 0, n => .done (.ok n)
  | fuel + 1, n => .pull fun x => match x with
    | none => .done (.ok n)
    | some _ => countSeq fuel (n + 1)

/-- Numbers become 1; strings and binary data become the number of bytes a single `read` delivers. -/
def counter : Loader Nat where
  bool _ := .ok 1
  i16 _ := .ok 1
  i32 _ := .ok 1
  i64 _ := .ok 1
  f32 _ := .ok 1
  f64 _ := .ok 1
  seqBool n := countSeq (n + 1) 0
  seqI32 n := countSeq (n + 1) 0
  seqI64 n := countSeq (n + 1) 0
  seqF32 n := countSeq (n + 1) 0
  seqF64 n := countSeq (n + 1) 0
  binary _ := .read 2 fun x => .done (.ok (match x with | .ok bs => bs.length | .error _ => 99))
  string _ := .read 2 fun x => .done (.ok (match x with | .ok bs => bs.length | .error _ => 99))
  binaryBuf _ := .done (.ok 0)
  stringBuf _ := .done (.ok 0)

/-- Three booleans declared, two there. -/
example : inFrontFor Zlib.stored none false counter [98, 3, 0, 0, 0, 0, 0, 0, 0, 3, 0, 0, 0, 84, 1] =
    ⟨.error (.data .nodeAttributeError), true, 15, 16⟩ := by rfl
/-- Two booleans. -/
example : inFrontFor Zlib.stored none false counter [98, 2, 0, 0, 0, 0, 0, 0, 0, 2, 0, 0, 0, 84, 1, 7] = ⟨.ok 2, true, 15, 15⟩ := by rfl
/-- Two bytes of a string of five. -/
example : (inFrontFor Zlib.stored none false counter [83, 5, 0, 0, 0, 65, 66, 67, 68, 69]).summary = (some 2, false, 7, 10) := by decide +kernel
example : inFrontFor Zlib.stored none true counter [83, 5, 0, 0, 0, 65, 66, 67, 68, 69] = ⟨.ok 0, false, 5, 10⟩ := by rfl
/-- A source which fails; the loader does not mind. -/
example : (inFrontFor Zlib.stored (some (.other 7)) false counter [83, 5, 0, 0, 0]).summary = (some 99, false, 5, 10) := by decide +kernel
/-- `TypeLoader` and a string which is not there. -/
example : inFrontFor Zlib.stored none false typeLoader [83, 5, 0, 0, 0] = ⟨.ok .string, false, 5, 10⟩ := by rfl

example := C72_next_attribute (Z := Zlib.stored) none true false counter typeLoader [83, 5, 0, 0, 0, 65, 66] rfl rfl
example := C72_no_hidden_error (Z := Zlib.stored) none 1 true (fun bs => decide (fromLe bs % 2 = 1)) (fun n => countSeq (n + 1) 0)
  [2, 0, 0, 0, 0, 0, 0, 0, 2, 0, 0, 0, 84, 1] rfl

/-- The whole file. -/
example : (readingFor Zlib.stored (.seeks 1000) none true false (fun _ _ _ => [counter, counter, counter, counter]) 3 0 (bodyStart 7400 none exAttrs)).seen.map Obs.loads =
    [some ("A", 3, [some 1, some 2, some 1, none])] := by decide +kernel
example := C72_client Zlib.stored true false (body := exAttrs) none 0 0 (a := 0xe8) (b := 0x1c) (c := 0) (d := 0) (v := 7400)
  (by decide +kernel) rfl (by decide) (by simp [supported]) none (by intro f hf; cases hf) false (fun _ _ n => List.replicate n counter) 5
example : ∃ o t, (exPlainAttrs.after Zlib.stored [(.next : Call Nat)]).call Zlib.stored (.load true counter) = some (o, t) ∧
    LoadAnswersFor Zlib.stored .reads none true counter (exPlainAttrs.after Zlib.stored [(.next : Call Nat)]) ⟨3, 3, 41⟩ o t :=
  C72_load (exParser_create true false 7400 exAttrs (by decide)) exAttrs_sized (runs_history _ _ (by decide +kernel)) (calm_of_all (by decide +kernel))
    (by decide +kernel) (by decide) (by decide +kernel) (exTolerant (by decide +kernel)) true counter

end Fbx
