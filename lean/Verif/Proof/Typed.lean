import Verif.Spec.Typed
import Verif.Proof.Handler

/-! # Typed loaders against `TypeLoader` and `DirectLoader` -/

namespace Fbx
open Spec

/-- A result whose value is passed through `f`. -/
def passing {ε σ α β : Type} (f : α → Except ε β) : Res ε α × σ → Res ε β × σ
  | (.ok v, t) => M.ofExcept (f v) t
  | (.err e, t) => (.err e, t)
  | (.panic x, t) => (.panic x, t)

/-- The second computation is the first one with its value passed through `f`. -/
def Passes {ε σ α β : Type} (f : α → Except ε β) (m : M ε σ α) (n : M ε σ β) : Prop := ∀ s, n s = passing f (m s)

namespace Passes
variable {ε σ α β γ : Type}

theorem ofExcept (f : α → Except ε β) (r : Except ε α) (q : Except ε β) (h : q = r.bind f) :
    Passes f (M.ofExcept r : M ε σ α) (M.ofExcept q) := by
  intro s
  subst h
  cases r <;> rfl

theorem pure (f : α → Except ε β) (v : α) (x : β) (h : f v = .ok x) : Passes f (Pure.pure v : M ε σ α) (Pure.pure x) := by
  intro s
  show _ = M.ofExcept (f v) s
  rw [h]; rfl

theorem throw (f : α → Except ε β) (e : ε) : Passes f (M.throw e : M ε σ α) (M.throw e) := fun _ => rfl

theorem bind (f : α → Except ε β) (m : M ε σ γ) {k : γ → M ε σ α} {k' : γ → M ε σ β} (h : ∀ c, Passes f (k c) (k' c)) :
    Passes f (m >>= k) (m >>= k') := by
  intro s
  simp only [M.bind_apply]
  rcases m s with ⟨r, t⟩
  cases r with
  | ok c => exact h c t
  | err e => rfl
  | panic x => rfl

/-- Back again. -/
theorem inv {m : M ε σ α} {n : M ε σ β} {g : α → β} {f : β → Except ε α} (h : Passes (fun v => .ok (g v)) m n)
    (hf : ∀ v, f (g v) = .ok v) : Passes f n m := by
  intro s
  rw [h s]
  rcases m s with ⟨r, t⟩
  cases r with
  | ok v =>
    show _ = M.ofExcept (f (g v)) t
    rw [hf]; rfl
  | err e => rfl
  | panic x => rfl

end Passes

theorem run_collect {Z : Zlib} {e α : Type} (t : ElemTy e) (fin : List e → α) : ∀ (fuel : Nat) (acc : List e),
    Passes (fun xs => .ok (fin xs)) (ElemIter.run (Z := Z) t (collectSeq id fuel acc)) (ElemIter.run t (collectSeq fin fuel acc))
  | 0, acc => fun _ => rfl
  | fuel + 1, acc => by
    simp only [collectSeq, ElemIter.run]
    refine .bind _ _ fun x => ?_
    match x with
    | none => exact fun _ => rfl
    | some (.error x) => exact fun _ => rfl
    | some (.ok x) => exact run_collect t fin fuel (x :: acc)

theorem run_toEnd {α β : Type} (len : Nat) (fin : Bytes → Except PErr α) (f : α → β) : ∀ (fuel : Nat) (acc : Bytes),
    Passes (fun v => .ok (f v)) (readToEnd len fin fuel acc).run
      (readToEnd len (fun bs => (fin bs).bind (fun v => .ok (f v))) fuel acc).run
  | 0, acc => .ofExcept _ _ _ rfl
  | fuel + 1, acc => by
    intro s
    simp only [readToEnd, ReadCons.run]
    rcases takeRead len s with ⟨r, s'⟩
    cases r with
    | panic x => rfl
    | err x => rfl
    | ok bs =>
      cases bs with
      | nil => exact Passes.ofExcept _ _ _ rfl s'
      | cons b bs => exact run_toEnd len fin f fuel (acc ++ b :: bs) s'

namespace AP
variable {Z : Zlib} {α β e : Type}

theorem loadPrim_follows (w : Nat) (f : α → Except PErr β) (g : BitVec (8 * w) → Except PErr α) (g' : BitVec (8 * w) → Except PErr β)
    (h : ∀ v, g' v = (g v).bind f) : Passes f (loadPrim w g) (loadPrim w g') :=
  .bind _ _ fun _ => .bind _ _ fun _ => .ofExcept _ _ _ (h _)

theorem loadBool_follows (f : α → Except PErr β) (g : Bool → Except PErr α) (g' : Bool → Except PErr β)
    (h : ∀ v, g' v = (g v).bind f) (start idx : Nat) :
    Passes f (loadBool g start idx) (loadBool g' start idx) := by
  refine .bind _ _ fun raw => .bind _ _ fun _ => ?_
  by_cases hc : oddBool raw = true
  · simp only [hc, if_true]
    exact .bind _ _ fun _ => .bind _ _ fun _ => .ofExcept _ _ _ (h _)
  · simp only [hc]
    exact .ofExcept _ _ _ (h _)

/-- The consumer does not look at the array. -/
theorem loadSeq_blind (t : ElemTy e) (v : α) (x : PErr) (start idx : Nat) :
    Passes (fun _ => .error x) (loadSeq Z t (fun _ => .done (.ok v)) start idx)
      (loadSeq Z t (fun _ => (.done (.error x) : SeqCons e β)) start idx) :=
  .bind _ _ fun _ => .bind _ _ fun _ => .bind _ _ fun _ => fun _ => rfl

theorem loadSpecial_blind (v : α) (x : PErr) :
    Passes (fun _ => .error x) (loadSpecial (fun _ => .done (.ok v))) (loadSpecial (fun _ => (.done (.error x) : ReadCons β))) :=
  .bind _ _ fun _ => .bind _ _ fun _ => fun _ => rfl

theorem loadSeq_collect (t : ElemTy e) (fin : List e → α) (start idx : Nat) :
    Passes (fun xs => .ok (fin xs)) (loadSeq Z t (fun n => collectSeq id (n + 1) []) start idx)
      (loadSeq Z t (fun n => collectSeq fin (n + 1) []) start idx) := by
  refine .bind _ _ fun h => .bind _ _ fun _ => .bind _ _ fun d => fun a => ?_
  simp only [M.bind_apply, runSeq]
  rw [run_collect t fin (h.count + 1) [] _]
  rcases ElemIter.run t (collectSeq id (h.count + 1) []) (⟨d, h.count, false, false⟩, a.parser.reader) with ⟨r, it, rd⟩
  cases r with
  | err x => rfl
  | panic x => rfl
  | ok v =>
    have key : ∀ (err odd : Bool), Passes (σ := AP) (fun xs => Except.ok (fin xs))
        (if odd = true then do
            let pos ← position start idx
            par (Parser.warn Warning.incorrectBool pos)
            if err = true then M.throw (PErr.ofData DataError.nodeAttributeError) else Pure.pure v
          else if err = true then M.throw (PErr.ofData DataError.nodeAttributeError) else Pure.pure v)
        (if odd = true then do
            let pos ← position start idx
            par (Parser.warn Warning.incorrectBool pos)
            if err = true then M.throw (PErr.ofData DataError.nodeAttributeError) else Pure.pure (fin v)
          else if err = true then M.throw (PErr.ofData DataError.nodeAttributeError) else Pure.pure (fin v)) := by
      have k1 : ∀ err : Bool, Passes (σ := AP) (fun xs => Except.ok (fin xs))
          (if err = true then M.throw (PErr.ofData DataError.nodeAttributeError) else Pure.pure v)
          (if err = true then M.throw (PErr.ofData DataError.nodeAttributeError) else Pure.pure (fin v)) := by
        intro err
        cases err
        · exact .pure _ _ _ rfl
        · exact .throw _ _
      intro err odd
      cases odd
      · exact k1 err
      · exact .bind _ _ fun _ => .bind _ _ fun _ => k1 err
    exact key it.hasError it.odd _

theorem loadSpecial_toEnd (fin : Bytes → Except PErr α) (f : α → β) :
    Passes (fun v => .ok (f v)) (loadSpecial (fun n => readToEnd n fin (n + 1) []))
      (loadSpecial (fun n => readToEnd n (fun bs => (fin bs).bind (fun v => .ok (f v))) (n + 1) [])) := by
  refine .bind _ _ fun n => .bind _ _ fun _ => fun a => ?_
  dsimp only
  rw [run_toEnd n fin f (n + 1) [] _]
  rcases (readToEnd n fin (n + 1) []).run (n, a.parser.reader) with ⟨r, l, rd⟩
  cases r <;> rfl

/-- A loader for one type does not look at values of other types. -/
theorem impl_blind {l : Loader α} {own t : AttrType} {expecting : String} {g : AttrValue → Option α} (h : TypedLoader α l own expecting g)
    (ht : t ≠ own) (buffered : Bool) (start idx : Nat) :
    Passes (fun _ => .error (unexpected expecting (describe t))) (loadImpl Z buffered t typeLoader start idx) (loadImpl Z buffered t l start idx) := by
  cases h <;> cases t <;> first
    | exact absurd rfl ht
    | exact loadBool_follows _ _ _ (fun _ => rfl) _ _
    | exact loadPrim_follows _ _ _ _ (fun _ => rfl)
    | exact loadSeq_blind _ _ _ _ _
    | (cases buffered <;> exact loadSpecial_blind _ _)

/-- Values of its type are those of `DirectLoader`. -/
theorem impl_own {l : Loader α} {own : AttrType} {expecting : String} {g : AttrValue → Option α} (h : TypedLoader α l own expecting g)
    (buffered : Bool) (start idx : Nat) :
    ∃ c : α → AttrValue, (∀ x, g (c x) = some x ∧ (c x).type_ = own) ∧
      Passes (fun x => .ok (c x)) (loadImpl Z buffered own l start idx) (loadImpl Z buffered own directLoader start idx) := by
  cases h with
  | bool => exact ⟨.bool, fun _ => ⟨rfl, rfl⟩, loadBool_follows _ _ _ (fun _ => rfl) _ _⟩
  | i16 => exact ⟨.i16, fun _ => ⟨rfl, rfl⟩, loadPrim_follows _ _ _ _ (fun _ => rfl)⟩
  | i32 => exact ⟨.i32, fun _ => ⟨rfl, rfl⟩, loadPrim_follows _ _ _ _ (fun _ => rfl)⟩
  | i64 => exact ⟨.i64, fun _ => ⟨rfl, rfl⟩, loadPrim_follows _ _ _ _ (fun _ => rfl)⟩
  | f32 => exact ⟨.f32, fun _ => ⟨rfl, rfl⟩, loadPrim_follows _ _ _ _ (fun _ => rfl)⟩
  | f64 => exact ⟨.f64, fun _ => ⟨rfl, rfl⟩, loadPrim_follows _ _ _ _ (fun _ => rfl)⟩
  | arrBool => exact ⟨.arrBool, fun _ => ⟨rfl, rfl⟩, loadSeq_collect _ _ _ _⟩
  | arrI32 => exact ⟨.arrI32, fun _ => ⟨rfl, rfl⟩, loadSeq_collect _ _ _ _⟩
  | arrI64 => exact ⟨.arrI64, fun _ => ⟨rfl, rfl⟩, loadSeq_collect _ _ _ _⟩
  | arrF32 => exact ⟨.arrF32, fun _ => ⟨rfl, rfl⟩, loadSeq_collect _ _ _ _⟩
  | arrF64 => exact ⟨.arrF64, fun _ => ⟨rfl, rfl⟩, loadSeq_collect _ _ _ _⟩
  | binary => exact ⟨.binary, fun _ => ⟨rfl, rfl⟩, by cases buffered <;> exact loadSpecial_toEnd _ _⟩
  | string =>
    refine ⟨.string, fun _ => ⟨rfl, rfl⟩, ?_⟩
    have h := loadSpecial_toEnd (fun bs => match stringOfUtf8 bs with
      | some s => .ok (id s)
      | none => .error (PErr.ofIo .invalidData)) AttrValue.string
    have e : (fun bs => (match stringOfUtf8 bs with
        | some s => (.ok (id s) : Except PErr String)
        | none => .error (PErr.ofIo .invalidData)).bind (fun v => .ok (AttrValue.string v))) =
        (fun bs => match stringOfUtf8 bs with
          | some s => .ok (AttrValue.string s)
          | none => .error (PErr.ofIo .invalidData)) := by
      funext bs
      cases stringOfUtf8 bs <;> rfl
    rw [e] at h
    cases buffered <;> exact h

/-- `TypeLoader` returns the type. -/
theorem impl_type (t : AttrType) (buffered : Bool) (start idx : Nat) :
    Passes (fun _ => .ok t) (loadImpl Z buffered t typeLoader start idx) (loadImpl Z buffered t typeLoader start idx) := by
  cases t <;> first
    | exact loadBool_follows _ _ _ (fun _ => rfl) _ _
    | exact loadPrim_follows _ _ _ _ (fun _ => rfl)
    | exact Passes.bind _ _ fun _ => .bind _ _ fun _ => .bind _ _ fun _ => fun _ => rfl
    | (cases buffered <;> exact Passes.bind _ _ fun _ => .bind _ _ fun _ => fun _ => rfl)

/-- Where the first computation stops, the second one stops, too. -/
def Stops {ε σ α β : Type} (m : M ε σ α) (n : M ε σ β) : Prop :=
  ∀ s, (∀ e t, m s = (.err e, t) → n s = (.err e, t)) ∧ (∀ x t, m s = (.panic x, t) → n s = (.panic x, t))

theorem Stops.bind {ε σ γ : Type} (m : M ε σ γ) {k : γ → M ε σ α} {k' : γ → M ε σ β} (h : ∀ c, Stops (k c) (k' c)) : Stops (m >>= k) (m >>= k') := by
  intro s
  simp only [M.bind_apply]
  rcases m s with ⟨r, t⟩
  cases r with
  | ok c => exact h c t
  | err e => exact ⟨fun _ _ h => (by cases h; rfl), fun _ _ h => (by cases h)⟩
  | panic x => exact ⟨fun _ _ h => (by cases h), fun _ _ h => (by cases h; rfl)⟩

theorem Stops.never {ε σ : Type} {m : M ε σ α} {n : M ε σ β} (h : ∀ s, ∃ v, m s = (.ok v, s)) : Stops m n := by
  intro s
  obtain ⟨v, h⟩ := h s
  rw [h]
  exact ⟨fun _ _ h => (by cases h), fun _ _ h => (by cases h)⟩

/-- Whatever stops `TypeLoader` stops every loader. -/
theorem impl_stops (l : Loader α) (t : AttrType) (buffered : Bool) (start idx : Nat) :
    Stops (loadImpl Z buffered t typeLoader start idx) (loadImpl Z buffered t l start idx) := by
  cases t
  case bool =>
    refine Stops.bind _ fun raw => .bind _ fun _ => ?_
    by_cases hc : oddBool raw = true
    · simp only [hc, if_true]
      exact .bind _ fun _ => .bind _ fun _ => .never fun _ => ⟨_, rfl⟩
    · simp only [hc]
      exact .never fun _ => ⟨_, rfl⟩
  case binary => cases buffered <;> exact Stops.bind _ fun _ => .bind _ fun _ => .never fun _ => ⟨_, rfl⟩
  case string => cases buffered <;> exact Stops.bind _ fun _ => .bind _ fun _ => .never fun _ => ⟨_, rfl⟩
  all_goals first
    | exact Stops.bind _ fun _ => .bind _ fun _ => .never fun _ => ⟨_, rfl⟩
    | exact Stops.bind _ fun _ => .bind _ fun _ => .bind _ fun _ => .never fun _ => ⟨_, rfl⟩

/-- What `load` makes of the result of reading. -/
def settle (start idx : Nat) : Res PErr (Option α) × AP → Res PErr (Option α) × AP
  | (.ok v, a') => (.ok v, a')
  | (.panic x, a') => (.panic x, a')
  | (.err e, a') => match position start idx a' with
    | (.ok pos, a'') => (.err (e.andPosition pos), { a'' with parser := a''.parser.setAborted pos })
    | (.err e', a'') => (.err e', a'')
    | (.panic x, a'') => (.panic x, a'')

theorem load_settle {a : AP} (hrun : a.parser.health = .running) (hle : a.attrs.rest ≤ a.attrs.total) (buffered : Bool) (l : Loader α) :
    load Z buffered l a = settle a.attrs.next (a.attrs.total - a.attrs.rest) (loadBody Z buffered l a.attrs.next (a.attrs.total - a.attrs.rest) a) := by
  rw [load_eq, hrun]
  simp only [hle, if_true]
  rcases loadBody Z buffered l a.attrs.next (a.attrs.total - a.attrs.rest) a with ⟨_ | e | _, a'⟩
  · rfl
  · rfl
  · rfl

/-- A value that has been read. -/
def wrap : Res PErr α × AP → Res PErr (Option α) × AP
  | (.ok v, a) => (.ok (some v), a)
  | (.err e, a) => (.err e, a)
  | (.panic x, a) => (.panic x, a)

theorem body_some {a b : AP} {t : AttrType} (h : readNextType a = (.ok (some t), b)) (buffered : Bool) (l : Loader α) (start idx : Nat) :
    loadBody Z buffered l start idx a = wrap (loadImpl Z buffered t l start idx b) := by
  refine (M.bind_val h _).trans ?_
  refine (M.bind_apply _ _ _).trans ?_
  rcases loadImpl Z buffered t l start idx b with ⟨_ | _ | _, _⟩ <;> rfl

theorem body_none {a b : AP} (h : readNextType a = (.ok none, b)) (buffered : Bool) (l : Loader α) (start idx : Nat) :
    loadBody Z buffered l start idx a = (.ok none, b) := M.bind_val h _

theorem body_err {a b : AP} {e : PErr} (h : readNextType a = (.err e, b)) (buffered : Bool) (l : Loader α) (start idx : Nat) :
    loadBody Z buffered l start idx a = (.err e, b) := by
  refine (M.bind_apply _ _ _).trans ?_
  rw [h]

theorem body_panic {a b : AP} {x : Panic} (h : readNextType a = (.panic x, b)) (buffered : Bool) (l : Loader α) (start idx : Nat) :
    loadBody Z buffered l start idx a = (.panic x, b) := by
  refine (M.bind_apply _ _ _).trans ?_
  rw [h]

/-- The answer a client sees. -/
def answer : Res PErr (Option α) × AP → Outcome α × Client
  | (.ok (some v), a) => (.value v, ⟨a.parser, some a.attrs⟩)
  | (.ok none, a) => (.noValue, ⟨a.parser, some a.attrs⟩)
  | (.err e, a) => (.err e, ⟨a.parser, some a.attrs⟩)
  | (.panic x, a) => (.panic x, ⟨a.parser, some a.attrs⟩)

theorem call_answer {s : Client} {a : Attrs} (ha : s.attrs = some a) (buffered : Bool) (l : Loader α) :
    s.call Z (.load buffered l) = some (answer (load Z buffered l ⟨s.parser, a⟩)) := by
  simp only [Client.call, ha]
  rcases load Z buffered l ⟨s.parser, a⟩ with ⟨(_ | _) | _ | _, _⟩ <;> rfl

/-- The two answers are the same and not a value. -/
def Alike (x : Res PErr (Option α) × AP) (y : Res PErr (Option β) × AP) : Prop :=
  (∃ b, x = (.ok none, b) ∧ y = (.ok none, b)) ∨ (∃ e b, x = (.err e, b) ∧ y = (.err e, b)) ∨ (∃ q b, x = (.panic q, b) ∧ y = (.panic q, b))

theorem Alike.settle {x : Res PErr (Option α) × AP} {y : Res PErr (Option β) × AP} (h : Alike x y) (start idx : Nat) :
    Alike (AP.settle start idx x) (AP.settle start idx y) := by
  rcases h with ⟨b, rfl, rfl⟩ | ⟨e, b, rfl, rfl⟩ | ⟨q, b, rfl, rfl⟩
  · exact .inl ⟨_, rfl, rfl⟩
  · simp only [AP.settle]
    rcases position start idx b with ⟨_ | _ | _, _⟩
    · exact .inr (.inl ⟨_, _, rfl, rfl⟩)
    · exact .inr (.inl ⟨_, _, rfl, rfl⟩)
    · exact .inr (.inr ⟨_, _, rfl, rfl⟩)
  · exact .inr (.inr ⟨_, _, rfl, rfl⟩)

theorem Alike.answers {x : Res PErr (Option α) × AP} {y : Res PErr (Option β) × AP} (h : Alike x y) :
    ∃ o o' u, answer x = (o, u) ∧ answer y = (o', u) ∧ Outcome.same o = some o' := by
  rcases h with ⟨b, rfl, rfl⟩ | ⟨e, b, rfl, rfl⟩ | ⟨q, b, rfl, rfl⟩ <;> exact ⟨_, _, _, rfl, rfl, rfl⟩

/-- Either a type has been read, or every loader gives the same answer. -/
theorem load_cases (a : AP) (buffered : Bool) :
    (∃ t b, a.parser.health = .running ∧ a.attrs.rest ≤ a.attrs.total ∧ readNextType a = (.ok (some t), b)) ∨
    ∀ (α β : Type) (l : Loader α) (l' : Loader β), Alike (load Z buffered l a) (load Z buffered l' a) := by
  cases hh : a.parser.health with
  | finished => exact .inr fun _ _ _ _ => .inr (.inl ⟨_, _, by rw [load_eq, hh], by rw [load_eq, hh]⟩)
  | aborted pos => exact .inr fun _ _ _ _ => .inr (.inl ⟨_, _, by rw [load_eq, hh], by rw [load_eq, hh]⟩)
  | running =>
    by_cases hle : a.attrs.rest ≤ a.attrs.total
    · rcases hx : readNextType a with ⟨r, b⟩
      cases r with
      | ok o =>
        cases o with
        | some t => exact .inl ⟨t, b, rfl, hle, rfl⟩
        | none =>
          refine .inr fun _ _ _ _ => ?_
          rw [load_settle hh hle, load_settle hh hle, body_none hx, body_none hx]
          exact Alike.settle (.inl ⟨_, rfl, rfl⟩) _ _
      | err e =>
        refine .inr fun _ _ _ _ => ?_
        rw [load_settle hh hle, load_settle hh hle, body_err hx, body_err hx]
        exact Alike.settle (.inr (.inl ⟨_, _, rfl, rfl⟩)) _ _
      | panic x =>
        refine .inr fun _ _ _ _ => ?_
        rw [load_settle hh hle, load_settle hh hle, body_panic hx, body_panic hx]
        exact Alike.settle (.inr (.inr ⟨_, _, rfl, rfl⟩)) _ _
    · refine .inr fun _ _ _ _ => .inr (.inr ⟨.attrIndexUnderflow, a, ?_, ?_⟩)
      · rw [load_eq, hh]; simp only [hle, if_false]
      · rw [load_eq, hh]; simp only [hle, if_false]

/-- What `TypeLoader` finds. -/
theorem type_cases (a : AP) (buffered : Bool) :
    (∃ t b c, a.parser.health = .running ∧ a.attrs.rest ≤ a.attrs.total ∧ readNextType a = (.ok (some t), b) ∧
      loadImpl Z buffered t typeLoader a.attrs.next (a.attrs.total - a.attrs.rest) b = (.ok t, c) ∧ load Z buffered typeLoader a = (.ok (some t), c)) ∨
    ∀ (α : Type) (l : Loader α), Alike (load Z buffered typeLoader a) (load Z buffered l a) := by
  rcases load_cases (Z := Z) a buffered with ⟨t, b, hh, hle, hx⟩ | h
  · rcases hy : loadImpl Z buffered t typeLoader a.attrs.next (a.attrs.total - a.attrs.rest) b with ⟨r, c⟩
    cases r with
    | ok t' =>
      have := impl_type (Z := Z) t buffered a.attrs.next (a.attrs.total - a.attrs.rest) b
      rw [hy] at this
      cases this
      refine .inl ⟨_, b, c, hh, hle, hx, hy, ?_⟩
      rw [load_settle hh hle, body_some hx, hy]
      rfl
    | err e =>
      refine .inr fun _ l => ?_
      rw [load_settle hh hle, load_settle hh hle, body_some hx, body_some hx, hy, (impl_stops l t buffered _ _ b).1 _ _ hy]
      exact Alike.settle (.inr (.inl ⟨_, _, rfl, rfl⟩)) _ _
    | panic e =>
      refine .inr fun _ l => ?_
      rw [load_settle hh hle, load_settle hh hle, body_some hx, body_some hx, hy, (impl_stops l t buffered _ _ b).2 _ _ hy]
      exact Alike.settle (.inr (.inr ⟨_, _, rfl, rfl⟩)) _ _
  · exact .inr fun α l => h _ α _ l

theorem typed_exists (t : AttrType) : ∃ α l expecting g, TypedLoader α l t expecting g := by
  cases t <;> exact ⟨_, _, _, _, by constructor⟩

/-- `DirectLoader` returns values of the type that has been read. -/
theorem impl_direct_type {t : AttrType} {buffered : Bool} {start idx : Nat} {b c : AP} {v : AttrValue}
    (h : loadImpl Z buffered t directLoader start idx b = (.ok v, c)) : v.type_ = t := by
  obtain ⟨α, l, e, g, ht⟩ := typed_exists t
  obtain ⟨c', h1, h2⟩ := impl_own (Z := Z) ht buffered start idx
  have h2 := h2 b
  rw [h] at h2
  rcases hy : loadImpl Z buffered t l start idx b with ⟨r, d⟩
  rw [hy] at h2
  cases r with
  | ok x => cases h2; exact (h1 x).2
  | err e => cases h2
  | panic e => cases h2

end AP
end Fbx
