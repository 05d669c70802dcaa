import Verif.Spec.ShortWrites
import Verif.Proof.WriterFree
import Verif.Proof.WriterRun

/-! # The writer on a device that splits writes does what it does on a sink with some failure schedule -/

namespace Fbx
open Spec

/-- A failure schedule with a first part. -/
def prep : List (Option Fault) → (Nat → Option Fault) → Nat → Option Fault
  | [], r => r
  | o :: l, r => fun i => match i with
    | 0 => o
    | i + 1 => prep l r i

theorem prep_append (l l' : List (Option Fault)) (r : Nat → Option Fault) : prep (l ++ l') r = prep l (prep l' r) := by
  induction l with
  | nil => rfl
  | cons o l ih => simp only [List.cons_append, prep, ih]

theorem prep_none (l : List (Option Fault)) (h : ∀ o ∈ l, o = none) : prep l (fun _ => none) = fun _ => none := by
  induction l with
  | nil => rfl
  | cons o l ih =>
    funext i
    cases i with
    | zero => exact h o (by simp)
    | succ i => exact congrFun (ih fun o ho => h o (by simp [ho])) i

/-- The sink with another failure schedule. -/
def Sink.faulty (f : Nat → Option Fault) (s : Sink) : Sink := ⟨s.buf, s.pos, f⟩

/-- The writer with another failure schedule of its sink. -/
def Writer.faulty (f : Nat → Option Fault) (w : Writer) : Writer := ⟨w.sink.faulty f, w.version, w.opened⟩

/-- The loop (given as a function of the fuel) ends with `x`, and with nothing else. -/
def Settles {α : Type} (loop : Nat → Option α) (x : α) : Prop := (∃ f0, ∀ fuel, f0 ≤ fuel → loop fuel = some x) ∧ ∀ fuel y, loop fuel = some y → y = x

theorem Settles.const {α : Type} (x : α) : Settles (fun _ => some x) x := ⟨⟨0, fun _ _ => rfl⟩, fun _ y h => by cases h; rfl⟩

/-- A loop after which another is started. -/
theorem Settles.next {α β : Type} {loop : Nat → Option α} {x : α} {f : α → Nat → Option β} {z : β} (h : Settles loop x) (h' : Settles (f x) z) :
    Settles (fun fuel => (loop fuel).bind fun y => f y fuel) z := by
  obtain ⟨⟨f0, h1⟩, h2⟩ := h
  obtain ⟨⟨f1, h3⟩, h4⟩ := h'
  refine ⟨⟨max f0 f1, fun fuel hf => ?_⟩, fun fuel y hy => ?_⟩
  · simp only [h1 fuel (by omega), Option.bind_some, h3 fuel (by omega)]
  · simp only at hy
    cases hl : loop fuel with
    | none => rw [hl] at hy; cases hy
    | some w =>
      rw [hl, h2 fuel w hl, Option.bind_some] at hy
      exact h4 fuel y hy

theorem Settles.of_eq {α : Type} {loop loop' : Nat → Option α} {x : α} (h : Settles loop x) (e : ∀ fuel, loop' fuel = loop fuel) : Settles loop' x := by
  rwa [show loop' = loop from funext e]

/-- `Result::map_err`. -/
def Res.mapErr {ε ε' α : Type} (f : ε → ε') : Res ε α → Res ε' α
  | .ok a => .ok a
  | .err e => .err (f e)
  | .panic p => .panic p

/-- A failure which the device reports. -/
def Due (D : WriteSchedule) (o : Option Fault) : Prop := ∀ f, o = some f → Tells D f.error

theorem Due.none {D : WriteSchedule} : Due D none := fun _ h => by cases h

theorem not_tells {D : WriteSchedule} (hw : Working D) {e : IoErr} : ¬ Tells D e := by
  rintro (⟨i, h⟩ | ⟨⟨i, h⟩, -⟩) <;> rcases hw i with h' | ⟨k, h'⟩ <;> rw [h] at h' <;> cases h'

theorem calm_of_working {D : WriteSchedule} (hw : Working D) {fault : Nat → Option Fault} (h : ∀ i f, fault i = some f → Tells D f.error) : fault = fun _ => .none := by
  funext i
  cases hf : fault i with
  | none => rfl
  | some f => exact absurd (h i f hf) (not_tells hw)

theorem prep_due {D : WriteSchedule} : ∀ {l : List (Option Fault)}, (∀ o ∈ l, Due D o) → ∀ i f, prep l (fun _ => none) i = some f → Tells D f.error
  | [], _, i, f, h => by cases h
  | o :: l, hl, i, f, h => by
    cases i with
    | zero => exact hl o (by simp) f h
    | succ i => exact prep_due (l := l) (fun o ho => hl o (by simp [ho])) i f h

/-- Code `q` on the device does what `m` does with some failure schedule, with failures which the device reports. -/
def Mimics {ε σ α : Type} (D : WriteSchedule) (sf : (Nat → Option Fault) → σ → σ) (m : M ε σ α) (q : CM ε σ α) : Prop :=
  ∀ s i, ∃ x s' j l, Settles (fun fuel => q fuel (s, i)) (x, (s', j)) ∧ (∀ rest, m (sf (prep l rest) s) = (x, sf rest s')) ∧
    ∀ o ∈ l, Due D o

namespace Mimics
variable {ε ε' σ τ α β : Type} {D : WriteSchedule} {sf : (Nat → Option Fault) → σ → σ}

theorem lift {m : M ε σ α} (h : ∀ f s, m (sf f s) = ((m s).1, sf f (m s).2)) : Mimics D sf m (CM.lift m) :=
  fun s i => ⟨_, _, i, [], .const _, fun rest => h rest s, fun o ho => by cases ho⟩

theorem pure (a : α) : Mimics D sf (Pure.pure a : M ε σ α) (Pure.pure a : CM ε σ α) :=
  fun s i => ⟨_, s, i, [], .const _, fun _ => rfl, fun o ho => by cases ho⟩

theorem throw (e : ε) : Mimics D sf (M.throw e : M ε σ α) (CM.lift (M.throw e)) := lift fun _ _ => rfl
theorem panic (p : Panic) : Mimics D sf (M.panic p : M ε σ α) (CM.lift (M.panic p)) := lift fun _ _ => rfl
theorem assert (b : Bool) (p : Panic) : Mimics D sf (M.assert b p : M ε σ Unit) (CM.lift (M.assert b p)) := by cases b <;> exact lift fun _ _ => rfl
theorem modify {f : σ → σ} (h : ∀ g s, f (sf g s) = sf g (f s)) : Mimics D sf (M.modify f : M ε σ Unit) (CM.lift (M.modify f)) :=
  lift fun g s => by simp only [M.modify_apply, h]

theorem bind {m : M ε σ α} {q : CM ε σ α} {f : α → M ε σ β} {g : α → CM ε σ β} (h : Mimics D sf m q) (hf : ∀ a, Mimics D sf (f a) (g a)) :
    Mimics D sf (m >>= f) (q >>= g) := by
  intro s i
  have hq : (fun fuel => (q >>= g) fuel (s, i)) = fun fuel => (q fuel (s, i)).bind fun y => match y with
      | (.ok a, s') => g a fuel s'
      | (.err e, s') => some (.err e, s')
      | (.panic p, s') => some (.panic p, s') := by
    funext fuel
    show CM.bind q g fuel (s, i) = _
    unfold CM.bind
    rcases q fuel (s, i) with _ | ⟨_ | _ | _, _⟩ <;> rfl
  rw [hq]
  obtain ⟨x, s', j, l, h1, h2, h3⟩ := h s i
  cases x with
  | ok a =>
    obtain ⟨x', s'', j', l', h4, h5, h6⟩ := hf a s' j
    refine ⟨x', s'', j', l ++ l', h1.next (f := fun y fuel => match y with
      | (.ok a, s') => g a fuel s'
      | (.err e, s') => some (.err e, s')
      | (.panic p, s') => some (.panic p, s')) h4, fun rest => ?_, fun o ho => ?_⟩
    · rw [M.bind_apply, prep_append, h2]; exact h5 rest
    · rcases List.mem_append.mp ho with ho | ho
      · exact h3 o ho
      · exact h6 o ho
  | err e =>
    refine ⟨.err e, s', j, l, h1.next (f := fun y fuel => match y with
      | (.ok a, s') => g a fuel s'
      | (.err e, s') => some (.err e, s')
      | (.panic p, s') => some (.panic p, s')) (.const _), fun rest => ?_, h3⟩
    rw [M.bind_apply, h2]
  | panic p =>
    refine ⟨.panic p, s', j, l, h1.next (f := fun y fuel => match y with
      | (.ok a, s') => g a fuel s'
      | (.err e, s') => some (.err e, s')
      | (.panic p, s') => some (.panic p, s')) (.const _), fun rest => ?_, h3⟩
    rw [M.bind_apply, h2]

/-- Code that looks at the state, but not at the failure schedule. -/
theorem get {f : σ → M ε σ β} {g : σ → CM ε σ β} (hs : ∀ r s, f (sf r s) = f s) (hf : ∀ a, Mimics D sf (f a) (g a)) :
    Mimics D sf (M.get >>= f) (CM.lift M.get >>= g) := by
  intro s i
  obtain ⟨x, s', j, l, h1, h2, h3⟩ := hf s s i
  refine ⟨x, s', j, l, h1, fun rest => ?_, h3⟩
  show f (sf (prep l rest) s) (sf (prep l rest) s) = _
  rw [hs]; exact h2 rest

theorem mapErr {m : M ε σ α} {q : CM ε σ α} (f : ε → ε') (h : Mimics D sf m q) : Mimics D sf (M.mapErr f m) (CM.mapErr f q) := by
  intro s i
  obtain ⟨x, s', j, l, h1, h2, h3⟩ := h s i
  refine ⟨x.mapErr f, s', j, l, ?_, fun rest => ?_, h3⟩
  · have := h1.next (f := fun y _ => some (y.1.mapErr f, y.2)) (.const _)
    refine Settles.of_eq this fun fuel => ?_
    unfold CM.mapErr
    rcases q fuel (s, i) with _ | ⟨_ | _ | _, _⟩ <;> rfl
  · rw [M.mapErr_apply, h2]; cases x <;> rfl

theorem zoom {st : (Nat → Option Fault) → τ → τ} {m : M ε τ α} {q : CM ε τ α} {getter : σ → τ} {setter : τ → σ → σ}
    (hg : ∀ f s, getter (sf f s) = st f (getter s)) (hset : ∀ f f' t s, setter (st f t) (sf f' s) = sf f (setter t s)) (h : Mimics D st m q) :
    Mimics D sf (M.zoom getter setter m) (CM.zoom getter setter q) := by
  intro s i
  obtain ⟨x, t', j, l, h1, h2, h3⟩ := h (getter s) i
  refine ⟨x, setter t' s, j, l, ?_, fun rest => ?_, h3⟩
  · have := h1.next (f := fun y _ => some (y.1, (setter y.2.1 s, y.2.2))) (.const _)
    refine Settles.of_eq this fun fuel => ?_
    unfold CM.zoom
    show (match q fuel (getter s, i) with | none => none | some (x, (t, i)) => some (x, (setter t s, i))) = _
    rcases q fuel (getter s, i) with _ | ⟨_, _, _⟩ <;> rfl
  · rw [M.zoom_apply, hg, h2]; simp only [hset]

theorem ite {c : Prop} [Decidable c] {m n : M ε σ α} {q r : CM ε σ α} (h1 : Mimics D sf m q) (h2 : Mimics D sf n r) :
    Mimics D sf (if c then m else n) (if c then q else r) := by split <;> assumption

end Mimics

/-! ## The device -/

namespace Pieces
variable {D : WriteSchedule}

theorem writeLoop_interrupts {bs : Bytes} (hb : bs ≠ []) (fuel : Nat) (s : Sink) : ∀ (n i : Nat), (∀ m < n, D (i + m) = .interrupted) →
    writeLoop D (fuel + n) bs (s, i) = writeLoop D fuel bs (s, i + n) := by
  intro n
  induction n with
  | zero => intro i _; rfl
  | succ n ih =>
    intro i h
    rw [← Nat.add_assoc, writeLoop, if_neg hb, show D i = .interrupted from h 0 (by omega)]
    show writeLoop D (fuel + n) bs (s, i + 1) = _
    rw [ih (i + 1) (fun m hm => by have := h (m + 1) (by omega); rwa [show i + 1 + m = i + (m + 1) by omega]), show i + 1 + n = i + (n + 1) by omega]

/-- The first operation that is not interrupted. -/
theorem first_answer (hr : Responsive D) (i : Nat) : ∃ n, (∀ m < n, D (i + m) = .interrupted) ∧ D (i + n) ≠ .interrupted := by
  obtain ⟨j, hj⟩ := hr i
  induction j using Nat.strongRecOn with
  | ind j ih =>
    by_cases h : ∃ k < j, D (i + k) ≠ .interrupted
    · obtain ⟨k, hk, h⟩ := h
      exact ih k hk h
    · refine ⟨j, fun m hm => ?_, hj⟩
      by_cases hh : D (i + m) = .interrupted
      · exact hh
      · exact absurd ⟨m, hm, hh⟩ h

theorem writeAll_some {bs : Bytes} (hb : bs ≠ []) (k : Nat) (e : IoErr) (s : Sink) (rest : Nat → Option Fault) :
    Sink.writeAll bs (s.faulty (prep [some ⟨k, e⟩] rest)) =
      (.err e, ⟨if bs.take k = [] then s.buf else Sink.store s.buf s.pos (bs.take k), s.pos + (bs.take k).length, rest⟩) := by
  unfold Sink.writeAll
  rw [if_neg hb]
  rfl

theorem writeAll_none {bs : Bytes} (hb : bs ≠ []) (s : Sink) (hfit : s.pos + bs.length < 2 ^ 64) (rest : Nat → Option Fault) :
    Sink.writeAll bs (s.faulty (prep [none] rest)) = (.ok (), ⟨Sink.store s.buf s.pos bs, s.pos + bs.length, rest⟩) := by
  unfold Sink.writeAll
  rw [if_neg hb]
  show (if s.pos + bs.length < 2 ^ 64 then _ else _) = _
  rw [if_pos hfit]
  rfl

theorem writeAll_over {bs : Bytes} (hb : bs ≠ []) (s : Sink) (hfit : ¬ s.pos + bs.length < 2 ^ 64) (rest : Nat → Option Fault) :
    Sink.writeAll bs (s.faulty (prep [none] rest)) = (.err (.other 1), ⟨s.buf, s.pos, rest⟩) := by
  unfold Sink.writeAll
  rw [if_neg hb]
  show (if s.pos + bs.length < 2 ^ 64 then _ else _) = _
  rw [if_neg hfit]
  rfl

theorem writeLoop_short {bs : Bytes} (hb : bs ≠ []) (s : Sink) : ∀ (n i : Nat), (∀ m < n, D (i + m) = .interrupted) →
    writeLoop D n bs (s, i) = none := by
  intro n i h
  have := writeLoop_interrupts hb 0 s n i h
  rw [Nat.zero_add] at this
  rw [this]
  rfl

theorem writeLoop_mimics (hr : Responsive D) : ∀ (len : Nat) (bs : Bytes), bs.length ≤ len → bs ≠ [] → ∀ (s : Sink) (i : Nat),
    ∃ x s' j o, Settles (fun fuel => writeLoop D fuel bs (s, i)) (x, (s', j)) ∧
      (∀ rest, Sink.writeAll bs (s.faulty (prep [o] rest)) = (x, s'.faulty rest)) ∧ Due D o := by
  intro len
  induction len with
  | zero => intro bs h hb; exact absurd (List.eq_nil_of_length_eq_zero (by omega)) hb
  | succ len ih =>
    intro bs hlen hb s i
    obtain ⟨n, hn1, hn2⟩ := first_answer hr i
    have hstep : ∀ {z}, Settles (fun fuel => writeLoop D (fuel + 1) bs (s, i + n)) z → Settles (fun fuel => writeLoop D fuel bs (s, i)) z := by
      rintro z ⟨⟨f0, h1⟩, h2⟩
      refine ⟨⟨f0 + 1 + n, fun fuel hf => ?_⟩, fun fuel y hy => ?_⟩
      · obtain ⟨k, rfl⟩ : ∃ k, fuel = k + 1 + n := ⟨fuel - n - 1, by omega⟩
        exact (writeLoop_interrupts hb (k + 1) s n i hn1).trans (h1 k (by omega))
      · simp only at hy
        by_cases hf : n < fuel
        · obtain ⟨k, rfl⟩ : ∃ k, fuel = k + 1 + n := ⟨fuel - n - 1, by omega⟩
          rw [writeLoop_interrupts hb (k + 1) s n i hn1] at hy
          exact h2 k y hy
        · rw [writeLoop_short hb s fuel i fun m hm => hn1 m (by omega)] at hy
          cases hy
    cases hD : D (i + n) with
    | interrupted => exact absurd hD hn2
    | nothing =>
      refine ⟨.err (.other 0), s, i + n + 1, some ⟨0, .other 0⟩, hstep ?_, fun rest => ?_, fun f hf => ?_⟩
      · refine Settles.of_eq (.const _) fun fuel => ?_
        rw [writeLoop, if_neg hb, hD]
      · exact writeAll_some hb 0 _ s rest
      · cases hf; exact .inr ⟨⟨_, hD⟩, rfl⟩
    | fails e =>
      refine ⟨.err e, s, i + n + 1, some ⟨0, e⟩, hstep ?_, fun rest => ?_, fun f hf => ?_⟩
      · refine Settles.of_eq (.const _) fun fuel => ?_
        rw [writeLoop, if_neg hb, hD]
      · exact writeAll_some hb 0 _ s rest
      · cases hf; exact .inl ⟨_, hD⟩
    | takes k =>
      by_cases hfit : s.pos + bs.length < 2 ^ 64
      · by_cases hd : bs.drop (k + 1) = []
        · have ht : bs.take (k + 1) = bs := by
            have := List.take_append_drop (k + 1) bs
            rwa [hd, List.append_nil] at this
          refine ⟨.ok (), ⟨Sink.store s.buf s.pos bs, s.pos + bs.length, s.fault⟩, i + n + 1, none, hstep ?_, fun rest => ?_, .none⟩
          · have e : ∀ fuel, writeLoop D (fuel + 1) bs (s, i + n) =
                writeLoop D fuel [] (⟨Sink.store s.buf s.pos bs, s.pos + bs.length, s.fault⟩, i + n + 1) := by
              intro fuel
              rw [writeLoop, if_neg hb, hD]
              simp only [if_pos hfit, hd, ht]
            refine Settles.of_eq ⟨⟨1, fun fuel hf => ?_⟩, fun fuel y hy => ?_⟩ e
            · obtain ⟨k, rfl⟩ : ∃ k, fuel = k + 1 := ⟨fuel - 1, by omega⟩
              rfl
            · cases fuel with
              | zero => cases hy
              | succ k => cases hy; rfl
          · exact writeAll_none hb s hfit rest
        · have hl : (bs.take (k + 1)).length = k + 1 := by
            have : k + 1 < bs.length := by
              by_cases h : k + 1 < bs.length
              · exact h
              · exact absurd (List.drop_of_length_le (by omega)) hd
            rw [List.length_take]; omega
          have hsum : (bs.take (k + 1)).length + (bs.drop (k + 1)).length = bs.length := by
            rw [← List.length_append, List.take_append_drop]
          obtain ⟨x, s', j, o, h1, h2, h3⟩ := ih (bs.drop (k + 1)) (by rw [List.length_drop]; omega) hd
            ⟨Sink.store s.buf s.pos (bs.take (k + 1)), s.pos + (bs.take (k + 1)).length, s.fault⟩ (i + n + 1)
          refine ⟨x, s', j, o.map (fun f => ⟨k + 1 + f.stored, f.error⟩), hstep ?_, fun rest => ?_, fun f hf => ?_⟩
          · refine Settles.of_eq h1 fun fuel => ?_
            rw [writeLoop, if_neg hb, hD]
            simp only [if_pos hfit]
          · have h2 := h2 rest
            rw [← h2]
            have hfit' : s.pos + (bs.take (k + 1)).length + (bs.drop (k + 1)).length < 2 ^ 64 := by omega
            cases o with
            | none =>
              rw [Option.map_none, writeAll_none hb s hfit, writeAll_none hd _ hfit']
              simp only [Writer.store_store, List.take_append_drop, Nat.add_assoc, hsum]
            | some g =>
              obtain ⟨m, e0⟩ := g
              have htake : bs.take (k + 1 + m) = bs.take (k + 1) ++ (bs.drop (k + 1)).take m := by
                rw [List.take_add]
              have hne : bs.take (k + 1 + m) ≠ [] := by
                intro h
                have := congrArg List.length h
                rw [htake, List.length_append, hl] at this
                simp at this
              rw [Option.map_some, writeAll_some hb, writeAll_some hd, if_neg hne]
              by_cases hm : (bs.drop (k + 1)).take m = []
              · rw [if_pos hm, htake, hm, List.append_nil]; rfl
              · have e : (bs.take (k + 1 + m)).length = (bs.take (k + 1)).length + ((bs.drop (k + 1)).take m).length := by
                  rw [htake, List.length_append]
                rw [if_neg hm, e, ← Nat.add_assoc]
                simp only [Writer.store_store, ← htake]
          · cases o with
            | none => cases hf
            | some g => cases hf; exact h3 g rfl
      · refine ⟨.err (.other 1), s, i + n + 1, none, hstep ?_, fun rest => ?_, .none⟩
        · refine Settles.of_eq (.const _) fun fuel => ?_
          rw [writeLoop, if_neg hb, hD]
          simp only [if_neg hfit]
        · exact writeAll_over hb s hfit rest

/-! ## The writer -/

theorem writeAll_mimics (hr : Responsive D) (bs : Bytes) : Mimics D Sink.faulty (Sink.writeAll bs) (writeAll D bs) := by
  intro s i
  by_cases hb : bs = []
  · subst hb
    refine ⟨.ok (), s, i, [], ⟨⟨1, fun fuel hf => ?_⟩, fun fuel y hy => ?_⟩, fun rest => rfl, fun o ho => by cases ho⟩
    · obtain ⟨k, rfl⟩ : ∃ k, fuel = k + 1 := ⟨fuel - 1, by omega⟩
      rfl
    · cases fuel with
      | zero => cases hy
      | succ k => cases hy; rfl
  · obtain ⟨x, s', j, o, h1, h2, h3⟩ := writeLoop_mimics hr bs.length bs (Nat.le_refl _) hb s i
    exact ⟨x, s', j, [o], h1, h2, fun o' ho' => by rw [List.mem_singleton.mp ho']; exact h3⟩

theorem seek_mimics (p : Nat) : Mimics D Sink.faulty (Sink.seek p) (seek D p) := by
  intro s i
  by_cases h : ∃ e, D i = .fails e
  · obtain ⟨e, h⟩ := h
    exact ⟨.err e, s, i + 1, [some ⟨0, e⟩], .of_eq (.const _) fun fuel => by simp only [seek, h], fun _ => rfl,
      fun o ho f hf => by rw [List.mem_singleton.mp ho] at hf; cases hf; exact .inl ⟨_, h⟩⟩
  · refine ⟨.ok (), ⟨s.buf, p, s.fault⟩, i + 1, [none], ?_, fun _ => rfl, fun o ho => by rw [List.mem_singleton.mp ho]; exact .none⟩
    cases hD : D i <;> first | exact absurd (Exists.intro _ (by assumption)) h | exact .of_eq (.const _) fun fuel => by simp only [seek, hD]

theorem tell_mimics : Mimics D Sink.faulty Sink.tell (tell D) := by
  intro s i
  by_cases h : ∃ e, D i = .fails e
  · obtain ⟨e, h⟩ := h
    exact ⟨.err e, s, i + 1, [some ⟨0, e⟩], .of_eq (.const _) fun fuel => by simp only [tell, h], fun _ => rfl,
      fun o ho f hf => by rw [List.mem_singleton.mp ho] at hf; cases hf; exact .inl ⟨_, h⟩⟩
  · refine ⟨.ok s.pos, s, i + 1, [none], ?_, fun _ => rfl, fun o ho => by rw [List.mem_singleton.mp ho]; exact .none⟩
    cases hD : D i <;> first | exact absurd (Exists.intro _ (by assumption)) h | exact .of_eq (.const _) fun fuel => by simp only [tell, hD]

theorem flush_mimics : Mimics D Sink.faulty Sink.flush (flush D) := by
  intro s i
  by_cases h : ∃ e, D i = .fails e
  · obtain ⟨e, h⟩ := h
    exact ⟨.err e, s, i + 1, [some ⟨0, e⟩], .of_eq (.const _) fun fuel => by simp only [flush, h], fun _ => rfl,
      fun o ho f hf => by rw [List.mem_singleton.mp ho] at hf; cases hf; exact .inl ⟨_, h⟩⟩
  · refine ⟨.ok (), s, i + 1, [none], ?_, fun _ => rfl, fun o ho => by rw [List.mem_singleton.mp ho]; exact .none⟩
    cases hD : D i <;> first | exact absurd (Exists.intro _ (by assumption)) h | exact .of_eq (.const _) fun fuel => by simp only [flush, hD]

theorem io_mimics {α : Type} {m : M IoErr Sink α} {q : CM IoErr Sink α} (h : Mimics D Sink.faulty m q) :
    Mimics D Writer.faulty (Writer.io m) (io q) :=
  (h.zoom (getter := Writer.sink) (setter := fun s w => { w with sink := s }) (fun _ _ => rfl) (fun _ _ _ _ => rfl)).mapErr _

theorem put_mimics (hr : Responsive D) (bs : Bytes) : Mimics D Writer.faulty (Writer.put bs) (put D bs) := io_mimics (writeAll_mimics hr bs)

theorem at_mimics : Mimics D Writer.faulty (Writer.io Sink.tell) (io (tell D)) := io_mimics tell_mimics

theorem to_mimics (p : Nat) : Mimics D Writer.faulty (Writer.io (Sink.seek p)) (io (seek D p)) := io_mimics (seek_mimics p)

theorem start_mimics (hr : Responsive D) (v : FbxVersion) : Mimics D Sink.faulty (M.mapErr WErr.io (do
    Sink.seek 0
    Sink.writeAll magic
    Sink.writeAll (leBytes 4 v.toNat))) (start D v) :=
  Mimics.mapErr _ ((seek_mimics 0).bind fun _ => (writeAll_mimics hr _).bind fun _ => writeAll_mimics hr _)

theorem putU32_mimics (hr : Responsive D) (n : Nat) (e : WErr) : Mimics D Writer.faulty (Writer.putU32 n e) (putU32 D n e) :=
  .ite (put_mimics hr _) (.throw _)

theorem writeHeaderFields_mimics (hr : Responsive D) (h : NodeHeader) (v : FbxVersion) : Mimics D Writer.faulty
    (if v < 7500 then do
      Writer.putU32 h.endOffset (.fileTooLarge h.endOffset)
      Writer.putU32 h.numAttrs (.tooManyAttributes h.numAttrs)
      Writer.putU32 h.bytelenAttrs (.attributeTooLong h.bytelenAttrs)
    else do
      Writer.put (leBytes 8 h.endOffset)
      Writer.put (leBytes 8 h.numAttrs)
      Writer.put (leBytes 8 h.bytelenAttrs)) (writeHeaderFields D h v) :=
  .ite ((putU32_mimics hr _ _).bind fun _ => (putU32_mimics hr _ _).bind fun _ => putU32_mimics hr _ _)
    ((put_mimics hr _).bind fun _ => (put_mimics hr _).bind fun _ => put_mimics hr _)

theorem writeNodeHeader_eq (h : NodeHeader) : Writer.writeNodeHeader h = (do
    let w ← M.get
    (if w.version < 7500 then do
      Writer.putU32 h.endOffset (.fileTooLarge h.endOffset)
      Writer.putU32 h.numAttrs (.tooManyAttributes h.numAttrs)
      Writer.putU32 h.bytelenAttrs (.attributeTooLong h.bytelenAttrs)
    else do
      Writer.put (leBytes 8 h.endOffset)
      Writer.put (leBytes 8 h.numAttrs)
      Writer.put (leBytes 8 h.bytelenAttrs) : M WErr Writer Unit)
    Writer.put (leBytes 1 h.nameLen)) := by
  unfold Writer.writeNodeHeader
  congr 1
  funext w
  by_cases hv : w.version < 7500
  · simp only [if_pos hv, M.bind_assoc']
  · simp only [if_neg hv, M.bind_assoc']

theorem writeNodeHeader_mimics (hr : Responsive D) (h : NodeHeader) : Mimics D Writer.faulty (Writer.writeNodeHeader h) (writeNodeHeader D h) := by
  rw [writeNodeHeader_eq]
  exact .get (fun _ _ => rfl) fun w => (writeHeaderFields_mimics hr h w.version).bind fun _ => put_mimics hr _

theorem writeFbxVersion_mimics (hr : Responsive D) : Mimics D Writer.faulty Writer.writeFbxVersion (writeFbxVersion D) :=
  .get (fun _ _ => rfl) fun _ => put_mimics hr _

theorem modifyTop_mimics (f : OpenNode → OpenNode) :
    Mimics D Writer.faulty (M.modify (Writer.modifyTop f) : M WErr Writer Unit) (CM.lift (M.modify (Writer.modifyTop f))) :=
  .modify fun g w => by
    obtain ⟨s, v, o⟩ := w
    cases o <;> rfl

theorem finalizeAttributes_mimics : Mimics D Writer.faulty Writer.finalizeAttributes (finalizeAttributes D) := by
  refine .get (fun _ _ => rfl) fun w => ?_
  cases w.opened with
  | nil => exact .pure _
  | cons n r => exact .ite (.pure _) (at_mimics.bind fun _ => (Mimics.assert _ _).bind fun _ => modifyTop_mimics _)

theorem newNode_mimics (hr : Responsive D) (name : String) : Mimics D Writer.faulty (Writer.newNode name) (newNode D name) :=
  finalizeAttributes_mimics.bind fun _ => (modifyTop_mimics _).bind fun _ =>
    .ite (at_mimics.bind fun _ => (writeNodeHeader_mimics hr _).bind fun _ => (put_mimics hr _).bind fun _ => at_mimics.bind fun _ =>
      .modify fun _ _ => rfl) (.throw _)

theorem closeRest_eq (n : OpenNode) : Writer.closeRest n = (do
    (if n.hasChild ∨ n.header.numAttrs = 0 then Writer.writeNodeHeader NodeHeader.nodeEnd else pure () : M WErr Writer Unit)
    let endPos ← Writer.io Sink.tell
    Writer.io (Sink.seek n.headerPos)
    M.assert ((n.header.numAttrs == 0) == (n.header.bytelenAttrs == 0)) .attrLenAssert
    Writer.writeNodeHeader { n.header with endOffset := endPos }
    Writer.io (Sink.seek endPos)) := by
  unfold Writer.closeRest
  by_cases h : n.hasChild ∨ n.header.numAttrs = 0
  · simp only [if_pos h]
  · simp only [if_neg h]; rfl

theorem closeNode_mimics (hr : Responsive D) : Mimics D Writer.faulty Writer.closeNode (closeNode D) := by
  rw [Writer.closeNode_eq]
  refine finalizeAttributes_mimics.bind fun _ => .get (fun _ _ => rfl) fun w => ?_
  cases w.opened with
  | nil => exact .throw _
  | cons n r =>
    refine Mimics.bind (.modify fun _ _ => rfl) fun _ => ?_
    rw [closeRest_eq]
    exact Mimics.bind (.ite (writeNodeHeader_mimics hr _) (.pure _)) fun _ => at_mimics.bind fun _ => (to_mimics _).bind fun _ =>
      (Mimics.assert _ _).bind fun _ => (writeNodeHeader_mimics hr _).bind fun _ => to_mimics _

theorem updateNodeHeader_mimics : Mimics D Writer.faulty Writer.updateNodeHeader (CM.lift Writer.updateNodeHeader) := by
  refine .lift fun f w => ?_
  obtain ⟨s, v, o⟩ := w
  cases o with
  | nil => rfl
  | cons n r =>
    by_cases h : n.header.numAttrs + 1 < 2 ^ 64
    · simp only [Writer.updateNodeHeader, M.bind_apply, M.get_apply, Writer.faulty, if_pos h]; rfl
    · simp only [Writer.updateNodeHeader, M.bind_apply, M.get_apply, Writer.faulty, if_neg h]; rfl

theorem appendSingle_mimics (hr : Responsive D) (t : AttrType) (bs : Bytes) :
    Mimics D Writer.faulty (Writer.appendSingle t bs) (appendSingle D t bs) :=
  updateNodeHeader_mimics.bind fun _ => (put_mimics hr _).bind fun _ => put_mimics hr _

theorem writeArrHeader_mimics (hr : Responsive D) (h : ArrHeader) : Mimics D Writer.faulty (Writer.writeArrHeader h) (writeArrHeader D h) :=
  (put_mimics hr _).bind fun _ => (put_mimics hr _).bind fun _ => put_mimics hr _

theorem initializeArray_mimics (hr : Responsive D) (t : AttrType) (enc : ArrEnc) :
    Mimics D Writer.faulty (Writer.initializeArray t enc) (initializeArray D t enc) :=
  updateNodeHeader_mimics.bind fun _ => (put_mimics hr _).bind fun _ => at_mimics.bind fun _ => (writeArrHeader_mimics hr _).bind fun _ => .pure _

theorem finalizeArray_mimics (hr : Responsive D) (p : Nat) (h : ArrHeader) :
    Mimics D Writer.faulty (Writer.finalizeArray p h) (finalizeArray D p h) :=
  at_mimics.bind fun _ => (to_mimics _).bind fun _ => (writeArrHeader_mimics hr _).bind fun _ => to_mimics _

theorem writeElements_mimics (hr : Responsive D) : ∀ (es : List (Except WErr Bytes)) (c : Nat),
    Mimics D Writer.faulty (Writer.writeElements es c) (writeElements D es c)
  | [], _ => .ite (.pure _) (.throw _)
  | .error _ :: _, _ => .throw _
  | .ok _ :: es, c => (put_mimics hr _).bind fun _ => writeElements_mimics hr es (c + 1)

theorem ofExcept_mimics {α : Type} (r : Except WErr α) : Mimics D Writer.faulty (M.ofExcept r : M WErr Writer α) (CM.lift (M.ofExcept r)) := by
  cases r <;> exact .lift fun _ _ => rfl

theorem writeElementsZlib_mimics (hr : Responsive D) (Z : Zlib) (es : List (Except WErr Bytes)) :
    Mimics D Writer.faulty (Writer.writeElementsZlib Z es) (writeElementsZlib D Z es) :=
  (put_mimics hr _).bind fun _ => (put_mimics hr _).bind fun _ => (ofExcept_mimics _).bind fun _ =>
    ((put_mimics hr _).mapErr _).bind fun _ => .pure _

theorem appendArray_mimics (hr : Responsive D) (Z : Zlib) (t : AttrType) (enc : Option ArrEnc) (es : List (Except WErr Bytes)) :
    Mimics D Writer.faulty (Writer.appendArray Z t enc es) (appendArray D Z t enc es) := by
  refine (initializeArray_mimics hr _ _).bind fun _ => at_mimics.bind fun _ => Mimics.bind ?_ fun _ => at_mimics.bind fun _ =>
    .ite (finalizeArray_mimics hr _ _) (.throw _)
  cases enc.getD .direct with
  | direct => exact writeElements_mimics hr _ _
  | zlib => exact writeElementsZlib_mimics hr _ _

theorem initializeSpecial_mimics (hr : Responsive D) (t : AttrType) : Mimics D Writer.faulty (Writer.initializeSpecial t) (initializeSpecial D t) :=
  updateNodeHeader_mimics.bind fun _ => (put_mimics hr _).bind fun _ => at_mimics.bind fun _ => (put_mimics hr _).bind fun _ => .pure _

theorem finalizeSpecial_mimics (hr : Responsive D) (p n : Nat) : Mimics D Writer.faulty (Writer.finalizeSpecial p n) (finalizeSpecial D p n) :=
  .ite (at_mimics.bind fun _ => (to_mimics _).bind fun _ => (put_mimics hr _).bind fun _ => to_mimics _) (.throw _)

theorem appendDirect_mimics (hr : Responsive D) (t : AttrType) (bs : Bytes) :
    Mimics D Writer.faulty (Writer.appendDirect t bs) (appendDirect D t bs) :=
  (initializeSpecial_mimics hr t).bind fun _ => (put_mimics hr _).bind fun _ => finalizeSpecial_mimics hr _ _

theorem copyChunks_mimics (hr : Responsive D) (e : Option IoErr) : ∀ (cs : List Bytes) (n : Nat),
    Mimics D Writer.faulty (Writer.copyChunks e cs n) (copyChunks D e cs n)
  | [], n => by cases e with
    | none => exact .pure _
    | some e => exact .throw _
  | _ :: cs, _ => (put_mimics hr _).bind fun _ => copyChunks_mimics hr e cs _

theorem putEach_mimics (hr : Responsive D) : ∀ (xs : List (Except WErr Byte)) (n : Nat),
    Mimics D Writer.faulty (Writer.putEach xs n) (putEach D xs n)
  | [], _ => .pure _
  | .error _ :: _, _ => .throw _
  | .ok _ :: xs, n => (put_mimics hr _).bind fun _ => putEach_mimics hr xs (n + 1)

theorem putChars_mimics (hr : Responsive D) : ∀ (xs : List (Except WErr Char)) (buf : Bytes) (n : Nat),
    Mimics D Writer.faulty (Writer.putChars xs buf n) (putChars D xs buf n)
  | [], _, _ => .pure _
  | .error _ :: _, _, _ => .throw _
  | .ok _ :: xs, _, _ => (put_mimics hr _).bind fun _ => putChars_mimics hr xs _ _

theorem append_mimics (hr : Responsive D) (Z : Zlib) (a : Writer.Append) : Mimics D Writer.faulty (Writer.append Z a) (append D Z a) := by
  cases a with
  | bool | i16 | i32 | i64 | f32 | f64 => exact appendSingle_mimics hr _ _
  | arrBool | arrI32 | arrI64 | arrF32 | arrF64 => exact appendArray_mimics hr _ _ _ _
  | binary | string => exact appendDirect_mimics hr _ _
  | binaryReader => exact (initializeSpecial_mimics hr _).bind fun _ => (copyChunks_mimics hr _ _ _).bind fun _ => finalizeSpecial_mimics hr _ _
  | binaryIter => exact (initializeSpecial_mimics hr _).bind fun _ => (putEach_mimics hr _ _).bind fun _ => finalizeSpecial_mimics hr _ _
  | stringIter => exact (initializeSpecial_mimics hr _).bind fun _ => (putChars_mimics hr _ _ _).bind fun _ => finalizeSpecial_mimics hr _ _

theorem paddingLen_mimics (p : Writer.PadLen) : Mimics D Writer.faulty (Writer.paddingLen p) (paddingLen D p) := by
  cases p with
  | default => exact at_mimics.bind fun _ => .pure _
  | forced n => exact .pure _

theorem finalize_mimics (hr : Responsive D) (f : Writer.FooterSpec) : Mimics D Writer.faulty (Writer.finalize f) (finalize D f) :=
  .get (fun _ _ => rfl) fun _ => .ite (.throw _)
    ((writeNodeHeader_mimics hr _).bind fun _ => (put_mimics hr _).bind fun _ => (paddingLen_mimics _).bind fun _ => (put_mimics hr _).bind fun _ =>
      (put_mimics hr _).bind fun _ => (writeFbxVersion_mimics hr).bind fun _ => (put_mimics hr _).bind fun _ => put_mimics hr _)

theorem finalizeAndFlush_mimics (hr : Responsive D) (f : Writer.FooterSpec) :
    Mimics D Writer.faulty (Writer.finalizeAndFlush f) (finalizeAndFlush D f) :=
  (finalize_mimics hr f).bind fun _ => io_mimics flush_mimics

theorem appendAll_mimics (hr : Responsive D) (Z : Zlib) : ∀ vs : List AttrValue, Mimics D Writer.faulty (Writer.appendAll Z vs) (appendAll D Z vs)
  | [] => .pure _
  | _ :: vs => (append_mimics hr Z _).bind fun _ => appendAll_mimics hr Z vs

theorem writeTreeLoop_mimics (hr : Responsive D) (Z : Zlib) (t : Tree) : ∀ (n : Nat) (opening : Bool) (id : Nat),
    Mimics D Writer.faulty (Writer.writeTreeLoop Z t n opening id) (writeTreeLoop D Z t n opening id) := by
  intro n
  induction n with
  | zero => intro _ _; exact .panic _
  | succ n ih =>
    intro opening id
    cases opening with
    | true =>
      unfold Writer.writeTreeLoop writeTreeLoop
      cases t.name? id with
      | none => exact .panic _
      | some name =>
        refine (newNode_mimics hr _).bind fun _ => (appendAll_mimics hr Z _).bind fun _ => ?_
        cases (t.nodes id).first with
        | none => exact ih _ _
        | some c => exact ih _ _
    | false =>
      unfold Writer.writeTreeLoop writeTreeLoop
      refine (closeNode_mimics hr).bind fun _ => ?_
      cases (t.nodes id).next with
      | some c => exact ih _ _
      | none =>
        cases (t.nodes id).parent with
        | none => exact .panic _
        | some p => exact .ite (.pure _) (ih _ _)

theorem writeTree_mimics (hr : Responsive D) (Z : Zlib) (t : Tree) : Mimics D Writer.faulty (Writer.writeTree Z t) (writeTree D Z t) := by
  unfold Writer.writeTree writeTree
  cases (t.nodes t.root).first with
  | none => exact .pure _
  | some c => exact writeTreeLoop_mimics hr Z t _ _ _

theorem exec_mimics (hr : Responsive D) (Z : Zlib) (o : Writer.Op) : Mimics D Writer.faulty (Writer.exec Z o) (exec D Z o) := by
  cases o with
  | newNode => exact newNode_mimics hr _
  | closeNode => exact closeNode_mimics hr
  | append => exact append_mimics hr Z _

theorem run_mimics (hr : Responsive D) (Z : Zlib) : ∀ os : List Writer.Op, Mimics D Writer.faulty (Writer.run Z os) (run D Z os)
  | [] => .pure _
  | _ :: os => (exec_mimics hr Z _).bind fun _ => run_mimics hr Z os

/-! ## Sessions -/

/-- `Writer::new` and the calls `m`, each followed by `?`. -/
def _root_.Fbx.Writer.afterNew (s : Sink) (v : FbxVersion) (m : M WErr Writer Unit) : Res WErr Unit × Sink :=
  match Writer.new s v with
  | (.ok w, _) => ((m w).1, (m w).2.sink)
  | (.err e, s') => (.err e, s')
  | (.panic p, s') => (.panic p, s')

theorem withNew_mimics (hr : Responsive D) (v : FbxVersion) {m : M WErr Writer Unit} {q : CM WErr Writer Unit} (h : Mimics D Writer.faulty m q)
    (s : Sink) : ∃ fault, (∀ i f, fault i = some f → Tells D f.error) ∧
      EndsAs (fun fuel => withNew D fuel s v q) (Writer.afterNew (s.faulty fault) v m) := by
  suffices ∃ fault, (∀ i f, fault i = some f → Tells D f.error) ∧ ∃ t, Settles (fun fuel => withNew D fuel s v q) ((Writer.afterNew (s.faulty fault) v m).1, t) ∧
      t.buf = (Writer.afterNew (s.faulty fault) v m).2.buf ∧ t.pos = (Writer.afterNew (s.faulty fault) v m).2.pos by
    obtain ⟨fault, h1, t, ⟨⟨f0, h2⟩, h3⟩, h4, h5⟩ := this
    exact ⟨fault, h1, f0, t, h2, h3, h4, h5⟩
  by_cases hv : v.major ≠ 7
  · refine ⟨fun _ => none, (fun _ _ h => by cases h), s, ?_, ?_⟩ <;> simp only [withNew, Writer.afterNew, Writer.new, if_pos hv]
    · exact .const _
    · exact ⟨rfl, rfl⟩
  · obtain ⟨x, s', j, l, h1, h2, h3⟩ := start_mimics hr v s 0
    have hnew : ∀ rest, Writer.new (s.faulty (prep l rest)) v = match x with
        | .ok () => (.ok ⟨s'.faulty rest, v, []⟩, s'.faulty rest)
        | .err e => (.err e, s'.faulty rest)
        | .panic p => (.panic p, s'.faulty rest) := by
      intro rest
      simp only [Writer.new, if_neg hv, h2 rest]
      cases x <;> rfl
    have hq : ∀ {z}, Settles (fun fuel => match ((x, (s', j)) : Res WErr Unit × (Sink × Nat)) with
        | (.err e, (s', _)) => some (.err e, s')
        | (.panic p, (s', _)) => some (.panic p, s')
        | (.ok (), (s', i)) => match q fuel (⟨s', v, []⟩, i) with
          | none => none
          | some (x, (w, _)) => some (x, w.sink)) z → Settles (fun fuel => withNew D fuel s v q) z := by
      intro z hz
      have := h1.next (f := fun y fuel => match y with
        | (.err e, (s', _)) => some (.err e, s')
        | (.panic p, (s', _)) => some (.panic p, s')
        | (.ok (), (s', i)) => match q fuel (⟨s', v, []⟩, i) with
          | none => none
          | some (x, (w, _)) => some (x, w.sink)) hz
      refine Settles.of_eq this fun fuel => ?_
      simp only [withNew, if_neg hv]
      rcases start D v fuel (s, 0) with _ | ⟨_ | _ | _, _, _⟩ <;> rfl
    cases x with
    | err e =>
      refine ⟨prep l fun _ => none, prep_due h3, s', hq ?_, ?_⟩
      · simp only [Writer.afterNew, hnew]; exact .const _
      · simp only [Writer.afterNew, hnew]; exact ⟨rfl, rfl⟩
    | panic e =>
      refine ⟨prep l fun _ => none, prep_due h3, s', hq ?_, ?_⟩
      · simp only [Writer.afterNew, hnew]; exact .const _
      · simp only [Writer.afterNew, hnew]; exact ⟨rfl, rfl⟩
    | ok u =>
      obtain ⟨x', w', j', l', h4, h5, h6⟩ := h ⟨s', v, []⟩ j
      have h5 : m ⟨s'.faulty (prep l' fun _ => none), v, []⟩ = (x', w'.faulty fun _ => none) := h5 _
      refine ⟨prep (l ++ l') fun _ => none, prep_due fun o ho => ?_, w'.sink, hq ?_, ?_⟩
      · rcases List.mem_append.mp ho with ho | ho
        · exact h3 o ho
        · exact h6 o ho
      · simp only [Writer.afterNew, prep_append, hnew, h5]
        have := h4.next (f := fun y _ => some (y.1, y.2.1.sink)) (.const _)
        refine Settles.of_eq this fun fuel => ?_
        rcases q fuel (⟨s', v, []⟩, j) with _ | ⟨_, _, _⟩ <;> rfl
      · simp only [Writer.afterNew, prep_append, hnew, h5]; exact ⟨rfl, rfl⟩

theorem attempts_mimics (hr : Responsive D) (Z : Zlib) : ∀ (os : List Writer.Op) (w : Writer) (i : Nat), ∃ xs w' l,
    (∀ rest, attempts Z os (w.faulty (prep l rest)) = (xs, w'.faulty rest)) ∧
    Settles (fun fuel => attemptsOn D Z fuel os (w, i)) (xs, w') ∧ ∀ o ∈ l, Due D o := by
  intro os
  induction os with
  | nil => intro w i; exact ⟨[], w, [], fun _ => rfl, .const _, fun o ho => by cases ho⟩
  | cons o os ih =>
    intro w i
    obtain ⟨x, w1, j, l, h1, h2, h3⟩ := exec_mimics hr Z o w i
    obtain ⟨xs, w', l', h4, h5, h6⟩ := ih w1 j
    have hq : ∀ {z}, Settles (fun fuel => match ((x, (w1, j)) : Res WErr Unit × (Writer × Nat)) with
        | (.panic p, w') => some ([.panic p], w'.1)
        | (x, w') => (attemptsOn D Z fuel os w').map fun y => (x :: y.1, y.2)) z → Settles (fun fuel => attemptsOn D Z fuel (o :: os) (w, i)) z := by
      intro z hz
      have := h1.next (f := fun y fuel => match y with
        | (.panic p, w') => some ([.panic p], w'.1)
        | (x, w') => (attemptsOn D Z fuel os w').map fun y => (x :: y.1, y.2)) hz
      refine Settles.of_eq this fun fuel => ?_
      simp only [attemptsOn]
      rcases exec D Z o fuel (w, i) with _ | ⟨_ | _ | _, _, _⟩ <;> rfl
    have hmap : ∀ x : Res WErr Unit, Settles (fun fuel => (attemptsOn D Z fuel os (w1, j)).map fun y => (x :: y.1, y.2)) (x :: xs, w') := by
      intro x
      have := h5.next (f := fun y _ => some (x :: y.1, y.2)) (.const _)
      refine Settles.of_eq this fun fuel => ?_
      cases attemptsOn D Z fuel os (w1, j) <;> rfl
    have hall : ∀ o ∈ l ++ l', Due D o := fun o ho => by
      rcases List.mem_append.mp ho with ho | ho
      · exact h3 o ho
      · exact h6 o ho
    cases x with
    | panic p =>
      refine ⟨[.panic p], w1, l, fun rest => ?_, hq (.const _), h3⟩
      simp only [attempts, h2]
    | ok u =>
      refine ⟨.ok u :: xs, w', l ++ l', fun rest => ?_, hq (hmap _), hall⟩
      simp only [attempts, prep_append, h2, h4]
    | err e =>
      refine ⟨.err e :: xs, w', l ++ l', fun rest => ?_, hq (hmap _), hall⟩
      simp only [attempts, prep_append, h2, h4]

end Pieces
end Fbx
