import Verif.Spec.AnyDest
import Verif.Proof.ShortWrites

/-! # The writer on any sound destination does what it does on a sink with some failure schedule -/

namespace Fbx
open Spec

/-- What is compared: a state `τ` with the sinks (or writers on sinks) `σ` it is like. -/
structure Ctx (σ τ : Type) where
  /-- the invariant -/
  I : τ → Prop
  /-- the failures of the operations -/
  P : Fault → Prop
  /-- the failures that stand for crashes -/
  K : Fault → Prop
  /-- the state on a sink, which has some failure schedule -/
  look : (Nat → Option Fault) → τ → σ
  /-- what has been written -/
  now : τ → Bytes
  /-- the content of the sink -/
  buf : σ → Bytes
  /-- what may be on the device itself -/
  T : τ → Bytes → Prop
  le : ∀ f, P f → K f

/-- With some failures the code `m` fails and leaves the content `c`. -/
def Crashes {ε σ τ α : Type} (X : Ctx σ τ) (m : M ε σ α) (d : τ) (c : Bytes) : Prop :=
  ∃ l, (∀ o ∈ l, ∀ f, o = some f → X.K f) ∧ ∀ rest, ∃ e s, m (X.look (prep l rest) d) = (.err e, s) ∧ X.buf s = c

/-- Code `q` on a destination does what `m` does on a sink with some failure schedule, with failures `P`. What may be on the device then is
all that has been written, or what `m` leaves which has failed, or what might have been on the device before. -/
def Plays {ε σ τ α : Type} (X : Ctx σ τ) (m : M ε σ α) (q : M ε τ α) : Prop :=
  ∀ d, X.I d → (∃ l, (∀ rest, m (X.look (prep l rest) d) = ((q d).1, X.look rest (q d).2)) ∧ X.I (q d).2 ∧ ∀ o ∈ l, ∀ f, o = some f → X.P f) ∧
    ∀ c, X.T (q d).2 c → c = X.now (q d).2 ∨ Crashes X m d c ∨ (X.T d c ∧ c ≠ X.now d)

namespace Plays
variable {ε ε' σ τ α β : Type} {X : Ctx σ τ}

theorem still {m : M ε σ α} {d : τ} {c : Bytes} (h : X.T d c) : c = X.now d ∨ Crashes X m d c ∨ (X.T d c ∧ c ≠ X.now d) := by
  by_cases hc : c = X.now d
  · exact .inl hc
  · exact .inr (.inr ⟨h, hc⟩)

theorem pure (a : α) : Plays X (Pure.pure a : M ε σ α) (Pure.pure a) :=
  fun _ h => ⟨⟨[], fun _ => rfl, h, fun o ho => by cases ho⟩, fun _ => still⟩

theorem throw (e : ε) : Plays X (M.throw e : M ε σ α) (M.throw e) :=
  fun _ h => ⟨⟨[], fun _ => rfl, h, fun o ho => by cases ho⟩, fun _ => still⟩

theorem panic (p : Panic) : Plays X (M.panic p : M ε σ α) (M.panic p) :=
  fun _ h => ⟨⟨[], fun _ => rfl, h, fun o ho => by cases ho⟩, fun _ => still⟩

theorem assert (b : Bool) (p : Panic) : Plays X (M.assert b p : M ε σ Unit) (M.assert b p) := by
  cases b <;> exact fun _ h => ⟨⟨[], fun _ => rfl, h, fun o ho => by cases ho⟩, fun _ => still⟩

theorem modify {f : σ → σ} {g : τ → τ} (h : ∀ r d, f (X.look r d) = X.look r (g d)) (hI : ∀ d, X.I d → X.I (g d))
    (hT : ∀ d c, X.T (g d) c → X.T d c) (hn : ∀ d, X.now (g d) = X.now d) : Plays X (M.modify f : M ε σ Unit) (M.modify g) := by
  refine fun d hd => ⟨⟨[], fun rest => by simp only [M.modify_apply, prep, h], hI d hd, fun o ho => by cases ho⟩, fun c hc => ?_⟩
  show c = X.now (g d) ∨ _
  rw [hn]
  exact still (hT d c hc)

theorem _root_.Fbx.Crashes.bind {m : M ε σ α} {f : α → M ε σ β} {d : τ} {c : Bytes} (h : Crashes X m d c) : Crashes X (m >>= f) d c := by
  obtain ⟨l, h1, h2⟩ := h
  refine ⟨l, h1, fun rest => ?_⟩
  obtain ⟨e, s, h3, h4⟩ := h2 rest
  exact ⟨e, s, by simp only [M.bind_apply, h3], h4⟩

theorem bind {m : M ε σ α} {q : M ε τ α} {f : α → M ε σ β} {g : α → M ε τ β} (h : Plays X m q) (hf : ∀ a, Plays X (f a) (g a)) :
    Plays X (m >>= f) (q >>= g) := by
  intro d hd
  obtain ⟨⟨l, h1, h2, h3⟩, hT⟩ := h d hd
  rcases hq : q d with ⟨x, d'⟩
  simp only [hq] at h1 h2 hT
  cases x with
  | ok a =>
    obtain ⟨⟨l', h4, h5, h6⟩, hT'⟩ := hf a d' h2
    refine ⟨⟨l ++ l', fun rest => ?_, ?_, fun o ho => ?_⟩, fun c hc => ?_⟩
    · simp only [M.bind_apply, prep_append, h1, hq, h4]
    · simp only [M.bind_apply, hq]; exact h5
    · rcases List.mem_append.mp ho with ho | ho
      · exact h3 o ho
      · exact h6 o ho
    · simp only [M.bind_apply, hq] at hc ⊢
      rcases hT' c hc with h7 | ⟨l2, h7, h8⟩ | ⟨h7, h8⟩
      · exact .inl h7
      · refine .inr (.inl ⟨l ++ l2, fun o ho f hf => ?_, fun rest => ?_⟩)
        · rcases List.mem_append.mp ho with ho | ho
          · exact X.le f (h3 o ho f hf)
          · exact h7 o ho f hf
        · obtain ⟨e, s, h9, h10⟩ := h8 rest
          exact ⟨e, s, by simp only [M.bind_apply, prep_append, h1, h9], h10⟩
      · rcases hT c h7 with h9 | h9 | h9
        · exact absurd h9 h8
        · exact .inr (.inl h9.bind)
        · exact .inr (.inr h9)
  | err e =>
    refine ⟨⟨l, fun rest => ?_, ?_, h3⟩, fun c hc => ?_⟩
    · simp only [M.bind_apply, h1, hq]
    · simp only [M.bind_apply, hq]; exact h2
    · simp only [M.bind_apply, hq] at hc ⊢
      rcases hT c hc with h9 | h9 | h9
      · exact .inl h9
      · exact .inr (.inl h9.bind)
      · exact .inr (.inr h9)
  | panic e =>
    refine ⟨⟨l, fun rest => ?_, ?_, h3⟩, fun c hc => ?_⟩
    · simp only [M.bind_apply, h1, hq]
    · simp only [M.bind_apply, hq]; exact h2
    · simp only [M.bind_apply, hq] at hc ⊢
      rcases hT c hc with h9 | h9 | h9
      · exact .inl h9
      · exact .inr (.inl h9.bind)
      · exact .inr (.inr h9)

/-- Code that looks at the state, but not at the failure schedule. -/
theorem get {f : σ → M ε σ β} {g : τ → M ε τ β} (hs : ∀ r d, f (X.look r d) = f (X.look (fun _ => none) d))
    (hf : ∀ d, Plays X (f (X.look (fun _ => none) d)) (g d)) : Plays X (M.get >>= f) (M.get >>= g) := by
  intro d hd
  obtain ⟨⟨l, h1, h2, h3⟩, hT⟩ := hf d d hd
  refine ⟨⟨l, fun rest => ?_, h2, h3⟩, fun c hc => ?_⟩
  · show f (X.look (prep l rest) d) (X.look (prep l rest) d) = _
    rw [hs]; exact h1 rest
  · rcases hT c hc with h9 | ⟨l', h9, h10⟩ | h9
    · exact .inl h9
    · refine .inr (.inl ⟨l', h9, fun rest => ?_⟩)
      show ∃ e s, f (X.look (prep l' rest) d) (X.look (prep l' rest) d) = _ ∧ _
      rw [hs]; exact h10 rest
    · exact .inr (.inr h9)

theorem mapErr {m : M ε σ α} {q : M ε τ α} (f : ε → ε') (h : Plays X m q) : Plays X (M.mapErr f m) (M.mapErr f q) := by
  intro d hd
  obtain ⟨⟨l, h1, h2, h3⟩, hT⟩ := h d hd
  rcases hq : q d with ⟨x, d'⟩
  simp only [hq] at h1 h2 hT
  have h2' : (M.mapErr f q d).2 = d' := by rw [M.mapErr_apply, hq]; cases x <;> rfl
  refine ⟨⟨l, fun rest => ?_, ?_, h3⟩, fun c hc => ?_⟩
  · rw [M.mapErr_apply, M.mapErr_apply, h1, hq]; cases x <;> rfl
  · rw [h2']; exact h2
  · rw [h2'] at hc ⊢
    rcases hT c hc with h9 | ⟨l', h9, h10⟩ | h9
    · exact .inl h9
    · refine .inr (.inl ⟨l', h9, fun rest => ?_⟩)
      obtain ⟨e, s, h11, h12⟩ := h10 rest
      exact ⟨f e, s, by rw [M.mapErr_apply, h11], h12⟩
    · exact .inr (.inr h9)

theorem ite {c : Prop} [Decidable c] {m n : M ε σ α} {q r : M ε τ α} (h1 : Plays X m q) (h2 : Plays X n r) :
    Plays X (if c then m else n) (if c then q else r) := by split <;> assumption

end Plays

/-- A destination and what is known of it. -/
structure Scene (δ : Type) where
  I : δ → Prop
  P : Fault → Prop
  K : Fault → Prop
  content : δ → Bytes
  cursor : δ → Nat
  T : δ → Bytes → Prop
  le : ∀ f, P f → K f

/-- The sink of the model that a destination is like. -/
def Scene.at {δ : Type} (X : Scene δ) : Ctx Sink δ where
  I := X.I
  P := X.P
  K := X.K
  look f d := ⟨X.content d, X.cursor d, f⟩
  now := X.content
  buf := Sink.buf
  T := X.T
  le := X.le

/-- The writer of the model that a writer on a destination is like. -/
def Scene.on {δ : Type} (X : Scene δ) : Ctx Writer (WriterOn δ) where
  I w := X.I w.sink
  P := X.P
  K := X.K
  look f w := ⟨⟨X.content w.sink, X.cursor w.sink, f⟩, w.version, w.opened⟩
  now w := X.content w.sink
  buf w := w.sink.buf
  T w := X.T w.sink
  le := X.le

/-- The destination is sound, and what may be on the device is known at each operation. -/
class SoundDest {δ : Type} (D : Dest δ) (X : Scene δ) : Prop where
  sound : Sound D X.I X.P X.content X.cursor
  writeAll : ∀ d bs, X.I d → bs ≠ [] → ∀ c, X.T (D.writeAll bs d).2 c → c = X.content (D.writeAll bs d).2 ∨
    (∃ f, X.K f ∧ c = if bs.take f.stored = [] then X.content d else Sink.store (X.content d) (X.cursor d) (bs.take f.stored)) ∨
    (X.T d c ∧ c ≠ X.content d)
  seek : ∀ d p, X.I d → ∀ c, X.T (D.seek p d).2 c → c = X.content (D.seek p d).2 ∨ (X.T d c ∧ c ≠ X.content d)
  tell : ∀ d, X.I d → ∀ c, X.T (D.tell d).2 c → c = X.content (D.tell d).2 ∨ (X.T d c ∧ c ≠ X.content d)
  flush : ∀ d, X.I d → ∀ c, X.T (D.flush d).2 c → c = X.content (D.flush d).2 ∨ (X.T d c ∧ c ≠ X.content d)

namespace AnyDest
variable {δ : Type} {D : Dest δ} {X : Scene δ}

section
variable [S : SoundDest D X]

theorem one_none {P : Fault → Prop} : ∀ o ∈ [(none : Option Fault)], ∀ f, o = some f → P f := fun o ho f hf => by
  simp only [List.mem_singleton] at ho; subst ho; cases hf

theorem one_some {P : Fault → Prop} {g : Fault} (h : P g) : ∀ o ∈ [some g], ∀ f, o = some f → P f := fun o ho f hf => by
  simp only [List.mem_singleton] at ho; subst ho; cases hf; exact h

theorem writeAll_plays (bs : Bytes) : Plays X.at (Sink.writeAll bs) (D.writeAll bs) := by
  intro d hd
  by_cases hb : bs = []
  · subst hb
    rw [S.sound.empty d]
    exact ⟨⟨[], fun rest => rfl, hd, fun o ho => by cases ho⟩, fun c => Plays.still⟩
  · refine ⟨?_, fun c hc => ?_⟩
    · obtain ⟨r, d', h1, h2, h3⟩ := S.sound.writeAll d bs hd hb
      rw [h1]
      rcases h3 with ⟨rfl, h4, h5, h6⟩ | ⟨f, rfl, h4, h5, h6⟩ | ⟨rfl, h4, h5, h6⟩
      · refine ⟨[none], fun rest => ?_, h2, one_none⟩
        show Sink.writeAll bs ⟨X.content d, X.cursor d, prep [none] rest⟩ = (_, ⟨X.content d', X.cursor d', rest⟩)
        simp only [Sink.writeAll, if_neg hb, prep, h5, h6]
        rw [if_pos h4]; rfl
      · refine ⟨[some f], fun rest => ?_, h2, one_some h4⟩
        show Sink.writeAll bs ⟨X.content d, X.cursor d, prep [some f] rest⟩ = (_, ⟨X.content d', X.cursor d', rest⟩)
        simp only [Sink.writeAll, if_neg hb, prep, h5, h6]
        rfl
      · refine ⟨[none], fun rest => ?_, h2, one_none⟩
        show Sink.writeAll bs ⟨X.content d, X.cursor d, prep [none] rest⟩ = (_, ⟨X.content d', X.cursor d', rest⟩)
        simp only [Sink.writeAll, if_neg hb, prep, h5, h6]
        rw [if_neg (Nat.not_lt.mpr h4)]; rfl
    · rcases S.writeAll d bs hd hb c hc with h | ⟨f, h1, h2⟩ | h
      · exact .inl h
      · refine .inr (.inl ⟨[some f], one_some h1, fun rest => ⟨f.error, ?_⟩⟩)
        show ∃ s : Sink, Sink.writeAll bs ⟨X.content d, X.cursor d, prep [some f] rest⟩ = _ ∧ s.buf = c
        simp only [Sink.writeAll, if_neg hb, prep]
        exact ⟨_, rfl, h2.symm⟩
      · exact .inr (.inr h)

theorem seek_plays (p : Nat) : Plays X.at (Sink.seek p) (D.seek p) := by
  refine fun d hd => ⟨?_, fun c hc => (S.seek d p hd c hc).imp id .inr⟩
  obtain ⟨r, d', h1, h2, h3, h4⟩ := S.sound.seek d p hd
  rw [h1]
  rcases h4 with ⟨rfl, h5⟩ | ⟨e, rfl, h5, h6⟩
  · refine ⟨[none], fun rest => ?_, h2, one_none⟩
    show Sink.seek p ⟨X.content d, X.cursor d, prep [none] rest⟩ = (_, ⟨X.content d', X.cursor d', rest⟩)
    simp only [Sink.seek, prep, h3, h5]
    rfl
  · refine ⟨[some ⟨0, e⟩], fun rest => ?_, h2, one_some h5⟩
    show Sink.seek p ⟨X.content d, X.cursor d, prep [some ⟨0, e⟩] rest⟩ = (_, ⟨X.content d', X.cursor d', rest⟩)
    simp only [Sink.seek, prep, h3, h6]
    rfl

theorem tell_plays : Plays X.at Sink.tell D.tell := by
  refine fun d hd => ⟨?_, fun c hc => (S.tell d hd c hc).imp id .inr⟩
  obtain ⟨r, d', h1, h2, h3, h4, h5⟩ := S.sound.tell d hd
  rw [h1]
  rcases h5 with rfl | ⟨e, rfl, h5⟩
  · refine ⟨[none], fun rest => ?_, h2, one_none⟩
    show Sink.tell ⟨X.content d, X.cursor d, prep [none] rest⟩ = (_, ⟨X.content d', X.cursor d', rest⟩)
    simp only [Sink.tell, prep, h3, h4]
    rfl
  · refine ⟨[some ⟨0, e⟩], fun rest => ?_, h2, one_some h5⟩
    show Sink.tell ⟨X.content d, X.cursor d, prep [some ⟨0, e⟩] rest⟩ = (_, ⟨X.content d', X.cursor d', rest⟩)
    simp only [Sink.tell, prep, h3, h4]
    rfl

theorem flush_plays : Plays X.at Sink.flush D.flush := by
  refine fun d hd => ⟨?_, fun c hc => (S.flush d hd c hc).imp id .inr⟩
  obtain ⟨r, d', h1, h2, h3, h4, h5⟩ := S.sound.flush d hd
  rw [h1]
  rcases h5 with rfl | ⟨e, rfl, h5⟩
  · refine ⟨[none], fun rest => ?_, h2, one_none⟩
    show Sink.flush ⟨X.content d, X.cursor d, prep [none] rest⟩ = (_, ⟨X.content d', X.cursor d', rest⟩)
    simp only [Sink.flush, prep, h3, h4]
    rfl
  · refine ⟨[some ⟨0, e⟩], fun rest => ?_, h2, one_some h5⟩
    show Sink.flush ⟨X.content d, X.cursor d, prep [some ⟨0, e⟩] rest⟩ = (_, ⟨X.content d', X.cursor d', rest⟩)
    simp only [Sink.flush, prep, h3, h4]
    rfl

theorem io_plays {α : Type} {m : M IoErr Sink α} {q : M IoErr δ α} (h : Plays X.at m q) :
    Plays X.on (Writer.io m) (io q) :=
  .mapErr _ fun w hw => by
    obtain ⟨⟨l, h1, h2, h3⟩, hT⟩ := h w.sink hw
    refine ⟨⟨l, fun rest => ?_, h2, h3⟩, fun c hc => ?_⟩
    · rw [M.zoom_apply, M.zoom_apply]
      have h1 : m ⟨X.content w.sink, X.cursor w.sink, prep l rest⟩ = _ := h1 rest
      simp only [Scene.on, h1]
      rfl
    · rcases hT c hc with h4 | ⟨l', h4, h5⟩ | h4
      · exact .inl h4
      · refine .inr (.inl ⟨l', h4, fun rest => ?_⟩)
        obtain ⟨e, s, h6, h7⟩ := h5 rest
        have h6 : m ⟨X.content w.sink, X.cursor w.sink, prep l' rest⟩ = _ := h6
        refine ⟨e, { X.on.look (prep l' rest) w with sink := s }, ?_, h7⟩
        rw [M.zoom_apply]
        simp only [Scene.on, h6]
      · exact .inr (.inr h4)

theorem put_plays (bs : Bytes) : Plays X.on (Writer.put bs) (put D bs) := io_plays (writeAll_plays bs)

theorem at_plays : Plays X.on (Writer.io Sink.tell) (io D.tell) := io_plays tell_plays

theorem to_plays (p : Nat) : Plays X.on (Writer.io (Sink.seek p)) (io (D.seek p)) := io_plays (seek_plays p)

theorem start_plays (v : FbxVersion) : Plays X.at (M.mapErr WErr.io (do
    Sink.seek 0
    Sink.writeAll magic
    Sink.writeAll (leBytes 4 v.toNat))) (start D v) :=
  Plays.mapErr _ ((seek_plays 0).bind fun _ => (writeAll_plays _).bind fun _ => writeAll_plays _)

theorem putU32_plays (n : Nat) (e : WErr) : Plays X.on (Writer.putU32 n e) (putU32 D n e) :=
  .ite (put_plays _) (.throw _)

theorem writeHeaderFields_plays (h : NodeHeader) (v : FbxVersion) : Plays X.on
    (if v < 7500 then do
      Writer.putU32 h.endOffset (.fileTooLarge h.endOffset)
      Writer.putU32 h.numAttrs (.tooManyAttributes h.numAttrs)
      Writer.putU32 h.bytelenAttrs (.attributeTooLong h.bytelenAttrs)
    else do
      Writer.put (leBytes 8 h.endOffset)
      Writer.put (leBytes 8 h.numAttrs)
      Writer.put (leBytes 8 h.bytelenAttrs)) (writeHeaderFields D h v) :=
  .ite ((putU32_plays _ _).bind fun _ => (putU32_plays _ _).bind fun _ => putU32_plays _ _)
    ((put_plays _).bind fun _ => (put_plays _).bind fun _ => put_plays _)

theorem writeNodeHeader_plays (h : NodeHeader) : Plays X.on (Writer.writeNodeHeader h) (writeNodeHeader D h) := by
  rw [Pieces.writeNodeHeader_eq]
  exact .get (fun _ _ => rfl) fun w => (writeHeaderFields_plays h w.version).bind fun _ => put_plays _

theorem writeFbxVersion_plays : Plays X.on Writer.writeFbxVersion (writeFbxVersion D) :=
  .get (fun _ _ => rfl) fun _ => put_plays _

theorem modifyTop_plays (f : OpenNode → OpenNode) :
    Plays X.on (M.modify (Writer.modifyTop f) : M WErr Writer Unit) (M.modify (modifyTop f)) := by
  refine .modify (fun g w => ?_) (fun w hw => ?_) (fun w c hw => ?_) fun w => ?_ <;> obtain ⟨s, v, o⟩ := w
  · cases o <;> rfl
  · cases o <;> exact hw
  · cases o <;> exact hw
  · cases o <;> rfl

theorem finalizeAttributes_plays : Plays X.on Writer.finalizeAttributes (finalizeAttributes D) := by
  refine .get (fun _ _ => rfl) fun w => ?_
  obtain ⟨s, v, o⟩ := w
  cases o with
  | nil => exact .pure _
  | cons n r => exact .ite (.pure _) (at_plays.bind fun _ => (Plays.assert _ _).bind fun _ => modifyTop_plays _)

theorem newNode_plays (name : String) : Plays X.on (Writer.newNode name) (newNode D name) :=
  finalizeAttributes_plays.bind fun _ => (modifyTop_plays _).bind fun _ =>
    .ite (at_plays.bind fun _ => (writeNodeHeader_plays _).bind fun _ => (put_plays _).bind fun _ => at_plays.bind fun _ =>
      .modify (fun _ _ => rfl) (fun _ h => h) (fun _ _ h => h) fun _ => rfl) (.throw _)

theorem closeNode_plays : Plays X.on Writer.closeNode (closeNode D) := by
  rw [Writer.closeNode_eq]
  refine finalizeAttributes_plays.bind fun _ => .get (fun _ _ => rfl) fun w => ?_
  obtain ⟨s, v, o⟩ := w
  cases o with
  | nil => exact .throw _
  | cons n r =>
    refine Plays.bind (.modify (fun _ _ => rfl) (fun _ h => h) (fun _ _ h => h) fun _ => rfl) fun _ => ?_
    rw [Pieces.closeRest_eq]
    exact Plays.bind (.ite (writeNodeHeader_plays _) (.pure _)) fun _ => at_plays.bind fun _ => (to_plays _).bind fun _ =>
      (Plays.assert _ _).bind fun _ => (writeNodeHeader_plays _).bind fun _ => to_plays _

theorem updateNodeHeader_plays : Plays X.on Writer.updateNodeHeader updateNodeHeader := by
  refine .get (fun _ _ => rfl) fun w => ?_
  obtain ⟨s, v, o⟩ := w
  cases o with
  | nil => exact .panic _
  | cons n r => exact .ite (modifyTop_plays _) (.throw _)

theorem appendSingle_plays (t : AttrType) (bs : Bytes) :
    Plays X.on (Writer.appendSingle t bs) (appendSingle D t bs) :=
  updateNodeHeader_plays.bind fun _ => (put_plays _).bind fun _ => put_plays _

theorem writeArrHeader_plays (h : ArrHeader) : Plays X.on (Writer.writeArrHeader h) (writeArrHeader D h) :=
  (put_plays _).bind fun _ => (put_plays _).bind fun _ => put_plays _

theorem initializeArray_plays (t : AttrType) (enc : ArrEnc) :
    Plays X.on (Writer.initializeArray t enc) (initializeArray D t enc) :=
  updateNodeHeader_plays.bind fun _ => (put_plays _).bind fun _ => at_plays.bind fun _ => (writeArrHeader_plays _).bind fun _ => .pure _

theorem finalizeArray_plays (p : Nat) (h : ArrHeader) :
    Plays X.on (Writer.finalizeArray p h) (finalizeArray D p h) :=
  at_plays.bind fun _ => (to_plays _).bind fun _ => (writeArrHeader_plays _).bind fun _ => to_plays _

theorem writeElements_plays : ∀ (es : List (Except WErr Bytes)) (c : Nat),
    Plays X.on (Writer.writeElements es c) (writeElements D es c)
  | [], _ => .ite (.pure _) (.throw _)
  | .error _ :: _, _ => .throw _
  | .ok _ :: es, c => (put_plays _).bind fun _ => writeElements_plays es (c + 1)

theorem ofExcept_plays {α : Type} (r : Except WErr α) : Plays X.on (M.ofExcept r : M WErr Writer α) (M.ofExcept r) := by
  cases r with
  | error e => exact .throw e
  | ok a => exact .pure a

theorem writeElementsZlib_plays (Z : Zlib) (es : List (Except WErr Bytes)) :
    Plays X.on (Writer.writeElementsZlib Z es) (writeElementsZlib D Z es) :=
  (put_plays _).bind fun _ => (put_plays _).bind fun _ => (ofExcept_plays _).bind fun _ =>
    ((put_plays _).mapErr _).bind fun _ => .pure _

theorem appendArray_plays (Z : Zlib) (t : AttrType) (enc : Option ArrEnc) (es : List (Except WErr Bytes)) :
    Plays X.on (Writer.appendArray Z t enc es) (appendArray D Z t enc es) := by
  refine (initializeArray_plays _ _).bind fun _ => at_plays.bind fun _ => Plays.bind ?_ fun _ => at_plays.bind fun _ =>
    .ite (finalizeArray_plays _ _) (.throw _)
  cases enc.getD .direct with
  | direct => exact writeElements_plays _ _
  | zlib => exact writeElementsZlib_plays _ _

theorem initializeSpecial_plays (t : AttrType) : Plays X.on (Writer.initializeSpecial t) (initializeSpecial D t) :=
  updateNodeHeader_plays.bind fun _ => (put_plays _).bind fun _ => at_plays.bind fun _ => (put_plays _).bind fun _ => .pure _

theorem finalizeSpecial_plays (p n : Nat) : Plays X.on (Writer.finalizeSpecial p n) (finalizeSpecial D p n) :=
  .ite (at_plays.bind fun _ => (to_plays _).bind fun _ => (put_plays _).bind fun _ => to_plays _) (.throw _)

theorem appendDirect_plays (t : AttrType) (bs : Bytes) :
    Plays X.on (Writer.appendDirect t bs) (appendDirect D t bs) :=
  (initializeSpecial_plays t).bind fun _ => (put_plays _).bind fun _ => finalizeSpecial_plays _ _

theorem copyChunks_plays (e : Option IoErr) : ∀ (cs : List Bytes) (n : Nat),
    Plays X.on (Writer.copyChunks e cs n) (copyChunks D e cs n)
  | [], n => by cases e with
    | none => exact .pure _
    | some e => exact .throw _
  | _ :: cs, _ => (put_plays _).bind fun _ => copyChunks_plays e cs _

theorem putEach_plays : ∀ (xs : List (Except WErr Byte)) (n : Nat),
    Plays X.on (Writer.putEach xs n) (putEach D xs n)
  | [], _ => .pure _
  | .error _ :: _, _ => .throw _
  | .ok _ :: xs, n => (put_plays _).bind fun _ => putEach_plays xs (n + 1)

theorem putChars_plays : ∀ (xs : List (Except WErr Char)) (buf : Bytes) (n : Nat),
    Plays X.on (Writer.putChars xs buf n) (putChars D xs buf n)
  | [], _, _ => .pure _
  | .error _ :: _, _, _ => .throw _
  | .ok _ :: xs, _, _ => (put_plays _).bind fun _ => putChars_plays xs _ _

theorem append_plays (Z : Zlib) (a : Writer.Append) : Plays X.on (Writer.append Z a) (append D Z a) := by
  cases a with
  | bool | i16 | i32 | i64 | f32 | f64 => exact appendSingle_plays _ _
  | arrBool | arrI32 | arrI64 | arrF32 | arrF64 => exact appendArray_plays _ _ _ _
  | binary | string => exact appendDirect_plays _ _
  | binaryReader => exact (initializeSpecial_plays _).bind fun _ => (copyChunks_plays _ _ _).bind fun _ => finalizeSpecial_plays _ _
  | binaryIter => exact (initializeSpecial_plays _).bind fun _ => (putEach_plays _ _).bind fun _ => finalizeSpecial_plays _ _
  | stringIter => exact (initializeSpecial_plays _).bind fun _ => (putChars_plays _ _ _).bind fun _ => finalizeSpecial_plays _ _

theorem paddingLen_plays (p : Writer.PadLen) : Plays X.on (Writer.paddingLen p) (paddingLen D p) := by
  cases p with
  | default => exact at_plays.bind fun _ => .pure _
  | forced n => exact .pure _

theorem finalize_plays (f : Writer.FooterSpec) : Plays X.on (Writer.finalize f) (finalize D f) :=
  .get (fun _ _ => rfl) fun _ => .ite (.throw _)
    ((writeNodeHeader_plays _).bind fun _ => (put_plays _).bind fun _ => (paddingLen_plays _).bind fun _ => (put_plays _).bind fun _ =>
      (put_plays _).bind fun _ => (writeFbxVersion_plays).bind fun _ => (put_plays _).bind fun _ => put_plays _)

theorem finalizeAndFlush_plays (f : Writer.FooterSpec) :
    Plays X.on (Writer.finalizeAndFlush f) (finalizeAndFlush D f) :=
  (finalize_plays f).bind fun _ => io_plays flush_plays

theorem appendAll_plays (Z : Zlib) : ∀ vs : List AttrValue, Plays X.on (Writer.appendAll Z vs) (appendAll D Z vs)
  | [] => .pure _
  | _ :: vs => (append_plays Z _).bind fun _ => appendAll_plays Z vs

theorem writeTreeLoop_plays (Z : Zlib) (t : Tree) : ∀ (n : Nat) (opening : Bool) (id : Nat),
    Plays X.on (Writer.writeTreeLoop Z t n opening id) (writeTreeLoop D Z t n opening id) := by
  intro n
  induction n with
  | zero => intro _ _; exact .panic _
  | succ n ih =>
    intro opening id
    cases opening with
    | true =>
      unfold Writer.writeTreeLoop writeTreeLoop
      cases t.name? id with
      | none => exact .panic _
      | some name =>
        refine (newNode_plays _).bind fun _ => (appendAll_plays Z _).bind fun _ => ?_
        cases (t.nodes id).first with
        | none => exact ih _ _
        | some c => exact ih _ _
    | false =>
      unfold Writer.writeTreeLoop writeTreeLoop
      refine (closeNode_plays).bind fun _ => ?_
      cases (t.nodes id).next with
      | some c => exact ih _ _
      | none =>
        cases (t.nodes id).parent with
        | none => exact .panic _
        | some p => exact .ite (.pure _) (ih _ _)

theorem writeTree_plays (Z : Zlib) (t : Tree) : Plays X.on (Writer.writeTree Z t) (writeTree D Z t) := by
  unfold Writer.writeTree writeTree
  cases (t.nodes t.root).first with
  | none => exact .pure _
  | some c => exact writeTreeLoop_plays Z t _ _ _

theorem exec_plays (Z : Zlib) (o : Writer.Op) : Plays X.on (Writer.exec Z o) (exec D Z o) := by
  cases o with
  | newNode => exact newNode_plays _
  | closeNode => exact closeNode_plays
  | append => exact append_plays Z _

theorem run_plays (Z : Zlib) : ∀ os : List Writer.Op, Plays X.on (Writer.run Z os) (run D Z os)
  | [] => .pure _
  | _ :: os => (exec_plays Z _).bind fun _ => run_plays Z os


/-! ## Sessions -/

theorem prep_told {P : Fault → Prop} {l : List (Option Fault)} (h : ∀ o ∈ l, ∀ f, o = some f → P f) : ∀ i f, prep l (fun _ => none) i = some f → P f := by
  induction l with
  | nil => intro i f h; cases h
  | cons o l ih =>
    intro i f hf
    cases i with
    | zero => exact h o (by simp) f hf
    | succ i => exact ih (fun o ho => h o (by simp [ho])) i f hf

theorem withNew_plays (v : FbxVersion) {m : M WErr Writer Unit} {q : M WErr (WriterOn δ) Unit} (h : Plays X.on m q)
    (d : δ) (hd : X.I d) : (∃ fault, (∀ i f, fault i = some f → X.P f) ∧ X.I (withNew D d v q).2 ∧
      ∃ rest, Writer.afterNew ⟨X.content d, X.cursor d, fault⟩ v m =
        ((withNew D d v q).1, ⟨X.content (withNew D d v q).2, X.cursor (withNew D d v q).2, rest⟩)) ∧
      ∀ c, X.T (withNew D d v q).2 c → (∃ fault, (∀ i f, fault i = some f → X.K f) ∧
        (Writer.afterNew ⟨X.content d, X.cursor d, fault⟩ v m).2.buf = c) ∨ (X.T d c ∧ c ≠ X.content d) := by
  suffices H : (∃ fault, (∀ i f, fault i = some f → X.P f) ∧ X.I (withNew D d v q).2 ∧
      ∃ rest, Writer.afterNew ⟨X.content d, X.cursor d, fault⟩ v m =
        ((withNew D d v q).1, ⟨X.content (withNew D d v q).2, X.cursor (withNew D d v q).2, rest⟩)) ∧
      ∀ c, X.T (withNew D d v q).2 c → c = X.content (withNew D d v q).2 ∨ (∃ fault, (∀ i f, fault i = some f → X.K f) ∧
        (Writer.afterNew ⟨X.content d, X.cursor d, fault⟩ v m).2.buf = c) ∨ (X.T d c ∧ c ≠ X.content d) by
    refine ⟨H.1, fun c hc => ?_⟩
    rcases H.2 c hc with h1 | h1 | h1
    · obtain ⟨fault, h2, -, rest, h3⟩ := H.1
      exact .inl ⟨fault, fun i f hf => X.le f (h2 i f hf), by rw [h3, h1]⟩
    · exact .inl h1
    · exact .inr h1
  by_cases hv : v.major ≠ 7
  · refine ⟨⟨fun _ => none, (fun _ _ h => by cases h), ?_, fun _ => none, ?_⟩, ?_⟩ <;> simp only [withNew, Writer.afterNew, Writer.new, if_pos hv]
    · exact hd
    · intro c hc
      by_cases hcc : c = X.content d
      · exact .inl hcc
      · exact .inr (.inr ⟨hc, hcc⟩)
  · obtain ⟨⟨l, h1, h2, h3⟩, hT⟩ := start_plays (D := D) (X := X) v d hd
    rcases hx : start D v d with ⟨x, d'⟩
    simp only [hx] at h1 h2 hT
    have hnew : ∀ rest, Writer.new ⟨X.content d, X.cursor d, prep l rest⟩ v = match x with
        | .ok () => (.ok ⟨⟨X.content d', X.cursor d', rest⟩, v, []⟩, ⟨X.content d', X.cursor d', rest⟩)
        | .err e => (.err e, ⟨X.content d', X.cursor d', rest⟩)
        | .panic p => (.panic p, ⟨X.content d', X.cursor d', rest⟩) := by
      intro rest
      have h1 := h1 rest
      simp only [Scene.at] at h1
      simp only [Writer.new, if_neg hv, h1]
      cases x <;> rfl
    have hcrash : ∀ c, Crashes X.at (M.mapErr WErr.io (do
          Sink.seek 0
          Sink.writeAll magic
          Sink.writeAll (leBytes 4 v.toNat))) d c → ∃ fault, (∀ i f, fault i = some f → X.K f) ∧
        (Writer.afterNew ⟨X.content d, X.cursor d, fault⟩ v m).2.buf = c := by
      rintro c ⟨l', h4, h5⟩
      obtain ⟨e, s, h6, h7⟩ := h5 fun _ => none
      simp only [Scene.at] at h6
      refine ⟨prep l' fun _ => none, prep_told h4, ?_⟩
      simp only [Writer.afterNew, Writer.new, if_neg hv, h6]
      exact h7
    cases x with
    | err e =>
      refine ⟨⟨prep l fun _ => none, prep_told h3, ?_, fun _ => none, ?_⟩, ?_⟩
      · simp only [withNew, if_neg hv, hx]; exact h2
      · simp only [Writer.afterNew, hnew, withNew, if_neg hv, hx]
      · simp only [withNew, if_neg hv, hx]
        exact fun c hc => (hT c hc).imp id (Or.imp (hcrash c) id)
    | panic e =>
      refine ⟨⟨prep l fun _ => none, prep_told h3, ?_, fun _ => none, ?_⟩, ?_⟩
      · simp only [withNew, if_neg hv, hx]; exact h2
      · simp only [Writer.afterNew, hnew, withNew, if_neg hv, hx]
      · simp only [withNew, if_neg hv, hx]
        exact fun c hc => (hT c hc).imp id (Or.imp (hcrash c) id)
    | ok u =>
      obtain ⟨⟨l', h4, h5, h6⟩, hT'⟩ := h ⟨d', v, []⟩ h2
      have h4 : m ⟨⟨X.content d', X.cursor d', prep l' fun _ => none⟩, v, []⟩ = _ := h4 _
      refine ⟨⟨prep (l ++ l') fun _ => none, prep_told fun o ho => ?_, ?_, fun _ => none, ?_⟩, ?_⟩
      · rcases List.mem_append.mp ho with ho | ho
        · exact h3 o ho
        · exact h6 o ho
      · simp only [withNew, if_neg hv, hx]; exact h5
      · simp only [Writer.afterNew, prep_append, hnew, h4, withNew, if_neg hv, hx]; rfl
      · simp only [withNew, if_neg hv, hx]
        intro c hc
        rcases hT' c hc with h7 | ⟨l2, h7, h8⟩ | ⟨h7, h8⟩
        · exact .inl h7
        · obtain ⟨e, s, h9, h10⟩ := h8 fun _ => none
          have h9 : m ⟨⟨X.content d', X.cursor d', prep l2 fun _ => none⟩, v, []⟩ = _ := h9
          refine .inr (.inl ⟨prep (l ++ l2) fun _ => none, prep_told fun o ho f hf => ?_, ?_⟩)
          · rcases List.mem_append.mp ho with ho | ho
            · exact X.le f (h3 o ho f hf)
            · exact h7 o ho f hf
          · simp only [Writer.afterNew, prep_append, hnew, h9]
            exact h10
        · rcases hT c h7 with h9 | h9 | h9
          · exact absurd h9 h8
          · exact .inr (.inl (hcrash c h9))
          · exact .inr (.inr h9)

theorem attempts_plays (Z : Zlib) : ∀ (os : List Writer.Op) (w : WriterOn δ), X.on.I w → ∃ l,
    (∀ rest, attempts Z os (X.on.look (prep l rest) w) = ((attemptsAt D Z os w).1, X.on.look rest (attemptsAt D Z os w).2)) ∧
    X.on.I (attemptsAt D Z os w).2 ∧ ∀ o ∈ l, ∀ f, o = some f → X.P f := by
  intro os
  induction os with
  | nil => intro w hw; exact ⟨[], fun _ => rfl, hw, fun o ho => by cases ho⟩
  | cons o os ih =>
    intro w hw
    obtain ⟨⟨l, h1, h2, h3⟩, -⟩ := exec_plays (D := D) (X := X) Z o w hw
    rcases hx : exec D Z o w with ⟨x, w1⟩
    simp only [hx] at h1 h2
    obtain ⟨l', h4, h5, h6⟩ := ih w1 h2
    have hall : ∀ o ∈ l ++ l', ∀ f, o = some f → X.P f := fun o ho => by
      rcases List.mem_append.mp ho with ho | ho
      · exact h3 o ho
      · exact h6 o ho
    cases x with
    | panic p =>
      refine ⟨l, fun rest => ?_, ?_, h3⟩
      · simp only [attempts, h1, attemptsAt, hx]
      · simp only [attemptsAt, hx]; exact h2
    | ok u =>
      refine ⟨l ++ l', fun rest => ?_, ?_, hall⟩
      · simp only [attempts, prep_append, h1, attemptsAt, hx, h4]
      · simp only [attemptsAt, hx]; exact h5
    | err e =>
      refine ⟨l ++ l', fun rest => ?_, ?_, hall⟩
      · simp only [attempts, prep_append, h1, attemptsAt, hx, h4]
      · simp only [attemptsAt, hx]; exact h5

end
end AnyDest

/-! ## `BufWriter` -/

namespace BufOut

/-- The device of a `BufWriter` that was created over a device with the failure schedule `fault`: a number of operations have been made, and the
bytes held back fit. -/
def Kept (fault : Nat → Option Fault) (b : BufOut) : Prop :=
  (∃ n, b.inner.fault = fun i => fault (i + n)) ∧ (b.held ≠ [] → b.inner.pos + b.held.length < 2 ^ 64)

/-- The failures of a schedule. -/
def Told (fault : Nat → Option Fault) (f : Fault) : Prop := ∃ i g, fault i = some g ∧ (f = g ∨ f = ⟨0, g.error⟩)

/-- The content of the device when `k` of the bytes held back have been written. -/
def torn (b : BufOut) (k : Nat) : Bytes := if b.held.take k = [] then b.inner.buf else Sink.store b.inner.buf b.inner.pos (b.held.take k)

/-- What may be on the device: if writes that fail store nothing (`A`), what has been passed on; otherwise some of the bytes held back may be
there too. -/
def Tears (A : Prop) (b : BufOut) (c : Bytes) : Prop := ∃ k, (A → k = 0) ∧ c = b.torn k

variable {fault : Nat → Option Fault} {A : Prop}

theorem torn_nil {b : BufOut} (h : b.held = []) (k : Nat) : b.torn k = b.content := by
  simp only [torn, content, h, List.take_nil, if_true]

theorem tears_nil {b : BufOut} (h : b.held = []) {c : Bytes} (hc : Tears A b c) : c = b.content := by
  obtain ⟨k, -, rfl⟩ := hc
  exact torn_nil h k

theorem torn_append (b : BufOut) (bs : Bytes) (k : Nat) : torn { b with held := b.held ++ bs } k =
    if k ≤ b.held.length then b.torn k
    else if bs.take (k - b.held.length) = [] then b.content else Sink.store b.content b.cursor (bs.take (k - b.held.length)) := by
  obtain ⟨s, cap, held⟩ := b
  simp only [torn, content, cursor]
  by_cases h : k ≤ held.length
  · rw [if_pos h, List.take_append_of_le_length h]
  · rw [if_neg h]
    rw [List.take_append, List.take_of_length_le (by omega)]
    generalize bs.take (k - held.length) = x
    by_cases hh : held = []
    · subst hh; simp only [List.nil_append, if_true, List.length_nil, Nat.add_zero]
    · have h2 : ¬ (held ++ x = []) := by simp [hh]
      rw [if_neg h2, if_neg hh]
      split
      · next h3 => rw [h3, List.append_nil]
      · rw [Writer.store_store]

theorem told_zero {f : Fault} (h : Told fault f) : Told fault ⟨0, f.error⟩ := by
  obtain ⟨i, g, h1, h2⟩ := h
  refine ⟨i, g, h1, .inr ?_⟩
  rcases h2 with rfl | rfl <;> rfl

theorem later_of {s : Sink} (h : ∃ n, s.fault = fun i => fault (i + n)) : ∃ n, s.later = fun i => fault (i + n) := by
  obtain ⟨n, h⟩ := h
  refine ⟨n + 1, ?_⟩
  funext i
  simp only [Sink.later, h]
  congr 1
  omega

theorem told_of {s : Sink} (h : ∃ n, s.fault = fun i => fault (i + n)) {f : Fault} (h' : s.fault 0 = some f) : Told fault f := by
  obtain ⟨n, h⟩ := h
  rw [h] at h'
  exact ⟨_, f, h', .inl rfl⟩

theorem flushBuf_spec (b : BufOut) (hb : Kept fault b) (hA : A → ∀ i f, fault i = some f → f.stored = 0) : ∃ r b', flushBuf b = (r, b') ∧ Kept fault b' ∧ b'.content = b.content ∧
    b'.cursor = b.cursor ∧ b'.cap = b.cap ∧ ((r = .ok () ∧ b'.held = []) ∨ ∃ e, r = .err e ∧ Told fault ⟨0, e⟩ ∧ ∀ c, Tears A b' c → Tears A b c) := by
  obtain ⟨s, cap, held⟩ := b
  obtain ⟨hf, hfit⟩ := hb
  simp only at hf hfit
  by_cases hh : held = []
  · subst hh
    exact ⟨_, _, rfl, ⟨hf, fun h => absurd rfl h⟩, rfl, rfl, rfl, .inl ⟨rfl, rfl⟩⟩
  · have hfit := hfit hh
    cases h0 : s.fault 0 with
    | none =>
      have hw : Sink.writeAll held s = (.ok (), ⟨Sink.store s.buf s.pos held, s.pos + held.length, s.later⟩) := by
        simp only [Sink.writeAll, if_neg hh, h0]
        rw [if_pos hfit]
      refine ⟨.ok (), ⟨⟨Sink.store s.buf s.pos held, s.pos + held.length, s.later⟩, cap, []⟩, by simp only [flushBuf, hw], ⟨later_of hf, fun h => absurd rfl h⟩, ?_, ?_, rfl, .inl ⟨rfl, rfl⟩⟩
      · simp only [content, if_neg hh, if_true]
      · simp only [cursor, List.length_nil, Nat.add_zero]
    | some f =>
      have hw : Sink.writeAll held s = (.err f.error, ⟨if held.take f.stored = [] then s.buf else Sink.store s.buf s.pos (held.take f.stored),
          s.pos + (held.take f.stored).length, s.later⟩) := by
        simp only [Sink.writeAll, if_neg hh, h0]
      have hfl : flushBuf ⟨s, cap, held⟩ = (.err f.error, ⟨⟨if held.take f.stored = [] then s.buf else Sink.store s.buf s.pos (held.take f.stored),
          s.pos + (held.take f.stored).length, s.later⟩, cap, held.drop f.stored⟩) := by
        simp only [flushBuf, hw, Nat.add_sub_cancel_left, List.length_take]
        congr 2
        rcases Nat.le_total f.stored held.length with h | h
        · rw [Nat.min_eq_left h]
        · rw [Nat.min_eq_right h, List.drop_of_length_le (Nat.le_refl _), List.drop_of_length_le h]
      have hlen : (held.take f.stored).length + (held.drop f.stored).length = held.length := by
        rw [← List.length_append, List.take_append_drop]
      refine ⟨_, _, hfl, ⟨later_of hf, fun _ => ?_⟩, ?_, ?_, rfl, .inr ⟨_, rfl, told_zero (told_of hf h0), ?_⟩⟩
      · show s.pos + (held.take f.stored).length + (held.drop f.stored).length < _
        omega
      · simp only [content, if_neg hh]
        by_cases h1 : held.take f.stored = []
        · have h2 : held.drop f.stored = held := by
            have := List.take_append_drop f.stored held
            rw [h1] at this
            exact this
          rw [if_pos h1, h2, if_neg hh, h1]
          rfl
        · rw [if_neg h1]
          by_cases h2 : held.drop f.stored = []
          · have h3 : held.take f.stored = held := by
              have := List.take_append_drop f.stored held
              rw [h2, List.append_nil] at this
              exact this
            rw [if_pos h2, h3]
          · rw [if_neg h2, Writer.store_store, List.take_append_drop]
      · simp only [cursor]; omega
      · rintro c ⟨k, hk, rfl⟩
        refine ⟨(held.take f.stored).length + k, fun a => ?_, ?_⟩
        · obtain ⟨n, hn⟩ := hf
          rw [hn] at h0
          rw [hk a, hA a _ _ h0]
          rfl
        · simp only [torn]
          have h2 : held.take ((held.take f.stored).length + k) = held.take f.stored ++ (held.drop f.stored).take k := by
            conv => lhs; rw [← List.take_append_drop f.stored held]
            rw [List.take_append, List.take_append_drop, Nat.add_sub_cancel_left, List.take_of_length_le (by omega)]
          rw [h2]
          generalize (held.drop f.stored).take k = x
          generalize held.take f.stored = y
          by_cases hy : y = []
          · subst hy; simp only [List.nil_append, if_true, List.length_nil, Nat.add_zero]
          · have h3 : ¬ (y ++ x = []) := by simp [hy]
            rw [if_neg h3, if_neg hy]
            split
            · next h4 => rw [h4, List.append_nil]
            · rw [Writer.store_store]

theorem pass_spec (b : BufOut) (bs : Bytes) (hb : Kept fault b) (hbs : bs ≠ []) (hc : b.cap ≤ bs.length → b.held = [])
    (hfit : b.cursor + bs.length < 2 ^ 64) : ∃ r d', pass bs b = (r, d') ∧ Kept fault d' ∧
    ((r = .ok () ∧ b.cursor + bs.length < 2 ^ 64 ∧ d'.content = Sink.store b.content b.cursor bs ∧ d'.cursor = b.cursor + bs.length) ∨
     (∃ f, r = .err f.error ∧ Told fault f ∧ d'.cursor = b.cursor + (bs.take f.stored).length ∧
        d'.content = if bs.take f.stored = [] then b.content else Sink.store b.content b.cursor (bs.take f.stored)) ∨
     (r = .err (.other 1) ∧ 2 ^ 64 ≤ b.cursor + bs.length ∧ d'.content = b.content ∧ d'.cursor = b.cursor)) ∧
    ∀ c, Tears A d' c → c = d'.content ∨
      (∃ f : Fault, (A → f.stored = 0) ∧ c = if bs.take f.stored = [] then b.content else Sink.store b.content b.cursor (bs.take f.stored)) ∨
      (Tears A b c ∧ c ≠ b.content) := by
  obtain ⟨s, cap, held⟩ := b
  obtain ⟨hf, hfits⟩ := hb
  simp only at hf hfits hc
  by_cases h : cap ≤ bs.length
  · have hh := hc h
    subst hh
    simp only [cursor, List.length_nil, Nat.add_zero] at hfit
    cases h0 : s.fault 0 with
    | none =>
      have hw : Sink.writeAll bs s = (.ok (), ⟨Sink.store s.buf s.pos bs, s.pos + bs.length, s.later⟩) := by
        simp only [Sink.writeAll, if_neg hbs, h0]
        rw [if_pos hfit]
      refine ⟨_, _, by simp only [pass, if_pos h, hw]; rfl, ⟨later_of hf, fun h => absurd rfl h⟩, .inl ⟨rfl, hfit, rfl, ?_⟩,
        fun c hc => .inl (tears_nil rfl hc)⟩
      simp only [cursor, List.length_nil, Nat.add_zero]
    | some f =>
      have hw : Sink.writeAll bs s = (.err f.error, ⟨if bs.take f.stored = [] then s.buf else Sink.store s.buf s.pos (bs.take f.stored),
          s.pos + (bs.take f.stored).length, s.later⟩) := by
        simp only [Sink.writeAll, if_neg hbs, h0]
      refine ⟨_, _, by simp only [pass, if_pos h, hw]; rfl, ⟨later_of hf, fun h => absurd rfl h⟩,
        .inr (.inl ⟨f, rfl, told_of hf h0, rfl, ?_⟩), fun c hc => .inl (tears_nil rfl hc)⟩
      simp only [content, cursor, if_true, List.length_nil, Nat.add_zero]
  · simp only [cursor] at hfit
    refine ⟨_, _, by simp only [pass, if_neg h]; rfl, ⟨hf, fun _ => ?_⟩, .inl ⟨rfl, hfit, ?_, ?_⟩, ?_⟩
    · show s.pos + (held ++ bs).length < _
      rw [List.length_append]; omega
    · have hne : held ++ bs ≠ [] := by simp [hbs]
      simp only [content, cursor, if_neg hne]
      by_cases hh : held = []
      · subst hh; simp only [if_true, List.nil_append, List.length_nil, Nat.add_zero]
      · rw [if_neg hh, Writer.store_store]
    · simp only [cursor, List.length_append]; omega
    · rintro c ⟨k, hk, rfl⟩
      have h1 := torn_append ⟨s, cap, held⟩ bs k
      simp only at h1
      rw [h1]
      split
      · by_cases h2 : torn ⟨s, cap, held⟩ k = content ⟨s, cap, held⟩
        · exact .inr (.inl ⟨⟨0, .other 0⟩, fun _ => rfl, by rw [h2]; rfl⟩)
        · exact .inr (.inr ⟨⟨k, hk, rfl⟩, h2⟩)
      · exact .inr (.inl ⟨⟨k - held.length, .other 0⟩, fun a => by show k - held.length = 0; rw [hk a]; exact Nat.zero_sub _, rfl⟩)

theorem pass_sound (b : BufOut) (bs : Bytes) (hb : Kept fault b) (hbs : bs ≠ []) (hc : b.cap ≤ bs.length → b.held = [])
    (hfit : b.cursor + bs.length < 2 ^ 64) : ∃ r d', pass bs b = (r, d') ∧ Kept fault d' ∧
    ((r = .ok () ∧ b.cursor + bs.length < 2 ^ 64 ∧ d'.content = Sink.store b.content b.cursor bs ∧ d'.cursor = b.cursor + bs.length) ∨
     (∃ f, r = .err f.error ∧ Told fault f ∧ d'.cursor = b.cursor + (bs.take f.stored).length ∧
        d'.content = if bs.take f.stored = [] then b.content else Sink.store b.content b.cursor (bs.take f.stored)) ∨
     (r = .err (.other 1) ∧ 2 ^ 64 ≤ b.cursor + bs.length ∧ d'.content = b.content ∧ d'.cursor = b.cursor)) := by
  obtain ⟨r, d', h1, h2, h3, -⟩ := pass_spec (A := False) b bs hb hbs hc hfit
  exact ⟨r, d', h1, h2, h3⟩

theorem sound (fault : Nat → Option Fault) : Sound dest (Kept fault) (Told fault) content cursor where
  empty d := rfl
  writeAll d bs hd hbs := by
    show ∃ r d', writeAll bs d = (r, d') ∧ _
    unfold writeAll
    rw [if_neg hbs]
    by_cases h1 : 2 ^ 64 ≤ d.inner.pos + d.held.length + bs.length
    · rw [if_pos h1]
      exact ⟨_, _, rfl, hd, .inr (.inr ⟨rfl, h1, rfl, rfl⟩)⟩
    · rw [if_neg h1]
      have hfit : d.cursor + bs.length < 2 ^ 64 := Nat.not_le.mp h1
      by_cases h2 : bs.length < d.cap - d.held.length
      · rw [if_pos h2]
        have := pass_sound d bs hd hbs (fun h => absurd h (by omega)) hfit
        rw [show pass bs d = (.ok (), { d with held := d.held ++ bs }) from if_neg (by omega)] at this
        exact this
      · rw [if_neg h2]
        by_cases h3 : d.cap - d.held.length < bs.length
        · rw [if_pos h3]
          obtain ⟨r, b', k1, k2, k3, k4, k5, k6⟩ := flushBuf_spec (A := False) d hd (fun h => h.elim)
          rcases k6 with ⟨rfl, k6⟩ | ⟨e, rfl, k6, -⟩
          · have := pass_sound b' bs k2 hbs (fun _ => k6) (by rw [k4]; exact hfit)
            rw [k1, ← k3, ← k4]
            exact this
          · rw [k1]
            exact ⟨_, _, rfl, k2, .inr (.inl ⟨⟨0, e⟩, rfl, k6, k4, k3⟩)⟩
        · rw [if_neg h3]
          refine pass_sound d bs hd hbs (fun h => ?_) hfit
          have hne : 0 < bs.length := List.length_pos_iff.mpr hbs
          exact List.length_eq_zero_iff.mp (by omega)
  seek d p hd := by
    show ∃ r d', seek p d = (r, d') ∧ _
    obtain ⟨r, b', k1, k2, k3, k4, k5, k6⟩ := flushBuf_spec (A := False) d hd (fun h => h.elim)
    unfold seek
    rw [k1]
    rcases k6 with ⟨rfl, k6⟩ | ⟨e, rfl, k6, -⟩
    · obtain ⟨s, cap, held⟩ := b'
      simp only at k6
      subst k6
      cases h0 : s.fault 0 with
      | none =>
        refine ⟨.ok (), ⟨⟨s.buf, p, s.later⟩, cap, []⟩, by simp only [Sink.seek, h0], ⟨later_of k2.1, fun h => absurd rfl h⟩, k3, .inl ⟨rfl, rfl⟩⟩
      | some f =>
        refine ⟨.err f.error, ⟨⟨s.buf, s.pos, s.later⟩, cap, []⟩, by simp only [Sink.seek, h0], ⟨later_of k2.1, fun h => absurd rfl h⟩, k3, .inr ⟨_, rfl, told_zero (told_of k2.1 h0), k4⟩⟩
    · exact ⟨_, _, rfl, k2, k3, .inr ⟨_, rfl, k6, k4⟩⟩
  tell d hd := by
    show ∃ r d', tell d = (r, d') ∧ _
    obtain ⟨r, b', k1, k2, k3, k4, k5, k6⟩ := flushBuf_spec (A := False) d hd (fun h => h.elim)
    unfold tell
    rw [k1]
    rcases k6 with ⟨rfl, k6⟩ | ⟨e, rfl, k6, -⟩
    · obtain ⟨s, cap, held⟩ := b'
      simp only at k6
      subst k6
      cases h0 : s.fault 0 with
      | none =>
        refine ⟨.ok s.pos, ⟨⟨s.buf, s.pos, s.later⟩, cap, []⟩, by simp only [Sink.tell, h0], ⟨later_of k2.1, fun h => absurd rfl h⟩, k3, k4, .inl ?_⟩
        rw [← k4]; rfl
      | some f =>
        refine ⟨.err f.error, ⟨⟨s.buf, s.pos, s.later⟩, cap, []⟩, by simp only [Sink.tell, h0], ⟨later_of k2.1, fun h => absurd rfl h⟩, k3, k4, .inr ⟨_, rfl, told_zero (told_of k2.1 h0)⟩⟩
    · exact ⟨_, _, rfl, k2, k3, k4, .inr ⟨_, rfl, k6⟩⟩
  flush d hd := by
    show ∃ r d', flush d = (r, d') ∧ _
    obtain ⟨r, b', k1, k2, k3, k4, k5, k6⟩ := flushBuf_spec (A := False) d hd (fun h => h.elim)
    unfold flush
    rw [k1]
    rcases k6 with ⟨rfl, k6⟩ | ⟨e, rfl, k6, -⟩
    · obtain ⟨s, cap, held⟩ := b'
      simp only at k6
      subst k6
      cases h0 : s.fault 0 with
      | none =>
        exact ⟨.ok (), ⟨⟨s.buf, s.pos, s.later⟩, cap, []⟩, by simp only [Sink.flush, h0], ⟨later_of k2.1, fun h => absurd rfl h⟩, k3, k4, .inl rfl⟩
      | some f =>
        exact ⟨.err f.error, ⟨⟨s.buf, s.pos, s.later⟩, cap, []⟩, by simp only [Sink.flush, h0], ⟨later_of k2.1, fun h => absurd rfl h⟩, k3, k4, .inr ⟨_, rfl, told_zero (told_of k2.1 h0)⟩⟩
    · exact ⟨_, _, rfl, k2, k3, k4, .inr ⟨_, rfl, k6⟩⟩

/-- A `BufWriter` over a device with the failure schedule `fault`. -/
def scene (A : Prop) (fault : Nat → Option Fault) (hA : A → ∀ i f, fault i = some f → f.stored = 0) : Scene BufOut where
  I := Kept fault
  P := Told fault
  K f := A → f.stored = 0
  content := content
  cursor := cursor
  T := Tears A
  le f := by
    rintro ⟨i, g, h1, rfl | rfl⟩ a
    · exact hA a i _ h1
    · rfl

/-- An operation that flushes the buffer first. -/
theorem flushed_tears (hA : A → ∀ i f, fault i = some f → f.stored = 0) {b : BufOut} (hb : Kept fault b) {α : Type} {q : M IoErr BufOut α}
    (hq : ∀ b', flushBuf b = (.ok (), b') → b'.held = [] → (q b).2.held = []) (hq' : ∀ e b', flushBuf b = (.err e, b') → (q b).2 = b') :
    ∀ c, Tears A (q b).2 c → c = (q b).2.content ∨ (Tears A b c ∧ c ≠ b.content) := by
  intro c hc
  obtain ⟨r, b', k1, k2, k3, k4, k5, k6⟩ := flushBuf_spec b hb hA
  rcases k6 with ⟨rfl, k6⟩ | ⟨e, rfl, k6, k7⟩
  · exact .inl (tears_nil (hq b' k1 k6) hc)
  · rw [hq' e b' k1] at hc ⊢
    rw [k3]
    by_cases h : c = b.content
    · exact .inl h
    · exact .inr ⟨k7 c hc, h⟩

theorem scene_sound (A : Prop) (fault : Nat → Option Fault) (hA : A → ∀ i f, fault i = some f → f.stored = 0) : SoundDest dest (scene A fault hA) where
  sound := sound fault
  writeAll d bs hd hbs c := by
    show Tears A (writeAll bs d).2 c → c = (writeAll bs d).2.content ∨ (∃ f : Fault, (A → f.stored = 0) ∧
      c = if bs.take f.stored = [] then d.content else Sink.store d.content d.cursor (bs.take f.stored)) ∨ (Tears A d c ∧ c ≠ d.content)
    have hd : Kept fault d := hd
    unfold writeAll
    rw [if_neg hbs]
    by_cases h1 : 2 ^ 64 ≤ d.inner.pos + d.held.length + bs.length
    · rw [if_pos h1]
      intro hc
      by_cases h : c = d.content
      · exact .inl h
      · exact .inr (.inr ⟨hc, h⟩)
    · rw [if_neg h1]
      have hfit : d.cursor + bs.length < 2 ^ 64 := Nat.not_le.mp h1
      by_cases h2 : bs.length < d.cap - d.held.length
      · rw [if_pos h2]
        obtain ⟨r, d', g1, g2, -, g4⟩ := pass_spec (A := A) d bs hd hbs (fun h => absurd h (by omega)) hfit
        rw [show pass bs d = (.ok (), { d with held := d.held ++ bs }) from if_neg (by omega)] at g1
        rw [g1]
        exact g4 c
      · rw [if_neg h2]
        by_cases h3 : d.cap - d.held.length < bs.length
        · rw [if_pos h3]
          obtain ⟨r, b', k1, k2, k3, k4, k5, k6⟩ := flushBuf_spec d hd hA
          rcases k6 with ⟨rfl, k6⟩ | ⟨e, rfl, k6, k7⟩
          · obtain ⟨r, d', g1, g2, -, g4⟩ := pass_spec (A := A) b' bs k2 hbs (fun _ => k6) (by rw [k4]; exact hfit)
            rw [k1, ← k3, ← k4]
            simp only
            rw [g1]
            intro hc
            rcases g4 c hc with g | g | ⟨g, g'⟩
            · exact .inl g
            · exact .inr (.inl g)
            · exact absurd (tears_nil k6 g) g'
          · rw [k1]
            intro hc
            rw [← k3]
            by_cases h : c = b'.content
            · exact .inl h
            · exact .inr (.inr ⟨k7 c hc, h⟩)
        · rw [if_neg h3]
          obtain ⟨r, d', g1, g2, -, g4⟩ := pass_spec (A := A) d bs hd hbs (fun h => by
            have hne : 0 < bs.length := List.length_pos_iff.mpr hbs
            exact List.length_eq_zero_iff.mp (by omega)) hfit
          rw [g1]
          exact g4 c
  seek d p hd := flushed_tears hA hd (q := seek p) (fun b' h1 h2 => by simp only [seek, h1, h2]) (fun e b' h1 => by simp only [seek, h1])
  tell d hd := flushed_tears hA hd (q := tell) (fun b' h1 h2 => by simp only [tell, h1, h2]) (fun e b' h1 => by simp only [tell, h1])
  flush d hd := flushed_tears hA hd (q := flush) (fun b' h1 h2 => by simp only [flush, h1, h2]) (fun e b' h1 => by simp only [flush, h1])

/-- A flush that succeeds leaves nothing in the buffer. -/
theorem flush_held {b b' : BufOut} (h : flush b = (.ok (), b')) : b'.held = [] := by
  unfold flush at h
  rcases hf : flushBuf b with ⟨_ | _ | _, c⟩
  · rw [hf] at h
    simp only [Prod.mk.injEq] at h
    obtain ⟨-, rfl⟩ := h
    unfold flushBuf at hf
    rcases hw : Sink.writeAll b.held b.inner with ⟨_ | _ | _, s⟩ <;> rw [hw] at hf <;> simp only [Prod.mk.injEq, reduceCtorEq, false_and] at hf
    obtain ⟨-, rfl⟩ := hf
    rfl
  · rw [hf] at h; simp only [Prod.mk.injEq, reduceCtorEq, false_and] at h
  · rw [hf] at h; simp only [Prod.mk.injEq, reduceCtorEq, false_and] at h

end BufOut
end Fbx
