import Verif.Spec.Prompt
import Verif.Proof.Wp

/-! # How failures of the device are reported: sequences of operations -/

namespace Fbx
open Spec Writer
variable {α β : Type} {pk : Prop} {own : WErr → Prop}

/-- In every state. -/
def Prompts (pk : Prop) (own : WErr → Prop) (m : M WErr Writer α) : Prop := ∀ w, Prompt pk own (m w).1 w.sink (m w).2.sink

theorem Spec.Prompt.stay {r : Res WErr α} {s : Sink} (h : ∀ e, r = .err e → ofDevice e → own e) : Prompt pk own r s s :=
  .inl ⟨0, rfl, fun i hi => by omega, fun e he hd => .inr (.inr (h e he hd))⟩

theorem Prompts.pure (a : α) : Prompts pk own (Pure.pure a : M WErr Writer α) := fun w => .stay (fun e h => by cases h)
theorem Prompts.throw {e : WErr} (h : ofDevice e → own e) : Prompts pk own (M.throw e : M WErr Writer α) :=
  fun w => .stay (fun e' he hd => by cases he; exact h hd)
theorem Prompts.panic (x : Panic) : Prompts pk own (M.panic x : M WErr Writer α) := fun w => .stay (fun e h => by cases h)
theorem Prompts.get : Prompts pk own (M.get : M WErr Writer Writer) := fun w => .stay (fun e h => by cases h)
theorem Prompts.assert (b : Bool) (x : Panic) : Prompts pk own (M.assert b x : M WErr Writer Unit) := fun w => by
  cases b <;> exact .stay (fun e h => by cases h)
theorem Prompts.modify {f : Writer → Writer} (h : ∀ w, (f w).sink = w.sink) : Prompts pk own (M.modify f : M WErr Writer Unit) := fun w => by
  show Prompt pk own (.ok ()) w.sink (f w).sink
  rw [h]
  exact .stay (fun e h => by cases h)

theorem Spec.Prompt.mono {pk' : Prop} {own' : WErr → Prop} (hp : pk → pk') (ho : ∀ e, own e → own' e) {r : Res WErr α} {s s' : Sink} (h : Prompt pk own r s s') :
    Prompt pk' own' r s s' := by
  rcases h with ⟨n, h1, h2, h3⟩ | ⟨n, h1, h2, x, h3, h4⟩
  · exact .inl ⟨n, h1, h2, fun e he hd => (h3 e he hd).imp id (Or.imp (And.imp hp id) (ho e))⟩
  · exact .inr ⟨n, h1, h2, x, h3, h4.imp id (And.imp hp id)⟩

theorem Prompts.mono {pk' : Prop} {own' : WErr → Prop} (hp : pk → pk') (ho : ∀ e, own e → own' e) {m : M WErr Writer α} (h : Prompts pk own m) :
    Prompts pk' own' m := fun w => (h w).mono hp ho

/-- One after the other. -/
theorem Spec.Prompt.trans {s s' s'' : Sink} {r : Res WErr β} {n : Nat} (h1 : s'.fault = (fun i => s.fault (i + n))) (h2 : ∀ i, i < n → s.fault i = none)
    (h : Prompt pk own r s' s'') : Prompt pk own r s s'' := by
  have key : ∀ m, (∀ i, i < m → s'.fault i = none) → ∀ i, i < n + m → s.fault i = none := by
    intro m hm i hi
    by_cases hin : i < n
    · exact h2 i hin
    · have := hm (i - n) (by omega)
      rw [h1] at this
      simp only at this
      rwa [show i - n + n = i by omega] at this
  rcases h with ⟨m, g1, g2, g3⟩ | ⟨m, g1, g2, x, g3, g4⟩
  · refine .inl ⟨n + m, ?_, key m g2, g3⟩
    rw [g1, h1]
    funext i
    show s.fault (i + m + n) = _
    congr 1
    omega
  · refine .inr ⟨n + m, ?_, key m g2, x, ?_, g4⟩
    · rw [g1, h1]
      funext i
      show s.fault (i + (m + 1) + n) = _
      congr 1
      omega
    · rw [h1] at g3
      simp only at g3
      rwa [Nat.add_comm] at g3

theorem Prompts.bind {m : M WErr Writer α} {f : α → M WErr Writer β} (hm : Prompts pk own m) (hf : ∀ a, Prompts pk own (f a)) : Prompts pk own (m >>= f) := by
  intro w
  rw [M.bind_apply]
  have h := hm w
  rcases hr : m w with ⟨a | e | x, w'⟩ <;> rw [hr] at h
  · simp only
    rcases h with ⟨n, h1, h2, -⟩ | ⟨n, -, -, x, -, h4 | ⟨-, h4⟩⟩
    · exact (hf a w').trans h1 h2
    · cases h4
    · cases h4
  · rcases h with ⟨n, h1, h2, h3⟩ | ⟨n, h1, h2, x, h3, h4⟩
    · exact .inl ⟨n, h1, h2, fun e' he => by cases he; exact h3 e rfl⟩
    · refine .inr ⟨n, h1, h2, x, h3, h4.imp ?_ (And.imp id ?_)⟩ <;> intro h <;> cases h <;> rfl
  · rcases h with ⟨n, h1, h2, h3⟩ | ⟨n, h1, h2, y, h3, h4 | ⟨-, h4⟩⟩
    · exact .inl ⟨n, h1, h2, fun e' he => by cases he⟩
    · cases h4
    · cases h4

theorem Prompts.ite {c : Prop} [Decidable c] {m n : M WErr Writer α} (hm : Prompts pk own m) (hn : Prompts pk own n) : Prompts pk own (if c then m else n) := by
  split
  · exact hm
  · exact hn

/-- An operation of the device: at most one step, which fails as planned or because the device is full. -/
def DeviceOp (m : M IoErr Sink α) : Prop := ∀ s,
  (∃ a, (m s).1 = .ok a ∧ ∃ n, n ≤ 1 ∧ (m s).2.fault = (fun i => s.fault (i + n)) ∧ ∀ i, i < n → s.fault i = none) ∨
  ((m s).1 = .err (.other 1) ∧ (m s).2.fault = (fun i => s.fault (i + 1)) ∧ s.fault 0 = none) ∨
  (∃ x, (m s).1 = .err x.error ∧ (m s).2.fault = (fun i => s.fault (i + 1)) ∧ s.fault 0 = some x)

theorem device_write (bs : Bytes) : DeviceOp (Sink.writeAll bs) := by
  intro s
  unfold Sink.writeAll
  by_cases hb : bs = []
  · rw [if_pos hb]
    exact .inl ⟨(), rfl, 0, by omega, rfl, fun i hi => by omega⟩
  · rw [if_neg hb]
    cases hf : s.fault 0 with
    | some k => exact .inr (.inr ⟨k, rfl, rfl, by first | exact hf | rfl⟩)
    | none =>
      simp only
      by_cases hs : s.pos + bs.length < 2 ^ 64
      · rw [if_pos hs]
        exact .inl ⟨(), rfl, 1, by omega, rfl, fun i hi => by rw [show i = 0 by omega]; exact hf⟩
      · rw [if_neg hs]
        exact .inr (.inl ⟨rfl, rfl, by first | exact hf | rfl | trivial⟩)

theorem device_seek (p : Nat) : DeviceOp (Sink.seek p) := by
  intro s
  unfold Sink.seek
  cases hf : s.fault 0 with
  | some k => exact .inr (.inr ⟨k, rfl, rfl, by first | exact hf | rfl⟩)
  | none => exact .inl ⟨(), rfl, 1, by omega, rfl, fun i hi => by rw [show i = 0 by omega]; exact hf⟩

theorem device_tell : DeviceOp Sink.tell := by
  intro s
  unfold Sink.tell
  cases hf : s.fault 0 with
  | some k => exact .inr (.inr ⟨k, rfl, rfl, by first | exact hf | rfl⟩)
  | none => exact .inl ⟨s.pos, rfl, 1, by omega, rfl, fun i hi => by rw [show i = 0 by omega]; exact hf⟩

theorem device_flush : DeviceOp Sink.flush := by
  intro s
  unfold Sink.flush
  cases hf : s.fault 0 with
  | some k => exact .inr (.inr ⟨k, rfl, rfl, by first | exact hf | rfl⟩)
  | none => exact .inl ⟨(), rfl, 1, by omega, rfl, fun i hi => by rw [show i = 0 by omega]; exact hf⟩

theorem io_apply {m : M IoErr Sink α} (w : Writer) : io m w = ((match (m w.sink).1 with | .ok a => .ok a | .err e => .err (.io e) | .panic x => .panic x), { w with sink := (m w.sink).2 }) := by
  rw [io, M.mapErr_apply, M.zoom]
  rcases m w.sink with ⟨_ | _ | _, _⟩ <;> rfl

theorem Prompts.io {m : M IoErr Sink α} (hm : DeviceOp m) : Prompts pk own (Writer.io m) := by
  intro w
  rw [io_apply]
  simp only
  rcases hm w.sink with ⟨a, h1, n, -, h2, h3⟩ | ⟨h1, h2, h3⟩ | ⟨x, h1, h2, h3⟩ <;> rw [h1]
  · exact .inl ⟨n, h2, h3, fun e he => by cases he⟩
  · exact .inl ⟨1, h2, fun i hi => by rw [show i = 0 by omega]; exact h3, fun e he _ => by cases he; exact .inl rfl⟩
  · exact .inr ⟨0, h2, fun i hi => by omega, x, h3, .inl rfl⟩

theorem Prompts.put (bs : Bytes) : Prompts pk own (Writer.put bs) := .io (device_write bs)
theorem Prompts.tell : Prompts pk own (Writer.io Sink.tell) := .io device_tell
theorem Prompts.seek (p : Nat) : Prompts pk own (Writer.io (Sink.seek p)) := .io (device_seek p)

/-! ## The methods of the writer -/

theorem Prompts.putU32 (n : Nat) {e : WErr} (h : ¬ ofDevice e) : Prompts pk own (Writer.putU32 n e) :=
  .ite (.put _) (.throw (fun hd => absurd hd h))

theorem Prompts.nodeHeader (h : NodeHeader) : Prompts pk own (writeNodeHeader h) := by
  unfold writeNodeHeader
  refine .bind .get (fun w => ?_)
  split
  · refine .bind (.putU32 _ ?_) (fun _ => .bind (.putU32 _ ?_) (fun _ => .bind (.putU32 _ ?_) (fun _ => .put _))) <;> exact fun h => h
  · exact .bind (.put _) (fun _ => .bind (.put _) (fun _ => .bind (.put _) (fun _ => .put _)))

theorem modifyTop_sink (f : OpenNode → OpenNode) (w : Writer) : (modifyTop f w).sink = w.sink := by
  unfold modifyTop; split <;> rfl

theorem Prompts.finalizeAttributes : Prompts pk own Writer.finalizeAttributes := by
  unfold Writer.finalizeAttributes
  refine .bind .get (fun w => ?_)
  split
  · exact .pure _
  · split
    · exact .pure _
    · exact .bind .tell (fun _ => .bind (.assert _ _) (fun _ => .modify (modifyTop_sink _)))

theorem Prompts.newNode (name : String) : Prompts pk own (Writer.newNode name) := by
  unfold Writer.newNode
  refine .bind .finalizeAttributes (fun _ => .bind (.modify (modifyTop_sink _)) (fun _ => ?_))
  exact .ite (.bind .tell (fun _ => .bind (.nodeHeader _) (fun _ => .bind (.put _) (fun _ => .bind .tell (fun _ => .modify (fun _ => rfl)))))) (.throw (fun h => h.elim))

theorem Prompts.closeNode : Prompts pk own Writer.closeNode := by
  unfold Writer.closeNode
  refine .bind .finalizeAttributes (fun _ => .bind .get (fun w => ?_))
  split
  · exact .throw (fun h => h.elim)
  · refine .bind (.modify (fun _ => rfl)) (fun _ => ?_)
    refine .ite (.bind (.nodeHeader _) (fun _ => ?_)) ?_ <;>
      exact .bind .tell (fun _ => .bind (.seek _) (fun _ => .bind (.assert _ _) (fun _ => .bind (.nodeHeader _) (fun _ => .seek _))))

theorem Prompts.updateNodeHeader : Prompts pk own Writer.updateNodeHeader := by
  unfold Writer.updateNodeHeader
  refine .bind .get (fun w => ?_)
  split
  · exact .panic _
  · exact .ite (.modify (modifyTop_sink _)) (.throw (fun h => h.elim))

theorem Prompts.single (t : AttrType) (bs : Bytes) : Prompts pk own (appendSingle t bs) :=
  .bind .updateNodeHeader (fun _ => .bind (.put _) (fun _ => .put _))

theorem Prompts.arrHeader (h : ArrHeader) : Prompts pk own (writeArrHeader h) := .bind (.put _) (fun _ => .bind (.put _) (fun _ => .put _))

theorem Prompts.initializeArray (t : AttrType) (enc : ArrEnc) : Prompts pk own (Writer.initializeArray t enc) :=
  .bind .updateNodeHeader (fun _ => .bind (.put _) (fun _ => .bind .tell (fun _ => .bind (.arrHeader _) (fun _ => .pure _))))

theorem Prompts.finalizeArray (p : Nat) (h : ArrHeader) : Prompts pk own (Writer.finalizeArray p h) :=
  .bind .tell (fun _ => .bind (.seek _) (fun _ => .bind (.arrHeader _) (fun _ => .seek _)))

theorem Prompts.elements : ∀ (xs : List (Except WErr Bytes)) (n : Nat), (∀ e, .error e ∈ xs → own e) → Prompts pk own (writeElements xs n)
  | [], n, _ => .ite (.pure _) (.throw (fun h => h.elim))
  | .error e :: _, n, h => .throw (fun _ => h e (List.mem_cons_self ..))
  | .ok bs :: xs, n, h => .bind (.put _) (fun _ => .elements xs _ (fun e he => h e (List.mem_cons_of_mem _ he)))

theorem elementsResult_error {e : WErr} : ∀ {xs : List (Except WErr Bytes)} {n : Nat}, elementsResult xs n = .error e → .error e ∈ xs ∨ ¬ ofDevice e
  | [], n, h => by
    simp only [elementsResult] at h
    split at h
    · cases h
    · cases h; exact .inr (fun h => h)
  | .error e' :: _, n, h => by cases h; exact .inl (List.mem_cons_self ..)
  | .ok bs :: xs, n, h => (elementsResult_error (xs := xs) h).imp (List.mem_cons_of_mem _) id

theorem Prompts.late (hp : pk) (bs : Bytes) : Prompts pk own (M.mapErr (fun | .io e => .compression e | e => e) (Writer.put bs) : M WErr Writer Unit) := by
  intro w
  rw [M.mapErr_apply, Writer.put, io_apply]
  rcases device_write bs w.sink with ⟨a, h1, n, -, h2, h3⟩ | ⟨h1, h2, h3⟩ | ⟨x, h1, h2, h3⟩ <;> rw [h1]
  · exact .inl ⟨n, h2, h3, fun e he => by cases he⟩
  · exact .inl ⟨1, h2, fun i hi => by rw [show i = 0 by omega]; exact h3, fun e he _ => by cases he; exact .inr (.inl ⟨hp, rfl⟩)⟩
  · exact .inr ⟨0, h2, fun i hi => by omega, x, h3, .inr ⟨hp, rfl⟩⟩

theorem Prompts.ofExcept {x : Except WErr α} (h : ∀ e, x = .error e → ofDevice e → own e) : Prompts pk own (M.ofExcept x : M WErr Writer α) := fun w => by
  cases x with
  | ok a => exact .stay (fun e h => by cases h)
  | error e => exact .stay (fun e' he hd => by cases he; exact h e rfl hd)

theorem Prompts.arrayElements (Z : Zlib) {enc : ArrEnc} (hp : enc = .zlib → pk) (xs : List (Except WErr Bytes)) (h : ∀ e, .error e ∈ xs → own e) :
    Prompts pk own (writeArrayElements Z enc xs) := by
  cases enc with
  | direct => exact .elements xs 0 h
  | zlib =>
    refine .bind (.put _) (fun _ => .bind (.put _) (fun _ => .bind (.ofExcept ?_) (fun n => .bind (.late (hp rfl) _) (fun _ => .pure _))))
    intro e he hd
    exact (elementsResult_error he).elim (h e) (fun hn => absurd hd hn)

theorem Prompts.array (Z : Zlib) (t : AttrType) (enc : Option ArrEnc) (hp : enc = some .zlib → pk) (xs : List (Except WErr Bytes)) (h : ∀ e, .error e ∈ xs → own e) :
    Prompts pk own (appendArray Z t enc xs) := by
  unfold appendArray
  refine .bind (.initializeArray _ _) (fun _ => .bind .tell (fun _ => .bind (.arrayElements Z ?_ xs h) (fun _ => .bind .tell (fun _ => ?_))))
  · intro he
    cases enc with
    | none => cases he
    | some e => exact hp (congrArg some he)
  · exact .ite (.finalizeArray _ _) (.throw (fun h => h.elim))

theorem Prompts.initializeSpecial (t : AttrType) : Prompts pk own (Writer.initializeSpecial t) :=
  .bind .updateNodeHeader (fun _ => .bind (.put _) (fun _ => .bind .tell (fun _ => .bind (.put _) (fun _ => .pure _))))

theorem Prompts.finalizeSpecial (p n : Nat) : Prompts pk own (Writer.finalizeSpecial p n) :=
  .ite (.bind .tell (fun _ => .bind (.seek _) (fun _ => .bind (.put _) (fun _ => .seek _)))) (.throw (fun h => h.elim))

theorem Prompts.direct (t : AttrType) (bs : Bytes) : Prompts pk own (appendDirect t bs) :=
  .bind (.initializeSpecial _) (fun _ => .bind (.put _) (fun _ => .finalizeSpecial _ _))

theorem Prompts.chunks {ending : Option IoErr} (h : ∀ x, ending = some x → own (.io x)) : ∀ (cs : List Bytes) (n : Nat), Prompts pk own (copyChunks ending cs n)
  | [], n => by
    unfold copyChunks
    cases ending with
    | none => exact .pure _
    | some x => exact .throw (fun _ => h x rfl)
  | c :: cs, n => .bind (.put _) (fun _ => .chunks h cs _)

theorem Prompts.each : ∀ (xs : List (Except WErr Byte)) (n : Nat), (∀ e, .error e ∈ xs → own e) → Prompts pk own (putEach xs n)
  | [], n, _ => .pure _
  | .error e :: _, n, h => .throw (fun _ => h e (List.mem_cons_self ..))
  | .ok b :: xs, n, h => .bind (.put _) (fun _ => .each xs _ (fun e he => h e (List.mem_cons_of_mem _ he)))

theorem Prompts.chars : ∀ (xs : List (Except WErr Char)) (b : Bytes) (n : Nat), (∀ e, .error e ∈ xs → own e) → Prompts pk own (putChars xs b n)
  | [], b, n, _ => .pure _
  | .error e :: _, b, n, h => .throw (fun _ => h e (List.mem_cons_self ..))
  | .ok c :: xs, b, n, h => .bind (.put _) (fun _ => .chars xs _ _ (fun e he => h e (List.mem_cons_of_mem _ he)))

theorem elemBytes_error {e : Type} {f : e → Bytes} {items : List (Except WErr e)} {x : WErr} (h : .error x ∈ elemBytes f items) : .error x ∈ items := by
  obtain ⟨y, hy, hx⟩ := List.mem_map.mp h
  cases y with
  | ok v => cases hx
  | error z => cases hx; exact hy

theorem Prompts.call (Z : Zlib) (op : Op) : Prompts (packs op) (handedIn op) (exec Z op) := by
  rcases op with name | _ | a
  · exact .newNode name
  · exact .closeNode
  · cases a with
    | bool v => exact .single _ _
    | i16 v => exact .single _ _
    | i32 v => exact .single _ _
    | i64 v => exact .single _ _
    | f32 v => exact .single _ _
    | f64 v => exact .single _ _
    | arrBool enc items => exact .array Z _ enc (fun h => h) _ (fun e he => elemBytes_error he)
    | arrI32 enc items => exact .array Z _ enc (fun h => h) _ (fun e he => elemBytes_error he)
    | arrI64 enc items => exact .array Z _ enc (fun h => h) _ (fun e he => elemBytes_error he)
    | arrF32 enc items => exact .array Z _ enc (fun h => h) _ (fun e he => elemBytes_error he)
    | arrF64 enc items => exact .array Z _ enc (fun h => h) _ (fun e he => elemBytes_error he)
    | binary v => exact .direct _ _
    | string v => exact .direct _ _
    | binaryReader cs e => exact .bind (.initializeSpecial _) (fun _ => .bind (.chunks (fun x hx => ⟨x, hx, rfl⟩) _ _) (fun _ => .finalizeSpecial _ _))
    | binaryIter items => exact .bind (.initializeSpecial _) (fun _ => .bind (.each _ _ (fun e he => he)) (fun _ => .finalizeSpecial _ _))
    | stringIter items => exact .bind (.initializeSpecial _) (fun _ => .bind (.chars _ _ _ (fun e he => he)) (fun _ => .finalizeSpecial _ _))

theorem Prompts.finalize (f : FooterSpec) : Prompts pk own (Writer.finalize f) := by
  unfold Writer.finalize
  refine .bind .get (fun w => .ite (.throw (fun h => h.elim)) ?_)
  refine .bind (.nodeHeader _) (fun _ => .bind (.put _) (fun _ => .bind ?_ (fun _ => .bind (.put _) (fun _ => .bind (.put _) (fun _ =>
    .bind (.bind .get (fun _ => .put _)) (fun _ => .bind (.put _) (fun _ => .put _)))))))
  unfold paddingLen
  split
  · exact .bind .tell (fun _ => .pure _)
  · exact .pure _

theorem handedIn_appendOf (v : AttrValue) (e : WErr) : ¬ handedIn (.append (appendOf v)) e := by
  cases v <;> simp [appendOf, handedIn]

theorem packs_appendOf (v : AttrValue) : ¬ packs (.append (appendOf v)) := by
  cases v <;> simp [appendOf, packs]

theorem Prompts.treeLoop (Z : Zlib) (t : Tree) : ∀ (fuel : Nat) (o : Bool) (i : Nat), Prompts pk own (writeTreeLoop Z t fuel o i) := by
  have hall : ∀ vs, Prompts pk own (appendAll Z vs) := by
    intro vs
    induction vs with
    | nil => exact .pure _
    | cons v vs ih =>
      exact .bind ((Prompts.call Z (.append (appendOf v))).mono (fun h => absurd h (packs_appendOf v)) (fun e h => absurd h (handedIn_appendOf v e))) (fun _ => ih)
  intro fuel
  induction fuel with
  | zero => intro o i; exact .panic _
  | succ fuel ih =>
    intro o i
    cases o with
    | true =>
      unfold writeTreeLoop
      split
      · exact .panic _
      · refine .bind (.newNode _) (fun _ => .bind (hall _) (fun _ => ?_))
        split <;> exact ih _ _
    | false =>
      unfold writeTreeLoop
      refine .bind .closeNode (fun _ => ?_)
      split
      · exact ih _ _
      · split
        · exact .panic _
        · exact .ite (.pure _) (ih _ _)

theorem Prompts.tree (Z : Zlib) (t : Tree) : Prompts pk own (writeTree Z t) := by
  unfold writeTree
  split
  · exact .pure _
  · exact .treeLoop Z t _ _ _

end Fbx
