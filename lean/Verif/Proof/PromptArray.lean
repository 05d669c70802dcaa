import Verif.Proof.Prompt
import Verif.Proof.WriterAppend

/-! # The operations of the device in one call -/

namespace Fbx
open Spec Writer
variable {α β : Type}

/-- From `w` on, `m` does one operation of the device for every entry of `l`, which tells how a failure is reported. -/
def Shape (m : M WErr Writer α) (w : Writer) (a : α) (w' : Writer) (l : List (IoErr → WErr)) : Prop := ∀ f,
  (∀ k g x, l[k]? = some g → (∀ i, i < k → f i = none) → f k = some x → (m (onDevice w f)).1 = .err (g x.error)) ∧
  ((∀ k, k < l.length → f k = none) → m (onDevice w f) = (.ok a, onDevice w' (fun i => f (i + l.length))))

/-- Wherever `m` succeeds on a device without failures. -/
def Shaped (m : M WErr Writer α) (l : List (IoErr → WErr)) : Prop :=
  ∀ w a w', m (onDevice w (fun _ => none)) = (.ok a, w') → Shape m w a w' l

theorem Shape.bind {m : M WErr Writer α} {g : α → M WErr Writer β} {w w1 w2 : Writer} {a : α} {b : β} {l l' : List (IoErr → WErr)}
    (h1 : Shape m w a w1 l) (h2 : Shape (g a) w1 b w2 l') : Shape (m >>= g) w b w2 (l ++ l') := by
  intro f
  refine ⟨?_, ?_⟩
  · intro k e x hk hb hf
    rw [M.bind_apply]
    by_cases hlt : k < l.length
    · have h := (h1 f).1 k e x (by rwa [List.getElem?_append_left hlt] at hk) hb hf
      rcases hr : m (onDevice w f) with ⟨r, w'⟩
      rw [hr] at h
      simp only at h
      subst h
      rfl
    · rw [(h1 f).2 (fun i hi => hb i (by omega))]
      simp only
      rw [List.getElem?_append_right (by omega)] at hk
      refine (h2 _).1 (k - l.length) e x hk (fun i hi => hb _ (by omega)) ?_
      show f (k - l.length + l.length) = some x
      rwa [show k - l.length + l.length = k by omega]
  · intro hb
    rw [List.length_append] at hb
    rw [M.bind_apply, (h1 f).2 (fun i hi => hb i (by omega))]
    simp only
    rw [(h2 _).2 (fun i hi => hb _ (by omega)), List.length_append]
    congr 2
    funext i
    congr 1
    omega

theorem Shape.calm {m : M WErr Writer α} {w w' : Writer} {a : α} {l : List (IoErr → WErr)} (h : m (onDevice w (fun _ => none)) = (.ok a, w')) (hs : Shape m w a w' l) :
    w' = onDevice w' (fun _ => none) := by
  have := (hs (fun _ => none)).2 (fun _ _ => rfl)
  rw [h] at this
  exact congrArg Prod.snd this

theorem Shaped.bind {m : M WErr Writer α} {g : α → M WErr Writer β} {l l' : List (IoErr → WErr)} (h1 : Shaped m l) (h2 : ∀ a, Shaped (g a) l') :
    Shaped (m >>= g) (l ++ l') := by
  intro w b w2 h
  obtain ⟨a, w1, ha, hb⟩ := (M.bind_ok_iff _ _ _ _ _).mp h
  have hs := h1 w a w1 ha
  rw [hs.calm ha] at hb
  exact hs.bind (h2 a w1 b w2 hb)

theorem Shaped.pure (a : α) : Shaped (Pure.pure a : M WErr Writer α) [] := by
  intro w b w' h
  cases h
  exact fun f => ⟨fun k g x hk => (by cases hk), fun _ => rfl⟩

theorem Shaped.throw (e : WErr) (l : List (IoErr → WErr)) : Shaped (M.throw e : M WErr Writer α) l := by
  intro w b w' h
  cases h

theorem Shaped.panic (e : Panic) (l : List (IoErr → WErr)) : Shaped (M.panic e : M WErr Writer α) l := by
  intro w b w' h
  cases h

theorem Shaped.ite {c : Prop} [Decidable c] {m n : M WErr Writer α} {l : List (IoErr → WErr)} (hm : Shaped m l) (hn : Shaped n l) : Shaped (if c then m else n) l := by
  split
  · exact hm
  · exact hn

theorem Shaped.seek (p : Nat) : Shaped (Writer.io (Sink.seek p)) [WErr.io] := by
  intro w b w' h
  rw [io_apply] at h
  cases h
  intro f
  rw [io_apply]
  refine ⟨?_, ?_⟩
  · intro k g x hk hb hx
    have hk0 : k = 0 := by have := (List.getElem?_eq_some_iff.mp hk).1; simpa using this
    subst hk0
    simp only [List.getElem?_cons_zero, Option.some.injEq] at hk
    subst hk
    have hx : (onDevice w f).sink.fault 0 = some x := hx
    simp only [Sink.seek, hx]
  · intro hb
    have : (onDevice w f).sink.fault 0 = none := hb 0 (by simp)
    simp only [Sink.seek, this]
    rfl

theorem Shaped.tell : Shaped (Writer.io Sink.tell) [WErr.io] := by
  intro w b w' h
  rw [io_apply] at h
  cases h
  intro f
  rw [io_apply]
  refine ⟨?_, ?_⟩
  · intro k g x hk hb hx
    have hk0 : k = 0 := by have := (List.getElem?_eq_some_iff.mp hk).1; simpa using this
    subst hk0
    simp only [List.getElem?_cons_zero, Option.some.injEq] at hk
    subst hk
    have hx : (onDevice w f).sink.fault 0 = some x := hx
    simp only [Sink.tell, hx]
  · intro hb
    have : (onDevice w f).sink.fault 0 = none := hb 0 (by simp)
    simp only [Sink.tell, this]
    rfl

theorem Shaped.put {bs : Bytes} (hne : bs ≠ []) : Shaped (Writer.put bs) [WErr.io] := by
  intro w b w' h
  rw [Writer.put, io_apply] at h
  simp only [Sink.writeAll, if_neg hne] at h
  have hroom : w.sink.pos + bs.length < 2 ^ 64 := by
    by_cases hc : w.sink.pos + bs.length < 2 ^ 64
    · exact hc
    · have hc' : ¬ (onDevice w (fun _ => none)).sink.pos + bs.length < 2 ^ 64 := hc
      simp only [show ∀ f i, (onDevice w f).sink.fault i = f i from fun _ _ => rfl, if_neg hc'] at h
      cases h
  have hroom' : ∀ f, (onDevice w f).sink.pos + bs.length < 2 ^ 64 := fun _ => hroom
  simp only [show ∀ f i, (onDevice w f).sink.fault i = f i from fun _ _ => rfl, if_pos (hroom' _)] at h
  cases h
  intro f
  rw [Writer.put, io_apply]
  simp only [Sink.writeAll, if_neg hne]
  refine ⟨?_, ?_⟩
  · intro k g x hk hb hx
    have hk0 : k = 0 := by have := (List.getElem?_eq_some_iff.mp hk).1; simpa using this
    subst hk0
    simp only [List.getElem?_cons_zero, Option.some.injEq] at hk
    subst hk
    have hx : (onDevice w f).sink.fault 0 = some x := hx
    simp only [hx]
  · intro hb
    have : (onDevice w f).sink.fault 0 = none := hb 0 (by simp)
    simp only [this, if_pos (hroom' _)]
    rfl

theorem Shaped.putNil : Shaped (Writer.put []) [] := by
  intro w b w' h
  rw [Writer.put, io_apply] at h
  cases h
  intro f
  exact ⟨fun k g x hk => (by cases hk), fun _ => rfl⟩

theorem Shaped.mapErr {m : M WErr Writer α} {l : List (IoErr → WErr)} (g : WErr → WErr) (h : Shaped m l) : Shaped (M.mapErr g m) (l.map (g ∘ ·)) := by
  intro w b w' hm
  have hs := h w b w' ((M.mapErr_ok_iff _ _ _ _ _).mp hm)
  intro f
  refine ⟨?_, ?_⟩
  · intro k e x hk hb hf
    rw [List.getElem?_map] at hk
    obtain ⟨e0, h0, rfl⟩ := Option.map_eq_some_iff.mp hk
    have := (hs f).1 k e0 x h0 hb hf
    rw [M.mapErr_apply]
    rcases hr : m (onDevice w f) with ⟨r, w1⟩
    rw [hr] at this
    simp only at this
    subst this
    rfl
  · intro hb
    rw [List.length_map] at hb ⊢
    exact (M.mapErr_ok_iff _ _ _ _ _).mpr ((hs f).2 hb)

theorem Shaped.ofExcept (x : Except WErr α) : Shaped (M.ofExcept x : M WErr Writer α) [] := by
  cases x with
  | ok a => exact .pure a
  | error e => exact .throw e _

theorem Shaped.modify {g : Writer → Writer} (h : ∀ w f, g (onDevice w f) = onDevice (g w) f) : Shaped (M.modify g : M WErr Writer Unit) [] := by
  intro w b w' hm
  cases hm
  intro f
  refine ⟨fun k g x hk => (by cases hk), fun _ => ?_⟩
  show ((.ok (), g (onDevice w f)) : Res WErr Unit × Writer) = (.ok (), onDevice (g (onDevice w _)) f)
  rw [h, h]
  rfl

theorem modifyTop_onDevice (g : OpenNode → OpenNode) (w : Writer) (f : Nat → Option Fault) : modifyTop g (onDevice w f) = onDevice (modifyTop g w) f := by
  rcases w with ⟨s, v, o⟩
  cases o <;> rfl

/-- Parts which look at the state of the writer, but not at the device. -/
theorem Shaped.getBind {g : Writer → M WErr Writer α} {l : List (IoErr → WErr)} (hg : ∀ w f, g (onDevice w f) = g w) (h : ∀ w, Shaped (g w) l) :
    Shaped (M.get >>= g) l := by
  intro w a w' hm
  have e : ∀ f, (M.get >>= g) (onDevice w f) = g w (onDevice w f) := by
    intro f
    rw [M.bind_apply]
    show g (onDevice w f) (onDevice w f) = _
    rw [hg]
  rw [e] at hm
  have hs := h w w a w' hm
  intro f
  rw [e]
  exact hs f

theorem Shaped.updateNodeHeader : Shaped Writer.updateNodeHeader [] := by
  refine .getBind (fun w f => by rfl) (fun w => ?_)
  split
  · exact .panic _ _
  · exact .ite (.modify (modifyTop_onDevice _)) (.throw _ _)

theorem leBytes_ne (k n : Nat) : leBytes (k + 1) n ≠ [] := by
  intro h
  have := congrArg List.length h
  simp at this

/-- Operations of the device which are reported as I/O errors. -/
def ios (n : Nat) : List (IoErr → WErr) := List.replicate n WErr.io

theorem ios_append (m n : Nat) : ios m ++ ios n = ios (m + n) := by simp [ios]

theorem Shaped.putLe (k n : Nat) : Shaped (Writer.put (leBytes (k + 1) n)) (ios 1) := .put (leBytes_ne k n)

theorem Shaped.arrHeader (h : ArrHeader) : Shaped (writeArrHeader h) (ios 3) :=
  .bind (l := ios 1) (l' := ios 2) (.putLe 3 _) (fun _ => .bind (l := ios 1) (l' := ios 1) (.putLe 3 _) (fun _ => .putLe 3 _))

theorem Shaped.initializeArray (t : AttrType) (enc : ArrEnc) : Shaped (Writer.initializeArray t enc) (ios 5) :=
  .bind (l := []) (l' := ios 5) .updateNodeHeader (fun _ => .bind (l := ios 1) (l' := ios 4) (.put (by simp)) (fun _ =>
    .bind (l := ios 1) (l' := ios 3) .tell (fun _ => .bind (l := ios 3) (l' := []) (.arrHeader _) (fun _ => .pure _))))

theorem Shaped.finalizeArray (p : Nat) (h : ArrHeader) : Shaped (Writer.finalizeArray p h) (ios 6) :=
  .bind (l := ios 1) (l' := ios 5) .tell (fun _ => .bind (l := ios 1) (l' := ios 4) (.seek _) (fun _ =>
    .bind (l := ios 3) (l' := ios 1) (.arrHeader _) (fun _ => .seek _)))

theorem Shaped.elements : ∀ (xs : List (Except WErr Bytes)) (n : Nat), (∀ bs, .ok bs ∈ xs → bs ≠ []) → Shaped (writeElements xs n) (ios xs.length)
  | [], n, _ => .ite (.pure _) (.throw _ _)
  | .error e :: _, n, _ => .throw _ _
  | .ok bs :: xs, n, h => by
    rw [List.length_cons, Nat.add_comm, ← ios_append]
    exact .bind (.put (h bs (List.mem_cons_self ..))) (fun _ => .elements xs _ (fun b hb => h b (List.mem_cons_of_mem _ hb)))

/-- The operations by which some bytes reach the device. -/
def oneIf (bs : Bytes) (g : IoErr → WErr) : List (IoErr → WErr) := if bs = [] then [] else [g]

theorem Shaped.putAny (bs : Bytes) : Shaped (Writer.put bs) (oneIf bs WErr.io) := by
  unfold oneIf
  split
  · rename_i h; subst h; exact .putNil
  · exact .put ‹_›

theorem Shaped.late (bs : Bytes) : Shaped (M.mapErr (fun | .io e => .compression e | e => e) (Writer.put bs) : M WErr Writer Unit) (oneIf bs WErr.compression) := by
  have := (Shaped.putAny bs).mapErr (fun | .io e => .compression e | e => e)
  unfold oneIf at this ⊢
  split
  · rw [if_pos ‹_›] at this; exact this
  · rw [if_neg ‹_›] at this; exact this

/-- The operations for the elements. -/
def elementOps (Z : Zlib) (enc : ArrEnc) (payload : Bytes) (count : Nat) : List (IoErr → WErr) :=
  match enc with
  | .direct => ios count
  | .zlib => ios 1 ++ oneIf (Z.encEarly payload) WErr.io ++ oneIf (Z.encLate payload) WErr.compression

theorem Shaped.arrayElements (Z : Zlib) (enc : ArrEnc) (xs : List (Except WErr Bytes)) (h : ∀ bs, .ok bs ∈ xs → bs ≠ []) :
    Shaped (writeArrayElements Z enc xs) (elementOps Z enc (okPrefix xs) xs.length) := by
  cases enc with
  | direct => exact .elements xs 0 h
  | zlib =>
    show Shaped (writeElementsZlib Z xs) (ios 1 ++ _ ++ _)
    rw [List.append_assoc]
    refine .bind (.put (by simp)) (fun _ => .bind (.putAny _) (fun _ => ?_))
    have := fun n : Nat => Shaped.bind (g := fun _ => Pure.pure n) (Shaped.late (Z.encLate (okPrefix xs))) (fun _ => Shaped.pure n)
    simp only [List.append_nil] at this
    exact Shaped.bind (l := []) (.ofExcept _) this

theorem Shaped.array (Z : Zlib) (t : AttrType) (enc : Option ArrEnc) (xs : List (Except WErr Bytes)) (h : ∀ bs, .ok bs ∈ xs → bs ≠ []) :
    Shaped (appendArray Z t enc xs) (ios 6 ++ (elementOps Z (enc.getD .direct) (okPrefix xs) xs.length ++ ios 7)) := by
  have : ios 6 ++ (elementOps Z (enc.getD .direct) (okPrefix xs) xs.length ++ ios 7) = ios 5 ++ (ios 1 ++ (elementOps Z (enc.getD .direct) (okPrefix xs) xs.length ++ (ios 1 ++ ios 6))) := by
    rw [ios_append 1 6, ← List.append_assoc (ios 5), ios_append]
  rw [this]
  refine .bind (.initializeArray _ _) (fun _ => .bind .tell (fun _ => .bind (.arrayElements Z _ xs h) (fun _ => .bind .tell (fun _ => ?_))))
  exact .ite (.finalizeArray _ _) (.throw _ _)

/-- Wherever in the list the first failure falls. -/
theorem Shape.result {m : M WErr Writer Unit} {w w' : Writer} {l : List (IoErr → WErr)} (h : Shape m w () w' l) (f : Nat → Option Fault) (k : Nat)
    (hb : ∀ i, i < k → f i = none) {x : Fault} (hk : f k = some x) : (m (onDevice w f)).1 = (match l[k]? with | none => .ok () | some g => .err (g x.error)) := by
  cases hl : l[k]? with
  | some g => exact (h f).1 k g x hl hb hk
  | none =>
    have hlen := List.getElem?_eq_none_iff.mp hl
    rw [(h f).2 (fun i hi => hb i (by omega))]

theorem ios_get (n k : Nat) : (ios n)[k]? = if k < n then some WErr.io else none := by
  rw [ios, List.getElem?_replicate]

/-- The entry for the `k`-th operation. -/
theorem arrayOps_get (Z : Zlib) (enc : ArrEnc) (payload : Bytes) (count k : Nat) :
    (ios 6 ++ (elementOps Z enc payload count ++ ios 7))[k]? =
      (let fin := 6 + (match enc with | .direct => count | .zlib => if Z.encEarly payload = [] then 1 else 2)
       let last := if enc = .zlib ∧ Z.encLate payload ≠ [] then 1 else 0
       if k < fin + last + 7 then some (if last = 1 ∧ k = fin then WErr.compression else WErr.io) else none) := by
  cases enc with
  | direct =>
    simp only [elementOps, ios_append, ios_get, reduceCtorEq, false_and, if_false, Nat.add_zero, Nat.add_assoc]
  | zlib =>
    simp only [elementOps, true_and]
    by_cases he : Z.encEarly payload = [] <;> by_cases hl : Z.encLate payload = []
    · simp only [oneIf, he, hl, if_true, List.append_nil, ios_append, ios_get, ne_eq, not_true_eq_false, if_false]
      simp
    · simp only [oneIf, he, hl, if_true, List.append_nil, ne_eq, not_false_eq_true, if_false]
      rw [← List.append_assoc, ← List.append_assoc, ios_append, List.append_assoc]
      by_cases hk : k < 7
      · rw [List.getElem?_append_left (by simpa [ios] using hk), ios_get, if_pos hk, if_pos (by omega)]
        simp
        omega
      · rw [List.getElem?_append_right (by simp [ios]; omega)]
        obtain ⟨j, rfl⟩ : ∃ j, k = 7 + j := ⟨k - 7, by omega⟩
        rw [show 7 + j - (ios (6 + 1)).length = j by simp [ios]]
        cases j with
        | zero => simp
        | succ j =>
          simp only [List.singleton_append, List.getElem?_cons_succ, ios_get]
          by_cases hj : j < 7
          · rw [if_pos hj, if_pos (by omega)]; simp
          · rw [if_neg hj, if_neg (by omega)]
    · simp only [oneIf, he, hl, if_true, List.append_nil, ne_eq, not_true_eq_false, if_false]
      rw [show [WErr.io] = ios 1 from rfl, ios_append, ios_append, ios_append, ios_get]
      simp
    · simp only [oneIf, he, hl, ne_eq, not_false_eq_true, if_false, if_true]
      rw [show [WErr.io] = ios 1 from rfl, ios_append, ← List.append_assoc, ← List.append_assoc, ios_append, List.append_assoc]
      by_cases hk : k < 8
      · rw [List.getElem?_append_left (by simpa [ios] using hk), ios_get, if_pos hk, if_pos (by omega)]
        simp
        omega
      · rw [List.getElem?_append_right (by simp [ios]; omega)]
        obtain ⟨j, rfl⟩ : ∃ j, k = 8 + j := ⟨k - 8, by omega⟩
        rw [show 8 + j - (ios (6 + (1 + 1))).length = j by simp [ios]]
        cases j with
        | zero => simp
        | succ j =>
          simp only [List.singleton_append, List.getElem?_cons_succ, ios_get]
          by_cases hj : j < 7
          · rw [if_pos hj, if_pos (by omega)]; simp
          · rw [if_neg hj, if_neg (by omega)]

theorem elements_allOk : ∀ (xs : List (Except WErr Bytes)) (n : Nat) (w : Writer) (c : Nat) (w' : Writer), writeElements xs n w = (.ok c, w') → allOk xs = true
  | [], _, _, _, _, _ => rfl
  | .error _ :: _, _, _, _, _, h => by cases h
  | .ok _ :: xs, _, _, _, _, h => by
    obtain ⟨_, w1, -, h1⟩ := (M.bind_ok_iff _ _ _ _ _).mp h
    exact elements_allOk xs _ _ _ _ h1

theorem result_allOk : ∀ (xs : List (Except WErr Bytes)) (n c : Nat), elementsResult xs n = .ok c → allOk xs = true
  | [], _, _, _ => rfl
  | .error _ :: _, _, _, h => by cases h
  | .ok _ :: xs, _, _, h => result_allOk xs _ _ h

theorem appendArray_result (Z : Zlib) (t : AttrType) (enc : Option ArrEnc) {e : Type} (g : e → Bytes) (hg : ∀ x, g x ≠ []) (items : List (Except WErr e)) (w : Writer)
    (hok : (appendArray Z t enc (elemBytes g items) (onDevice w (fun _ => none))).1 = .ok ()) :
    allOk items = true ∧ ∀ f k x, (∀ i, i < k → f i = none) → f k = some x → (appendArray Z t enc (elemBytes g items) (onDevice w f)).1 =
      (match (ios 6 ++ (elementOps Z (enc.getD .direct) ((oks items).flatMap g) (oks items).length ++ ios 7))[k]? with | none => .ok () | some g => .err (g x.error)) := by
  rcases hr : appendArray Z t enc (elemBytes g items) (onDevice w (fun _ => none)) with ⟨r, w'⟩
  rw [hr] at hok
  simp only at hok
  subst hok
  have hne : ∀ bs, .ok bs ∈ elemBytes g items → bs ≠ [] := by
    intro bs hb
    obtain ⟨y, hy, hx⟩ := List.mem_map.mp hb
    cases y with
    | ok v => cases hx; exact hg v
    | error z => cases hx
  have hs := Shaped.array Z t enc _ hne w () w' hr
  have hall : allOk items = true := by
    obtain ⟨p, w1, -, h1⟩ := (M.bind_ok_iff _ _ _ _ _).mp hr
    obtain ⟨q, w2, -, h2⟩ := (M.bind_ok_iff _ _ _ _ _).mp h1
    obtain ⟨c, w3, h3, -⟩ := (M.bind_ok_iff _ _ _ _ _).mp h2
    rw [← allOk_elemBytes g]
    revert h3
    cases enc.getD .direct with
    | direct => exact fun h3 => elements_allOk _ _ _ _ _ h3
    | zlib =>
      intro h3
      obtain ⟨-, w4, -, h4⟩ := (M.bind_ok_iff _ _ _ _ _).mp h3
      obtain ⟨-, w5, -, h5⟩ := (M.bind_ok_iff _ _ _ _ _).mp h4
      obtain ⟨n, w6, h6, -⟩ := (M.bind_ok_iff _ _ _ _ _).mp h5
      cases hx : elementsResult (elemBytes g items) 0 with
      | error e => rw [hx] at h6; cases h6
      | ok n => exact result_allOk _ _ _ hx
  refine ⟨hall, fun f k x hb hk => ?_⟩
  rw [hs.result f k hb hk, okPrefix_elemBytes g items hall, oks_length items hall]
  simp only [elemBytes, List.length_map]

end Fbx
