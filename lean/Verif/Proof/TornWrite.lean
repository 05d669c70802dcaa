import Verif.Proof.Crash
import Verif.Proof.WriterForest
import Verif.Proof.TornRead
import Verif.Proof.EndMarkers

/-! # What is on the device when the writing stops inside the body -/

namespace Fbx.Writer
open Spec

/-- The device tears no field and has at least `L` bytes. -/
def Firm (L : Nat) (w : Writer) : Prop := wholeFields w.sink ∧ L ≤ w.sink.buf.length

section
variable {L : Nat}

theorem whole_later {s : Sink} (h : wholeFields s) {b : Bytes} {p : Nat} : wholeFields ⟨b, p, s.later⟩ := fun i k hk => h (i + 1) k hk

theorem store_len (buf : Bytes) (p : Nat) (bs : Bytes) : (Sink.store buf p bs).length = max (p + bs.length) buf.length := by
  simp [Sink.store, zeros]
  omega

theorem Firm.put (bs : Bytes) : Stay (Firm L) (put bs) (fun _ => True) := by
  intro w h
  refine ⟨?_, fun _ _ => trivial⟩
  obtain ⟨h1, h2⟩ := h
  rw [Writer.put, io_snd]
  simp only [Sink.writeAll]
  split
  · exact ⟨h1, h2⟩
  · split
    · refine ⟨whole_later h1, ?_⟩
      simp only
      split
      · exact h2
      · rw [store_len]; omega
    · split
      · refine ⟨whole_later h1, ?_⟩
        rw [store_len]; omega
      · exact ⟨whole_later h1, h2⟩

theorem Firm.seek (p : Nat) : Stay (Firm L) (io (Sink.seek p)) (fun _ => True) := by
  intro w h
  refine ⟨?_, fun _ _ => trivial⟩
  rw [io_snd]
  simp only [Sink.seek]
  split <;> exact ⟨whole_later h.1, h.2⟩

theorem Firm.tell : Stay (Firm L) (io Sink.tell) (fun _ => True) := by
  intro w h
  refine ⟨?_, fun _ _ => trivial⟩
  rw [io_snd]
  simp only [Sink.tell]
  split <;> exact ⟨whole_later h.1, h.2⟩

theorem Firm.modify (f : Writer → Writer) (hf : ∀ w, (f w).sink = w.sink) : Stay (Firm L) (M.modify f) (fun _ => True) := by
  intro w h
  refine ⟨?_, fun _ _ => trivial⟩
  show Firm L (f w)
  unfold Firm
  rw [hf]
  exact h

theorem top_sink (f : OpenNode → OpenNode) (w : Writer) : (modifyTop f w).sink = w.sink := by
  unfold modifyTop
  split <;> rfl

/-- Proves `Stay (Firm L)` by following the code. -/
macro "firm" : tactic => `(tactic| repeat' (first
  | assumption
  | with_reducible exact Stay.pure _ | with_reducible exact Stay.throw _ | with_reducible exact Stay.panic _
  | with_reducible exact Stay.assert _ _ | with_reducible exact Firm.tell | with_reducible exact Firm.seek _
  | with_reducible exact Firm.modify _ (top_sink _) | with_reducible exact Firm.modify _ (fun _ => rfl)
  | with_reducible exact Firm.put _ | with_reducible exact Stay.ofExcept _
  | with_reducible refine Stay.get (fun _ => ?_)
  | with_reducible refine Stay.bind (Q := fun _ => True) ?_ (fun _ _ => ?_)
  | with_reducible refine Stay.ite _ ?_ ?_
  | with_reducible refine Stay.mapErr _ ?_ | split))

theorem Firm.putU32 (n : Nat) (e : WErr) : Stay (Firm L) (putU32 n e) (fun _ => True) := by
  unfold Writer.putU32; firm
theorem Firm.writeNodeHeader (h : NodeHeader) : Stay (Firm L) (writeNodeHeader h) (fun _ => True) := by
  have := Firm.putU32 (L := L)
  unfold Writer.writeNodeHeader; firm <;> apply this
theorem Firm.finalizeAttributes : Stay (Firm L) finalizeAttributes (fun _ => True) := by
  unfold Writer.finalizeAttributes; firm
theorem Firm.updateNodeHeader : Stay (Firm L) updateNodeHeader (fun _ => True) := by
  unfold Writer.updateNodeHeader; firm
theorem Firm.writeArrHeader (h : ArrHeader) : Stay (Firm L) (writeArrHeader h) (fun _ => True) := by
  unfold Writer.writeArrHeader; firm
theorem Firm.writeElements (l : List (Except WErr Bytes)) : ∀ n, Stay (Firm L) (writeElements l n) (fun _ => True) := by
  induction l with
  | nil => intro n; unfold Writer.writeElements; firm
  | cons x xs ih =>
    intro n
    cases x <;> unfold Writer.writeElements
    · firm
    · exact Stay.bind (Firm.put _) (fun _ _ => ih _)
theorem Firm.copyChunks (e : Option IoErr) (l : List Bytes) : ∀ n, Stay (Firm L) (copyChunks e l n) (fun _ => True) := by
  induction l with
  | nil => intro n; unfold Writer.copyChunks; firm
  | cons x xs ih => intro n; exact Stay.bind (Firm.put _) (fun _ _ => ih _)
theorem Firm.putEach (l : List (Except WErr Byte)) : ∀ n, Stay (Firm L) (putEach l n) (fun _ => True) := by
  induction l with
  | nil => intro n; unfold Writer.putEach; firm
  | cons x xs ih =>
    intro n
    cases x <;> unfold Writer.putEach
    · firm
    · exact Stay.bind (Firm.put _) (fun _ _ => ih _)
theorem Firm.putChars (l : List (Except WErr Char)) : ∀ b n, Stay (Firm L) (putChars l b n) (fun _ => True) := by
  induction l with
  | nil => intro b n; unfold Writer.putChars; firm
  | cons x xs ih =>
    intro b n
    cases x <;> unfold Writer.putChars
    · firm
    · exact Stay.bind (Firm.put _) (fun _ _ => ih _ _)
theorem Firm.appendSingle (t : AttrType) (bs : Bytes) : Stay (Firm L) (appendSingle t bs) (fun _ => True) :=
  Stay.bind Firm.updateNodeHeader (fun _ _ => Stay.bind (Firm.put _) (fun _ _ => Firm.put _))
theorem Firm.initializeSpecial (t : AttrType) : Stay (Firm L) (initializeSpecial t) (fun _ => True) :=
  Stay.bind Firm.updateNodeHeader (fun _ _ => Stay.bind (Firm.put _) (fun _ _ => Stay.bind Firm.tell (fun p _ =>
    Stay.bind (Firm.put _) (fun _ _ => Stay.pure p))))
theorem Firm.finalizeSpecial (p l : Nat) : Stay (Firm L) (finalizeSpecial p l) (fun _ => True) := by
  unfold Writer.finalizeSpecial; firm
theorem Firm.appendDirect (t : AttrType) (bs : Bytes) : Stay (Firm L) (appendDirect t bs) (fun _ => True) :=
  Stay.bind (Firm.initializeSpecial t) (fun _ _ => Stay.bind (Firm.put _) (fun _ _ => Firm.finalizeSpecial _ _))
theorem Firm.initializeArray (t : AttrType) (e : ArrEnc) : Stay (Firm L) (initializeArray t e) (fun _ => True) :=
  Stay.bind Firm.updateNodeHeader (fun _ _ => Stay.bind (Firm.put _) (fun _ _ => Stay.bind Firm.tell (fun p _ =>
    Stay.bind (Firm.writeArrHeader _) (fun _ _ => Stay.pure p))))
theorem Firm.finalizeArray (p : Nat) (h : ArrHeader) : Stay (Firm L) (finalizeArray p h) (fun _ => True) :=
  Stay.bind Firm.tell (fun _ _ => Stay.bind (Firm.seek p) (fun _ _ => Stay.bind (Firm.writeArrHeader h) (fun _ _ => Firm.seek _)))
theorem Firm.writeArrayElements (Z : Zlib) (e : ArrEnc) (items : List (Except WErr Bytes)) :
    Stay (Firm L) (writeArrayElements Z e items) (fun _ => True) := by
  cases e
  · exact Firm.writeElements _ _
  · show Stay _ (writeElementsZlib Z items) _
    unfold writeElementsZlib; firm
theorem Firm.appendArray (Z : Zlib) (t : AttrType) (e : Option ArrEnc) (items : List (Except WErr Bytes)) :
    Stay (Firm L) (appendArray Z t e items) (fun _ => True) := by
  unfold Writer.appendArray
  refine Stay.bind (Firm.initializeArray t _) (fun p _ => Stay.bind Firm.tell (fun _ _ =>
    Stay.bind (Firm.writeArrayElements Z _ items) (fun _ _ => Stay.bind Firm.tell (fun _ _ => ?_))))
  exact Stay.ite _ (Firm.finalizeArray _ _) (Stay.throw _)
theorem Firm.append (Z : Zlib) (a : Append) : Stay (Firm L) (append Z a) (fun _ => True) := by
  cases a with
  | bool | i16 | i32 | i64 | f32 | f64 => exact Firm.appendSingle _ _
  | arrBool | arrI32 | arrI64 | arrF32 | arrF64 => exact Firm.appendArray _ _ _ _
  | binary | string => exact Firm.appendDirect _ _
  | binaryReader c e =>
    exact Stay.bind (Firm.initializeSpecial _) (fun _ _ => Stay.bind (Firm.copyChunks _ _ _) (fun _ _ => Firm.finalizeSpecial _ _))
  | binaryIter items =>
    exact Stay.bind (Firm.initializeSpecial _) (fun _ _ => Stay.bind (Firm.putEach _ _) (fun _ _ => Firm.finalizeSpecial _ _))
  | stringIter items =>
    exact Stay.bind (Firm.initializeSpecial _) (fun _ _ => Stay.bind (Firm.putChars _ _ _) (fun _ _ => Firm.finalizeSpecial _ _))
theorem Firm.newNode (name : String) : Stay (Firm L) (newNode name) (fun _ => True) := by
  have hw := Firm.writeNodeHeader (L := L)
  have hf := Firm.finalizeAttributes (L := L)
  unfold Writer.newNode
  firm <;> apply hw
theorem Firm.closeNode : Stay (Firm L) closeNode (fun _ => True) := by
  have hw := Firm.writeNodeHeader (L := L)
  have hf := Firm.finalizeAttributes (L := L)
  unfold Writer.closeNode
  firm <;> apply hw
theorem Firm.exec (Z : Zlib) (o : Op) : Stay (Firm L) (exec Z o) (fun _ => True) := by
  cases o with
  | newNode name => exact Firm.newNode name
  | closeNode => exact Firm.closeNode
  | append a => exact Firm.append Z a
theorem Firm.run (Z : Zlib) (ops : List Op) : Stay (Firm L) (run Z ops) (fun _ => True) := by
  induction ops with
  | nil => exact Stay.pure _
  | cons o os ih => exact Stay.bind (Firm.exec Z o) (fun _ _ => ih)
end

/-! ## Rewriting a header -/

/-- The writes stay inside the device. -/
def Inside {α : Type} (k : Nat) (m : M WErr Writer α) : Prop :=
  ∀ w, w.sink.pos + k ≤ w.sink.buf.length → (m w).2.sink.buf.length = w.sink.buf.length ∧ (m w).2.sink.pos ≤ w.sink.pos + k ∧
    (m w).2.sink.buf.take w.sink.pos = w.sink.buf.take w.sink.pos ∧ w.sink.pos ≤ (m w).2.sink.pos

theorem Inside.bind {α β : Type} {a b : Nat} {m : M WErr Writer α} {f : α → M WErr Writer β} (hm : Inside a m) (hf : ∀ x, Inside b (f x)) :
    Inside (a + b) (m >>= f) := by
  intro w hw
  obtain ⟨h1, h2, h3, h4⟩ := hm w (by omega)
  rw [M.bind_apply]
  rcases hr : m w with ⟨r, w1⟩
  rw [hr] at h1 h2 h3 h4
  simp only at h1 h2 h3 h4
  cases r with
  | err e => exact ⟨h1, by simp only; omega, h3, h4⟩
  | panic e => exact ⟨h1, by simp only; omega, h3, h4⟩
  | ok x =>
    obtain ⟨k1, k2, k3, k4⟩ := hf x w1 (by omega)
    refine ⟨k1.trans h1, by simp only; omega, ?_, by simp only; omega⟩
    have := congrArg (List.take w.sink.pos) k3
    rw [List.take_take, List.take_take, show min w.sink.pos w1.sink.pos = w.sink.pos by omega] at this
    exact this.trans h3

theorem Inside.put (bs : Bytes) : Inside bs.length (put bs) := by
  intro w hw
  rw [Writer.put, io_snd]
  simp only [Sink.writeAll]
  split
  · exact ⟨rfl, Nat.le_add_right _ _, rfl, Nat.le_refl _⟩
  · split
    · rename_i k _
      have hk : (bs.take k.stored).length ≤ bs.length := List.length_take_le' _ _
      refine ⟨?_, by simp only; omega, ?_, Nat.le_add_right _ _⟩
      · simp only
        split
        · rfl
        · rw [store_len]; omega
      · simp only
        split
        · rfl
        · exact store_take _ (Nat.le_refl _) (by omega)
    · split
      · refine ⟨?_, Nat.le_refl _, ?_, Nat.le_add_right _ _⟩
        · rw [store_len]; omega
        · exact store_take _ (Nat.le_refl _) (by omega)
      · exact ⟨rfl, Nat.le_add_right _ _, rfl, Nat.le_refl _⟩

theorem Inside.putU32 (n : Nat) (e : WErr) : Inside 4 (putU32 n e) := by
  unfold Writer.putU32
  split
  · have := Inside.put (leBytes 4 n)
    rwa [leBytes_length] at this
  · exact fun w hw => ⟨rfl, Nat.le_add_right _ _, rfl, Nat.le_refl _⟩

/-- The first field is written as a whole or not at all. -/
theorem put_whole {w : Writer} (hw : wholeFields w.sink) (bs : Bytes) (h1 : bs.length ≤ 8) (h2 : w.sink.pos + bs.length ≤ w.sink.buf.length) (h3 : bs ≠ []) :
    ((put bs w).2.sink.buf = w.sink.buf ∧ ∀ a, (put bs w).1 ≠ .ok a) ∨
      ((put bs w).2.sink.buf.take (w.sink.pos + bs.length) = w.sink.buf.take w.sink.pos ++ bs ∧ (put bs w).2.sink.pos = w.sink.pos + bs.length) := by
  have hst : (Sink.store w.sink.buf w.sink.pos bs).take (w.sink.pos + bs.length) = w.sink.buf.take w.sink.pos ++ bs := by
    rw [Sink.store, List.take_append_of_le_length (l₁ := List.take w.sink.pos _ ++ bs) (by simp; omega), List.take_of_length_le (by simp; omega),
      List.take_append_of_le_length (by omega)]
  cases hf : w.sink.fault 0 with
  | some k =>
    rcases hw 0 k hf with h0 | hk
    · left
      constructor
      · rw [Writer.put, io_snd]; simp [Sink.writeAll, h3, hf, h0]
      · intro a; simp [Writer.put, Writer.io, M.mapErr_apply, M.zoom_apply, Sink.writeAll, h3, hf]
    · right
      rw [Writer.put, io_snd]
      have : bs.take k.stored = bs := List.take_of_length_le (by omega)
      simp only [Sink.writeAll, h3, if_false, hf, this]
      exact ⟨hst, trivial⟩
  | none =>
    by_cases hlt : w.sink.pos + bs.length < 2 ^ 64
    · right
      rw [Writer.put, io_snd]
      simp only [Sink.writeAll, h3, if_false, hf, hlt, if_true]
      exact ⟨hst, trivial⟩
    · left
      constructor
      · rw [Writer.put, io_snd]; simp only [Sink.writeAll, h3, if_false, hf, hlt]
      · intro a; simp [Writer.put, Writer.io, M.mapErr_apply, M.zoom_apply, Sink.writeAll, h3, hf, hlt]

/-- A header over existing bytes: nothing has changed, or its first field is there. -/
theorem rewrite_header {w : Writer} (hw : wholeFields w.sink) (h : NodeHeader) (hl : w.sink.pos + headerSize w.version.toNat ≤ w.sink.buf.length) :
    (writeNodeHeader h w).2.sink.buf.length = w.sink.buf.length ∧
    (((writeNodeHeader h w).2.sink.buf = w.sink.buf ∧ ∀ a, (writeNodeHeader h w).1 ≠ .ok a) ∨
      ((h.endOffset < 2 ^ 64 → h.endOffset < 256 ^ width w.version.toNat) ∧
        (writeNodeHeader h w).2.sink.buf.take (w.sink.pos + width w.version.toNat) = w.sink.buf.take w.sink.pos ++ leBytes (width w.version.toNat) h.endOffset)) := by
  have hv : (w.version < 7500) ↔ w.version.toNat < 7500 := UInt32.lt_iff_toNat_lt
  -- the first field, then the rest
  have key : ∀ (width : Nat) (first : M WErr Writer Unit) (rest : Unit → M WErr Writer Unit), w.sink.pos + (3 * width + 1) ≤ w.sink.buf.length →
      (((first w).2.sink.buf = w.sink.buf ∧ ∀ a, (first w).1 ≠ .ok a) ∨
        ((first w).2.sink.buf.take (w.sink.pos + width) = w.sink.buf.take w.sink.pos ++ leBytes width h.endOffset ∧ (first w).2.sink.pos = w.sink.pos + width)) →
      Inside width first → (∀ u, Inside (2 * width + 1) (rest u)) →
      ((first >>= rest) w).2.sink.buf.length = w.sink.buf.length ∧
      ((((first >>= rest) w).2.sink.buf = w.sink.buf ∧ ∀ a, ((first >>= rest) w).1 ≠ .ok a) ∨
        ((first >>= rest) w).2.sink.buf.take (w.sink.pos + width) = w.sink.buf.take w.sink.pos ++ leBytes width h.endOffset) := by
    intro width first rest hl h1 h2 h3
    refine ⟨((h2.bind h3) w (by omega)).1, ?_⟩
    obtain ⟨i1, -, -, -⟩ := h2 w (by omega)
    rw [M.bind_apply]
    rcases hr : first w with ⟨r, w1⟩
    rw [hr] at h1 i1
    simp only at h1 i1
    cases r with
    | err e => rcases h1 with h1 | h1
               · exact .inl ⟨h1.1, fun a ha => by cases ha⟩
               · exact .inr h1.1
    | panic e => rcases h1 with h1 | h1
                 · exact .inl ⟨h1.1, fun a ha => by cases ha⟩
                 · exact .inr h1.1
    | ok u =>
      rcases h1 with h1 | h1
      · exact absurd rfl (h1.2 u)
      · right
        obtain ⟨-, -, j, -⟩ := h3 u w1 (by rw [i1, h1.2]; omega)
        rw [h1.2] at j
        exact j.trans h1.1
  unfold Writer.writeNodeHeader
  rw [M.get_bind]
  by_cases h75 : w.version < 7500
  · rw [if_pos h75]
    have hwd : width w.version.toNat = 4 := by rw [width, if_pos (hv.mp h75)]
    have hsz : headerSize w.version.toNat = 3 * 4 + 1 := by rw [headerSize, hwd]
    rw [hwd]
    rw [hsz] at hl
    have hput := put_whole hw (leBytes 4 h.endOffset) (by simp) (by simp; omega) (by intro h0; have := congrArg List.length h0; simp at this)
    rw [leBytes_length] at hput
    have hrest : ∀ u : Unit, Inside (2 * 4 + 1) ((fun _ => do
        putU32 h.numAttrs (.tooManyAttributes h.numAttrs)
        putU32 h.bytelenAttrs (.attributeTooLong h.bytelenAttrs)
        put (leBytes 1 h.nameLen)) u) := by
      intro u
      refine Inside.bind (a := 4) (b := 5) (Inside.putU32 _ _) (fun _ => Inside.bind (a := 4) (b := 1) (Inside.putU32 _ _) (fun _ => ?_))
      have := Inside.put (leBytes 1 h.nameLen)
      rwa [leBytes_length] at this
    by_cases hlt : h.endOffset < 2 ^ 32
    · have := key 4 (putU32 h.endOffset (.fileTooLarge h.endOffset)) (fun _ => do
        putU32 h.numAttrs (.tooManyAttributes h.numAttrs)
        putU32 h.bytelenAttrs (.attributeTooLong h.bytelenAttrs)
        put (leBytes 1 h.nameLen)) hl (by rw [putU32, if_pos hlt]; exact hput) (Inside.putU32 _ _) hrest
      exact ⟨this.1, this.2.imp id fun x => ⟨fun _ => by omega, x⟩⟩
    · have := key 4 (putU32 h.endOffset (.fileTooLarge h.endOffset)) (fun _ => do
        putU32 h.numAttrs (.tooManyAttributes h.numAttrs)
        putU32 h.bytelenAttrs (.attributeTooLong h.bytelenAttrs)
        put (leBytes 1 h.nameLen)) hl (by rw [putU32, if_neg hlt]; exact .inl ⟨rfl, fun a ha => by cases ha⟩) (Inside.putU32 _ _) hrest
      refine ⟨this.1, .inl ?_⟩
      rw [putU32, if_neg hlt]
      exact ⟨rfl, fun a ha => by cases ha⟩
  · rw [if_neg h75]
    have hwd : width w.version.toNat = 8 := by rw [width, if_neg (fun h0 => h75 (hv.mpr h0))]
    have hsz : headerSize w.version.toNat = 3 * 8 + 1 := by rw [headerSize, hwd]
    rw [hwd]
    rw [hsz] at hl
    have hput := put_whole hw (leBytes 8 h.endOffset) (by simp) (by simp; omega) (by intro h0; have := congrArg List.length h0; simp at this)
    rw [leBytes_length] at hput
    have hP : ∀ k n, Inside k (put (leBytes k n)) := fun k n => by
      have := Inside.put (leBytes k n)
      rwa [leBytes_length] at this
    have := key 8 (put (leBytes 8 h.endOffset)) (fun _ => do
        put (leBytes 8 h.numAttrs)
        put (leBytes 8 h.bytelenAttrs)
        put (leBytes 1 h.nameLen)) hl hput (hP 8 _) (fun _ => Inside.bind (a := 8) (b := 9) (hP 8 _) (fun _ => Inside.bind (a := 8) (b := 1) (hP 8 _) (fun _ => hP 1 _)))
    exact ⟨this.1, this.2.imp id fun x => ⟨fun _ => by omega, x⟩⟩

/-! ## Closing a node -/

/-- `close_node` after the marker. -/
def closeTail (n : OpenNode) : M WErr Writer Unit := do
  let endPos ← io Sink.tell
  io (Sink.seek n.headerPos)
  M.assert ((n.header.numAttrs == 0) == (n.header.bytelenAttrs == 0)) .attrLenAssert
  writeNodeHeader { n.header with endOffset := endPos }
  io (Sink.seek endPos)

/-- Nothing has changed, or the header at `hp` gives the length of the device as the end of its node. -/
def Sealed (hp : Nat) (w w' : Writer) (r : Res WErr Unit) : Prop :=
  (w'.sink.buf = w.sink.buf ∧ ∀ a, r ≠ .ok a) ∨
  (w'.sink.buf.length = w.sink.buf.length ∧ (w.sink.buf.length < 2 ^ 64 → w.sink.buf.length < 256 ^ width w.version.toNat) ∧
    w'.sink.buf.take (hp + width w.version.toNat) = w.sink.buf.take hp ++ leBytes (width w.version.toNat) w.sink.buf.length ∧
    ∀ a, r = .ok a → AtEnd w')

theorem closeTail_sealed {w : Writer} (hw : AtEnd w) (hf : wholeFields w.sink) (n : OpenNode)
    (hn : n.headerPos + headerSize w.version.toNat ≤ w.sink.buf.length) : Sealed n.headerPos w (closeTail n w).2 (closeTail n w).1 := by
  have quiet : ∀ (w' : Writer) (r : Res WErr Unit), w'.sink.buf = w.sink.buf → (∀ a, r ≠ .ok a) → Sealed n.headerPos w w' r :=
    fun w' r h1 h2 => .inl ⟨h1, h2⟩
  obtain ⟨⟨buf, pos, fault⟩, v, o⟩ := w
  have hpos : pos = buf.length := hw
  subst hpos
  unfold closeTail
  rw [M.bind_apply]
  cases h0 : fault 0 with
  | some k =>
    simp only [io, M.mapErr_apply, M.zoom_apply, Sink.tell, h0]
    exact quiet _ _ rfl (fun a ha => by cases ha)
  | none =>
    simp only [io, M.mapErr_apply, M.zoom_apply, Sink.tell, h0, M.bind_apply, Sink.seek, Sink.later]
    cases h1 : fault (0 + 1) with
    | some k =>
      simp only
      exact quiet _ _ rfl (fun a ha => by cases ha)
    | none =>
      simp only
      cases ha : ((n.header.numAttrs == 0) == (n.header.bytelenAttrs == 0)) with
      | false =>
        simp only [M.assert, Bool.false_eq_true, if_false, M.panic_apply]
        exact quiet _ _ rfl (fun a ha => by cases ha)
      | true =>
        simp only [M.assert, if_true, M.pure]
        generalize hh : ({ n.header with endOffset := buf.length } : NodeHeader) = hd
        have hend : hd.endOffset = buf.length := by rw [← hh]
        obtain ⟨g1, g2⟩ := rewrite_header (w := ⟨⟨buf, n.headerPos, Sink.later ⟨buf, buf.length, Sink.later ⟨buf, buf.length, fault⟩⟩⟩, v, o⟩) (fun i k hk => hf (i + 1 + 1) k hk) hd hn
        rw [hend] at g2
        rcases hr : Writer.writeNodeHeader hd ⟨⟨buf, n.headerPos, Sink.later ⟨buf, buf.length, Sink.later ⟨buf, buf.length, fault⟩⟩⟩, v, o⟩ with ⟨r, w1⟩
        rw [hr] at g1 g2
        simp only at g1 g2
        cases r with
        | err e =>
          simp only
          rcases g2 with g2 | g2
          · exact .inl ⟨g2.1, fun a ha => by cases ha⟩
          · exact .inr ⟨g1, g2.1, g2.2, fun a ha => by cases ha⟩
        | panic e =>
          simp only
          rcases g2 with g2 | g2
          · exact .inl ⟨g2.1, fun a ha => by cases ha⟩
          · exact .inr ⟨g1, g2.1, g2.2, fun a ha => by cases ha⟩
        | ok u =>
          rcases g2 with g2 | g2
          · exact absurd rfl (g2.2 u)
          · simp only
            cases h2 : w1.sink.fault 0 with
            | some k => exact .inr ⟨g1, g2.1, g2.2, fun a ha => by cases ha⟩
            | none => exact .inr ⟨g1, g2.1, g2.2, fun a _ => g1.symm⟩

theorem finalizeAttributes_quiet (w : Writer) : (finalizeAttributes w).2.sink.buf = w.sink.buf ∧ (finalizeAttributes w).2.sink.pos = w.sink.pos ∧
    (finalizeAttributes w).2.version = w.version := by
  refine ⟨?_, ?_, (Keeps.finalizeAttributes.keep w).2⟩
  all_goals
    unfold finalizeAttributes
    rw [M.get_bind]
    obtain ⟨⟨buf, pos, fault⟩, v, o⟩ := w
    cases o with
    | nil => rfl
    | cons n o =>
      simp only
      split
      · rfl
      · cases h0 : fault 0 with
        | some k => simp only [M.bind_apply, io, M.mapErr_apply, M.zoom_apply, Sink.tell, h0]
        | none =>
          simp only [M.bind_apply, io, M.mapErr_apply, M.zoom_apply, Sink.tell, h0]
          by_cases hb : n.bodyPos ≤ pos
          · simp [M.assert, hb, M.pure, M.modify_apply, modifyTop]
          · simp [M.assert, hb, M.panic_apply]

/-- `close_node` at the end of the device. -/
theorem closeNode_sealed {w : Writer} (hw : AtEnd w) (hf : wholeFields w.sink) {n : OpenNode} {o : List OpenNode} (ho : w.opened = n :: o)
    (hn : n.headerPos + headerSize w.version.toNat ≤ w.sink.buf.length) :
    ∃ w1 : Writer, (∃ x, w1.sink.buf = w.sink.buf ++ x) ∧ w1.version = w.version ∧ Sealed n.headerPos w1 (closeNode w).2 (closeNode w).1 := by
  obtain ⟨q1, q2, q3⟩ := finalizeAttributes_quiet w
  have qf := (Firm.finalizeAttributes (L := 0) w ⟨hf, Nat.zero_le _⟩).1.1
  rw [closeNode_eq, M.bind_apply]
  rcases hr : finalizeAttributes w with ⟨r, w1⟩
  rw [hr] at q1 q2 q3 qf
  simp only at q1 q2 q3 qf
  cases r with
  | err e => exact ⟨w, ⟨[], by simp⟩, rfl, .inl ⟨q1, fun a ha => by cases ha⟩⟩
  | panic e => exact ⟨w, ⟨[], by simp⟩, rfl, .inl ⟨q1, fun a ha => by cases ha⟩⟩
  | ok u =>
    have h1 := (finalizeAttributes_opened w w1 u hr).1
    rw [ho] at h1
    simp only [M.get_bind, h1, finTop, M.modify_bind]
    have hfin : (fin w.sink.pos n).headerPos = n.headerPos := by unfold fin; split <;> rfl
    generalize fin w.sink.pos n = m at *
    rw [← hfin] at hn ⊢
    have a1 : AtEnd { w1 with opened := o } := by show w1.sink.pos = w1.sink.buf.length; rw [q1, q2]; exact hw
    show ∃ w2 : Writer, _ ∧ _ ∧ Sealed m.headerPos w2 (closeRest m { w1 with opened := o }).2 (closeRest m { w1 with opened := o }).1
    have tail : ∀ w2 : Writer, AtEnd w2 → wholeFields w2.sink → (∃ x, w2.sink.buf = w.sink.buf ++ x) → w2.version = w.version →
        Sealed m.headerPos w2 (closeTail m w2).2 (closeTail m w2).1 := by
      intro w2 b1 b2 ⟨x, b3⟩ b4
      refine closeTail_sealed b1 b2 m ?_
      rw [b3, b4, List.length_append]
      omega
    by_cases hc : m.hasChild ∨ m.header.numAttrs = 0
    · have e : closeRest m = (writeNodeHeader NodeHeader.nodeEnd >>= fun _ => closeTail m) := by
        unfold closeRest
        rw [if_pos hc]
        rfl
      rw [e, M.bind_apply]
      obtain ⟨x, -, e2, e3, e4, -⟩ := Extends.writeNodeHeader a1 NodeHeader.nodeEnd
      have ef := (Firm.writeNodeHeader (L := 0) NodeHeader.nodeEnd { w1 with opened := o } ⟨qf, Nat.zero_le _⟩).1.1
      rcases hr2 : Writer.writeNodeHeader NodeHeader.nodeEnd { w1 with opened := o } with ⟨r, w2⟩
      rw [hr2] at e2 e3 e4 ef
      simp only at e2 e3 e4 ef
      rw [q1] at e2
      cases r with
      | err e => exact ⟨w2, ⟨x, e2⟩, e4.trans q3, .inl ⟨rfl, fun a ha => by cases ha⟩⟩
      | panic e => exact ⟨w2, ⟨x, e2⟩, e4.trans q3, .inl ⟨rfl, fun a ha => by cases ha⟩⟩
      | ok u => exact ⟨w2, ⟨x, e2⟩, e4.trans q3, tail w2 e3 ef ⟨x, e2⟩ (e4.trans q3)⟩
    · have e : closeRest m = closeTail m := by
        unfold closeRest
        rw [if_neg hc]
        rfl
      rw [e]
      exact ⟨_, ⟨[], by simpa using q1⟩, q3, tail _ a1 qf ⟨[], by simpa using q1⟩ q3⟩

/-- `new_node` at the end of the device. -/
theorem newNode_extends' {w : Writer} (hw : AtEnd w) (name : String) :
    Extends w (newNode name) (header w.version.toNat 0 0 0 (utf8 name).length ++ utf8 name) := by
  obtain ⟨q1, q2, q3⟩ := finalizeAttributes_quiet w
  have hq : Extends w finalizeAttributes [] := Extends.quiet hw q1 q2 q3
  have hm : ∀ w1, AtEnd w1 → Extends w1 (M.modify (modifyTop (fun n => { n with hasChild := true })) : M WErr Writer Unit) [] := by
    intro w1 h1
    have : ∀ f : OpenNode → OpenNode, (modifyTop f w1).sink = w1.sink ∧ (modifyTop f w1).version = w1.version := by
      intro f; unfold modifyTop; split <;> exact ⟨rfl, rfl⟩
    refine Extends.quiet h1 ?_ ?_ ?_
    · show (modifyTop _ w1).sink.buf = _; rw [(this _).1]
    · show (modifyTop _ w1).sink.pos = _; rw [(this _).1]
    · exact (this _).2
  have := Extends.bind (f := fun _ => do
      M.modify (modifyTop (fun n => { n with hasChild := true }))
      let len := (strBytes name).length
      if len < 256 then do
        let headerPos ← io Sink.tell
        let header : NodeHeader := ⟨0, 0, 0, len⟩
        writeNodeHeader header
        put (strBytes name)
        let bodyPos ← io Sink.tell
        M.modify (fun w => { w with opened := ⟨headerPos, bodyPos, header, false, false⟩ :: w.opened })
      else M.throw (.nodeNameTooLong len))
    (C := header w.version.toNat 0 0 0 (utf8 name).length ++ utf8 name) hq (fun _ w1 _ _ a1 v1 => by
      refine Extends.bind (B := []) (C := header w.version.toNat 0 0 0 (utf8 name).length ++ utf8 name) (hm w1 a1) fun _ w2 _ _ a2 v2 => ?_
      by_cases hl : (strBytes name).length < 256
      · simp only
        rw [if_pos hl]
        have := Extends.bind (Extends.tell a2) (f := fun headerPos => do
          let header : NodeHeader := ⟨0, 0, 0, (strBytes name).length⟩
          writeNodeHeader header
          put (strBytes name)
          let bodyPos ← io Sink.tell
          M.modify (fun w => { w with opened := ⟨headerPos, bodyPos, header, false, false⟩ :: w.opened }))
          (C := header w.version.toNat 0 0 0 (strBytes name).length ++ (strBytes name ++ ([] ++ [])))
          (fun p w3 h1 _ a1' v1' => Extends.bind (by
              rw [← v1, ← v2, ← v1']
              exact Extends.writeNodeHeader a1' ⟨0, 0, 0, (strBytes name).length⟩)
            fun _ w2 h2 _ a2 v2 => Extends.bind (Extends.put a2 _) fun _ w3 h3 _ a3 v3 => Extends.bind (Extends.tell a3)
              fun q w4 h4 _ a4 v4 => Extends.quiet a4 rfl rfl rfl)
        simp only [List.nil_append, List.append_nil] at this
        exact this
      · simp only
        rw [if_neg hl]
        exact ⟨[], List.nil_prefix, (List.append_nil _).symm, a2, rfl, fun _ h => by cases h⟩)
  exact this

end Fbx.Writer
