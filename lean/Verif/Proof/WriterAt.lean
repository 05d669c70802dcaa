import Verif.Proof.Monad
import Verif.Proof.Basic
import Verif.Model.Writer
import Verif.Spec.Layout

/-! # The writer on a fault-free sink, positioned inside its buffer -/

namespace Fbx.Writer
open Spec

/-- Fault-free writer whose sink holds `pre ++ post`, positioned after `pre`. -/
def At (v : FbxVersion) (pre post : Bytes) (o : List OpenNode) : Writer :=
  ⟨⟨pre ++ post, pre.length, fun _ => none⟩, v, o⟩

/-- The device has room for `bs` after `pre`. -/
def Room (pre bs : Bytes) : Prop := bs = [] ∨ pre.length + bs.length < 2 ^ 64

theorem Room.append (pre a b : Bytes) : Room pre (a ++ b) ↔ Room pre a ∧ Room (pre ++ a) b := by
  simp only [Room, List.append_eq_nil_iff, List.length_append]
  by_cases ha : a = []
  · subst ha; simp
  · by_cases hb : b = []
    · subst hb; simp [ha]
    · simp only [ha, hb, false_and, false_or]; omega

theorem later_none (b : Bytes) (p : Nat) : Sink.later ⟨b, p, fun _ => none⟩ = fun _ => none := rfl

theorem store_at (pre post bs : Bytes) :
    Sink.store (pre ++ post) pre.length bs = pre ++ bs ++ post.drop bs.length := by
  have h : pre.length - (pre ++ post).length = 0 := by simp
  simp only [Sink.store, h, zeros, List.replicate_zero, List.append_nil]
  rw [List.take_append_of_le_length (Nat.le_refl _), List.take_length, List.drop_append]
  simp

theorem put_ok_iff (v : FbxVersion) (pre post bs : Bytes) (o : List OpenNode) (u : Unit) (w' : Writer) :
    put bs (At v pre post o) = (.ok u, w') ↔
      Room pre bs ∧ w' = At v (pre ++ bs) (post.drop bs.length) o := by
  simp only [put, io, M.mapErr_ok_iff, M.zoom_ok_iff, At, Room, Sink.writeAll]
  by_cases hb : bs = []
  · subst hb; simp [eq_comm]
  · by_cases hr : pre.length + bs.length < 2 ^ 64
    · simp only [hb, hr, ite_true, ite_false, store_at, Prod.mk.injEq, true_and, false_or]
      constructor
      · rintro ⟨t', rfl, rfl⟩; simp [later_none]
      · rintro rfl; exact ⟨_, rfl, by simp [later_none]⟩
    · simp [hb, hr]

theorem tell_ok_iff (v : FbxVersion) (pre post : Bytes) (o : List OpenNode) (n : Nat) (w' : Writer) :
    io Sink.tell (At v pre post o) = (.ok n, w') ↔ n = pre.length ∧ w' = At v pre post o := by
  simp only [io, M.mapErr_ok_iff, M.zoom_ok_iff, At, Sink.tell, Prod.mk.injEq, Res.ok.injEq]
  constructor
  · rintro ⟨t', ⟨rfl, rfl⟩, rfl⟩; simp [later_none]
  · rintro ⟨rfl, rfl⟩; exact ⟨_, ⟨rfl, rfl⟩, rfl⟩

theorem seek_back_ok_iff (v : FbxVersion) (a b post : Bytes) (o : List OpenNode) (p : Nat) (hp : p = a.length)
    (u : Unit) (w' : Writer) :
    io (Sink.seek p) (At v (a ++ b) post o) = (.ok u, w') ↔ w' = At v a (b ++ post) o := by
  subst hp
  simp only [io, M.mapErr_ok_iff, M.zoom_ok_iff, At, Sink.seek, Prod.mk.injEq, true_and]
  constructor
  · rintro ⟨t', rfl, rfl⟩; simp [later_none]
  · rintro rfl; exact ⟨_, rfl, by simp [later_none]⟩

theorem seek_fwd_ok_iff (v : FbxVersion) (a b post : Bytes) (o : List OpenNode) (p : Nat)
    (hp : p = a.length + b.length) (u : Unit) (w' : Writer) :
    io (Sink.seek p) (At v a (b ++ post) o) = (.ok u, w') ↔ w' = At v (a ++ b) post o := by
  subst hp
  simp only [io, M.mapErr_ok_iff, M.zoom_ok_iff, At, Sink.seek, Prod.mk.injEq, true_and]
  constructor
  · rintro ⟨t', rfl, rfl⟩; simp [later_none]
  · rintro rfl; exact ⟨_, rfl, by simp [later_none]⟩

theorem putU32_ok_iff (v : FbxVersion) (pre post : Bytes) (o : List OpenNode) (n : Nat) (e : WErr) (u : Unit)
    (w' : Writer) :
    putU32 n e (At v pre post o) = (.ok u, w') ↔
      n < 2 ^ 32 ∧ Room pre (leBytes 4 n) ∧ w' = At v (pre ++ leBytes 4 n) (post.drop 4) o := by
  simp only [putU32]
  by_cases h : n < 2 ^ 32 <;> simp [h, put_ok_iff]

theorem put_bind {β : Type} (v : FbxVersion) (pre post bs : Bytes) (o : List OpenNode) (f : Unit → M WErr Writer β)
    (b : β) (w' : Writer) :
    (put bs >>= f) (At v pre post o) = (.ok b, w') ↔
      Room pre bs ∧ f () (At v (pre ++ bs) (post.drop bs.length) o) = (.ok b, w') :=
  M.bind_of_unit (fun u s' => put_ok_iff v pre post bs o u s') f b w'

theorem putU32_bind {β : Type} (v : FbxVersion) (pre post : Bytes) (o : List OpenNode) (n : Nat) (e : WErr)
    (f : Unit → M WErr Writer β) (b : β) (w' : Writer) :
    (putU32 n e >>= f) (At v pre post o) = (.ok b, w') ↔
      n < 2 ^ 32 ∧ Room pre (leBytes 4 n) ∧ f () (At v (pre ++ leBytes 4 n) (post.drop 4) o) = (.ok b, w') := by
  rw [M.bind_of_unit (fun u s' => (putU32_ok_iff v pre post o n e u s').trans and_assoc.symm), and_assoc]

theorem tell_bind {β : Type} (v : FbxVersion) (pre post : Bytes) (o : List OpenNode) (f : Nat → M WErr Writer β)
    (b : β) (w' : Writer) :
    (io Sink.tell >>= f) (At v pre post o) = (.ok b, w') ↔ f pre.length (At v pre post o) = (.ok b, w') := by
  rw [M.bind_of (C := True) (fun a s' => (tell_ok_iff v pre post o a s').trans (true_and _).symm.to_iff)]
  simp

/-! ## Spec helpers agree with model helpers -/

theorem le_eq (k n : Nat) : le k n = leBytes k n := by
  simp only [le]
  induction k generalizing n with
  | zero => rfl
  | succ k ih =>
    rw [leBytes, ← ih, List.range_succ_eq_map]
    simp only [List.map_cons, Nat.pow_zero, Nat.div_one, List.map_map]
    congr 1
    apply List.map_congr_left
    intro i _
    simp only [Function.comp, Nat.succ_eq_add_one, Nat.pow_succ]
    rw [Nat.mul_comm, Nat.div_div_eq_div_mul]

@[simp] theorem le_length (k n : Nat) : (le k n).length = k := by simp [le]

theorem utf8_eq (s : String) : utf8 s = strBytes s := rfl

@[simp] theorem header_length (v a b c d : Nat) : (header v a b c d).length = headerSize v := by
  simp [header, headerSize]; omega

@[simp] theorem marker_length (v : Nat) : (marker v).length = headerSize v := by simp [marker]

theorem marker_eq (v : Nat) : marker v = header v 0 0 0 0 := by
  simp only [marker, header, le_eq, leBytes_zero, zeros, headerSize, List.replicate_append_replicate]
  congr 1
  omega

theorem headerSize_pos (v : Nat) : 0 < headerSize v := by simp [headerSize]

/-- The fields of a header fit. -/
def HeaderFits (v : Nat) (eo na ba : Nat) : Prop := v < 7500 → eo < 2 ^ 32 ∧ na < 2 ^ 32 ∧ ba < 2 ^ 32

theorem writeNodeHeader_ok_iff (v : FbxVersion) (pre post : Bytes) (o : List OpenNode) (h : NodeHeader) (u : Unit)
    (w' : Writer) :
    writeNodeHeader h (At v pre post o) = (.ok u, w') ↔
      HeaderFits v.toNat h.endOffset h.numAttrs h.bytelenAttrs ∧
      Room pre (header v.toNat h.endOffset h.numAttrs h.bytelenAttrs h.nameLen) ∧
      w' = At v (pre ++ header v.toNat h.endOffset h.numAttrs h.bytelenAttrs h.nameLen)
        (post.drop (headerSize v.toNat)) o := by
  have hv : (At v pre post o).version = v := rfl
  have h75 : (7500 : UInt32).toNat = 7500 := rfl
  simp only [writeNodeHeader, M.get_bind, hv, UInt32.lt_iff_toNat_lt, HeaderFits, header, headerSize, width, h75]
  by_cases hlt : v.toNat < 7500
  · simp only [hlt, if_true, putU32_bind, put_ok_iff, true_imp_iff, Room.append, le_eq, List.append_assoc,
      leBytes_length, List.drop_drop, and_assoc]
    constructor
    · rintro ⟨h1, r1, h2, r2, h3, r3, r4, rfl⟩
      exact ⟨h1, h2, h3, r1, r2, r3, r4, rfl⟩
    · rintro ⟨h1, h2, h3, r1, r2, r3, r4, rfl⟩
      exact ⟨h1, r1, h2, r2, h3, r3, r4, rfl⟩
  · simp only [hlt, if_false, put_bind, put_ok_iff, false_imp_iff, true_and, Room.append, le_eq, List.append_assoc,
      leBytes_length, List.drop_drop, and_assoc]

end Fbx.Writer
