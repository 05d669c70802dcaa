import Verif.Spec.Bomb
import Verif.Proof.Size

/-! # Documents are not much larger than their files -/

namespace Fbx
open Spec
variable {Z : Zlib} {c : Nat}

theorem inflateByte_decodes (Z : Zlib) (e : Ending) : ∀ (bs : Bytes) (s : Z.S) {b : Byte} {s' : Z.S} {left : Bytes}, inflateByte Z e s bs = (.ok (b, s'), left) →
    ∃ pre, bs = pre ++ left ∧ ∀ inp out, Z.Decodes s' inp out → Z.Decodes s (pre ++ inp) (b :: out)
  | [], s, b, s', left, h => by
    unfold inflateByte at h
    split at h
    · rename_i heq
      cases h
      exact ⟨[], rfl, fun inp out hd => .emit heq hd⟩
    · cases h
    · cases h
    · cases h
  | x :: xs, s, b, s', left, h => by
    unfold inflateByte at h
    split at h
    · rename_i heq
      cases h
      exact ⟨[], rfl, fun inp out hd => .emit heq hd⟩
    · rename_i k heq
      obtain ⟨pre, rfl, hp⟩ := inflateByte_decodes Z e xs (k x) h
      exact ⟨x :: pre, rfl, fun inp out hd => .need heq (hp inp out hd)⟩
    · cases h
    · cases h

theorem inflate_decodes (Z : Zlib) (e : Ending) : ∀ (n : Nat) (s : Z.S) (bs : Bytes) {out left : Bytes}, inflate Z e n s bs = (.ok out, left) →
    out.length = n ∧ ∃ pre, bs = pre ++ left ∧ Z.Decodes s pre out
  | 0, s, bs, out, left, h => by cases h; exact ⟨rfl, [], rfl, .done _ _⟩
  | n + 1, s, bs, out, left, h => by
    unfold inflate at h
    split at h
    · cases h
    · rename_i b s' mid heq
      split at h
      · cases h
      · rename_i out' left' heq2
        cases h
        obtain ⟨pre, rfl, hp⟩ := inflateByte_decodes Z e bs s heq
        obtain ⟨hn, pre2, rfl, hp2⟩ := inflate_decodes Z e n s' mid heq2
        exact ⟨by simp [hn], pre ++ pre2, by simp, hp _ _ hp2⟩

theorem payload_full (hZ : Z.Expands c) (hc : 1 ≤ c) (e : Ending) (enc : ArrEnc) (n : Nat) (bs : Bytes) {data left : Bytes} (h : payload Z e enc n bs = (.ok data, left)) :
    data.length = n ∧ data.length + c * left.length ≤ c * bs.length ∧ left.length ≤ bs.length := by
  unfold payload at h
  cases enc with
  | direct =>
    simp only at h
    split at h
    · rename_i hn
      cases h
      have : c * bs.length = c * n + c * (bs.length - n) := by rw [← Nat.mul_add]; congr 1; omega
      have := Nat.mul_le_mul_right n hc
      simp only [List.length_take, List.length_drop]
      omega
    · cases h
  | zlib =>
    simp only at h
    split at h
    · split at h
      · cases h
      · rename_i a b rest _ s hs
        split at h
        · cases h
        · rename_i out left' heq
          cases h
          obtain ⟨hn, pre, rfl, hd⟩ := inflate_decodes Z e n s rest heq
          have hx := hZ a b s pre data hs hd
          simp only [List.length_cons, List.length_append, Nat.mul_add]
          omega
    · cases h

theorem sum_le_mul {x y z r : Nat} (h : x + c * y ≤ c * z) (hzr : y ≤ z) (hr : r = z - y) : x ≤ c * r := by
  subst hr
  have : c * z = c * (z - y) + c * y := by rw [← Nat.mul_add]; congr 1; omega
  omega

theorem array_full (hZ : Z.Expands c) (hc : 1 ≤ c) (e : Ending) (w : Nat) (bools : Bool) (f : List Bytes → AttrValue) (hf : ∀ l, attrSize (f l) = 13)
    (hd : ∀ l, (arrayData (f l)).length = l.length * w) (bs : Bytes) {v : AttrValue}
    (h : (array Z e w bools f bs).answer = .ok v) : attrFull v ≤ c * (1 + (array Z e w bools f bs).read) := by
  unfold array at h ⊢
  split at h
  · cases h
  · rename_i h8
    rw [if_neg h8]
    simp only at h ⊢
    split at h
    · cases h
    · rename_i enc henc
      split at h
      · cases h
      · rename_i h12
        rw [if_neg h12]
        split at h
        · cases h
        · rename_i data left heq
          obtain ⟨h1, h2, h3⟩ := payload_full hZ hc e enc _ _ heq
          rw [List.length_drop] at h2 h3
          have h4 := sum_le_mul h2 h3 rfl
          cases h
          simp only [attrFull, hf, hd, Spec.pieces, List.length_map, List.length_range]
          rw [← h1]
          have : bs.length - left.length = 12 + (bs.length - 12 - left.length) := by omega
          rw [this, ← Nat.add_assoc, Nat.mul_add]
          have := Nat.mul_le_mul_right 13 hc
          omega

theorem plain_full (hc : 1 ≤ c) {v : AttrValue} {k : Nat} (hv : arrayData v = []) (h : attrSize v ≤ k) : attrFull v ≤ c * k := by
  rw [attrFull, hv]
  exact Nat.le_trans h (by have := Nat.mul_le_mul_right k hc; omega)

theorem fixed_plain {e : Ending} {w : Nat} {f : Nat → AttrValue} {bs : Bytes} {v : AttrValue} (h : (fixed e w f bs).answer = .ok v) : ∃ n, v = f n := by
  unfold fixed at h
  split at h <;> cases h
  exact ⟨_, rfl⟩

theorem special_plain {e : Ending} {f : Bytes → Except ErrKind AttrValue} {bs : Bytes} {v : AttrValue} (h : (special e f bs).answer = .ok v) : ∃ b, f b = .ok v := by
  unfold special at h
  split at h
  · cases h
  · simp only at h
    split at h
    · cases h
    · exact ⟨_, h⟩

theorem contents_full (hZ : Z.Expands c) (hc : 1 ≤ c) (e : Ending) (t : AttrType) (bs : Bytes) {v : AttrValue} (h : (contents Z e t bs).answer = .ok v) :
    attrFull v ≤ c * (1 + (contents Z e t bs).read) := by
  have hs := (contents_size Z e t bs h).1
  have hflat : ∀ {n : Nat} (l : List Bytes) (g : Bytes → BitVec n) (w : Nat), ((l.map g).flatMap (fun x => le w x.toNat)).length = l.length * w := by
    intro n l g w
    induction l with
    | nil => simp
    | cons x xs ih =>
      simp only [List.map_cons, List.flatMap_cons, List.length_append, ih, List.length_cons, Nat.add_mul]
      simp [Writer.le_eq]
      omega
  cases t with
  | bool =>
    cases bs with
    | nil => cases h
    | cons b bs => cases h; exact plain_full hc rfl hs
  | i16 =>
    obtain ⟨n, rfl⟩ := fixed_plain h
    exact plain_full hc rfl hs
  | i32 =>
    obtain ⟨n, rfl⟩ := fixed_plain h
    exact plain_full hc rfl hs
  | i64 =>
    obtain ⟨n, rfl⟩ := fixed_plain h
    exact plain_full hc rfl hs
  | f32 =>
    obtain ⟨n, rfl⟩ := fixed_plain h
    exact plain_full hc rfl hs
  | f64 =>
    obtain ⟨n, rfl⟩ := fixed_plain h
    exact plain_full hc rfl hs
  | arrBool => exact array_full hZ hc e 1 _ _ (fun _ => rfl) (fun l => by simp [arrayData]) bs h
  | arrI32 => exact array_full hZ hc e 4 _ _ (fun _ => rfl) (fun l => by simp only [arrayData]; exact hflat l _ 4) bs h
  | arrI64 => exact array_full hZ hc e 8 _ _ (fun _ => rfl) (fun l => by simp only [arrayData]; exact hflat l _ 8) bs h
  | arrF32 => exact array_full hZ hc e 4 _ _ (fun _ => rfl) (fun l => by simp only [arrayData]; exact hflat l _ 4) bs h
  | arrF64 => exact array_full hZ hc e 8 _ _ (fun _ => rfl) (fun l => by simp only [arrayData]; exact hflat l _ 8) bs h
  | binary =>
    obtain ⟨b, hb⟩ := special_plain h
    cases hb
    exact plain_full hc rfl hs
  | string =>
    obtain ⟨b, hb⟩ := special_plain h
    split at hb <;> cases hb
    exact plain_full hc rfl hs

theorem front_full (hZ : Z.Expands c) (hc : 1 ≤ c) (e : Ending) (bs : Bytes) {v : AttrValue} (h : (attrInFront Z e bs).answer = .ok v) :
    attrFull v ≤ c * (attrInFront Z e bs).read := by
  cases bs with
  | nil => cases h
  | cons x bs =>
    simp only [attrInFront] at h ⊢
    cases ht : typeOfChar (Char.ofNat x.toNat) with
    | none => rw [ht] at h; cases h
    | some t =>
      rw [ht] at h
      have := contents_full hZ hc e t bs h
      exact this

theorem attributesFrom_full (hZ : Z.Expands c) (hc : 1 ≤ c) (m : Skipping) (e : Ending) (total : Nat) : ∀ (n next : Nat) (a : Ahead),
    (attributesFrom Z m e total n next a).error = none →
    attrsFull (attributesFrom Z m e total n next a).values + c * (attributesFrom Z m e total n next a).ahead.bytes.length ≤ c * a.bytes.length
  | 0, next, a, _ => by simp [attributesFrom, attrsFull]
  | n + 1, next, a, hne => by
    have hs := skip_len m e (next - a.pos) a
    unfold attributesFrom at hne ⊢
    split at hne
    · cases hne
    · rename_i here heq
      rw [heq] at hs
      simp only at hs hne ⊢
      split at hne
      · cases hne
      · rename_i v hv
        have h1 := front_full hZ hc e here.bytes hv
        have h1' := (front_size Z e here.bytes hv).2
        simp only at hne
        have h2 := attributesFrom_full hZ hc m e total n (here.pos + (attrInFront Z e here.bytes).len) (here.move (attrInFront Z e here.bytes).read) hne
        simp only [hv]
        generalize attributesFrom Z m e total n (here.pos + (attrInFront Z e here.bytes).len) (here.move (attrInFront Z e here.bytes).read) = r at h2
        simp only [attrsFull, List.map_cons, List.sum_cons, Ahead.move, List.length_drop] at h2 ⊢
        have h3 := Nat.mul_le_mul_left c hs.1
        have h4 : c * here.bytes.length = c * (attrInFront Z e here.bytes).read + c * (here.bytes.length - (attrInFront Z e here.bytes).read) := by
          rw [← Nat.mul_add]; congr 1; omega
        omega

/-- The size of a part. -/
def partFull (w : Nat) : Part → Nat
  | .node name attrs => 3 * w + 1 + (utf8 name).length + attrsFull attrs
  | .end => 0

theorem readingFrom_full (hZ : Z.Expands c) (hc : 1 ≤ c) (m : Skipping) (e : Ending) (checks : Bool) : ∀ (n : Nat) (a : Ahead),
    ((readingFrom Z m e checks n a).parts.map (partFull a.width)).sum + c * leftAt a.width (readingFrom Z m e checks n a).close ≤ c * a.bytes.length
  | 0, a => by simp [readingFrom, leftAt]
  | n + 1, a => by
    have ht := nextFrom_took m e a checks
    unfold readingFrom
    split
    · rename_i name count w b heq
      rw [heq] at ht
      obtain ⟨h1, h2⟩ := ht
      have ha := attributesFrom_full hZ hc m e count count b.pos b
      have hw := (attributesFrom_size Z m e count count b.pos b).2
      generalize attributesFrom Z m e count count b.pos b = r at ha hw
      simp only
      cases hr : r.error with
      | some x => simp only [List.map_nil, List.sum_nil, leftAt]; omega
      | none =>
        have ha := ha hr
        have hi := readingFrom_full hZ hc m e checks n r.ahead
        rw [hw, h2] at hi
        simp only [Reading.after, List.map_cons, List.sum_cons, partFull]
        have h3 := Nat.mul_le_mul_left c h1
        rw [Nat.mul_add] at h3
        have h4 := Nat.mul_le_mul_right (3 * a.width + 1 + (utf8 name).length) hc
        omega
    · rename_i w b heq
      rw [heq] at ht
      obtain ⟨h1, h2⟩ := ht
      have hi := readingFrom_full hZ hc m e checks n b
      rw [h2] at hi
      have h3 := Nat.mul_le_mul_left c h1
      simp only [Reading.after, List.map_cons, List.sum_cons, partFull]
      omega
    · rename_i w b heq
      rw [heq] at ht
      obtain ⟨h1, h2⟩ := ht
      simp only [List.map_nil, List.sum_nil, leftAt]
      have h3 := Nat.mul_le_mul_left c h1
      omega
    · simp only [List.map_nil, List.sum_nil, leftAt]; omega
    · simp only [List.map_nil, List.sum_nil, leftAt]; omega

theorem parts_obsFull (v : FbxVersion) (ps : List Part) : ((ps.map Part.obs).map (obsFull v)).sum = (ps.map (partFull (headWidth v))).sum := by
  induction ps with
  | nil => rfl
  | cons p ps ih =>
    simp only [List.map_cons, List.sum_cons, ih]
    cases p with
    | «end» => rfl
    | node name attrs => simp [Part.obs, obsFull, partFull, nodeSize, ← headWidth_size]

theorem forest_partsFull (v : FbxVersion) : ∀ F : Forest AttrValue, ((partsOf F).map (partFull (headWidth v))).sum = forestFull v F
  | .nil => rfl
  | .cons name attrs children rest => by
    have h1 := forest_partsFull v children
    have h2 := forest_partsFull v rest
    simp only [partsOf, List.map_cons, List.map_append, List.sum_cons, List.sum_append, h1, h2, partFull, forestFull, nodeSize, ← headWidth_size]
    omega

end Fbx
