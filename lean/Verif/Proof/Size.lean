import Verif.Spec.Size
import Verif.Proof.HistoryCounts
import Verif.Props.AnySource

/-! # Documents fit into their files -/

namespace Fbx
open Spec

/-! ## Attributes -/

theorem inflateByte_len (Z : Zlib) (e : Ending) : ∀ (bs : Bytes) (s : Z.S), (inflateByte Z e s bs).2.length ≤ bs.length
  | [], s => by unfold inflateByte; split <;> simp
  | x :: xs, s => by
    unfold inflateByte
    split
    · simp
    · have := inflateByte_len Z e xs (by assumption); rename_i k _; have := inflateByte_len Z e xs (k x); simp; omega
    · simp
    · simp

theorem inflate_len (Z : Zlib) (e : Ending) : ∀ (n : Nat) (s : Z.S) (bs : Bytes), (inflate Z e n s bs).2.length ≤ bs.length
  | 0, _, bs => by simp [inflate]
  | n + 1, s, bs => by
    have h := inflateByte_len Z e bs s
    unfold inflate
    split
    · rename_i heq; rw [heq] at h; exact h
    · rename_i b s' left heq
      rw [heq] at h
      have h2 := inflate_len Z e n s' left
      split
      · rename_i heq2; rw [heq2] at h2; simp only at h h2 ⊢; omega
      · rename_i heq2; rw [heq2] at h2; simp only at h h2 ⊢; omega

theorem payload_len (Z : Zlib) (e : Ending) (enc : ArrEnc) (n : Nat) (bs : Bytes) : (payload Z e enc n bs).2.length ≤ bs.length := by
  unfold payload
  cases enc with
  | direct => simp only; split <;> simp
  | zlib =>
    simp only
    split
    · split
      · simp; omega
      · rename_i s _
        have h := inflate_len Z e n s (by assumption)
        rename_i rest _ _
        have h := inflate_len Z e n s rest
        split <;> (rename_i heq; rw [heq] at h; simp at h ⊢; omega)
    · simp

theorem array_size (Z : Zlib) (e : Ending) (w : Nat) (bools : Bool) (f : List Bytes → AttrValue) (hf : ∀ l, attrSize (f l) = 13) (bs : Bytes) {v : AttrValue}
    (h : (array Z e w bools f bs).answer = .ok v) : attrSize v ≤ 1 + (array Z e w bools f bs).read ∧ (array Z e w bools f bs).read ≤ bs.length := by
  unfold array at h ⊢
  split at h
  · cases h
  · rename_i h8
    rw [if_neg h8]
    simp only at h ⊢
    split at h
    · cases h
    · rename_i enc henc
      split at h
      · cases h
      · rename_i h12
        rw [if_neg h12]
        have hl := payload_len Z e enc (fromLe (bs.take 4) * w) (bs.drop 12)
        rw [List.length_drop] at hl
        split at h
        · cases h
        · rename_i data left heq
          rw [heq] at hl
          simp only at hl h ⊢
          cases h
          rw [hf]
          omega

theorem special_size (e : Ending) (f : Bytes → Except ErrKind AttrValue) (hf : ∀ b v, f b = .ok v → attrSize v = 5 + b.length) (bs : Bytes) {v : AttrValue}
    (h : (special e f bs).answer = .ok v) : attrSize v ≤ 1 + (special e f bs).read ∧ (special e f bs).read ≤ bs.length := by
  unfold special at h ⊢
  split at h
  · cases h
  · rename_i h4
    rw [if_neg h4]
    simp only at h ⊢
    split at h
    · cases h
    · rename_i hx
      simp only at h ⊢
      rw [hf _ _ h]
      simp only [List.length_take, List.length_drop]
      omega

theorem fixed_size (e : Ending) (w : Nat) (f : Nat → AttrValue) (hf : ∀ n, attrSize (f n) = 1 + w) (bs : Bytes) {v : AttrValue}
    (h : (fixed e w f bs).answer = .ok v) : attrSize v ≤ 1 + (fixed e w f bs).read ∧ (fixed e w f bs).read ≤ bs.length := by
  unfold fixed at h ⊢
  split at h
  · cases h
  · rename_i h4
    rw [if_neg h4]
    cases h
    rw [hf]
    exact ⟨Nat.le_refl _, by simp only; omega⟩

theorem contents_size (Z : Zlib) (e : Ending) (t : AttrType) (bs : Bytes) {v : AttrValue} (h : (contents Z e t bs).answer = .ok v) :
    attrSize v ≤ 1 + (contents Z e t bs).read ∧ (contents Z e t bs).read ≤ bs.length := by
  cases t with
  | bool =>
    cases bs with
    | nil => cases h
    | cons b bs => cases h; simp [contents, boolean, attrSize]
  | i16 => exact fixed_size e 2 _ (fun _ => rfl) bs h
  | i32 => exact fixed_size e 4 _ (fun _ => rfl) bs h
  | i64 => exact fixed_size e 8 _ (fun _ => rfl) bs h
  | f32 => exact fixed_size e 4 _ (fun _ => rfl) bs h
  | f64 => exact fixed_size e 8 _ (fun _ => rfl) bs h
  | arrBool => exact array_size Z e 1 _ _ (fun _ => rfl) bs h
  | arrI32 => exact array_size Z e 4 _ _ (fun _ => rfl) bs h
  | arrI64 => exact array_size Z e 8 _ _ (fun _ => rfl) bs h
  | arrF32 => exact array_size Z e 4 _ _ (fun _ => rfl) bs h
  | arrF64 => exact array_size Z e 8 _ _ (fun _ => rfl) bs h
  | binary => exact special_size e _ (fun b v h => by cases h; rfl) bs h
  | string =>
    refine special_size e _ (fun b v h => ?_) bs h
    split at h
    · rename_i s hs
      cases h
      rw [attrSize, show utf8 s = strBytes s from rfl, strBytes_of_stringOfUtf8 hs]
    · cases h

theorem front_size (Z : Zlib) (e : Ending) (bs : Bytes) {v : AttrValue} (h : (attrInFront Z e bs).answer = .ok v) :
    attrSize v ≤ (attrInFront Z e bs).read ∧ (attrInFront Z e bs).read ≤ bs.length := by
  cases bs with
  | nil => cases h
  | cons c bs =>
    simp only [attrInFront] at h ⊢
    cases ht : typeOfChar (Char.ofNat c.toNat) with
    | none => rw [ht] at h; cases h
    | some t =>
      rw [ht] at h
      have := contents_size Z e t bs h
      simp only [List.length_cons]
      omega

/-! ## Skipping and headers -/

theorem move_len (a : Ahead) (k : Nat) : (a.move k).bytes.length ≤ a.bytes.length ∧ (a.move k).width = a.width :=
  ⟨by simp [Ahead.move], rfl⟩

theorem skip_len (m : Skipping) (e : Ending) (k : Nat) (a : Ahead) :
    (a.skip m e k).2.bytes.length ≤ a.bytes.length ∧ (a.skip m e k).2.width = a.width := by
  unfold Ahead.skip
  cases m with
  | reads => exact ⟨by simp, rfl⟩
  | seeks far =>
    by_cases h : k = 0 ∨ a.pos + k ≤ far
    · simp only [if_pos h]; exact move_len a k
    · simp only [if_neg h]; exact move_len a _

theorem attributesFrom_size (Z : Zlib) (m : Skipping) (e : Ending) (total : Nat) : ∀ (n next : Nat) (a : Ahead),
    attrsSize (attributesFrom Z m e total n next a).values + (attributesFrom Z m e total n next a).ahead.bytes.length ≤ a.bytes.length + 
      (if (attributesFrom Z m e total n next a).error.isSome then attrsSize (attributesFrom Z m e total n next a).values else 0) ∧
    (attributesFrom Z m e total n next a).ahead.width = a.width
  | 0, next, a => by simp [attributesFrom, attrsSize]
  | n + 1, next, a => by
    have hs := skip_len m e (next - a.pos) a
    unfold attributesFrom
    split
    · rename_i here heq
      rw [heq] at hs
      simpa [attrsSize] using hs
    · rename_i here heq
      rw [heq] at hs
      simp only at hs ⊢
      split
      · simp [attrsSize, Ahead.move, hs.2]; omega
      · rename_i v hv
        have h1 := front_size Z e here.bytes hv
        have h2 := attributesFrom_size Z m e total n (here.pos + (attrInFront Z e here.bytes).len) (here.move (attrInFront Z e here.bytes).read)
        generalize attributesFrom Z m e total n (here.pos + (attrInFront Z e here.bytes).len) (here.move (attrInFront Z e here.bytes).read) = r at h2
        simp only [attrsSize, List.map_cons, List.sum_cons, Ahead.move, List.length_drop] at h2 ⊢
        split at h2
        · rename_i h3; rw [if_pos h3]; exact ⟨by omega, by rw [h2.2, hs.2]⟩
        · rename_i h3; rw [if_neg h3]; exact ⟨by omega, by rw [h2.2, hs.2]⟩

/-- What a verdict takes. -/
def took : Verdict × Option (Warning × SynPos) × Ahead → Ahead → Prop
  | (.starts name _, _, b), a => 3 * a.width + 1 + (utf8 name).length + b.bytes.length ≤ a.bytes.length ∧ b.width = a.width
  | (.ends, _, b), a => b.bytes.length ≤ a.bytes.length ∧ b.width = a.width
  | (.finishes, _, b), a => 3 * a.width + 1 + b.bytes.length ≤ a.bytes.length ∧ b.width = a.width
  | _, _ => True

theorem enter_bytes (a : Ahead) (n : Started) : (a.enter n).bytes = a.bytes ∧ (a.enter n).width = a.width := by
  unfold Ahead.enter
  split <;> exact ⟨rfl, rfl⟩

theorem start_took (a : Ahead) (checks : Bool) (h : 3 * a.width + 1 ≤ a.bytes.length) : took (a.start checks) a := by
  unfold Ahead.start
  simp only
  split
  · trivial
  · rename_i hl
    split
    · trivial
    · rename_i name hname
      split
      · trivial
      · simp only [took, enter_bytes]
        have hb := strBytes_of_stringOfUtf8 hname
        rw [show utf8 name = strBytes name from rfl, hb]
        simp only [Ahead.move, List.length_drop, List.length_take] at hl ⊢
        exact ⟨by omega, trivial⟩

theorem header_took (a : Ahead) (checks : Bool) : took (a.header checks) a := by
  unfold Ahead.header
  split
  · trivial
  · rename_i hl
    split
    · simp only
      split
      · exact ⟨by simp only [Ahead.move, List.length_drop]; omega, rfl⟩
      · split
        · trivial
        · exact ⟨by simp only [Ahead.move, List.length_drop]; omega, rfl⟩
    · exact start_took a checks (by omega)

theorem resume_took (a : Ahead) (checks : Bool) : took (a.resume checks) a := by
  unfold Ahead.resume
  split
  · exact header_took a checks
  · split
    · trivial
    · split
      · exact ⟨Nat.le_refl _, rfl⟩
      · exact header_took a checks

theorem took_mono {x : Verdict × Option (Warning × SynPos) × Ahead} {a b : Ahead} (h : took x a) (hl : a.bytes.length ≤ b.bytes.length) (hw : a.width = b.width) : took x b := by
  obtain ⟨v, w, c⟩ := x
  cases v <;> simp only [took] at h ⊢ <;> rw [← hw] <;> exact ⟨by omega, h.2⟩

theorem nextFrom_took (m : Skipping) (e : Ending) (a : Ahead) (checks : Bool) : took (a.nextFrom m e checks) a := by
  have hs := skip_len m e a.unread a
  unfold Ahead.nextFrom
  split
  · trivial
  · rename_i b heq
    rw [heq] at hs
    exact took_mono (resume_took b checks) hs.1 hs.2

/-! ## Readings -/

/-- The size of a part. -/
def partSize (w : Nat) : Part → Nat
  | .node name attrs => 3 * w + 1 + (utf8 name).length + attrsSize attrs
  | .end => 0

/-- The parts and what is left at the end. -/
def leftAt (w : Nat) : Close → Nat
  | .footer b => 3 * w + 1 + b.bytes.length
  | .more b => b.bytes.length
  | _ => 0

theorem readingFrom_size (Z : Zlib) (m : Skipping) (e : Ending) (checks : Bool) : ∀ (n : Nat) (a : Ahead),
    ((readingFrom Z m e checks n a).parts.map (partSize a.width)).sum + leftAt a.width (readingFrom Z m e checks n a).close ≤ a.bytes.length
  | 0, a => by simp [readingFrom, leftAt]
  | n + 1, a => by
    have ht := nextFrom_took m e a checks
    unfold readingFrom
    split
    · rename_i name count w b heq
      rw [heq] at ht
      obtain ⟨h1, h2⟩ := ht
      have ha := attributesFrom_size Z m e count count b.pos b
      generalize attributesFrom Z m e count count b.pos b = r at ha
      simp only
      cases hr : r.error with
      | some x => simp only [List.map_nil, List.sum_nil, leftAt]; omega
      | none =>
        rw [hr] at ha
        simp only [Option.isSome_none, Bool.false_eq_true, if_false] at ha
        have hi := readingFrom_size Z m e checks n r.ahead
        rw [ha.2, h2] at hi
        simp only [Reading.after, List.map_cons, List.sum_cons, partSize]
        omega
    · rename_i w b heq
      rw [heq] at ht
      obtain ⟨h1, h2⟩ := ht
      have hi := readingFrom_size Z m e checks n b
      rw [h2] at hi
      simp only [Reading.after, List.map_cons, List.sum_cons, partSize]
      omega
    · rename_i w b heq
      rw [heq] at ht
      obtain ⟨h1, h2⟩ := ht
      simp only [List.map_nil, List.sum_nil, leftAt]
      omega
    · simp only [List.map_nil, List.sum_nil, leftAt]; omega
    · simp only [List.map_nil, List.sum_nil, leftAt]; omega

theorem headWidth_size (v : FbxVersion) : 3 * headWidth v + 1 = if v < 7500 then 13 else 25 := by unfold headWidth; split <;> rfl

theorem parts_obs (v : FbxVersion) (ps : List Part) : ((ps.map Part.obs).map (obsSize v)).sum = (ps.map (partSize (headWidth v))).sum := by
  induction ps with
  | nil => rfl
  | cons p ps ih =>
    simp only [List.map_cons, List.sum_cons, ih]
    cases p with
    | «end» => rfl
    | node name attrs => simp [Part.obs, obsSize, partSize, nodeSize, ← headWidth_size]

theorem forest_parts (v : FbxVersion) : ∀ F : Forest AttrValue, ((partsOf F).map (partSize (headWidth v))).sum = forestSize v F
  | .nil => rfl
  | .cons name attrs children rest => by
    have h1 := forest_parts v children
    have h2 := forest_parts v rest
    simp only [partsOf, List.map_cons, List.map_append, List.sum_cons, List.sum_append, h1, h2, partSize, forestSize, nodeSize, ← headWidth_size]
    omega

/-! ## Names along a history -/

variable {α : Type} {Z : Zlib}

theorem namesOf_snoc (h : History α) (c : Call α) (o : Outcome α) : namesOf (h ++ [(c, o)]) = namesOf h ++ (match o with
    | .event (.startNode name _) => [name]
    | _ => []) := by
  unfold namesOf
  rw [List.filterMap_append]
  congr 1
  simp only [List.filterMap_cons, List.filterMap_nil]
  split <;> (rename_i heq; split at heq <;> simp_all)

theorem Runs.names {L : Nat} (hL : L + 2 ^ 32 ≤ 2 ^ 64) {s t : Client} {h : History α} (hr : Runs Z s h t) (hs : CInv L s) (hn : h.calm) :
    ((namesOf h).map (nodeSize s.parser.version)).sum + t.parser.reader.rest.length ≤ s.parser.reader.rest.length := by
  refine hr.ind hL hs (P := fun h t => h.calm →
    ((namesOf h).map (nodeSize s.parser.version)).sum + t.parser.reader.rest.length ≤ s.parser.reader.rest.length) (fun _ => ?_) ?_ hn
  · simp [namesOf]
  · intro h t u c o hr hi ih hn hd hc hn'
    obtain ⟨k1, k2⟩ := calm_snoc hn'
    have i1 := ih k1
    rw [namesOf_snoc, List.map_append, List.sum_append]
    have hm := (hd.moves k2).len_le
    by_cases ho : o.isStart
    · cases hd with
      | @event ev hrun he hi ha =>
        cases ev with
        | startNode name n =>
          obtain ⟨r, hd, ae, outer, tl, h1, _, h2, h3, h4, h5, h6, h7, h8⟩ := he.started
          have hv := (hr.frame hL hs k1).1
          rw [hv] at h5 h6 h7
          have := h1.len_le
          have hb := congrArg List.length (strBytes_of_stringOfUtf8 h6)
          rw [h7]
          simp only [Reader.consume_rest, List.length_drop, List.length_take, List.map_cons, List.map_nil, List.sum_cons, List.sum_nil, nodeSize, ← headWidth_size,
            show utf8 name = strBytes name from rfl, hb]
          omega
        | endNode => cases ho
        | endFbx f => cases ho
      | _ => cases ho
    · have h0 : (match o with
          | .event (.startNode name _) => [name]
          | _ => ([] : List String)) = [] := by
        split
        · exact absurd rfl ho
        · rfl
      rw [h0]
      simp only [List.map_nil, List.sum_nil]
      omega

end Fbx
