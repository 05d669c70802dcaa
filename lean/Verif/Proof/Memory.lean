import Verif.Spec.Memory
import Verif.Proof.Size
import Verif.Proof.Standing

/-! # What the loaders set aside -/

namespace Fbx
open Reader Parser Spec
variable {α : Type} {Z : Zlib}

theorem reads_toEnd (e : Ending) (len : Nat) (fin : Bytes → Except PErr α) : ∀ (fuel limit : Nat) (acc bs : Bytes), limit ≤ len → limit < fuel →
    (reads e (readToEnd len fin fuel acc) limit bs).2 = bs.drop limit := by
  intro fuel
  induction fuel with
  | zero => intro _ _ _ _ h; omega
  | succ fuel ih =>
    intro limit acc bs hl hf
    simp only [readToEnd, reads]
    have hm : min len limit = limit := by omega
    rw [hm]
    split
    · rename_i x hx
      split at hx
      · rename_i hg
        simp only [reads]
        obtain ⟨hg, -, hl0⟩ := hg
        have : bs = [] := by
          cases bs with
          | nil => rfl
          | cons b bs => cases limit with
            | zero => exact absurd rfl hl0
            | succ n => cases hg
        simp [this]
      · cases hx
    · cases hg : bs.take limit with
      | nil =>
        simp only [reads, List.length_nil, List.drop_zero]
        rcases List.take_eq_nil_iff.mp hg with h | h
        · simp [h]
        · simp [h]
      | cons b got =>
        have hlen : (b :: got).length ≤ limit := by rw [← hg]; simp; omega
        simp only [List.length_cons] at hlen ⊢
        rw [ih _ _ _ (by omega) (by omega), List.drop_drop]
        have h2 : (bs.take limit).length = got.length + 1 := by rw [hg]; rfl
        rw [List.length_take] at h2
        by_cases h3 : limit ≤ bs.length
        · congr 1; omega
        · rw [List.drop_eq_nil_of_le (by omega), List.drop_eq_nil_of_le (by omega)]

theorem special_aside {e : Ending} {f : Nat → ReadCons α} (hf : ∀ len, ReadsAll len (f len)) {bs : Bytes} {n : Nat}
    (h : (specialFor e (fun len => .done (.ok ((f len).setsAside len))) bs).answer = .ok n) :
    n < 2 ^ 32 ∧ (n + (bs.length - (specialFor e f bs).read) ≤ bs.length ∨ bs.length ≤ (specialFor e f bs).read) := by
  unfold specialFor at h ⊢
  split at h
  · cases h
  rename_i h4
  rw [if_neg h4]
  simp only [reads, answerOf, Except.ok.injEq] at h ⊢
  have hlt : fromLe (bs.take 4) < 2 ^ 32 := by
    have := fromLe_lt (bs.take 4)
    rw [List.length_take, Nat.min_eq_left (by omega)] at this
    exact this
  rcases hf (fromLe (bs.take 4)) with ⟨r, hr⟩ | ⟨fin, hr⟩
  · rw [hr] at h ⊢
    simp only [ReadCons.setsAside] at h
    subst h
    exact ⟨by decide, .inl (by omega)⟩
  · rw [hr] at h ⊢
    simp only [readToEnd, ReadCons.setsAside] at h
    subst h
    refine ⟨hlt, ?_⟩
    rw [reads_toEnd e _ fin _ _ _ _ (Nat.le_refl _) (Nat.lt_succ_self _)]
    simp only [List.length_drop]
    omega

/-- What the meter says of the attribute in front: less than 4 GiB; and it is in the file, or the rest of the file is read. -/
theorem front_aside {e : Ending} {b : Bool} {l : Loader α} (hl : Thorough l) {bs : Bytes} {n : Nat} (h : (inFrontFor Z e b l.meter bs).answer = .ok n) :
    n < 2 ^ 32 ∧ (n + (bs.drop (inFrontFor Z e b l bs).read).length ≤ bs.length ∨ bs.drop (inFrontFor Z e b l bs).read = []) := by
  cases bs with
  | nil => cases h
  | cons c bs =>
    simp only [inFrontFor] at h ⊢
    cases ht : typeOfChar (Char.ofNat c.toNat) with
    | none => rw [ht] at h; cases h
    | some t =>
      rw [ht] at h
      simp only [List.length_drop, List.length_cons, List.drop_eq_nil_iff] at h ⊢
      have hz : n = 0 → n < 2 ^ 32 ∧ (n + (bs.length + 1 - (1 + (contentsFor Z e b l t bs).read)) ≤ bs.length + 1 ∨ bs.length + 1 ≤ 1 + (contentsFor Z e b l t bs).read) := by
        intro h0; subst h0; exact ⟨by decide, .inl (by omega)⟩
      have hnum : ∀ w, (numberFor e w (fun _ => .ok 0) bs).answer = .ok n → n = 0 := by
        intro w h
        unfold numberFor at h
        split at h
        · cases h
        · cases h; rfl
      have harr : ∀ {ε : Type} (w : Nat) (bo : Bool) (val : Bytes → ε), (arrayFor Z e w bo val (fun _ => .done (.ok 0)) bs).answer = .ok n → n = 0 := by
        intro ε w bo val h
        unfold arrayFor at h
        split at h
        · cases h
        · simp only at h
          split at h
          · cases h
          · split at h
            · cases h
            · split at h
              · cases h
              · simp only [pulling, arrayAnswer] at h
                cases h; rfl
      have hsp : ∀ f : Nat → ReadCons α, (∀ len, ReadsAll len (f len)) → (specialFor e (fun len => .done (.ok ((f len).setsAside len))) bs).answer = .ok n →
          n < 2 ^ 32 ∧ (n + (bs.length + 1 - (1 + (specialFor e f bs).read)) ≤ bs.length + 1 ∨ bs.length + 1 ≤ 1 + (specialFor e f bs).read) := by
        intro f hf h
        obtain ⟨h1, h2⟩ := special_aside hf h
        exact ⟨h1, by omega⟩
      cases t with
      | bool =>
        refine hz ?_
        cases bs with
        | nil => cases h
        | cons x bs => cases h; rfl
      | i16 => exact hz (hnum 2 h)
      | i32 => exact hz (hnum 4 h)
      | i64 => exact hz (hnum 8 h)
      | f32 => exact hz (hnum 4 h)
      | f64 => exact hz (hnum 8 h)
      | arrBool => exact hz (harr 1 true _ h)
      | arrI32 => exact hz (harr 4 false _ h)
      | arrI64 => exact hz (harr 8 false _ h)
      | arrF32 => exact hz (harr 4 false _ h)
      | arrF64 => exact hz (harr 8 false _ h)
      | binary => cases b <;> first | exact hsp l.binary (fun n => (hl n).1) h | exact hsp l.binaryBuf (fun n => (hl n).2.2.1) h
      | string => cases b <;> first | exact hsp l.string (fun n => (hl n).2.1) h | exact hsp l.stringBuf (fun n => (hl n).2.2.2) h

/-- The machine which stands where a client stands. -/
def Client.standing (s : Client) : Standing := ⟨look s.parser, s.parser.health, s.parser.isUsed, s.parser.handler, s.parser.log, s.attrs⟩

theorem Client.stands (s : Client) : Stands s s.standing := ⟨rfl, rfl, rfl, rfl, rfl, rfl, fun _ => rfl⟩

def settingOf (p : Parser) : Setting := ⟨p.version, p.checks, p.reader.skipping, p.reader.ending⟩

theorem load_aside {L : Nat} (hL : L + 2 ^ 32 ≤ 2 ^ 64) {s : Client} (hi : CInv L s) (b : Bool) {l : Loader α} (hl : Thorough l) {o : Outcome α} {t : Client}
    (hc : s.call Z (.load b l) = some (o, t)) :
    s.setsAside Z (.load b l) < 2 ^ 32 ∧ (s.parser.reader.rest = [] → s.setsAside Z (.load b l) = 0) ∧ ((∀ x, o ≠ .panic x) →
      s.setsAside Z (.load b l) + t.parser.reader.rest.length ≤ s.parser.reader.rest.length ∨ t.parser.reader.rest = []) := by
  have hmv : (∀ x, o ≠ .panic x) → t.parser.reader.rest.length ≤ s.parser.reader.rest.length := fun hx => ((call_did hL hi hc).moves hx).len_le
  have hf : InSetting s.parser (settingOf s.parser) := ⟨rfl, rfl, rfl, rfl⟩
  by_cases hz : s.setsAside Z (.load b l) = 0
  · rw [hz]
    exact ⟨by decide, fun _ => rfl, fun hx => .inl (by have := hmv hx; omega)⟩
  have hm : ∃ n u, s.call Z (.load b l.meter) = some (.value n, u) ∧ s.setsAside Z (.load b l) = n := by
    simp only [Client.setsAside] at hz ⊢
    split at hz
    · rename_i n u heq; exact ⟨n, u, heq, rfl⟩
    · exact absurd rfl hz
  obtain ⟨n, u, hm, hn⟩ := hm
  rw [hn]
  rcases load_stands (Z := Z) hL hi hf s.stands b l.meter with ⟨h1, -⟩ | ⟨o1, t1, e1, h1, h2, -⟩
  · rw [hm] at h1; cases h1
  rw [hm] at h1
  cases h1
  rcases load_stands (Z := Z) hL hi hf s.stands b l with ⟨h3, -⟩ | ⟨o2, t2, e2, h3, h4, h5⟩
  · rw [hc] at h3; cases h3
  rw [hc] at h3
  cases h3
  unfold Standing.load at h2 h4
  cases ha : s.standing.attrs with
  | none => rw [ha] at h2; cases h2
  | some a =>
    rw [ha] at h2 h4
    simp only [Option.some.injEq] at h2 h4
    cases hh : s.standing.health with
    | finished => rw [hh] at h2; cases h2
    | aborted pos => rw [hh] at h2; cases h2
    | running =>
      rw [hh] at h2 h4
      simp only at h2 h4
      split at h2
      · cases h2
      rename_i h0
      rw [if_neg h0] at h4
      have hsk := skip_len (settingOf s.parser).skips (settingOf s.parser).ends (a.next - s.standing.ahead.pos) s.standing.ahead
      split at h2
      · cases h2
      rename_i here heq
      rw [heq] at h4 hsk
      simp only at h2 h4 hsk
      split at h2
      · cases h2
      split at h2
      · cases h2
      rename_i v hv
      cases h2
      obtain ⟨k1, k2⟩ := front_aside hl hv
      have hb : s.standing.ahead.bytes = s.parser.reader.rest := rfl
      rw [hb] at hsk
      refine ⟨k1, fun h => ?_, fun hx => ?_⟩
      · exfalso
        rw [h] at hsk
        have : here.bytes = [] := List.eq_nil_of_length_eq_zero (by simpa using hsk.1)
        rw [this] at hv
        cases hv
      · have hlk := (h5 hx).look
        have he : e2.ahead = here.move (inFrontFor Z (settingOf s.parser).ends b l here.bytes).read := by
          split at h4
          · exact (congrArg (fun x => x.2.ahead) h4).symm
          · split at h4
            · exact (congrArg (fun x => x.2.ahead) h4).symm
            · exact (congrArg (fun x => x.2.ahead) h4).symm
        have hr : t.parser.reader.rest = here.bytes.drop (inFrontFor Z (settingOf s.parser).ends b l here.bytes).read := by
          have := congrArg Ahead.bytes (hlk.trans he)
          exact this
        rw [hr]
        rcases k2 with k2 | k2
        · left; have := hsk.1; omega
        · right; exact k2

/-- All that a client sets aside. -/
theorem routine_aside {L : Nat} (hL : L + 2 ^ 32 ≤ 2 ^ 64) : ∀ (r : Routine α) (s : Client), CInv L s → r.Uses Thorough →
    (r.setsAside Z s).sum < s.parser.reader.rest.length + 2 ^ 32 ∧ (s.parser.reader.rest = [] → (r.setsAside Z s).sum = 0) := by
  intro r
  induction r with
  | stop => intro s _ _; simp [Routine.setsAside]
  | call c k ih =>
    intro s hi hu
    cases hc : s.call Z c with
    | none => simp [Routine.setsAside, hc]
    | some x =>
      obtain ⟨o, t⟩ := x
      have hstep : s.setsAside Z c < 2 ^ 32 ∧ (s.parser.reader.rest = [] → s.setsAside Z c = 0) ∧ ((∀ x, o ≠ .panic x) →
          s.setsAside Z c + t.parser.reader.rest.length ≤ s.parser.reader.rest.length ∨ t.parser.reader.rest = []) := by
        have h0 : s.setsAside Z c = 0 → s.setsAside Z c < 2 ^ 32 ∧ (s.parser.reader.rest = [] → s.setsAside Z c = 0) ∧ ((∀ x, o ≠ .panic x) →
            s.setsAside Z c + t.parser.reader.rest.length ≤ s.parser.reader.rest.length ∨ t.parser.reader.rest = []) := by
          intro hz
          rw [hz]
          exact ⟨by decide, fun _ => rfl, fun hx => .inl (by have := ((call_did hL hi hc).moves hx).len_le; omega)⟩
        cases c with
        | load b l => exact load_aside hL hi b (hu.1 b l rfl) hc
        | next => exact h0 rfl
        | skip => exact h0 rfl
        | setHandler h => exact h0 rfl
      obtain ⟨s1, s2, s3⟩ := hstep
      by_cases hp : ∃ x, o = .panic x
      · obtain ⟨x, rfl⟩ := hp
        simp only [Routine.setsAside, hc, List.sum_cons, List.sum_nil]
        exact ⟨by omega, fun h => by rw [s2 h]; rfl⟩
      · have hx : ∀ x, o ≠ .panic x := fun x h => hp ⟨x, h⟩
        have hr : (Routine.call c k).setsAside Z s = s.setsAside Z c :: (k o t.glance).setsAside Z t := by
          simp only [Routine.setsAside, hc]
        have hmv := ((call_did hL hi hc).moves hx).len_le
        obtain ⟨i1, i2⟩ := ih o t.glance t ((Runs.snoc .nil (fun _ _ h => by cases h) hc).inv hL hi (fun c' x' hm => by
          simp only [List.nil_append, List.mem_singleton] at hm
          exact hx x' (Prod.mk.inj hm).2.symm)) (hu.2 o t.glance)
        rw [hr, List.sum_cons]
        refine ⟨?_, fun h => ?_⟩
        · rcases s3 hx with s3 | s3
          · omega
          · have := i2 s3; omega
        · rw [h] at hmv
          rw [s2 h, i2 (List.eq_nil_of_length_eq_zero (by simpa using hmv))]

theorem sum_zero_of_mem : ∀ {xs : List Nat}, xs.sum = 0 → ∀ x ∈ xs, x = 0
  | [], _, _, h => by cases h
  | y :: ys, hs, x, h => by
    rw [List.sum_cons] at hs
    rcases List.mem_cons.mp h with rfl | h
    · omega
    · exact sum_zero_of_mem (by omega) x h

/-- What was set aside before is in the file. -/
theorem routine_before {L : Nat} (hL : L + 2 ^ 32 ≤ 2 ^ 64) : ∀ (r : Routine α) (s : Client), CInv L s → r.Uses Thorough →
    ∀ before x after, r.setsAside Z s = before ++ x :: after → x ≠ 0 → x < 2 ^ 32 ∧ before.sum < s.parser.reader.rest.length := by
  intro r
  induction r with
  | stop => intro s _ _ before x after h; simp [Routine.setsAside] at h
  | call c k ih =>
    intro s hi hu before x after h hx0
    have htot := routine_aside (Z := Z) hL _ s hi hu
    have hne : s.parser.reader.rest ≠ [] := fun h' => hx0 (sum_zero_of_mem (htot.2 h') x (by rw [h]; simp))
    have hlen : 0 < s.parser.reader.rest.length := List.length_pos_iff.mpr hne
    cases hc : s.call Z c with
    | none => simp [Routine.setsAside, hc] at h
    | some y =>
      obtain ⟨o, t⟩ := y
      have hlt : s.setsAside Z c < 2 ^ 32 := by
        cases c with
        | load b l => exact (load_aside hL hi b (hu.1 b l rfl) hc).1
        | _ => exact Nat.two_pow_pos 32
      by_cases hp : ∃ x, o = .panic x
      · obtain ⟨x', rfl⟩ := hp
        simp only [Routine.setsAside, hc] at h
        cases before with
        | nil =>
          rw [List.nil_append] at h
          cases h
          exact ⟨hlt, hlen⟩
        | cons b bs => simp at h
      · have hx : ∀ x, o ≠ .panic x := fun x h => hp ⟨x, h⟩
        have hr : (Routine.call c k).setsAside Z s = s.setsAside Z c :: (k o t.glance).setsAside Z t := by
          simp only [Routine.setsAside, hc]
        rw [hr] at h
        have hmv := ((call_did hL hi hc).moves hx).len_le
        have hit : CInv L t := (Runs.snoc .nil (fun _ _ h => by cases h) hc).inv hL hi (fun c' x' hm => by
          simp only [List.nil_append, List.mem_singleton] at hm
          exact hx x' (Prod.mk.inj hm).2.symm)
        cases before with
        | nil =>
          rw [List.nil_append] at h
          cases h
          exact ⟨hlt, hlen⟩
        | cons b bs =>
          rw [List.cons_append, List.cons.injEq] at h
          obtain ⟨rfl, h⟩ := h
          obtain ⟨i1, i2⟩ := ih o t.glance t hit (hu.2 o t.glance) bs x after h hx0
          refine ⟨i1, ?_⟩
          rw [List.sum_cons]
          have : s.setsAside Z c + t.parser.reader.rest.length ≤ s.parser.reader.rest.length := by
            cases c with
            | load b l =>
              rcases (load_aside hL hi b (hu.1 b l rfl) hc).2.2 hx with h' | h'
              · exact h'
              · rw [h'] at i2; exact absurd i2 (Nat.not_lt_zero _)
            | next => simpa [Client.setsAside] using hmv
            | skip => simpa [Client.setsAside] using hmv
            | setHandler hd => simpa [Client.setsAside] using hmv
          omega

end Fbx
