import Verif.Spec.Buffered
import Verif.Proof.Basic

namespace Fbx
variable {α : Type}
open Spec

/-- The end of the limited stream. -/
def Dev.final (limit : Nat) (r : Reader) : Option IoErr := if r.rest.length < limit then r.ending else none

/-- What a `fill_buf` can do. -/
theorem Dev.fill_cases (d : Dev) (hb : d.buffered ≤ d.reader.rest.length) :
    (∃ e d', d.fill = (.error e, d') ∧ d'.reader = d.reader ∧ d'.buffered = 0 ∧ d.buffered = 0 ∧
      (∀ i, ∃ j, d'.plan i = d.plan j) ∧
      ((∃ i, d.plan i = .fail e) ∨ d.reader.rest = [] ∧ d.reader.ending = some e)) ∨
    (∃ d', d.fill = (.ok (d.reader.rest.take d'.buffered), d') ∧ d'.reader = d.reader ∧
      d'.buffered ≤ d.reader.rest.length ∧ (∀ i, ∃ j, d'.plan i = d.plan j) ∧
      (d'.buffered = 0 → d.reader.rest = [] ∧ d.reader.ending = none)) := by
  unfold Dev.fill
  by_cases h0 : d.buffered = 0
  · rw [if_pos h0]
    cases hp : d.plan 0 with
    | fail e =>
      exact .inl ⟨e, _, rfl, rfl, rfl, h0, fun i => ⟨i + 1, rfl⟩, .inl ⟨0, hp⟩⟩
    | piece n =>
      simp only
      by_cases hr : d.reader.rest = []
      · rw [if_pos hr]
        cases he : d.reader.ending with
        | none =>
          exact .inr ⟨d.step 0, by simp [Dev.step], rfl, Nat.zero_le _, fun i => ⟨i + 1, rfl⟩,
            fun _ => ⟨hr, rfl⟩⟩
        | some e => exact .inl ⟨e, _, rfl, rfl, rfl, h0, fun i => ⟨i + 1, rfl⟩, .inr ⟨hr, rfl⟩⟩
      · rw [if_neg hr]
        refine .inr ⟨d.step (min (n + 1) d.reader.rest.length), ?_, rfl, Nat.min_le_right _ _, fun i => ⟨i + 1, rfl⟩, ?_⟩
        · simp only [Dev.step]
          congr 2
          by_cases hn : n + 1 ≤ d.reader.rest.length
          · rw [Nat.min_eq_left hn]
          · rw [Nat.min_eq_right (by omega), List.take_of_length_le (by omega), List.take_length]
        · intro h
          have : 0 < d.reader.rest.length := List.length_pos_iff.mpr hr
          simp only [Dev.step] at h
          omega
  · rw [if_neg h0]
    exact .inr ⟨d, rfl, rfl, hb, fun i => ⟨i, rfl⟩, fun h => absurd h h0⟩

theorem Reader.read_exactly {n : Nat} {r : Reader} (h0 : n ≠ 0) (h : n ≤ r.rest.length) :
    Reader.read n r = if r.position + n < u64Size then (.ok (r.rest.take n), r.consume n)
      else (.panic .positionOverflow, r) := by
  unfold Reader.read
  simp only [Nat.min_eq_left h, if_neg h0]

theorem takeRead_exactly {n limit : Nat} {r : Reader} (h0 : n ≠ 0) (h : n ≤ r.rest.length) (hl : n ≤ limit) :
    takeRead n (limit, r) = if r.position + n < u64Size then (.ok (r.rest.take n), (limit - n, r.consume n))
      else (.panic .positionOverflow, (limit, r)) := by
  unfold takeRead
  simp only
  rw [if_neg (by omega), Nat.min_eq_left hl, Reader.read_exactly h0 h]
  by_cases hx : r.position + n < u64Size
  · simp only [if_pos hx, List.length_take, Nat.min_eq_left h]
  · simp only [if_neg hx]

theorem reads_exactly {n limit : Nat} {r : Reader} {c : ReadCons α} (h0 : n ≠ 0) (h : n ≤ r.rest.length) (hl : n ≤ limit) :
    (ReadCons.read n (fun _ => c)).run (limit, r) = if r.position + n < u64Size then c.run (limit - n, r.consume n)
      else (.panic .positionOverflow, (limit, r)) := by
  rw [ReadCons.run]
  simp only
  rw [takeRead_exactly h0 h hl]
  by_cases hx : r.position + n < u64Size
  · simp only [if_pos hx]
  · simp only [if_neg hx]

theorem Dev.consume_seen {n : Nat} {d : Dev} (h : n ≤ d.buffered) :
    d.consume n = if n = 0 ∨ d.reader.position + n < u64Size then
      .ok { d with reader := d.reader.consume n, buffered := d.buffered - n } else .error .positionOverflow := by
  unfold Dev.consume Reader.consume
  rw [Nat.min_eq_left h]

/-- What `read` through the limit can do. -/
theorem Dev.takeRead_cases (n limit : Nat) (d : Dev) (hb : d.buffered ≤ d.reader.rest.length) :
    (Dev.takeRead n (limit, d) = (.ok [], (limit, d)) ∧ (n = 0 ∨ limit = 0)) ∨
    (∃ e d', n ≠ 0 ∧ limit ≠ 0 ∧ Dev.takeRead n (limit, d) = (.err e, (limit, d')) ∧ d'.reader = d.reader ∧
      d'.buffered ≤ d.reader.rest.length ∧ (∀ i, ∃ j, d'.plan i = d.plan j) ∧
      ((∃ i, d.plan i = .fail e) ∨ d.reader.rest = [] ∧ d.reader.ending = some e)) ∨
    (∃ d', n ≠ 0 ∧ limit ≠ 0 ∧ Dev.takeRead n (limit, d) = (.ok [], (limit, d')) ∧ d'.reader = d.reader ∧
      d'.buffered ≤ d.reader.rest.length ∧ (∀ i, ∃ j, d'.plan i = d.plan j) ∧
      d.reader.rest = [] ∧ d.reader.ending = none) ∨
    (∃ m d', m ≠ 0 ∧ m ≤ n ∧ m ≤ limit ∧ m ≤ d.reader.rest.length ∧ d.reader.position + m < u64Size ∧
      Dev.takeRead n (limit, d) = (.ok (d.reader.rest.take m), (limit - m, d')) ∧ d'.reader = d.reader.consume m ∧
      d'.buffered ≤ (d.reader.rest.drop m).length ∧ (∀ i, ∃ j, d'.plan i = d.plan j)) ∨
    (∃ m, m ≠ 0 ∧ m ≤ limit ∧ m ≤ d.reader.rest.length ∧ ¬ d.reader.position + m < u64Size ∧
      Dev.takeRead n (limit, d) = (.panic .positionOverflow, (limit, d))) := by
  unfold Dev.takeRead
  simp only
  by_cases hl : limit = 0
  · exact .inl ⟨by rw [if_pos hl], .inr hl⟩
  rw [if_neg hl]
  by_cases hn : n = 0
  · refine .inl ⟨?_, .inl hn⟩
    subst hn
    simp [Dev.read]
  have hm : min n limit ≠ 0 := by omega
  unfold Dev.read
  rw [if_neg hm]
  rcases d.fill_cases hb with ⟨e, d', hf, hr, hb', _, hp, hw⟩ | ⟨d', hf, hr, hb', hp, hw⟩
  · rw [hf]
    exact .inr (.inl ⟨e, d', hn, hl, rfl, hr, by omega, hp, hw⟩)
  rw [hf]
  simp only [List.length_take, Nat.min_eq_left hb']
  by_cases hz : d'.buffered = 0
  · obtain ⟨hr0, he⟩ := hw hz
    rw [if_pos (by rw [hr0, List.take_nil])]
    exact .inr (.inr (.inl ⟨d', hn, hl, by simp, hr, by omega, hp, hr0, he⟩))
  · have hm0 : min (min n limit) d'.buffered ≠ 0 := by omega
    rw [if_neg (by
      intro h
      have := congrArg List.length h
      simp only [List.length_take, List.length_nil] at this
      omega)]
    by_cases hx : d'.reader.position + min (min n limit) d'.buffered < u64Size
    · rw [if_pos hx]
      refine .inr (.inr (.inr (.inl ⟨min (min n limit) d'.buffered, { d' with
          reader := d'.reader.consume (min (min n limit) d'.buffered)
          buffered := d'.buffered - min (min n limit) d'.buffered }, hm0, by omega, by omega, by omega, by rw [← hr]; exact hx,
        ?_, ?_, ?_, hp⟩)))
      · simp only [List.take_take, List.length_take]
        have : min (min (min n limit) d'.buffered) d.reader.rest.length = min (min n limit) d'.buffered := by omega
        rw [this]
      · simp only [hr]
      · simp only [List.length_drop]
        omega
    · rw [if_neg hx]
      exact .inr (.inr (.inr (.inr ⟨min (min n limit) d'.buffered, hm0, by omega, by omega, by rw [← hr]; exact hx, rfl⟩)))

/-- A program over a `BufRead` does what some program over a `Read` does. -/
theorem BufCons.as_reads (c : BufCons α) : ∀ {seen limit : Nat} {d : Dev}, Polite seen c → seen ≤ limit → seen ≤ d.buffered →
    d.buffered ≤ d.reader.rest.length →
    ∃ c' : ReadCons α, c'.run (limit, d.reader) = ((c.run (limit, d)).1, ((c.run (limit, d)).2.1, (c.run (limit, d)).2.2.reader)) := by
  induction c with
  | done r =>
    intro seen limit d _ _ _ _
    refine ⟨.done r, ?_⟩
    cases r <;> rfl
  | read n k ih =>
    intro seen limit d hc hl hs hb
    rw [BufCons.run]
    rcases Dev.takeRead_cases n limit d hb with ⟨h, hn⟩ | ⟨e, d', hn, hl', h, hr, hb', -, -⟩ | ⟨d', hn, hl', h, hr, hb', -, hr0, he⟩ |
      ⟨m, d', hm, hmn, hml, hmr, hx, h, hr, hb', -⟩ | ⟨m, hm, hml, hmr, hx, h⟩
    · rw [h]
      exact ih _ (hc _) (Nat.zero_le _) (Nat.zero_le _) hb
    · rw [h]
      obtain ⟨c', h'⟩ := ih (.error e) (hc _) (Nat.zero_le limit) (Nat.zero_le _) (hr ▸ hb')
      exact ⟨c', by rw [← hr]; exact h'⟩
    · rw [h]
      obtain ⟨c', h'⟩ := ih (.ok []) (hc _) (Nat.zero_le limit) (Nat.zero_le _) (hr ▸ hb')
      exact ⟨c', by rw [← hr]; exact h'⟩
    · rw [h]
      obtain ⟨c', h'⟩ := ih (.ok (d.reader.rest.take m)) (hc _) (Nat.zero_le (limit - m)) (Nat.zero_le _)
        (d := d') (by rw [hr]; exact hb')
      refine ⟨.read m (fun _ => c'), ?_⟩
      rw [reads_exactly hm hmr hml, if_pos hx]
      rw [← hr]
      exact h'
    · rw [h]
      obtain ⟨c0, -⟩ := ih (.ok []) (hc _) (Nat.zero_le limit) (Nat.zero_le _) hb
      refine ⟨.read m (fun _ => c0), ?_⟩
      rw [reads_exactly hm hmr hml, if_neg hx]
  | fill k ih =>
    intro seen limit d hc hl hs hb
    rw [BufCons.run]
    unfold Dev.takeFill
    simp only
    by_cases h0 : limit = 0
    · rw [if_pos h0]
      exact ih _ (hc.2 []) (Nat.zero_le _) (Nat.zero_le _) hb
    rw [if_neg h0]
    rcases d.fill_cases hb with ⟨e, d', hf, hr, hb', _, hp, hw⟩ | ⟨d', hf, hr, hb', hp, hw⟩
    · rw [hf]
      obtain ⟨c', h'⟩ := ih (.error e) (hc.1 _) (Nat.zero_le limit) (Nat.zero_le _) (d := d') (by omega)
      exact ⟨c', by rw [← hr]; exact h'⟩
    · rw [hf]
      obtain ⟨c', h'⟩ := ih (.ok ((d.reader.rest.take d'.buffered).take limit)) (hc.2 _) (limit := limit) (d := d')
        (by simp only [List.length_take]; omega) (by simp only [List.length_take]; omega) (by rw [hr]; exact hb')
      rw [hr] at h'
      exact ⟨c', h'⟩
  | consume n k ih =>
    intro seen limit d hc hl hs hb
    rw [BufCons.run]
    unfold Dev.takeConsume
    simp only
    have hn := hc.1
    rw [Nat.min_eq_left (by omega), Dev.consume_seen (by omega)]
    by_cases h0 : n = 0
    · rw [if_pos (.inl h0)]
      subst h0
      have := ih (limit := limit - 0) (d := { d with reader := d.reader.consume 0, buffered := d.buffered - 0 }) hc.2 (by omega)
        (by simp only; omega) (by simpa [Reader.consume] using hb)
      simpa [Reader.consume] using this
    by_cases hx : d.reader.position + n < u64Size
    · rw [if_pos (.inr hx)]
      obtain ⟨c', h'⟩ := ih (limit := limit - n) (d := { d with reader := d.reader.consume n, buffered := d.buffered - n }) hc.2
        (by omega) (by simp only; omega) (by simp only [Reader.consume, List.length_drop]; omega)
      refine ⟨.read n (fun _ => c'), ?_⟩
      rw [reads_exactly h0 (by omega) (by omega), if_pos hx]
      exact h'
    · rw [if_neg (by simp [h0, hx])]
      obtain ⟨c0, -⟩ := ih (limit := limit - n) (d := { d with reader := d.reader.consume n, buffered := d.buffered - n }) hc.2
        (by omega) (by simp only; omega) (by simp only [Reader.consume, List.length_drop]; omega)
      refine ⟨.read n (fun _ => c0), ?_⟩
      rw [reads_exactly h0 (by omega) (by omega), if_neg hx]

theorem Dev.consume_twice (a b : Nat) (r : Reader) : (r.consume a).consume b = r.consume (a + b) := by
  simp only [Reader.consume, List.drop_drop, Nat.add_assoc]

theorem Dev.final_consume {limit m : Nat} {r : Reader} (h : m ≤ limit) (hr : m ≤ r.rest.length) :
    Dev.final (limit - m) (r.consume m) = Dev.final limit r := by
  unfold Dev.final Reader.consume
  simp only [List.length_drop]
  by_cases h' : r.rest.length < limit
  · rw [if_pos h', if_pos (by omega)]
  · rw [if_neg h', if_neg (by omega)]

theorem take_split {m limit : Nat} {bs : Bytes} (h : m ≤ limit) : bs.take limit = bs.take m ++ (bs.drop m).take (limit - m) := by
  rw [← List.drop_take]
  have := List.take_append_drop m (bs.take limit)
  rw [List.take_take, Nat.min_eq_left h] at this
  exact this.symm

/-- What a program over a `BufRead` sees, takes and answers. -/
theorem BufCons.served {faults : IoErr → Prop} {final : Option IoErr} (c : BufCons α) : ∀ {seen limit : Nat} {d : Dev},
    Polite seen c → seen ≤ limit → seen ≤ d.buffered → d.buffered ≤ d.reader.rest.length →
    d.reader.position + limit < u64Size → (∀ i e, d.plan i = .fail e → faults e) → Dev.final limit d.reader = final →
    ∃ taken r d', c.run (limit, d) = M.ofExcept r (limit - taken.length, d') ∧ d'.reader = d.reader.consume taken.length ∧
      taken.length ≤ limit ∧ Served faults final c (d.reader.rest.take limit) taken r := by
  induction c with
  | done r =>
    intro seen limit d _ _ _ _ _ _ _
    exact ⟨[], r, d, rfl, by simp [Reader.consume], Nat.zero_le _, .done⟩
  | read n k ih =>
    intro seen limit d hc hl hs hb hx hf hfin
    rw [BufCons.run]
    rcases Dev.takeRead_cases n limit d hb with ⟨h, hn⟩ | ⟨e, d', hn, hl', h, hr, hb', hp, hw⟩ |
      ⟨d', hn, hl', h, hr, hb', hp, hr0, he⟩ | ⟨m, d', hm, hmn, hml, hmr, hx', h, hr, hb', hp⟩ | ⟨m, hm, hml, hmr, hx', h⟩
    · rw [h]
      obtain ⟨taken, r, d', h1, h2, h3, h4⟩ := ih (.ok []) (hc _) (Nat.zero_le _) (Nat.zero_le _) hb hx hf hfin
      refine ⟨taken, r, d', h1, h2, h3, ?_⟩
      refine Served.read (bs := []) (Nat.zero_le _) (fun _ => ?_) h4
      rcases hn with hn | hn
      · exact .inl hn
      · refine .inr ⟨by rw [hn, List.take_zero], ?_⟩
        rw [← hfin, hn]
        rfl
    · rw [h]
      have hf' : ∀ i e, d'.plan i = .fail e → faults e := fun i e he => by
        obtain ⟨j, hj⟩ := hp i
        exact hf j e (hj ▸ he)
      obtain ⟨taken, r, d'', h1, h2, h3, h4⟩ := ih (.error e) (hc _) (Nat.zero_le limit) (Nat.zero_le _) (hr ▸ hb') (hr ▸ hx) hf'
        (hr ▸ hfin)
      rw [hr] at h2 h4
      refine ⟨taken, r, d'', h1, h2, h3, .readErr hn ?_ h4⟩
      rcases hw with ⟨i, hi⟩ | ⟨hr0, he⟩
      · exact .inl (hf i e hi)
      · refine .inr ⟨by rw [hr0, List.take_nil], ?_⟩
        rw [← hfin, Dev.final, hr0, if_pos (by simp; omega), he]
    · rw [h]
      have hf' : ∀ i e, d'.plan i = .fail e → faults e := fun i e he => by
        obtain ⟨j, hj⟩ := hp i
        exact hf j e (hj ▸ he)
      obtain ⟨taken, r, d'', h1, h2, h3, h4⟩ := ih (.ok []) (hc _) (Nat.zero_le limit) (Nat.zero_le _) (hr ▸ hb') (hr ▸ hx) hf'
        (hr ▸ hfin)
      rw [hr] at h2 h4
      refine ⟨taken, r, d'', h1, h2, h3, ?_⟩
      refine Served.read (bs := []) (Nat.zero_le _) (fun _ => .inr ⟨by rw [hr0, List.take_nil], ?_⟩) h4
      rw [← hfin, Dev.final, he]
      split <;> rfl
    · rw [h]
      have hf' : ∀ i e, d'.plan i = .fail e → faults e := fun i e he => by
        obtain ⟨j, hj⟩ := hp i
        exact hf j e (hj ▸ he)
      obtain ⟨taken, r, d'', h1, h2, h3, h4⟩ := ih (.ok (d.reader.rest.take m)) (hc _) (Nat.zero_le (limit - m)) (Nat.zero_le _)
        (d := d') (by rw [hr]; exact hb') (by rw [hr]; simp only [Reader.consume]; omega) hf'
        (by rw [hr, Dev.final_consume hml hmr, hfin])
      have hlen : (d.reader.rest.take m).length = m := by rw [List.length_take]; omega
      refine ⟨d.reader.rest.take m ++ taken, r, d'', ?_, ?_, ?_, ?_⟩
      · rw [List.length_append, hlen, ← Nat.sub_sub]
        exact h1
      · rw [h2, hr, Dev.consume_twice, List.length_append, hlen]
      · rw [List.length_append, hlen]; omega
      · rw [take_split hml]
        rw [hr] at h4
        refine .read (by omega) (fun h0 => ?_) h4
        rw [h0, List.length_nil] at hlen
        exact absurd hlen.symm hm
    · omega
  | fill k ih =>
    intro seen limit d hc hl hs hb hx hf hfin
    rw [BufCons.run]
    unfold Dev.takeFill
    simp only
    by_cases h0 : limit = 0
    · rw [if_pos h0]
      obtain ⟨taken, r, d', h1, h2, h3, h4⟩ := ih (.ok []) (hc.2 []) (Nat.zero_le _) (Nat.zero_le _) hb hx hf hfin
      refine ⟨taken, r, d', h1, h2, h3, ?_⟩
      refine Served.fill (bs := []) (fun _ => ⟨by rw [h0, List.take_zero], ?_⟩) h4
      rw [← hfin, h0]
      rfl
    rw [if_neg h0]
    rcases d.fill_cases hb with ⟨e, d', he, hr, hb', _, hp, hw⟩ | ⟨d', he, hr, hb', hp, hw⟩
    · rw [he]
      have hf' : ∀ i e, d'.plan i = .fail e → faults e := fun i e he => by
        obtain ⟨j, hj⟩ := hp i
        exact hf j e (hj ▸ he)
      obtain ⟨taken, r, d'', h1, h2, h3, h4⟩ := ih (.error e) (hc.1 _) (Nat.zero_le limit) (Nat.zero_le _) (d := d') (by omega)
        (hr ▸ hx) hf' (hr ▸ hfin)
      rw [hr] at h2 h4
      refine ⟨taken, r, d'', h1, h2, h3, .fillErr ?_ h4⟩
      rcases hw with ⟨i, hi⟩ | ⟨hr0, he⟩
      · exact .inl (hf i e hi)
      · refine .inr ⟨by rw [hr0, List.take_nil], ?_⟩
        rw [← hfin, Dev.final, hr0, if_pos (by simp; omega), he]
    · rw [he]
      have hf' : ∀ i e, d'.plan i = .fail e → faults e := fun i e he => by
        obtain ⟨j, hj⟩ := hp i
        exact hf j e (hj ▸ he)
      obtain ⟨taken, r, d'', h1, h2, h3, h4⟩ := ih (.ok ((d.reader.rest.take d'.buffered).take limit)) (hc.2 _) (limit := limit) (d := d')
        (by simp only [List.length_take]; omega) (by simp only [List.length_take]; omega) (by rw [hr]; exact hb') (hr ▸ hx) hf'
        (hr ▸ hfin)
      rw [hr] at h2 h4
      refine ⟨taken, r, d'', h1, h2, h3, ?_⟩
      rw [List.take_take] at h4
      rw [take_split (Nat.min_le_left limit d'.buffered)] at h4 ⊢
      refine .fill (fun h5 => ?_) h4
      have := congrArg List.length h5
      simp only [List.length_take, List.length_nil] at this
      obtain ⟨hr0, he⟩ := hw (by omega)
      refine ⟨by rw [hr0, List.drop_nil, List.take_nil], ?_⟩
      rw [← hfin, Dev.final, he]
      split <;> rfl
  | consume n k ih =>
    intro seen limit d hc hl hs hb hx hf hfin
    rw [BufCons.run]
    unfold Dev.takeConsume
    simp only
    have hn := hc.1
    rw [Nat.min_eq_left (by omega), Dev.consume_seen (by omega), if_pos (.inr (by omega))]
    obtain ⟨taken, r, d', h1, h2, h3, h4⟩ := ih (limit := limit - n)
      (d := { d with reader := d.reader.consume n, buffered := d.buffered - n }) hc.2
      (by omega) (by simp only; omega) (by simp only [Reader.consume, List.length_drop]; omega)
      (by simp only [Reader.consume]; omega) hf (by rw [Dev.final_consume (by omega) (by omega), hfin])
    have hlen : (d.reader.rest.take n).length = n := by rw [List.length_take]; omega
    refine ⟨d.reader.rest.take n ++ taken, r, d', ?_, ?_, ?_, ?_⟩
    · rw [List.length_append, hlen, ← Nat.sub_sub]
      exact h1
    · rw [h2, Dev.consume_twice, List.length_append, hlen]
    · rw [List.length_append, hlen]; omega
    · rw [take_split (show n ≤ limit by omega)]
      have := Served.consume (bs := d.reader.rest.take n) h4
      rw [hlen] at this
      exact this

/-! ## Calls -/

theorem Setting.dev_buffered (w : Setting) (r : Reader) : (w.dev r).buffered ≤ (w.dev r).reader.rest.length :=
  Nat.min_le_right _ _

/-- A choice made after the first part of a program can be made before. -/
theorem M.bind_choose {ε σ β γ X : Type} [hX : Nonempty X] (m : M ε σ β) {f : β → M ε σ γ} {g : X → β → M ε σ γ}
    (h : ∀ b s, ∃ x, f b s = g x b s) (s : σ) : ∃ x, (m >>= f) s = (m >>= g x) s := by
  show ∃ x, M.bind m f s = M.bind m (g x) s
  unfold M.bind
  rcases m s with ⟨r, s'⟩
  obtain ⟨x0⟩ := hX
  cases r with
  | ok b => exact h b s'
  | err e => exact ⟨x0, rfl⟩
  | panic p => exact ⟨x0, rfl⟩

theorem ReadCons.nonempty (c : BufCons α) : Nonempty (ReadCons α) := by
  induction c with
  | done r => exact ⟨.done r⟩
  | read n k ih => exact ih (.ok [])
  | fill k ih => exact ih (.ok [])
  | consume n k ih => exact ih

theorem AP.loadSpecialBuf_alike {w : Setting} {c : Nat → BufCons α} (hc : ∀ n, Polite 0 (c n)) (a : AP) :
    ∃ c' : ReadCons α, AP.loadSpecialBuf w c a = AP.loadSpecial (fun _ => c') a := by
  have hX := ReadCons.nonempty (c 0)
  unfold AP.loadSpecialBuf AP.loadSpecial
  refine M.bind_choose _ (fun len s => ?_) a
  refine M.bind_choose _ (fun _ s => ?_) s
  obtain ⟨c', h⟩ := BufCons.as_reads (c len) (hc len) (Nat.zero_le len) (Nat.zero_le _) (w.dev_buffered s.parser.reader)
  refine ⟨c', ?_⟩
  have h' : c'.run (len, s.parser.reader) = _ := h
  simp only [h']

/-- `l` with the given programs for strings and binary data. -/
abbrev BufLoader.with (l : BufLoader α) (x : ReadCons α) : Loader α :=
  { l.base with binaryBuf := fun _ => x, stringBuf := fun _ => x }

theorem AP.loadImplBuf_alike {Z : Zlib} {w : Setting} {l : BufLoader α} (hb : ∀ n, Polite 0 (l.binary n))
    (hs : ∀ n, Polite 0 (l.string n)) (t : AttrType) (start idx : Nat) (a : AP) :
    ∃ x, AP.loadImplBuf Z w t l start idx a = AP.loadImpl Z true t (l.with x) start idx a := by
  obtain ⟨x0⟩ := ReadCons.nonempty (l.binary 0)
  cases t with
  | binary => exact AP.loadSpecialBuf_alike hb a
  | string => exact AP.loadSpecialBuf_alike hs a
  | _ => exact ⟨x0, rfl⟩

theorem AP.loadBuf_alike {Z : Zlib} {w : Setting} {l : BufLoader α} (hb : ∀ n, Polite 0 (l.binary n))
    (hs : ∀ n, Polite 0 (l.string n)) (a : AP) : ∃ x, AP.loadBuf Z w l a = AP.load Z true (l.with x) a := by
  have hX := ReadCons.nonempty (l.binary 0)
  obtain ⟨x0⟩ := id hX
  have body : ∀ start idx s, ∃ x, AP.loadBodyBuf Z w l start idx s = AP.loadBody Z true (l.with x) start idx s := by
    intro start idx s
    unfold AP.loadBodyBuf AP.loadBody
    refine M.bind_choose _ (fun t s => ?_) s
    cases t with
    | none => exact ⟨x0, rfl⟩
    | some t =>
      obtain ⟨x, h⟩ := AP.loadImplBuf_alike (Z := Z) (w := w) hb hs t start idx s
      refine ⟨x, ?_⟩
      simp only [bind, M.bind, h]
  unfold AP.loadBuf AP.load AP.withHealthCheck
  refine M.bind_choose _ (fun _ s => ?_) a
  refine M.bind_choose _ (fun a' s => ?_) s
  refine M.bind_choose _ (fun _ s => ?_) s
  obtain ⟨x, h⟩ := body a'.attrs.next (a'.attrs.total - a'.attrs.rest) s
  exact ⟨x, by simp only [h]⟩

theorem Client.callBuf_alike {Z : Zlib} {s t : Client} {c : BufCall α} {o : Outcome α} (hc : BufCall.Polite c)
    (h : s.callBuf Z c = some (o, t)) : ∃ c', BufCall.Alike c c' ∧ s.call Z c' = some (o, t) := by
  cases c with
  | plain c => exact ⟨c, rfl, h⟩
  | load w l =>
    cases ha : s.attrs with
    | none => simp [Client.callBuf, ha] at h
    | some at_ =>
      obtain ⟨x, hx⟩ := AP.loadBuf_alike (Z := Z) (w := w) hc.1 hc.2 ⟨s.parser, at_⟩
      refine ⟨.load true (l.with x), ⟨_, _, rfl⟩, ?_⟩
      rw [← h]
      simp only [Client.callBuf, Client.call, ha, hx]
      rcases AP.load Z true (l.with x) ⟨s.parser, at_⟩ with ⟨r, a⟩
      rcases r with (_ | _) | _ | _ <;> rfl

theorem Spec.BufCall.AlikeAll.snoc {h : List (BufCall α × Outcome α)} {h' : History α} (ha : BufCall.AlikeAll h h') {c : BufCall α}
    {c' : Call α} (hc : BufCall.Alike c c') (o : Outcome α) : BufCall.AlikeAll (h ++ [(c, o)]) (h' ++ [(c', o)]) := by
  induction h generalizing h' with
  | nil =>
    cases h' with
    | nil => exact ⟨hc, rfl, trivial⟩
    | cons y ys => exact absurd ha (by simp [BufCall.AlikeAll])
  | cons x xs ih =>
    cases h' with
    | nil => exact absurd ha (by simp [BufCall.AlikeAll])
    | cons y ys => exact ⟨ha.1, ha.2.1, ih ha.2.2⟩

theorem Spec.BufCall.AlikeAll.panic {h : List (BufCall α × Outcome α)} {h' : History α} (ha : BufCall.AlikeAll h h') {c' : Call α}
    {x : Panic} (hm : (c', Outcome.panic x) ∈ h') : ∃ c, (c, Outcome.panic x) ∈ h := by
  induction h generalizing h' with
  | nil =>
    cases h' with
    | nil => simp at hm
    | cons y ys => exact absurd ha (by simp [BufCall.AlikeAll])
  | cons z zs ih =>
    cases h' with
    | nil => simp at hm
    | cons y ys =>
      rcases List.mem_cons.mp hm with hm | hm
      · refine ⟨z.1, List.mem_cons.mpr (.inl ?_)⟩
        have := ha.2.1
        rw [← hm] at this
        simp only at this
        rw [this]
      · obtain ⟨c, hc⟩ := ih ha.2.2 hm
        exact ⟨c, List.mem_cons_of_mem _ hc⟩

theorem BufRuns.alike {Z : Zlib} {s t : Client} {h : List (BufCall α × Outcome α)} (hr : BufRuns Z s h t)
    (hp : ∀ x ∈ h, BufCall.Polite x.1) : ∃ h' : History α, Runs Z s h' t ∧ BufCall.AlikeAll h h' := by
  induction hr with
  | nil => exact ⟨[], .nil, trivial⟩
  | @snoc h t u c o hr hn hc ih =>
    obtain ⟨h', hr', ha⟩ := ih (fun x hx => hp x (List.mem_append_left _ hx))
    obtain ⟨c', hc', hcall⟩ := Client.callBuf_alike (hp (c, o) (by simp)) hc
    refine ⟨h' ++ [(c', o)], .snoc hr' ?_ hcall, ha.snoc hc' o⟩
    intro d x hx
    obtain ⟨c0, h0⟩ := ha.panic hx
    exact hn c0 x h0

end Fbx
