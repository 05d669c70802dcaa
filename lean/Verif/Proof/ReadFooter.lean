import Verif.Proof.ReadForest
import Verif.Proof.Wp
import Verif.Proof.Rel

/-! # Reading the footer -/

namespace Fbx
open Spec Reader
open Writer (le_eq)

namespace Parser

theorem readExact_ok_iff (n : Nat) (r r' : Reader) (x : Bytes) :
    Reader.readExact n r = (.ok x, r') ↔ n ≤ r.rest.length ∧ r.position + n < 2 ^ 64 ∧ x = r.rest.take n ∧ r' = r.consume n := by
  have hu : u64Size = 2 ^ 64 := rfl
  simp only [Reader.readExact, hu]
  split
  · split
    · simp only [Prod.mk.injEq, Res.ok.injEq]
      constructor
      · rintro ⟨a, b⟩; exact ⟨by assumption, by assumption, a.symm, b.symm⟩
      · rintro ⟨_, _, a, b⟩; exact ⟨a.symm, b.symm⟩
    · simp only [Prod.mk.injEq, reduceCtorEq, false_and, false_iff]; omega
  · split <;> simp only [Prod.mk.injEq, reduceCtorEq, false_and, false_iff] <;> omega

theorem io_ok_iff {α : Type} (m : M IoErr Reader α) (p q : Parser) (v : α) :
    Parser.io m p = (.ok v, q) ↔ ∃ r, m p.reader = (.ok v, r) ∧ q = p.withReader r := by
  simp only [Parser.io, M.zoom_apply, M.mapErr_apply, withReader]
  rcases m p.reader with ⟨_ | _ | _, r⟩ <;> simp only [Prod.mk.injEq, Res.ok.injEq, reduceCtorEq, false_and, exists_false] 
  constructor
  · rintro ⟨rfl, rfl⟩; exact ⟨r, ⟨rfl, rfl⟩, rfl⟩
  · rintro ⟨_, ⟨rfl, rfl⟩, rfl⟩; exact ⟨rfl, rfl⟩

theorem ioRead_ok {n : Nat} {p q : Parser} {x : Bytes} (h : Parser.io (Reader.readExact n) p = (.ok x, q)) :
    n ≤ p.reader.rest.length ∧ x = p.reader.rest.take n ∧ q = p.withReader (p.reader.consume n) := by
  obtain ⟨r, h1, h2⟩ := (io_ok_iff _ _ _ _).mp h
  obtain ⟨a, -, b, rfl⟩ := (readExact_ok_iff _ _ _ _).mp h1
  exact ⟨a, b, h2⟩

theorem warn_ok_log {w : Warning} {pos : SynPos} {p q : Parser} {u : Unit} (h : warn w pos p = (.ok u, q)) :
    q = { p with log := (w, pos) :: p.log } := by
  simp only [warn] at h
  split at h
  · simp only [Prod.mk.injEq] at h; exact h.2.symm
  · split at h <;> simp only [Prod.mk.injEq, reduceCtorEq, false_and] at h; exact h.2.symm

/-- Log entries added by a conditional warning. -/
theorem warnIf_ok {c : Bool} {w : Warning} {pos : SynPos} {p q : Parser} {u : Unit} (h : warnIf c w pos p = (.ok u, q)) :
    q = { p with log := (if c then [(w, pos)] else []) ++ p.log } := by
  cases c
  · simp only [warnIf, Bool.false_eq_true, if_false, M.pure_ok_iff] at h; simp [h.2]
  · simp only [warnIf, if_true] at h; simpa using warn_ok_log h

theorem warnIf_tolerant {p : Parser} (h : tolerant p) (c : Bool) (w : Warning) (pos : SynPos) :
    warnIf c w pos p = (.ok (), { p with log := (if c then [(w, pos)] else []) ++ p.log }) := by
  cases c
  · rfl
  · exact warn_tolerant h w pos

theorem all_zero_eq {bs : Bytes} (h : bs.all (· = 0) = true) : bs = zeros bs.length := by
  rw [zeros, List.eq_replicate_iff]
  exact ⟨rfl, by simpa using h⟩

theorem split_at (a b : Nat) (l : Bytes) : (l.drop a).take b ++ l.drop (a + b) = l.drop a := by
  rw [← List.drop_drop, List.take_append_drop]

theorem nibble : ∀ i : Fin 256, UInt8.ofNat i.val &&& 0xf0 = UInt8.ofNat (16 * (i.val / 16)) := by decide +kernel

theorem nibble_iff (b : UInt8) (k : Nat) (hk : k < 16) : (b &&& 0xf0) = UInt8.ofNat (16 * k) ↔ b.toNat / 16 = k := by
  have := nibble ⟨b.toNat, b.toNat_lt⟩
  simp only [UInt8.ofNat_toNat] at this
  have hb := b.toNat_lt
  rw [this, ← UInt8.toNat_inj, UInt8.toNat_ofNat', UInt8.toNat_ofNat']
  omega

theorem odd_iff (bs : Bytes) (h : bs.length = 16) : footerField1Odd bs = false ↔ usualField1 bs := by
  have key : ∀ (ks : List Nat) (bs : Bytes), bs.length = ks.length → (∀ k ∈ ks, k < 16) →
      ((List.zip bs (ks.map (fun k => UInt8.ofNat (16 * k)))).any (fun x => decide ((x.1 &&& 0xf0) ≠ x.2)) = false ↔
        bs.map (fun b => b.toNat / 16) = ks) := by
    intro ks
    induction ks with
    | nil =>
      intro bs hl _
      have : bs = [] := List.eq_nil_of_length_eq_zero hl
      subst this; simp
    | cons k ks ih =>
      intro bs hl hk
      cases bs with
      | nil => simp at hl
      | cons b bs =>
        have := ih bs (by simpa using hl) (fun k hk' => hk k (List.mem_cons_of_mem _ hk'))
        have h2 := nibble_iff b k (hk k (List.mem_cons_self ..))
        simp only [List.map_cons, List.zip_cons_cons, List.any_cons, Bool.or_eq_false_iff, List.cons.injEq, this, decide_eq_false_iff_not,
          ne_eq, Decidable.not_not, h2]
  have := key [0xf, 0xb, 0xa, 0x0, 0xd, 0xc, 0xd, 0x6, 0xb, 0x7, 0xf, 0x8, 0x1, 0xf, 0x2, 0x7] bs (by simpa using h) (by decide)
  simp only [usualField1]
  rw [← this]
  rfl

/-- Whatever is accepted as a footer is one. -/
theorem readFooter_inv {p q : Parser} {f : Footer} (h : readFooter p = (.ok f, q)) :
    startsWithFooter p.version.toNat p.reader.rest f ∧
      q = { p with
        reader := p.reader.consume (160 + f.paddingLen)
        log := (if f.paddingLen ≠ expectedPadding (p.reader.position + 16) then
            [(.invalidFooterPadding (expectedPadding (p.reader.position + 16)) f.paddingLen,
              { bytePos := p.reader.position + 16, compPos := p.reader.position, path := [], attrIdx := none })] else []) ++
          ((if footerField1Odd f.unknown1 then [(.unexpectedFooterField,
              { bytePos := p.reader.position, compPos := p.reader.position, path := [], attrIdx := none })] else []) ++ p.log) } := by
  rw [readFooter, M.get_bind, M.bind_ok_iff] at h
  obtain ⟨u1, p1, h1, h⟩ := h
  obtain ⟨l1, rfl, rfl⟩ := ioRead_ok h1
  rw [M.get_bind, M.bind_ok_iff] at h
  obtain ⟨_, p2, h2, h⟩ := h
  have h2 := warnIf_ok h2
  rw [M.bind_ok_iff] at h
  obtain ⟨buf, p3, h3, h⟩ := h
  obtain ⟨l3, rfl, rfl⟩ := ioRead_ok h3
  have e2 : p2.reader = p.reader.consume 16 := by rw [h2]; rfl
  rw [e2] at h l3
  simp only [consume_rest, List.length_drop] at l3
  generalize hbuf : ((p.reader.consume 16).rest.take 144) = buf at h
  cases hi : (buf.drop 128).findIdx? (fun x => decide (x ≠ 0)) with
  | none => simp only [hi, M.throw_ok_iff] at h
  | some i =>
    simp only [hi] at h
    have hbl : buf.length = 144 := by rw [← hbuf]; simp; omega
    have hi16 : i < 16 := by
      have := (List.findIdx?_eq_some_iff_findIdx_eq.mp hi).1
      simpa [hbl] using this
    rw [M.assert_bind, if_pos (by simp; omega), M.assert_bind, if_pos (by simp; omega)] at h
    have hmod : (128 + i) % 16 = i := by omega
    rw [hmod] at h
    simp only [M.ite_apply] at h
    split at h
    · simp only [M.throw_ok_iff] at h
    rename_i hpad
    split at h
    · simp only [M.throw_ok_iff] at h
    rename_i hu2
    rw [M.get_bind] at h
    simp only [M.ite_apply] at h
    split at h
    · simp only [M.throw_ok_iff] at h
    rename_i hver
    split at h
    · simp only [M.throw_ok_iff] at h
    rename_i hz
    rw [M.bind_ok_iff] at h
    obtain ⟨more, p4, h4, h⟩ := h
    obtain ⟨l4, rfl, rfl⟩ := ioRead_ok h4
    simp only [M.ite_apply] at h
    split at h
    · simp only [M.throw_ok_iff] at h
    rename_i hu3
    rw [M.bind_ok_iff] at h
    obtain ⟨_, p5, h5, h⟩ := h
    have h5 := warnIf_ok h5
    rw [M.pure_ok_iff] at h
    obtain ⟨hf, rfl⟩ := h
    have hpv : p2.version = p.version := by rw [h2]; rfl
    simp only [Decidable.not_not, ne_eq] at hpad hu2 hver hz hu3
    simp only [withReader, hpv] at hver
    have hpl : (buf.take i).length = i := by simp; omega
    have hl16 : (buf.drop (i + 128)).length = 16 - i := by simp [hbl]
    simp only [withReader, consume_consume] at hu3 l4 hf
    refine ⟨⟨by rw [hf]; simp [l1], by rw [hf]; simp only; omega, by rw [hf]; exact hu2, by rw [hf]; simp only [hver],
      by rw [hf]; exact hu3, ?_⟩, ?_⟩
    · refine ⟨p.reader.rest.drop (160 + i), ?_⟩
      have a1 := all_zero_eq hpad
      have a2 := all_zero_eq hz
      rw [hpl] at a1
      have hzl : ((buf.drop (i + 8)).take 120).length = 120 := by simp [hbl]; omega
      rw [hzl] at a2
      have a3 : le 4 p.version.toNat = (buf.drop (i + 4)).take 4 := by
        have hl4 : ((buf.drop (i + 4)).take 4).length = 4 := by simp [hbl]; omega
        have := leBytes_fromLe ((buf.drop (i + 4)).take 4)
        have hlt := fromLe_lt ((buf.drop (i + 4)).take 4)
        rw [hl4] at this hlt
        rw [le_eq, ← this, ← hver]
        congr 1
        simp only [UInt32.toNat_ofNat']
        omega
      rw [hf]
      simp only
      rw [show List.replicate i (0 : UInt8) = buf.take i from a1.symm, show List.replicate 120 (0 : UInt8) = _ from a2.symm, a3]
      have hb0 : buf = (p.reader.rest.drop 16).take 144 := by rw [← hbuf]; rfl
      have hb1 : buf.take i ++ (buf.drop i).take 4 ++ (buf.drop (i + 4)).take 4 ++ (buf.drop (i + 8)).take 120 ++ buf.drop (i + 128) = buf := by
        have s1 := split_at (i + 8) 120 buf
        have s2 := split_at (i + 4) 4 buf
        have s3 := split_at i 4 buf
        simp only [List.append_assoc, Nat.add_assoc] at s1 s2 s3 ⊢
        rw [s1, s2, s3, List.take_append_drop]
      simp only [List.append_assoc] at hb1 ⊢
      have hc : 16 + (144 : Nat) = 160 := rfl
      have hmore : 16 - (buf.drop (i + 128)).length = i := by omega
      rw [hmore]
      have e4 : ((p.reader.consume (16 + 144)).rest.take i) ++ p.reader.rest.drop (160 + i) = p.reader.rest.drop 160 := by
        rw [consume_rest]; exact split_at 160 i _
      rw [e4]
      have e5 := congrArg (· ++ p.reader.rest.drop 160) hb1
      simp only [List.append_assoc] at e5
      rw [e5, hb0, split_at 16 144, List.take_append_drop]
    · rw [h5, h2, hf]
      simp only [withReader, consume_consume, consume_position, hl16, Nat.add_sub_cancel]
      congr 2
      · omega
      · by_cases hq : i = expectedPadding (p.reader.position + 16) <;> simp [hq]

theorem findIdx_replicate (n : Nat) (b : Byte) (t : Bytes) (hb : b ≠ 0) :
    (List.replicate n (0 : Byte) ++ b :: t).findIdx? (fun x => decide (x ≠ 0)) = some n := by
  induction n with
  | zero => simp [List.findIdx?_cons, hb]
  | succ n ih => simp only [List.replicate_succ, List.cons_append, List.findIdx?_cons, ih]; simp

/-- A footer is accepted. -/
theorem readFooter_accept {p : Parser} {f : Footer}
    (ht : tolerant p ∨ (footerField1Odd f.unknown1 = false ∧ f.paddingLen = expectedPadding (p.reader.position + 16))) (hf : p.reader.position + p.reader.rest.length < 2 ^ 64)
    (h : startsWithFooter p.version.toNat p.reader.rest f) : ∃ q, readFooter p = (.ok f, q) := by
  obtain ⟨h1, h2, h3, h4, h5, t, h⟩ := h
  obtain ⟨u1, n, u2, v, u3⟩ := f
  simp only at h1 h2 h3 h4 h5 h ht
  have hv : v = p.version := UInt32.toNat_inj.mp h4
  subst hv
  generalize hT : (List.drop (16 - n) u3 ++ t) = T
  generalize hB : List.replicate n (0 : UInt8) ++ u2 ++ le 4 p.version.toNat ++ List.replicate 120 0 ++ u3.take (16 - n) = B
  have hu3l : u3.length = 16 := by rw [h5]; rfl
  have hu2l : u2.length = 4 := by rw [h3]; rfl
  have hBl : B.length = 144 := by rw [← hB]; simp [le_eq, hu2l, hu3l]; omega
  have hr : p.reader.rest = u1 ++ (B ++ (u3.drop (16 - n) ++ t)) := by
    rw [h, ← hB]
    simp only [List.append_assoc]
    congr 5
    rw [← List.append_assoc, List.take_append_drop]
  have hr1 : (p.reader.consume 16).rest = B ++ (u3.drop (16 - n) ++ t) := by
    rw [consume_rest, hr]; exact List.drop_left' h1
  have f1 : (p.reader.consume 16).position + (p.reader.consume 16).rest.length < 2 ^ 64 := by
    rw [hr1]; rw [hr] at hf; simp [h1] at hf ⊢; omega
  have hr2 : ((p.reader.consume 16).consume 144).rest = u3.drop (16 - n) ++ t := by
    rw [consume_rest, hr1]; exact List.drop_left' hBl
  have f2 : ((p.reader.consume 16).consume 144).position + ((p.reader.consume 16).consume 144).rest.length < 2 ^ 64 := by
    rw [hr2]; rw [hr1] at f1; simp [hBl] at f1 ⊢; omega
  -- the parts of the buffer
  have hd : ∀ k, k ≤ n + 128 → B.drop k = (List.replicate n (0 : UInt8) ++ u2 ++ le 4 p.version.toNat ++ List.replicate 120 0).drop k ++ u3.take (16 - n) := by
    intro k hk
    rw [← hB, List.drop_append_of_le_length]
    simp [le_eq, hu2l]; omega
  have hpre : (List.replicate n (0 : UInt8) ++ u2 ++ le 4 p.version.toNat ++ List.replicate 120 0).drop 128 = List.replicate n 0 := by
    rw [List.drop_append, List.drop_of_length_le (by simp [le_eq, hu2l]; omega), List.nil_append, List.drop_replicate]
    congr 1
    simp [le_eq, hu2l]; omega
  obtain ⟨x, hx⟩ : ∃ x, u3.take (16 - n) = 0xf8 :: x := by
    rw [h5, show 16 - n = (15 - n) + 1 by omega]; exact ⟨_, rfl⟩
  have hi : (B.drop 128).findIdx? (fun x => decide (x ≠ 0)) = some n := by
    rw [hd 128 (by omega), hpre, hx]
    exact findIdx_replicate n _ _ (by decide)
  have p1 : B.take n = List.replicate n 0 := by
    rw [← hB]; simp only [List.append_assoc]; exact List.take_left' (by simp)
  have p2 : (B.drop n).take 4 = u2 := by
    rw [← hB]; simp only [List.append_assoc]; rw [List.drop_left' (by simp)]; exact List.take_left' hu2l
  have p3 : (B.drop (n + 4)).take 4 = leBytes 4 p.version.toNat := by
    rw [← hB, show List.replicate n (0 : UInt8) ++ u2 ++ le 4 p.version.toNat ++ List.replicate 120 0 ++ u3.take (16 - n) =
      (List.replicate n (0 : UInt8) ++ u2) ++ (le 4 p.version.toNat ++ (List.replicate 120 0 ++ u3.take (16 - n))) by simp only [List.append_assoc],
      List.drop_left' (by simp [hu2l]), le_eq]
    exact List.take_left' (by simp)
  have p4 : (B.drop (n + 8)).take 120 = List.replicate 120 0 := by
    rw [← hB, show List.replicate n (0 : UInt8) ++ u2 ++ le 4 p.version.toNat ++ List.replicate 120 0 ++ u3.take (16 - n) =
      (List.replicate n (0 : UInt8) ++ u2 ++ le 4 p.version.toNat) ++ (List.replicate 120 0 ++ u3.take (16 - n)) by simp only [List.append_assoc],
      List.drop_left' (by simp [hu2l, le_eq])]
    exact List.take_left' (by simp)
  have p5 : B.drop (n + 128) = u3.take (16 - n) := by
    rw [hd _ (Nat.le_refl _), List.drop_of_length_le (by simp [hu2l, le_eq]), List.nil_append]
  rw [readFooter, M.get_bind]
  refine Exists.imp (fun q hq => (M.bind_val (io_ok (readExact_room hf hr h1)) _).trans hq) ?_
  rw [M.get_bind]
  have hw : ∀ (p' : Parser) (w : Warning) (pos : SynPos), p'.handler = p.handler → warnIf (footerField1Odd u1) w pos p' =
      (.ok (), { p' with log := (if footerField1Odd u1 then [(w, pos)] else []) ++ p'.log }) := by
    intro p' w pos hp'
    rcases ht with ht | ht
    · exact warnIf_tolerant (fun f hf => ht f (hp' ▸ hf)) _ _ _
    · rw [ht.1]; rfl
  have hw2 : ∀ (p' : Parser) (w : Warning) (pos : SynPos), p'.handler = p.handler →
      warnIf (decide (n ≠ expectedPadding (p.reader.position + 16))) w pos p' =
      (.ok (), { p' with log := (if decide (n ≠ expectedPadding (p.reader.position + 16)) then [(w, pos)] else []) ++ p'.log }) := by
    intro p' w pos hp'
    rcases ht with ht | ht
    · exact warnIf_tolerant (fun f hf => ht f (hp' ▸ hf)) _ _ _
    · rw [show decide (n ≠ expectedPadding (p.reader.position + 16)) = false by simp [ht.2]]; rfl
  refine Exists.imp (fun q hq => (M.bind_val (hw (p.withReader (p.reader.consume 16)) _ _ rfl) _).trans hq) ?_
  generalize hL : (if footerField1Odd u1 = true then _ else _) ++ (p.withReader (p.reader.consume 16)).log = L
  refine Exists.imp (fun q hq => (M.bind_val (io_ok (readExact_room f1 hr1 hBl)) _).trans hq) ?_
  simp only [hi]
  rw [M.assert_bind, if_pos (by simp; omega), M.assert_bind, if_pos (by simp; omega)]
  rw [show (128 + n) % 16 = n by omega]
  simp only [M.ite_apply, p1, p2, p3, p4, p5]
  rw [if_neg (by simp), if_neg (by simp [h3, zeros]), M.get_bind]
  simp only [M.ite_apply]
  rw [if_neg (by
    rw [fromLe_leBytes (UInt32.toNat_lt _)]
    simp [withReader]), if_neg (by simp)]
  have hml : (u3.drop (16 - n)).length = 16 - (u3.take (16 - n)).length := by simp [hu3l]
  refine Exists.imp (fun q hq => (M.bind_val (io_ok (readExact_room f2 hr2 hml)) _).trans hq) ?_
  simp only [M.ite_apply, List.take_append_drop]
  rw [if_neg (by rw [h5]; simp [footerUnknown3])]
  refine Exists.imp (fun q hq => (M.bind_val (hw2 _ _ _ ?_) _).trans hq) ?_
  · rfl
  · rw [fromLe_leBytes (UInt32.toNat_lt _), UInt32.ofNat_toNat]
    exact ⟨_, rfl⟩

/-- Too much padding. -/
theorem readFooter_long {p : Parser} (ht : tolerant p) (hf : Fine p.reader) (u1 : Bytes) (n : Nat) (t : Bytes) (h1 : u1.length = 16)
    (hn : 16 ≤ n) (hv : p.version ≠ 0)
    (h : p.reader.rest = u1 ++ (List.replicate n 0 ++ ([0, 0, 0, 0] ++ (le 4 p.version.toNat ++ (List.replicate 120 0 ++ t))))) :
    ∃ q, readFooter p = (.err (PErr.ofData .brokenFbxFooter), q) := by
  obtain ⟨B, hB⟩ : ∃ B, B = (List.replicate n (0 : UInt8) ++ ([0, 0, 0, 0] ++ (le 4 p.version.toNat ++ (List.replicate 120 0 ++ t)))).take 144 := ⟨_, rfl⟩
  have hlen : 144 ≤ (List.replicate n (0 : UInt8) ++ ([0, 0, 0, 0] ++ (le 4 p.version.toNat ++ (List.replicate 120 0 ++ t)))).length := by
    simp [le_eq]; omega
  have hBl : B.length = 144 := by rw [hB, List.length_take]; omega
  have hr1 : (p.reader.consume 16).rest = B ++ ((List.replicate n (0 : UInt8) ++ ([0, 0, 0, 0] ++ (le 4 p.version.toNat ++ (List.replicate 120 0 ++ t)))).drop 144) := by
    rw [consume_rest, h, hB, List.take_append_drop]; exact List.drop_left' h1
  have f1 : Fine (p.reader.consume 16) := hf.consume (by rw [h]; simp [h1])
  rw [readFooter, M.get_bind]
  refine Exists.imp (fun q hq => (M.bind_val (io_ok (readExact_fine hf h h1)) _).trans hq) ?_
  rw [M.get_bind]
  have ht1 : tolerant (p.withReader (p.reader.consume 16)) := ht
  refine Exists.imp (fun q hq => (M.bind_val (warnIf_tolerant ht1 _ _ _) _).trans hq) ?_
  refine Exists.imp (fun q hq => (M.bind_val (io_ok (readExact_fine f1 hr1 hBl)) _).trans hq) ?_
  by_cases hs : n ≤ 116
  · have hz : B.drop 128 = List.replicate 16 0 := by
      rw [hB, List.drop_take, ← List.append_assoc, ← List.append_assoc, List.drop_append,
        List.drop_of_length_le (by simp [le_eq]; omega), List.nil_append, List.drop_append, List.drop_replicate]
      rw [List.take_append_of_le_length (by simp [le_eq]; omega), List.take_replicate]
      congr 1
      simp [le_eq]; omega
    have hi : (B.drop 128).findIdx? (fun x => decide (x ≠ 0)) = none := by
      rw [hz]; decide
    simp only [hi]
    exact ⟨_, rfl⟩
  · cases hi : (B.drop 128).findIdx? (fun x => decide (x ≠ 0)) with
    | none => exact ⟨_, rfl⟩
    | some i =>
      have hi16 : i < 16 := by
        have := (List.findIdx?_eq_some_iff_findIdx_eq.mp hi).1
        simpa [hBl] using this
      simp only
      rw [M.assert_bind, if_pos (by simp; omega), M.assert_bind, if_pos (by simp; omega)]
      rw [show (128 + i) % 16 = i by omega]
      simp only [M.ite_apply]
      split
      · exact ⟨_, rfl⟩
      split
      · exact ⟨_, rfl⟩
      rw [M.get_bind]
      simp only [M.ite_apply]
      have hver : (B.drop (i + 4)).take 4 = List.replicate 4 0 := by
        rw [hB, List.drop_take, List.take_take, List.drop_append, List.drop_replicate]
        rw [List.take_append_of_le_length (by simp; omega), List.take_replicate]
        congr 1
        omega
      rw [hver, if_pos (by
        simp only [withReader]
        rw [show UInt32.ofNat (fromLe (List.replicate 4 0)) = 0 by decide]
        exact fun h => hv h.symm)]
      exact ⟨_, rfl⟩

/-- Reading a footer never panics. -/
theorem readFooter_no_panic {p : Parser} (h : p.reader.position + p.reader.rest.length < 2 ^ 64) :
    M.wp readFooter (fun _ _ => True) (fun _ _ => True) (fun _ _ => False) p := by
  have hio : ∀ (n : Nat) (p : Parser) (P : Bytes → Parser → Prop), p.reader.position + p.reader.rest.length < 2 ^ 64 →
      (∀ q x, x.length = n → q.reader.position + q.reader.rest.length < 2 ^ 64 → P x q) →
      M.wp (io (readExact n)) P (fun _ _ => True) (fun _ _ => False) p := by
    intro n p P h hP
    have hu : u64Size = 2 ^ 64 := rfl
    simp only [io, M.wp_mapErr, M.wp_zoom]
    simp only [M.wp, Reader.readExact, hu]
    by_cases hn : n ≤ p.reader.rest.length
    · rw [if_pos hn, if_pos (by omega)]
      exact hP _ _ (by simp; omega) (by simp; omega)
    · rw [if_neg hn, if_pos h]
      trivial
  have hwarn : ∀ (c : Bool) w pos (p : Parser) (P : Unit → Parser → Prop), (∀ lg, P () { p with log := lg }) →
      M.wp (warnIf c w pos) P (fun _ _ => True) (fun _ _ => False) p := by
    intro c w pos p P hP
    cases c
    · exact hP p.log
    · simp only [warnIf, if_true, M.wp, warn]
      split
      · rename_i heq
        split at heq
        · simp only [Prod.mk.injEq] at heq; rw [← heq.2]; exact hP _
        · split at heq <;> simp only [Prod.mk.injEq, reduceCtorEq, false_and] at heq
          rw [← heq.2]; exact hP _
      · trivial
      · rename_i heq
        split at heq
        · simp at heq
        · split at heq <;> simp at heq
  simp only [readFooter, M.wp_bind, M.wp_get]
  apply hio _ _ _ h
  intro q1 u1 _ h1
  simp only [M.wp_bind, M.wp_get]
  apply hwarn
  intro lg
  simp only [M.wp_bind]
  apply hio 144 { q1 with log := lg } _ h1
  intro q2 buf hbuf h2
  cases hi : (buf.drop 128).findIdx? (fun x => decide (x ≠ 0)) with
  | none => simp only [hi, M.wp_throw]
  | some i =>
    have hi16 : i < 16 := by
      have := (List.findIdx?_eq_some_iff_findIdx_eq.mp hi).1
      simpa [hbuf] using this
    simp only [hi, M.wp_bind, M.wp_assert]
    simp only [M.wp_ite, M.wp_throw, M.wp_bind, M.wp_get]
    rw [if_pos (by simp; omega), if_pos (by simp; omega)]
    split
    · trivial
    split
    · trivial
    split
    · trivial
    split
    · trivial
    apply hio _ _ _ h2
    intro q3 more _ h3
    simp only [M.wp_ite, M.wp_throw, M.wp_bind]
    split
    · trivial
    apply hwarn
    intro lg
    trivial

/-- Warnings raised while reading the footer. -/
theorem readFooter_log (p : Parser) :
    let ok := fun (q : Parser) => ∃ new, q.log = new ++ p.log ∧ ∀ e ∈ new, e.1 = .unexpectedFooterField ∨ ∃ a b, e.1 = .invalidFooterPadding a b
    M.wp readFooter (fun _ q => ok q) (fun _ q => ok q) (fun _ q => ok q) p := by
  intro ok
  have hio : ∀ (n : Nat) (p : Parser) (P : Bytes → Parser → Prop), ok p →
      (∀ q x, ok q → P x q) → M.wp (io (readExact n)) P (fun _ q => ok q) (fun _ q => ok q) p := by
    intro n p' P h hP
    have hk : ∀ r, ok { p' with reader := r } := fun r => h
    simp only [io, M.wp_mapErr, M.wp_zoom]
    simp only [M.wp]
    rcases Reader.readExact n p'.reader with ⟨_ | _ | _, r⟩
    · exact hP _ _ (hk r)
    · exact hk r
    · exact hk r
  have hwarn : ∀ (c : Bool) w pos (p' : Parser) (P : Unit → Parser → Prop), (w = .unexpectedFooterField ∨ ∃ a b, w = .invalidFooterPadding a b) →
      ok p' → (∀ q, ok q → P () q) → M.wp (warnIf c w pos) P (fun _ q => ok q) (fun _ q => ok q) p' := by
    intro c w pos p' P hw hp' hP
    have hk : ok { p' with log := (w, pos) :: p'.log } := by
      obtain ⟨new, h1, h2⟩ := hp'
      refine ⟨(w, pos) :: new, by simp [h1], ?_⟩
      intro e he
      rcases List.mem_cons.mp he with rfl | he
      · exact hw
      · exact h2 e he
    cases c
    · exact hP p' hp'
    · simp only [warnIf, if_true, M.wp, warn]
      split
      · rename_i heq
        split at heq
        · simp only [Prod.mk.injEq] at heq; rw [← heq.2]; exact hP _ hk
        · split at heq <;> simp only [Prod.mk.injEq, reduceCtorEq, false_and] at heq
          rw [← heq.2]; exact hP _ hk
      · rename_i heq
        split at heq
        · simp at heq
        · split at heq <;> simp only [Prod.mk.injEq, reduceCtorEq, false_and] at heq
          rw [← heq.2]; exact hk
      · rename_i heq
        split at heq
        · simp at heq
        · split at heq <;> simp at heq
  simp only [readFooter, M.wp_bind, M.wp_get]
  apply hio _ _ _ ⟨[], rfl, by simp⟩
  intro q1 u1 h1
  simp only [M.wp_bind, M.wp_get]
  apply hwarn _ _ _ _ _ (.inl rfl) h1
  intro q1' h1
  simp only [M.wp_bind]
  apply hio 144 _ _ h1
  intro q2 buf h2
  cases hi : (buf.drop 128).findIdx? (fun x => decide (x ≠ 0)) with
  | none => exact h2
  | some i =>
    simp only [M.wp_bind, M.wp_assert]
    simp only [M.wp_ite, M.wp_throw, M.wp_bind, M.wp_get]
    split
    case' isFalse => exact h2
    split
    case' isFalse => exact h2
    split
    · exact h2
    split
    · exact h2
    split
    · exact h2
    split
    · exact h2
    apply hio _ _ _ h2
    intro q3 more h3
    simp only [M.wp_ite, M.wp_throw, M.wp_bind]
    split
    · exact h3
    apply hwarn _ _ _ _ _ (.inr ⟨_, _, rfl⟩) h3
    intro q4 h4
    exact h4

/-- What the footer part of `EndFbx` is, from the result of reading it. -/
def footerResult : Res PErr Footer → Except PErr Footer
  | .ok f => .ok f
  | .err e => .error e
  | .panic _ => .error (PErr.ofData .brokenFbxFooter)

/-- The end of the document. -/
theorem fbx_event {p : Parser} {off : Nat} {t : Bytes} (h : Ready p off (marker p.version.toNat ++ t)) (hs : p.started = []) :
    ∃ P, P = { p with reader := p.reader.consume (headerSize p.version.toNat), health := .finished, last := some .endFbx } ∧
      P.reader.rest = t ∧ P.reader.position = off + headerSize p.version.toNat ∧ Fine P.reader ∧
      nextEvent p = (.ok (.endFbx (footerResult (readFooter P).1)), (readFooter P).2) := by
  have hpend : p.pending = 0 := by simp [pending, hs]
  have hoff := h.off
  have hrest := h.rest
  rw [hpend] at hoff hrest
  simp only [List.drop_zero] at hrest
  have hml : (marker p.version.toNat).length = headerSize p.version.toNat := by simp [marker]
  have himpl : nextEventImpl p = (.ok .endFbx, p.withReader (p.reader.consume (headerSize p.version.toNat))) := by
    rw [impl_marker h (by simp [hs]), hpend, Nat.zero_add, explicitEnd, M.get_bind]
    simp only [withReader, hs]
    rfl
  have hf : Fine (p.reader.consume (headerSize p.version.toNat)) := h.fine.consume (by rw [hrest]; simp [hml])
  refine ⟨_, rfl, ?_, by simp only [consume_position]; omega, hf, ?_⟩
  · simp only [consume_rest, hrest]
    exact List.drop_left' hml
  · rw [nextEvent_of h.health himpl (by simp [depthOk, depth, hs, withReader])]
    obtain ⟨P, hP⟩ : ∃ P : Parser, P = { p with reader := p.reader.consume (headerSize p.version.toNat), health := .finished, last := some .endFbx } := ⟨_, rfl⟩
    rw [if_pos rfl]
    simp only [withReader, makeEvent]
    rw [← hP]
    have hnp := readFooter_no_panic (p := P) (by rw [hP]; exact hf.position)
    rcases hr : readFooter P with ⟨r, q⟩
    rw [M.wp, hr] at hnp
    cases r with
    | ok f => rfl
    | err e => rfl
    | panic x => exact hnp.elim

end Parser
end Fbx
