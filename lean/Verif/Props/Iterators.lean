import Verif.Proof.Iter
import Verif.Props.ParserHistory

/-! # C37, C38: attribute iterators and array element iterators -/

namespace Fbx
open Reader Parser AP
variable {α : Type} {Z : Zlib}

/-! ## Examples: a node with three strings; a node whose second attribute has an unknown type -/

/-- A node `N` with the string attributes `"a"`, `"b"` and `"c"`. -/
def exStrings : Bytes := leBytes 4 59 ++ leBytes 4 3 ++ leBytes 4 18 ++ [1, 78] ++
  (0x53 :: leBytes 4 1 ++ [97]) ++ (0x53 :: leBytes 4 1 ++ [98]) ++ (0x53 :: leBytes 4 1 ++ [99])

/-- A node `N` with three attributes, of which the second has the type code `?`. -/
def exUnknown : Bytes := leBytes 4 59 ++ leBytes 4 3 ++ leBytes 4 18 ++ [1, 78] ++
  (0x53 :: leBytes 4 1 ++ [97]) ++ (0x3f :: leBytes 4 1 ++ [98]) ++ (0x53 :: leBytes 4 1 ++ [99])

/-- A loader which tells the hook it was called with and reads nothing. -/
def exHooks : Loader Nat where
  bool _ := .ok 0
  i16 _ := .ok 0
  i32 _ := .ok 0
  i64 _ := .ok 0
  f32 _ := .ok 0
  f64 _ := .ok 0
  seqBool _ := .done (.ok 0)
  seqI32 _ := .done (.ok 0)
  seqI64 _ := .done (.ok 0)
  seqF32 _ := .done (.ok 0)
  seqF64 _ := .done (.ok 0)
  binary _ := .done (.ok 1)
  string _ := .done (.ok 2)
  binaryBuf _ := .done (.ok 3)
  stringBuf _ := .done (.ok 4)

/-- The same loader without its own buffered hooks. -/
def exPlainHooks : Loader Nat := { exHooks with binaryBuf := exHooks.binary, stringBuf := exHooks.string }

/-- `n` copies of a loader, `iter::repeat(l).take(n)`. -/
def AP.Loaders.take (n : Nat) (l : Loader α) : Loaders α :=
  ⟨fun i => if i < n then some l else none, 0, fun i => (n - i, some (n - i))⟩

/-- `iter::repeat(l)`. -/
def AP.Loaders.repeat (l : Loader α) : Loaders α := ⟨fun _ => some l, 0, fun _ => (u64Size - 1, none)⟩

/-- The attribute reader after the start of the first node. -/
def exReader (bytes : Bytes) : AP :=
  let s := Client.after (α := Unit) Zlib.stored ⟨exParser true true 7400 bytes, none⟩ [.next]
  ⟨s.parser, s.attrs.getD ⟨0, 0, 0⟩⟩

/-- The items of `n` calls of `next`. -/
def AP.items (Z : Zlib) (b : Bool) (n : Nat) (s : AP × Loaders α) : List (Option (Except PErr α)) := match pulls Z b n s with
  | some x => x.1
  | none => []

theorem exReader_held {bytes : Bytes} (hs : Sized bytes)
    (h : (match Client.session (α := Unit) Zlib.stored ⟨exParser true true 7400 bytes, none⟩ [.next] with
      | some ([.event (.startNode _ _)], t) => t.attrs.isSome | _ => false) = true) : Held Zlib.stored (exReader bytes) := by
  cases hx : Client.session (α := Unit) Zlib.stored ⟨exParser true true 7400 bytes, none⟩ [.next] with
  | none => rw [hx] at h; cases h
  | some x =>
    rw [hx] at h
    obtain ⟨os, t⟩ := x
    match os, h, hx with
    | [.event (.startNode nm k)], h, hx =>
      have hr := session_runs hx (by simp)
      refine ⟨Unit, _, bytes, _, t, exParser_opens true true 7400 bytes rfl, hs, hr, by simp, ?_, ?_⟩
      · simp only [exReader, Client.after, hx]
        cases ht : t.attrs with
        | none => simp only [ht] at h; cases h
        | some a => rfl
      · simp only [exReader, Client.after, hx]

theorem exStrings_sized : Sized exStrings := by simp [Sized, headerLen, exStrings, leBytes]
theorem exUnknown_sized : Sized exUnknown := by simp [Sized, headerLen, exUnknown, leBytes]
theorem exStrings_held : Held Zlib.stored (exReader exStrings) := exReader_held exStrings_sized (by decide +kernel)
theorem exUnknown_held : Held Zlib.stored (exReader exUnknown) := exReader_held exUnknown_sized (by decide +kernel)

/-! ## C37: the buffered hooks -/

theorem load_sameUnbuffered {l m : Loader α} (h : l.SameUnbuffered m) (a : AP) : AP.load Z false l a = AP.load Z false m a := by
  obtain ⟨h1, h2, h3, h4, h5, h6, h7, h8, h9, h10, h11, h12, h13⟩ := h
  have : ∀ t start idx, loadImpl Z false t l start idx = loadImpl Z false t m start idx := by
    intro t start idx
    cases t <;> simp [loadImpl, h1, h2, h3, h4, h5, h6, h7, h8, h9, h10, h11, h12, h13]
  have h : loadBody Z false l = loadBody Z false m := by
    funext start idx
    simp only [loadBody, this]
  simp only [AP.load, h]

theorem load_noBuffered {l : Loader α} (h : l.NoBuffered) : AP.load Z true l = AP.load Z false l := by
  have : ∀ t start idx, loadImpl Z true t l start idx = loadImpl Z false t l start idx := by
    intro t start idx
    cases t <;> simp [loadImpl, h.1, h.2]
  have h : loadBody Z true l = loadBody Z false l := by
    funext start idx
    simp only [loadBody, this]
  simp only [AP.load, h]

/-- The buffered iterators never call a buffered hook: loaders that differ only in those give the same items and leave
the same reader, however many items are taken. -/
theorem C37_hooks_unused (a : AP) (ls ms : Loaders α) (hu : ls.used = ms.used)
    (h : ∀ i, (ls.get i = none ∧ ms.get i = none) ∨ ∃ l m, ls.get i = some l ∧ ms.get i = some m ∧ l.SameUnbuffered m) (n : Nat) :
    (pulls Z true n (a, ls)).map (fun x => (x.1, x.2.1)) = (pulls Z true n (a, ms)).map (fun x => (x.1, x.2.1)) := by
  induction n generalizing a ls ms with
  | zero => rfl
  | succ n ih =>
    have hstep : ∃ x c, iterNext Z true (a, ls) = (x, (c, ls.tail)) ∧ iterNext Z true (a, ms) = (x, (c, ms.tail)) := by
      rw [iterNext_eq, iterNext_eq]
      rcases h ls.used with ⟨h1, h2⟩ | ⟨l, m, h1, h2, h3⟩
      · rw [h1, ← hu, h2]
        exact ⟨_, _, rfl, rfl⟩
      · rw [h1, ← hu, h2]
        simp only []
        rw [load_sameUnbuffered h3]
        rcases AP.load Z false m a with ⟨_ | _ | _, c⟩
        · rename_i v; cases v <;> exact ⟨_, _, rfl, rfl⟩
        · exact ⟨_, _, rfl, rfl⟩
        · exact ⟨_, _, rfl, rfl⟩
    obtain ⟨x, c, h1, h2⟩ := hstep
    simp only [pulls, h1, h2]
    have := ih c ls.tail ms.tail (by simp [Loaders.tail, hu]) h
    cases x with
    | ok v =>
      simp only [Option.map_map]
      cases hp : pulls Z true n (c, ls.tail) <;> cases hq : pulls Z true n (c, ms.tail) <;> rw [hp, hq] at this <;> simp at this ⊢
      exact this
    | err e => rfl
    | panic e => rfl

/-- The buffered iterators do what the unbuffered ones do. -/
theorem C37_same_as_unbuffered (n : Nat) (s : AP × Loaders α) : pulls Z true n s = pulls Z false n s := by
  induction n generalizing s with
  | zero => rfl
  | succ n ih =>
    have : iterNext Z true s = iterNext Z false s := by
      obtain ⟨a, ls⟩ := s
      rw [iterNext_eq, iterNext_eq]
    simp only [pulls, this, ih]

/-- They differ from `load_next_buffered`: for a loader with its own buffered hooks on the string attribute `"a"`,
`load_next_buffered` gives what `load_string_buffered` returned, the buffered iterator what `load_string` returned. -/
theorem C37_differs : Held Zlib.stored (exReader exStrings) ∧
    (AP.load Zlib.stored true exHooks (exReader exStrings)).1 = .ok (some 4) ∧
    items Zlib.stored true 1 (exReader exStrings, .take 3 exHooks) = [some (.ok 2)] :=
  ⟨exStrings_held, by decide +kernel, by decide +kernel⟩

/-- For loaders without their own buffered hooks, an item of the buffered iterator is what `load_next_buffered` returns.
Partial: with such hooks they differ (`C37_differs`). -/
theorem C37_agree_partial (a : AP) (ls : Loaders α) (l : Loader α) (hl : ls.get ls.used = some l) (hb : l.NoBuffered) :
    (∀ b, AP.load Z true l a = (.ok none, b) → pulls Z true 1 (a, ls) = some ([none], (b, ls.tail))) ∧
    (∀ v b, AP.load Z true l a = (.ok (some v), b) → pulls Z true 1 (a, ls) = some ([some (.ok v)], (b, ls.tail))) ∧
    (∀ e b, AP.load Z true l a = (.err e, b) → pulls Z true 1 (a, ls) = some ([some (.error e)], (b, ls.tail))) := by
  rw [load_noBuffered hb]
  refine ⟨fun b h => ?_, fun v b h => ?_, fun e b h => ?_⟩ <;> simp only [pulls, iterNext_eq, hl, h, pulled] <;> rfl

example : exPlainHooks.NoBuffered ∧ (Loaders.take 3 exPlainHooks).get 0 = some exPlainHooks ∧
    (AP.load Zlib.stored true exPlainHooks (exReader exStrings)).1 = .ok (some 2) ∧
    items Zlib.stored true 5 (exReader exStrings, .take 3 exPlainHooks) = [some (.ok 2), some (.ok 2), some (.ok 2), none, none] :=
  ⟨⟨rfl, rfl⟩, rfl, by decide +kernel, by decide +kernel⟩

example : exHooks.SameUnbuffered exPlainHooks ∧ exHooks.stringBuf 0 ≠ exPlainHooks.stringBuf 0 :=
  ⟨⟨rfl, rfl, rfl, rfl, rfl, rfl, rfl, rfl, rfl, rfl, rfl, rfl, rfl⟩, by simp [exHooks, exPlainHooks]⟩

/-! ## C38: `size_hint` -/

/-- `next` never panics. -/
theorem C38_no_panic (b : Bool) (a : AP) (ha : Held Z a) (ls : Loaders α) (n : Nat) : ∃ xs t, pulls Z b n (a, ls) = some (xs, t) ∧ xs.length = n := by
  obtain ⟨L, hL, hi, _⟩ := ha.inv
  clear ha
  induction n generalizing a ls with
  | zero => exact ⟨[], _, rfl, rfl⟩
  | succ n ih =>
    obtain ⟨x, c, h1, h2⟩ := pulls_succ (Z := Z) hL hi b ls n
    obtain ⟨xs, t, h3, h4⟩ := ih c ls.tail (h1.inv hi).1 (by have := (h1.inv hi).2.1; omega)
    rw [h2, h3]
    exact ⟨_, _, rfl, by simp [h4]⟩

/-- Until the lower bound of `size_hint` is reached every call of `next` yields an item. -/
theorem C38_lower (b : Bool) (a : AP) (ha : Held Z a) (ls : Loaders α) (hl : ls.LowerRight) (n : Nat) (xs t)
    (h : pulls Z b n (a, ls) = some (xs, t)) (i : Nat) (hi : i < (iterSizeHint a ls).1) : xs[i]? ≠ some none := by
  obtain ⟨L, hL, hv, _⟩ := ha.inv
  clear ha
  simp only [iterSizeHint] at hi
  have h1 : i < a.attrs.rest := by omega
  have h2 : ∀ j, j ≤ i → (ls.get (ls.used + j)).isSome := fun j hj => hl j (by omega)
  clear hl hi
  induction i generalizing a ls n xs with
  | zero =>
    cases n with
    | zero => cases h; simp
    | succ n =>
      obtain ⟨x, c, ys, g1, rfl, g2⟩ := pulls_cons hL hv h
      have h3 := h2 0 (Nat.le_refl 0)
      simp only [Nat.add_zero] at h3
      simp only [List.getElem?_cons_zero, ne_eq, Option.some.injEq]
      intro hx
      subst hx
      cases g1 with
      | ended g => rw [g] at h3; cases h3
      | noMore _ _ g => omega
  | succ i ih =>
    cases n with
    | zero => cases h; simp
    | succ n =>
      obtain ⟨x, c, ys, g1, rfl, g2⟩ := pulls_cons hL hv h
      have g3 := g1.inv hv
      simp only [List.getElem?_cons_succ]
      refine ih c ls.tail n ys g2 g3.1 (by omega) (by have := g3.2.2.2.1; omega) (fun j hj => ?_)
      have := h2 (j + 1) (by omega)
      simpa [Loaders.tail, Nat.add_assoc, Nat.add_comm 1 j] using this

/-- While the iterator has not returned `None`, the number of successful items does not exceed the upper bound of
`size_hint`. Partial: the number of all items can exceed it (`C38_upper_fails`), but not before the first error. -/
theorem C38_upper_partial (b : Bool) (a : AP) (ha : Held Z a) (ls : Loaders α) (hl : ls.UpperRight) (n : Nat) (xs t)
    (h : pulls Z b n (a, ls) = some (xs, t)) (hx : none ∉ xs) :
    ∃ m, (iterSizeHint a ls).2 = some m ∧ xs.countP itemOk ≤ m ∧ (xs.all itemOk = true → xs.length ≤ m) := by
  obtain ⟨L, hL, hv, htot⟩ := ha.inv
  clear ha
  have hrest := hv.rest
  have key : xs.countP itemOk ≤ a.attrs.rest ∧ ∀ j, ls.get (ls.used + j) = none → xs.length ≤ j := by
    clear htot hrest hl
    induction n generalizing a ls xs with
    | zero => cases h; simp
    | succ n ih =>
      obtain ⟨x, c, ys, g1, rfl, g2⟩ := pulls_cons hL hv h
      obtain ⟨g3, g4, g5, g6, g7⟩ := g1.inv hv
      obtain ⟨k1, k2⟩ := ih c ls.tail ys g2 (fun hm => hx (by simp [hm])) g3
      constructor
      · rw [List.countP_cons]
        split
        · rename_i hok
          have := g7 hok
          omega
        · omega
      · intro j hj
        cases j with
        | zero =>
          exfalso
          apply hx
          have : x = none := by
            rw [Nat.add_zero] at hj
            cases g1 with
            | ended h => rfl
            | noMore hs hrun h0 => rfl
            | value hs hrun hr => rw [hj] at hs; cases hs
            | refused hs hr => rw [hj] at hs; cases hs
            | failed hs hrun hr he => rw [hj] at hs; cases hs
          simp [this]
        | succ j =>
          have := k2 j (by simpa [Loaders.tail, Nat.add_assoc, Nat.add_comm 1 j] using hj)
          simp; omega
  have hle : xs.countP itemOk ≤ xs.length := List.countP_le_length
  have hall : xs.all itemOk = true → xs.length = xs.countP itemOk := by
    intro ha
    exact (List.countP_eq_length.mpr (fun x hx => List.all_eq_true.mp ha x hx)).symm
  refine ⟨_, rfl, ?_⟩
  have hb : xs.countP itemOk ≤ (match (ls.hint ls.used).2 with | none => u64Size - 1 | some m => min a.attrs.rest m) := by
    cases hh : (ls.hint ls.used).2 with
    | none =>
      have hu : u64Size = 2 ^ 64 := rfl
      simp only [hu]
      omega
    | some m =>
      obtain ⟨j, hj1, hj2⟩ := hl m hh
      have := key.2 j hj2
      have := key.1
      simp only []
      omega
  exact ⟨hb, fun hh => by rw [hall hh]; exact hb⟩

/-- After an error, every further call of `next` yields the error `AlreadyAborted` at one and the same position for as long
as there are loaders. -/
theorem C38_after_error (b : Bool) (a : AP) (ha : Held Z a) (ls : Loaders α) (n : Nat) (xs t) (h : pulls Z b n (a, ls) = some (xs, t))
    (i : Nat) (e : PErr) (he : xs[i]? = some (some (.error e))) (hrun : a.parser.health ≠ .finished) :
    ∃ pos, e.pos = some pos ∧ ∀ j, i < j → j < n → xs[j]? = some (if (ls.get (ls.used + j)).isSome then some (.error ⟨.op .alreadyAborted, some pos⟩) else none) := by
  obtain ⟨L, hL, hv, htot⟩ := ha.inv
  clear ha htot
  have stuck : ∀ (n : Nat) (a : AP) (ls : Loaders α) (pos : SynPos) xs, AInv L a → a.parser.health = .aborted pos → pulls Z b n (a, ls) = some (xs, t) →
      ∀ j, j < n → xs[j]? = some (if (ls.get (ls.used + j)).isSome then some (.error ⟨.op .alreadyAborted, some pos⟩) else none) := by
    intro n
    induction n with
    | zero => intro a ls pos xs hv hp h j hj; omega
    | succ n ih =>
      intro a ls pos xs hv hp h j hj
      obtain ⟨x, c, ys, g1, rfl, g2⟩ := pulls_cons hL hv h
      have hc : c = a ∧ x = (if (ls.get ls.used).isSome then some (.error ⟨.op .alreadyAborted, some pos⟩) else none) := by
        cases g1 with
        | ended h0 => exact ⟨rfl, by rw [h0]; rfl⟩
        | noMore hs hrun h0 => rw [hp] at hrun; cases hrun
        | value hs hrun hr => rw [hp] at hrun; cases hrun
        | refused hs hr =>
          refine ⟨rfl, ?_⟩
          rw [if_pos hs]
          rcases hr with ⟨h1, _⟩ | ⟨p, h1, h2⟩
          · rw [hp] at h1; cases h1
          · rw [hp] at h1; cases h1; rw [h2]
        | failed hs hrun hr he => rw [hp] at hrun; cases hrun
      obtain ⟨rfl, hc⟩ := hc
      cases j with
      | zero => simp [hc]
      | succ j =>
        have := ih _ ls.tail pos ys hv hp g2 j (by omega)
        simpa [Loaders.tail, Nat.add_assoc, Nat.add_comm 1 j] using this
  induction i generalizing a ls n xs with
  | zero =>
    cases n with
    | zero => cases h; simp at he
    | succ n =>
      obtain ⟨x, c, ys, g1, rfl, g2⟩ := pulls_cons hL hv h
      have hcv := (g1.inv hv).1
      simp only [List.getElem?_cons_zero, Option.some.injEq] at he
      subst he
      have : ∃ pos, e.pos = some pos ∧ c.parser.health = .aborted pos := by
        cases g1 with
        | refused hs hr =>
          rcases hr with ⟨h1, _⟩ | ⟨p, h1, h2⟩
          · exact absurd h1 hrun
          · exact ⟨p, by rw [h2], h1⟩
        | failed hs hrun hr he => exact ⟨_, he, rfl⟩
      obtain ⟨pos, h1, h2⟩ := this
      refine ⟨pos, h1, fun j hj hj' => ?_⟩
      obtain ⟨j, rfl⟩ : ∃ k, j = k + 1 := ⟨j - 1, by omega⟩
      have := stuck n c ls.tail pos ys hcv h2 g2 j (by omega)
      simpa [Loaders.tail, Nat.add_assoc, Nat.add_comm 1 j] using this
  | succ i ih =>
    cases n with
    | zero => cases h; simp at he
    | succ n =>
      obtain ⟨x, c, ys, g1, rfl, g2⟩ := pulls_cons hL hv h
      have hcv := (g1.inv hv).1
      have hrun' : c.parser.health ≠ .finished := by
        cases g1 with
        | ended h => exact hrun
        | noMore hs hrun' h0 => exact hrun
        | value hs hrun' hr => rw [hr.1.health]; exact hrun
        | refused hs hr => exact hrun
        | failed hs hrun' hr he => intro hh; cases hh
      obtain ⟨pos, h1, h2⟩ := ih c ls.tail n ys g2 (by simpa using he) hrun' hcv
      refine ⟨pos, h1, fun j hj hj' => ?_⟩
      obtain ⟨j, rfl⟩ : ∃ k, j = k + 1 := ⟨j - 1, by omega⟩
      have := h2 j (by omega) (by omega)
      simpa [Loaders.tail, Nat.add_assoc, Nat.add_comm 1 j] using this

theorem load_done (b : Bool) (l : Loader α) {a : AP} (hrun : a.parser.health = .running) (h0 : a.attrs.rest = 0) : AP.load Z b l a = (.ok none, a) := by
  obtain ⟨p, tot, rest, next⟩ := a
  have h0 : rest = 0 := h0
  subst h0
  have h1 : Parser.ensureContinuable p = (.ok (), p) := by simp only [ensureContinuable]; rw [hrun]
  have h2 : ∀ s i, loadBody Z b l s i ⟨p, ⟨tot, 0, next⟩⟩ = (.ok none, ⟨p, ⟨tot, 0, next⟩⟩) := by
    intro s i
    simp only [loadBody, readNextType, M.bind_apply, M.get, if_true]
    rfl
  have h3 : AP.load Z b l ⟨p, ⟨tot, 0, next⟩⟩ = (match loadBody Z b l next (tot - 0) ⟨p, ⟨tot, 0, next⟩⟩ with
    | (.ok v, a') => (.ok v, a')
    | (.panic x, a') => (.panic x, a')
    | (.err e, a') => match position next (tot - 0) a' with
      | (.ok pos, a'') => (.err (e.andPosition pos), { a'' with parser := a''.parser.setAborted pos })
      | (.err e', a'') => (.err e', a'')
      | (.panic x, a'') => (.panic x, a'')) := by
    simp only [AP.load, withHealthCheck, M.bind_apply, par, M.zoom_apply, h1, M.get]
    simp only [M.assert, Nat.zero_le, if_true]
    rfl
  rw [h3, h2]

/-- Once `next` has returned `None` it always will, if the loaders are a fused iterator. Partial: the types implement
`FusedIterator` whatever the loaders are, and otherwise it need not be so (`C38_not_fused`). -/
theorem C38_fused_partial (b : Bool) (a : AP) (ha : Held Z a) (ls : Loaders α) (hf : ls.Fused) (n : Nat) (xs t) (h : pulls Z b n (a, ls) = some (xs, t))
    (i : Nat) (he : xs[i]? = some none) (j : Nat) (hij : i ≤ j) (hj : j < n) : xs[j]? = some none := by
  obtain ⟨L, hL, hv, htot⟩ := ha.inv
  clear ha htot
  have stuck : ∀ (n : Nat) (a : AP) (ls : Loaders α) xs, ls.Fused → AInv L a → (ls.get ls.used = none ∨ (a.parser.health = .running ∧ a.attrs.rest = 0)) → pulls Z b n (a, ls) = some (xs, t) →
      ∀ j, j < n → xs[j]? = some none := by
    intro n
    induction n with
    | zero => intro a ls xs hf hv hp h j hj; omega
    | succ n ih =>
      intro a ls xs hf hv hp h j hj
      have hc : iterNext Z b (a, ls) = (.ok none, (a, ls.tail)) := by
        rw [iterNext_eq]
        rcases hp with hp | ⟨hp, h0⟩
        · rw [hp]
        · cases ls.get ls.used with
          | none => rfl
          | some l => simp only [load_done false l hp h0]; rfl
      simp only [pulls, hc] at h
      cases hq : pulls Z b n (a, ls.tail) with
      | none => rw [hq] at h; cases h
      | some y =>
        rw [hq] at h
        cases h
        cases j with
        | zero => rfl
        | succ j =>
          have := ih a ls.tail y.1 hf hv (hp.imp (fun h => hf _ h) id) hq j (by omega)
          simpa using this
  induction i generalizing a ls n xs j with
  | zero =>
    cases n with
    | zero => omega
    | succ n =>
      have h' := h
      obtain ⟨x, c, ys, g1, rfl, g2⟩ := pulls_cons hL hv h
      simp only [List.getElem?_cons_zero, Option.some.injEq] at he
      subst he
      refine stuck (n + 1) a ls _ hf hv ?_ h' j hj
      cases g1 with
      | ended h => exact .inl h
      | noMore hs hrun h0 => exact .inr ⟨hrun, h0⟩
  | succ i ih =>
    cases n with
    | zero => omega
    | succ n =>
      obtain ⟨x, c, ys, g1, rfl, g2⟩ := pulls_cons hL hv h
      obtain ⟨j, rfl⟩ : ∃ k, j = k + 1 := ⟨j - 1, by omega⟩
      simpa using ih c ls.tail hf n ys g2 (by simpa using he) j (by omega) (by omega) (g1.inv hv).1

/-- The number of items exceeds `size_hint`: of three attributes the second has an unknown type, and four loaders give one
value and three errors, though `size_hint` says three. -/
theorem C38_upper_fails : Held Zlib.stored (exReader exUnknown) ∧
    iterSizeHint (exReader exUnknown) (.take 4 exHooks) = (3, some 3) ∧
    (items Zlib.stored false 5 (exReader exUnknown, .take 4 exHooks)).map (Option.map (Except.mapError PErr.kind)) =
      [some (.ok 2), some (.error (.data (.invalidAttrTypeCode 0x3f))), some (.error (.op .alreadyAborted)), some (.error (.op .alreadyAborted)), none] :=
  ⟨exUnknown_held, by decide +kernel, by decide +kernel⟩

/-- With endless loaders an iterator which has yielded an error never ends: every item from then on is an error. -/
theorem C38_endless (b : Bool) (a : AP) (ha : Held Z a) (l : Loader α) (n : Nat) (xs t) (h : pulls Z b n (a, .repeat l) = some (xs, t))
    (i : Nat) (e : PErr) (he : xs[i]? = some (some (.error e))) (hrun : a.parser.health ≠ .finished) (j : Nat) (hij : i < j) (hj : j < n) :
    ∃ e', xs[j]? = some (some (.error e')) ∧ e'.kind = .op .alreadyAborted := by
  obtain ⟨pos, _, h2⟩ := C38_after_error b a ha (.repeat l) n xs t h i e he hrun
  exact ⟨_, h2 j hij hj, rfl⟩

example : (items Zlib.stored true 4 (exReader exUnknown, .repeat exHooks)).map (Option.map (Except.mapError PErr.kind)) =
    [some (.ok 2), some (.error (.data (.invalidAttrTypeCode 0x3f))), some (.error (.op .alreadyAborted)), some (.error (.op .alreadyAborted))] ∧
    (exReader exUnknown).parser.health = .running := ⟨by decide +kernel, by decide +kernel⟩

/-- Loaders which are not a fused iterator: nothing at first, then a loader. -/
def exUnfused : Loaders Nat := ⟨fun i => if i = 0 then none else some exHooks, 0, fun _ => (0, none)⟩

/-- With loaders that are not fused `next` returns `None` and then a value, although the types implement `FusedIterator`
without asking the loaders to. -/
theorem C38_not_fused : Held Zlib.stored (exReader exStrings) ∧
    items Zlib.stored false 2 (exReader exStrings, exUnfused) = [none, some (.ok 2)] :=
  ⟨exStrings_held, by decide +kernel⟩

/-- The loaders used in the examples have right bounds and are fused. -/
theorem take_right (n : Nat) (l : Loader α) : (Loaders.take n l).LowerRight ∧ (Loaders.take n l).UpperRight ∧ (Loaders.take n l).Fused := by
  refine ⟨fun j hj => ?_, fun m hm => ?_, fun i hi => ?_⟩
  · simp only [Loaders.take] at hj ⊢
    rw [if_pos (by omega)]; rfl
  · simp only [Loaders.take, Option.some.injEq] at hm ⊢
    exact ⟨n, by omega, by simp⟩
  · simp only [Loaders.take] at hi ⊢
    split at hi
    · cases hi
    · rw [if_neg (by omega)]

theorem repeat_right (l : Loader α) : (Loaders.repeat l).LowerRight ∧ (Loaders.repeat l).UpperRight ∧ (Loaders.repeat l).Fused :=
  ⟨fun _ _ => rfl, (fun m (hm : none = some m) => by cases hm), fun i (hi : some l = none) => by cases hi⟩

example : iterSizeHint (exReader exStrings) (.take 2 exHooks) = (2, some 2) ∧ iterSizeHint (exReader exStrings) (.repeat exHooks) = (3, some (2 ^ 64 - 1)) ∧
    items Zlib.stored false 3 (exReader exStrings, .take 2 exHooks) = [some (.ok 2), some (.ok 2), none] ∧
    items Zlib.stored false 4 (exReader exStrings, .repeat exHooks) = [some (.ok 2), some (.ok 2), some (.ok 2), none] :=
  ⟨by decide +kernel, by decide +kernel, by decide +kernel, by decide +kernel⟩

/-! ## C38: array elements -/

/-- What one call of `next` on an element iterator does: nothing if no element is left; otherwise it yields an element or
an error, and only an element counts. -/
theorem ElemIter.next_cases {e : Type} (t : ElemTy e) (it : ElemIter Z) (r : Reader) (x : Option (Except PErr e)) (s : ElemIter Z × Reader)
    (h : ElemIter.next t (it, r) = (.ok x, s)) :
    (it.rest = 0 ∧ x = none ∧ s = (it, r)) ∨
    (it.rest ≠ 0 ∧ ((∃ v, x = some (.ok v) ∧ s.1.rest + 1 = it.rest ∧ s.1.hasError = it.hasError) ∨
      (∃ err, x = some (.error err) ∧ s.1.rest = it.rest ∧ s.1.hasError = true))) := by
  simp only [ElemIter.next] at h
  split at h
  · cases h; rename_i h0; exact .inl ⟨h0, rfl, rfl⟩
  · rename_i h0
    refine .inr ⟨h0, ?_⟩
    split at h
    · cases h; exact .inl ⟨_, rfl, by simp only []; omega, rfl⟩
    · cases h; exact .inr ⟨_, rfl, rfl, rfl⟩
    · cases h

/-- The elements of an array: an element iterator yields at most as many elements as its `size_hint` says, it returns
`None` exactly if that many were yielded, and from then on always; the lower bound 0 is trivial. -/
theorem C38_elements_partial {e : Type} (t : ElemTy e) (it : ElemIter Z) (r : Reader) (n : Nat) (xs s)
    (h : ElemIter.pulls t n (it, r) = some (xs, s)) :
    (ElemIter.sizeHint it).2 = some it.rest ∧ xs.countP itemOk ≤ it.rest ∧
    ∀ i, i < n → (xs[i]? = some none ↔ (xs.take i).countP itemOk = it.rest) := by
  refine ⟨rfl, ?_⟩
  induction n generalizing it r xs with
  | zero => cases h; simp
  | succ n ih =>
    simp only [ElemIter.pulls] at h
    rcases hx : ElemIter.next t (it, r) with ⟨x, it', r'⟩
    rw [hx] at h
    cases x with
    | err e => cases h
    | panic e => cases h
    | ok x =>
      simp only [Option.map_eq_some_iff] at h
      obtain ⟨⟨ys, s'⟩, h1, h2⟩ := h
      cases h2
      obtain ⟨i1, i2⟩ := ih it' r' ys h1
      have hc := ElemIter.next_cases t it r x _ hx
      have hcount : ∀ l : List (Option (Except PErr e)), (x :: l).countP itemOk = l.countP itemOk + (it.rest - it'.rest) ∧ it'.rest ≤ it.rest ∧ (x = none ↔ it.rest = 0) := by
        intro l
        rw [List.countP_cons]
        rcases hc with ⟨h0, rfl, h3⟩ | ⟨h0, ⟨v, rfl, h3, h4⟩ | ⟨err, rfl, h3, h4⟩⟩
        · cases h3; simp [itemOk, h0]
        · simp only at h3; simp [itemOk, h0]; omega
        · simp only at h3; simp [itemOk, h0]; omega
      have h3 := hcount ys
      refine ⟨by rw [h3.1]; omega, fun i hi => ?_⟩
      cases i with
      | zero => simp only [List.getElem?_cons_zero, Option.some.injEq, List.take_zero, List.countP_nil]; rw [h3.2.2]; exact eq_comm
      | succ i =>
        have := i2 i (by omega)
        have h4 := hcount (ys.take i)
        simp only [List.getElem?_cons_succ, List.take_succ_cons]
        rw [this, h4.1]
        omega

/-- The upper bound fails for element iterators, too: at the end of the source an iterator over uncompressed elements
yields errors for ever. -/
theorem C38_elements_endless {e : Type} (t : ElemTy e) (ht : 0 < t.size) (k : Nat) (hk : k ≠ 0) (o d : Bool) (r : Reader) (hr : r.rest = [])
    (hp : r.position < 2 ^ 64) (n : Nat) : ∃ s, ElemIter.pulls (Z := Z) t n (⟨.direct, k, o, d⟩, r) =
      some (List.replicate n (some (.error (PErr.ofIo (r.ending.getD .unexpectedEof)))), s) := by
  have hx : ∀ o, ElemIter.next (Z := Z) t (⟨.direct, k, o, d⟩, r) = (.ok (some (.error (PErr.ofIo (r.ending.getD .unexpectedEof)))), (⟨.direct, k, true, d⟩, r)) := by
    intro o
    have hu : u64Size = 2 ^ 64 := rfl
    have hc : r.consume 0 = r := consume_zero r
    simp only [ElemIter.next, hk, if_false, Dec.readExact, Reader.readExact, hr, List.length_nil, Nat.le_zero_eq, Nat.ne_of_gt ht, hu, Nat.add_zero, hp, if_true, hc]
  induction n generalizing o with
  | zero => exact ⟨_, rfl⟩
  | succ n ih =>
    obtain ⟨s, h⟩ := ih true
    exact ⟨s, by simp only [ElemIter.pulls, hx, h, Option.map_some, List.replicate_succ]⟩

example : ∃ s, ElemIter.pulls (Z := Zlib.stored) ElemTy.i32 3 (⟨.direct, 2, false, false⟩, ⟨leBytes 4 7 ++ [1, 2], none, 0, 0, false, 2 ^ 64⟩) =
    some ([some (.ok 7), some (.error (PErr.ofIo .unexpectedEof)), some (.error (PErr.ofIo .unexpectedEof))], s) := ⟨_, rfl⟩

example : ∃ s, ElemIter.pulls (Z := Zlib.stored) ElemTy.i32 4 (⟨.direct, 2, false, false⟩, ⟨leBytes 4 7 ++ leBytes 4 8, none, 0, 0, false, 2 ^ 64⟩) =
    some ([some (.ok 7), some (.ok 8), none, none], s) := ⟨_, rfl⟩

end Fbx
