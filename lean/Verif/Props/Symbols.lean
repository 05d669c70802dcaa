import Verif.Spec.Symbols
import Verif.Proof.Symbols
import Verif.Props.TreeIO
import Verif.Props.ParserHistory

/-!
# C89: names and the interner

The interner has `symbolCount = 2 ^ 32 - 1` symbols and panics when they are used up (`Verif/Model/Symbols.lean`).
-/

namespace Fbx
open Spec Tree

theorem load_within {limit : Nat} {Z : Zlib} {p q : Parser} {t : Tree} {f : Except PErr Footer} (h : Load.load Z p = (.ok (t, f), q)) :
    Load.Used t ∧ t.names.length ≤ t.size ∧ (1 ≤ limit → (t.names.length ≤ limit → Load.loadWithin limit Z p = (.ok (t, f), q)) ∧
      (limit < t.names.length → ∃ q', Load.loadWithin limit Z p = (.panic .tooManyNames, q'))) := by
  unfold Load.load at h
  unfold Load.loadWithin
  by_cases hu : p.isUsed = true
  · rw [if_pos hu] at h; cases h
  · rw [if_neg hu] at h ⊢
    rcases hl : Load.loop Z (2 * p.reader.rest.length + 2) ⟨p, Tree.empty, [0]⟩ with ⟨g | e | x, s⟩
    · rw [hl] at h
      simp only at h
      cases h
      refine ⟨Load.loop_used _ _ hl Load.empty_used, Load.loop_adds _ _ hl (Nat.le_refl _), fun h1 => ?_⟩
      obtain ⟨k1, k2⟩ := Load.loop_exact _ _ _ hl h1
      refine ⟨fun h2 => ?_, fun h2 => ?_⟩
      · rw [k1 h2]
      · obtain ⟨t', h3⟩ := k2 h2
        rw [h3]
        exact ⟨_, rfl⟩
    · rw [hl] at h; cases h
    · rw [hl] at h; cases h

theorem loaded_from {limit : Nat} {Z : Zlib} {checks seekable : Bool} {bytes : Bytes} {ending : Option IoErr} {cursor seekLimit : Nat} {v : FbxVersion} {t : Tree}
    {f : Except PErr Footer} (h : anyTree Z checks seekable bytes ending cursor seekLimit = .ok (v, t, f)) :
    Load.Used t ∧ t.names.length ≤ t.size ∧ (1 ≤ limit →
      (t.names.length ≤ limit → anyTreeWithin limit Z checks seekable bytes ending cursor seekLimit = .ok (v, t, f)) ∧
      (limit < t.names.length → anyTreeWithin limit Z checks seekable bytes ending cursor seekLimit = .panic .tooManyNames)) := by
  unfold anyTree at h
  unfold anyTreeWithin
  cases hp : anyParser checks seekable bytes ending cursor seekLimit with
  | err e => rw [hp] at h; cases h
  | panic x => rw [hp] at h; cases h
  | ok p =>
    rw [hp] at h
    simp only at h ⊢
    rcases hl : Load.load Z (p.setHandler (fun _ _ _ => none)) with ⟨⟨t', f'⟩ | e | x, q⟩
    · rw [hl] at h
      simp only at h
      cases h
      obtain ⟨h1, h2, h3⟩ := load_within (limit := limit) hl
      refine ⟨h1, h2, fun k => ⟨fun k1 => ?_, fun k1 => ?_⟩⟩
      · rw [(h3 k).1 k1]
      · obtain ⟨q', h4⟩ := (h3 k).2 k1
        rw [h4]
    · rw [hl] at h; cases h
    · rw [hl] at h; cases h

/-- **C89** (files). Loading a tree from a file of at most `13 * symbolCount + 26` bytes (about 55 GB), whatever its content and whatever
comes of it, the symbols are not used up: the result is that of an interner without a limit. -/
theorem C89_files (Z : Zlib) (checks seekable : Bool) (bytes : Bytes) (ending : Option IoErr) (cursor limit : Nat) (hlen : bytes.length ≤ 13 * symbolCount + 26) :
    anyTreeWithin symbolCount Z checks seekable bytes ending cursor limit = anyTree Z checks seekable bytes ending cursor limit := by
  have hc : symbolCount = 4294967295 := by decide
  rw [hc] at hlen ⊢
  unfold anyTreeWithin anyTree
  cases hp : anyParser checks seekable bytes ending cursor limit with
  | err e => rfl
  | panic x => rfl
  | ok p =>
    simp only
    have h64 : (2 : Nat) ^ 64 = 18446744073709551616 := by decide
    have h32 : (2 : Nat) ^ 32 = 4294967296 := by decide
    obtain ⟨ho, -⟩ := C24_any_parser (by omega) hp
    have hd : (bytes.drop 27).length = bytes.length - 27 := List.length_drop
    obtain ⟨hi, hL⟩ := open_inv ho (by unfold Sized headerLen; omega)
    have hrest : p.reader.rest = bytes.drop 27 := ho.state.2.2.2.2.2.2.1
    have hi' : CInv _ ⟨p.setHandler (fun _ _ _ => none), none⟩ := (call_did (Z := Z) (α := AttrValue) hL hi (c := .setHandler (fun _ _ _ => none)) rfl).inv hi (fun _ => nofun)
    have : Load.loadWithin 4294967295 Z (p.setHandler (fun _ _ _ => none)) = Load.load Z (p.setHandler (fun _ _ _ => none)) := by
      unfold Load.loadWithin Load.load
      rw [Load.loopWithin_eq hL _ _ hi' ?_]
      · rfl
      · show 13 * 1 + p.reader.rest.length ≤ _
        rw [hrest]
        omega
    rw [this]
    rfl

/-- **C89** (exactly). If there are `limit` symbols then exactly the documents which have, with the empty name of the root, at most so many different
names can be loaded: with more of them, the loader panics. -/
theorem C89_exactly (Z : Zlib) (checks seekable : Bool) {bytes : Bytes} (ending : Option IoErr) (cursor seekLimit : Nat) {v : FbxVersion} {t : Tree}
    {footer : Except PErr Footer} (h : anyTree Z checks seekable bytes ending cursor seekLimit = .ok (v, t, footer)) {limit : Nat} (h1 : 1 ≤ limit) :
    ∃ names : List String, names.Nodup ∧ (∀ x, x ∈ names ↔ ∃ i, i < t.size ∧ t.name? i = some x) ∧
      anyTreeWithin limit Z checks seekable bytes ending cursor seekLimit = if names.length ≤ limit then .ok (v, t, footer) else .panic .tooManyNames := by
  obtain ⟨hu, -, hx⟩ := loaded_from (limit := limit) h
  refine ⟨t.names, hu.1.names, fun x => ⟨hu.2 x, fun ⟨i, hi, hn⟩ => List.mem_of_getElem? hn⟩, ?_⟩
  split
  · exact (hx h1).1 (by assumption)
  · exact (hx h1).2 (by omega)

/-- **C89** (calls). No call on a tree with less than `symbolCount` nodes (about 4.29 billion), wherever it comes from, uses up the symbols. -/
theorem C89_calls {t : Tree} (ht : Had t) (hs : t.size < symbolCount) (op : TreeOp) : runWithin symbolCount op t = run op t := by
  apply runWithin_eq
  have : t.names.length ≤ t.size := by
    clear hs
    induction ht with
    | empty => exact Nat.le_refl _
    | loaded h => exact (loaded_from (limit := 0) h).2.1
    | @call t u op r _ hr ih =>
      have := adds_run op t
      rw [hr] at this
      simp only at this
      omega
  omega

theorem fresh_name {names : List String} {i : Nat} (ht : names = "" :: (List.range i).map (fun i => String.ofList (List.replicate (i + 1) 'a'))) :
    lookup names (String.ofList (List.replicate (i + 1) 'a')) = none := by
  unfold lookup
  rw [List.findIdx?_eq_none_iff]
  intro x hx
  rw [ht] at hx
  rcases List.mem_cons.mp hx with hx | hx
  · subst hx
    simp only [decide_eq_false_iff_not]
    intro hc
    have := congrArg String.toList hc
    simp [List.replicate_succ] at this
  · obtain ⟨j, hj, rfl⟩ := List.mem_map.mp hx
    simp only [decide_eq_false_iff_not]
    intro hc
    have := congrArg (fun s => s.toList.length) hc
    simp at this
    have := List.mem_range.mp hj
    omega

/-- The table after some of these calls. -/
theorem createMany_names (k : Nat) : ∀ (n i : Nat) (t : Tree), t.names = "" :: (List.range i).map (fun i => String.ofList (List.replicate (i + 1) 'a')) → i + n + 1 ≤ k →
    ∃ u, u.names = "" :: (List.range (i + n)).map (fun i => String.ofList (List.replicate (i + 1) 'a')) ∧
      ∀ ops, callsAll (runWithin k) ((List.range' i n).map (fun i => .createNode (String.ofList (List.replicate (i + 1) 'a'))) ++ ops) t = callsAll (runWithin k) ops u ∧
        callsAll run ((List.range' i n).map (fun i => .createNode (String.ofList (List.replicate (i + 1) 'a'))) ++ ops) t = callsAll run ops u
  | 0, i, t, ht, _ => ⟨t, ht, fun _ => ⟨rfl, rfl⟩⟩
  | n + 1, i, t, ht, hk => by
    have hlen : t.names.length < k := by rw [ht]; simp; omega
    have hnew := fresh_name ht
    obtain ⟨w, hw1, hw2⟩ : ∃ w : Tree, run (.createNode (String.ofList (List.replicate (i + 1) 'a'))) t = (.ok (), w) ∧
        w.names = t.names ++ [String.ofList (List.replicate (i + 1) 'a')] := by
      simp only [run, done, createNode, createWith, M.bind, M.pure, intern, hnew, newNode]
      exact ⟨_, rfl, rfl⟩
    obtain ⟨u, hu1, hu2⟩ := createMany_names k n (i + 1) w (by rw [hw2, ht, List.range_succ]; simp) (by omega)
    refine ⟨u, by rw [hu1]; congr 3; omega, fun ops => ?_⟩
    obtain ⟨h1, h2⟩ := hu2 ops
    rw [List.range'_succ, List.map_cons, List.cons_append]
    rw [callsAll, callsAll, M.bind_apply, M.bind_apply, runWithin_eq hlen, hw1]
    exact ⟨h1, h2⟩

/-- **C89** (the limit is there). Whoever creates nodes with `limit` different names makes the last call panic, as the root has a name as well; before, no
call does. -/
theorem C89_used_up {limit : Nat} (h : 1 ≤ limit) :
    (callsAll (runWithin limit) (createMany (limit - 1)) Tree.empty).1 = .ok () ∧ (callsAll (runWithin limit) (createMany limit) Tree.empty).1 = .panic .tooManyNames ∧
    (callsAll run (createMany limit) Tree.empty).1 = .ok () := by
  obtain ⟨m, rfl⟩ : ∃ m, limit = m + 1 := ⟨limit - 1, by omega⟩
  obtain ⟨u, hu1, hu2⟩ := createMany_names (m + 1) m 0 Tree.empty rfl (by omega)
  have e0 : createMany m = (List.range' 0 m).map (fun i => .createNode (String.ofList (List.replicate (i + 1) 'a'))) ++ [] := by
    rw [createMany, List.range_eq_range', List.append_nil]
  have e1 : createMany (m + 1) = (List.range' 0 m).map (fun i => .createNode (String.ofList (List.replicate (i + 1) 'a'))) ++
      [.createNode (String.ofList (List.replicate (m + 1) 'a'))] := by
    rw [createMany, List.range_succ, List.map_append, ← List.range_eq_range']
    rfl
  have hnew := fresh_name (by simpa using hu1)
  have hlen : u.names.length = m + 1 := by rw [hu1]; simp
  rw [Nat.add_sub_cancel, e0, e1, (hu2 _).1, (hu2 _).1, (hu2 _).2]
  refine ⟨rfl, ?_, ?_⟩
  · simp [callsAll, M.bind_apply, runWithin, done, M.bind, createWithin, internWithin, hnew, hlen]
  · simp only [callsAll, M.bind_apply, run, done, M.bind, createNode, createWith]
    rfl

/-! ## Examples -/

/-- The written file of `exForest`. -/
def exNamed : Bytes := (Writer.session Zlib.stored exSink 7400 (Spec.calls exForest) exFooter).2.buf

/-- How many nodes a tree has, or whether the loader panics. -/
def sizeOrPanic {ε : Type} : Res ε (FbxVersion × Tree × Except PErr Footer) → Option (Nat ⊕ Panic)
  | .ok (_, t, _) => some (.inl t.size)
  | .panic x => some (.inr x)
  | .err _ => none

example := C89_files Zlib.stored true true exNamed none 0 (2 ^ 64) (Nat.le_trans (show exNamed.length ≤ 1000 by decide +kernel) (by decide))

/-- It has four names, with that of the root: with less symbols it cannot be loaded. -/
example : (List.range 5).map (fun k => sizeOrPanic (anyTreeWithin (k + 1) Zlib.stored true true exNamed none 0 (2 ^ 64))) =
    [some (.inr .tooManyNames), some (.inr .tooManyNames), some (.inr .tooManyNames), some (.inl 4), some (.inl 4)] := by decide +kernel

example := C89_calls (.call (op := .createNode "A") .empty (r := .ok ()) rfl) (by decide) (.appendNew 0 "B")

end Fbx
