import Verif.Proof.Growing
import Verif.Props.Unsteady
import Verif.Props.Unread

/-! # C92 A file can be read while it is being written

The device shows only the part of the file that is there when a call is made (`Verif/Spec/Growing.lean`). -/

namespace Fbx
variable {α : Type} {Z : Zlib}

theorem complete_start {checks seekable : Bool} {v : FbxVersion} {present file : Bytes} {e e' : Option IoErr} {start limit : Nat} {p q : Parser}
    (hp : Parser.create checks v ⟨present, e, start, headerLen, seekable, limit⟩ = .ok p)
    (hq : Parser.create checks v ⟨file, e', start, headerLen, seekable, limit⟩ = .ok q) (hsz : Sized file) :
    (Client.mk p none).complete file start e' = ⟨q, none⟩ ∧ OnFile start e' file ((Client.mk p none).complete file start e').parser.reader := by
  have hs : headerLen + file.length < u64Size := by
    have : (2 : Nat) ^ 32 = 4294967296 := by decide
    unfold Sized at hsz
    unfold u64Size
    omega
  rw [Parser.create] at hp hq
  split at hp
  · cases hp
  · rename_i hv
    rw [if_neg hv] at hq
    cases hp
    cases hq
    simp only [Client.complete, Nat.sub_self, List.drop_zero]
    exact ⟨trivial, Nat.le_refl _, by simp, fun _ => hs, rfl⟩

/-- **C92** (same). What is observed on the growing file is what is observed on the complete file; the states differ only in the
bytes that are still to come. -/
theorem C92_same {checks seekable : Bool} {v : FbxVersion} {present file : Bytes} {e e' : Option IoErr} {start limit : Nat} {p q : Parser}
    (hp : Parser.create checks v ⟨present, e, start, headerLen, seekable, limit⟩ = .ok p)
    (hq : Parser.create checks v ⟨file, e', start, headerLen, seekable, limit⟩ = .ok q) (hsz : Sized file)
    {h : History α} {t : Client} (hg : Growing Z file start ⟨p, none⟩ h t) :
    Runs Z ⟨q, none⟩ h (t.complete file start e') := by
  obtain ⟨h1, h2⟩ := complete_start hp hq hsz
  exact h1 ▸ (hg.runs h2).1

/-- **C92** (enough). A call on the complete file, which leaves some of it unread, can be made as soon as at least one byte more is there
than it consumes: it returns the same as on the complete file. -/
theorem C92_enough {checks seekable : Bool} {v : FbxVersion} {present file : Bytes} {e e' : Option IoErr} {start limit : Nat} {p q : Parser}
    (hp : Parser.create checks v ⟨present, e, start, headerLen, seekable, limit⟩ = .ok p)
    (hq : Parser.create checks v ⟨file, e', start, headerLen, seekable, limit⟩ = .ok q) (hsz : Sized file)
    {h : History α} {t w : Client} {c : Call α} {o : Outcome α} (hg : Growing Z file start ⟨p, none⟩ h t)
    (hr : Runs Z ⟨q, none⟩ (h ++ [(c, o)]) w) {d : Showing} {later : Bytes}
    (hd : file.drop (t.parser.reader.cursor - start) = d.rest ++ later) (hc : d.cursor = t.parser.reader.cursor)
    (hl : d.limit = t.parser.reader.seekLimit) (hw : later.length < w.parser.reader.rest.length) :
    ∃ u, (t.facing d).call Z c = some (o, u) ∧ Growing Z file start ⟨p, none⟩ (h ++ [(c, o)]) u := by
  obtain ⟨h1, h2⟩ := complete_start hp hq hsz
  obtain ⟨u, g1, g2, g3⟩ := hr.last
  obtain ⟨k1, k2⟩ := hg.runs h2
  rw [h1] at k1
  rw [k1.unique g1] at g3
  obtain ⟨u', f1, f2, _⟩ := shrink_call k2 hd hc hl g3 hw
  exact ⟨u', f1, .snoc hg g2 hd hc hl f1 f2⟩

/-! ## Examples -/

theorem growing_cons {file : Bytes} {start : Nat} {s t u : Client} {c : Call α} {o : Outcome α} {d : Showing} {later : Bytes} {h : History α}
    (hd : file.drop (s.parser.reader.cursor - start) = d.rest ++ later) (h1 : d.cursor = s.parser.reader.cursor)
    (h2 : d.limit = s.parser.reader.seekLimit) (hc : (s.facing d).call Z c = some (o, t)) (ht : t.parser.reader.rest ≠ [])
    (ho : ∀ x, o ≠ .panic x) (hr : Growing Z file start t h u) : Growing Z file start s ((c, o) :: h) u := by
  induction hr with
  | nil =>
    have h0 : History.calm ([] : History α) := fun _ _ h => by cases h
    exact Growing.snoc (h := []) (.nil) h0 hd h1 h2 hc ht
  | @snoc h t' u' c' o' d' l' hr hn hd' h1' h2' hc' hu' ih =>
    rw [← List.cons_append]
    refine Growing.snoc ih ?_ hd' h1' h2' hc' hu'
    intro c'' x hm
    rcases List.mem_cons.mp hm with hm | hm
    · cases hm; exact ho x rfl
    · exact hn c'' x hm

/-- What a device shows when the first `n` bytes of the file are there. -/
def Client.sees (s : Client) (file : Bytes) (start n : Nat) : Showing :=
  ⟨(file.take n).drop (s.parser.reader.cursor - start), none, s.parser.reader.cursor, s.parser.reader.seekLimit⟩

/-- Calls, each with the number of bytes that are there. -/
def Client.follow (Z : Zlib) (file : Bytes) (start : Nat) (s : Client) : List (Nat × Call α) → Option (List (Outcome α) × Client)
  | [] => some ([], s)
  | (n, c) :: cs => match (s.facing (s.sees file start n)).call Z c with
    | none => none
    | some (o, t) => match t.follow Z file start cs with
      | none => none
      | some (os, u) => some (o :: os, u)

/-- Decides that no call comes to the end of what is there. -/
def keepsOff (Z : Zlib) (file : Bytes) (start : Nat) (s : Client) : List (Nat × Call α) → Bool
  | [] => true
  | (n, c) :: cs => match (s.facing (s.sees file start n)).call Z c with
    | none => false
    | some (o, t) => !o.isPanic && (!t.parser.reader.rest.isEmpty && keepsOff Z file start t cs)

theorem growing_follow {file : Bytes} {start : Nat} {s : Client} {cs : List (Nat × Call α)} (hf : keepsOff Z file start s cs = true) :
    ∃ os u, s.follow Z file start cs = some (os, u) ∧ Growing Z file start s (List.zip (cs.map Prod.snd) os) u := by
  induction cs generalizing s with
  | nil => exact ⟨[], s, rfl, .nil⟩
  | cons x cs ih =>
    obtain ⟨n, c⟩ := x
    simp only [keepsOff] at hf
    cases hc : (s.facing (s.sees file start n)).call Z c with
    | none => rw [hc] at hf; cases hf
    | some ot =>
      obtain ⟨o, t⟩ := ot
      rw [hc] at hf
      simp only [Bool.and_eq_true, Bool.not_eq_true'] at hf
      obtain ⟨h1, h2, h3⟩ := hf
      obtain ⟨os, u, h4, h5⟩ := ih h3
      refine ⟨o :: os, u, ?_, ?_⟩
      · simp only [Client.follow, hc, h4]
      · simp only [List.map_cons, List.zip_cons_cons]
        refine growing_cons (later := (file.drop n).drop (s.parser.reader.cursor - start - n)) ?_ rfl rfl hc (fun h => ?_) (fun x hx => ?_) h5
        · simp only [Client.sees]
          generalize s.parser.reader.cursor - start = k
          conv => lhs; rw [← List.take_append_drop n file]
          rw [List.drop_append]
          by_cases hl : n ≤ file.length
          · rw [List.length_take, Nat.min_eq_left hl]
          · rw [List.drop_eq_nil_of_le (by omega : file.length ≤ n)]; simp
        · rw [h] at h2; cases h2
        · rw [hx] at h1; cases h1

/-- The client on a file of which nothing is there yet. -/
def exEmptyYet : Client := ⟨exParser true true 7400 [], none⟩

/-- The nodes `A` and `B` of `exNest` are started and ended while the file grows, always by just enough. -/
def exFollows : List (Nat × Call Unit) := [(15, .next), (29, .next), (42, .next), (55, .next)]

theorem exFollows_growing : ∃ u, Growing Zlib.stored exNest headerLen exEmptyYet
    (List.zip (exFollows.map Prod.snd) [.event (.startNode "A" 0), .event (.startNode "B" 0), .event .endNode, .event .endNode]) u := by
  obtain ⟨os, u, h1, h2⟩ := growing_follow (Z := Zlib.stored) (file := exNest) (start := headerLen) (s := exEmptyYet) (cs := exFollows) (by decide +kernel)
  have h3 : (exEmptyYet.follow Zlib.stored exNest headerLen exFollows).map Prod.fst =
      some [.event (.startNode "A" 0), .event (.startNode "B" 0), .event .endNode, .event .endNode] := by decide +kernel
  rw [h1] at h3
  cases h3
  exact ⟨u, h2⟩

example : ∃ t, Runs Zlib.stored ⟨exParser true true 7400 exNest, none⟩
    (List.zip (exFollows.map Prod.snd) [.event (.startNode "A" 0), .event (.startNode "B" 0), .event .endNode, .event .endNode]) t := by
  obtain ⟨u, hu⟩ := exFollows_growing
  exact ⟨_, C92_same (exParser_create true true 7400 [] (by decide)) (exParser_create true true 7400 exNest (by decide))
    (by unfold Sized; decide +kernel) hu⟩

/-- Two bytes less, and the first call fails. -/
example : (exEmptyYet.follow (α := Unit) Zlib.stored exNest headerLen [(13, .next)]).map (fun x => x.1.map Outcome.isErr) = some [true] := by decide +kernel

/-- **C92** (the end). A call that comes to the end of what is there may succeed with something else than on the complete file: of the
string "abcde", of which two bytes are there, it returns "ab", without any error. On the complete file there is no such history. -/
theorem C92_end : ∃ file : Bytes,
    (Option.map (fun x => stringOf strOf x.1) (exEmptyYet.follow Zlib.stored file headerLen
      [(20, .next), (26, .load false directLoader), (26, .load false directLoader), (31, .next)]) = some ["ab"] ∧
     Option.map (fun x => stringOf strOf x.1) (exEmptyYet.follow Zlib.stored file headerLen
      [(20, .next), (26, .load false directLoader), (31, .load false directLoader), (31, .next)]) = some ["abcde"]) :=
  ⟨exPart ++ [99, 100, 101] ++ zeros 26, by decide +kernel⟩

end Fbx
