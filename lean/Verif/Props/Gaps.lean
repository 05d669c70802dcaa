import Verif.Proof.Gaps
import Verif.Props.ParserHistory

/-!
# C88: bytes which are passed over do not matter

A call may begin by going elsewhere: `next_event` to the end of the attributes of the current node, `load_next` to the next attribute,
`skip_current_node` to the end of the current node (`Spec.goesTo`). What lies between is never looked at.
-/

namespace Fbx
open Spec
variable {Z : Zlib} {α : Type}

/-- **C88** (any history). Two files of the same length which agree in every byte that was consumed and not passed over: all calls return
the same on both, and leave the same, up to what the second file has ahead. -/
theorem C88_passed_over {checks : Bool} {v : FbxVersion} {bytes bytes' : Bytes} {e : Option IoErr} {cursor limit : Nat} {p : Parser}
    (hp : Parser.create checks v ⟨bytes, e, cursor, headerLen, true, limit⟩ = .ok p) (hsz : Sized bytes) (hlen : bytes'.length = bytes.length)
    {h : History α} {gaps : List (Nat × Nat)} {t : Client} (ht : Tour Z ⟨p, none⟩ h gaps t)
    (hag : ∀ i, cursor + i < t.parser.reader.cursor → ¬ inGap gaps (cursor + i) → bytes'[i]? = bytes[i]?) :
    ∃ p' t', Parser.create checks v ⟨bytes', e, cursor, headerLen, true, limit⟩ = .ok p' ∧ Runs Z ⟨p', none⟩ h t' ∧
      t'.attrs = t.attrs ∧ t'.parser = { t.parser with reader := { t.parser.reader with rest := bytes'.drop (t.parser.reader.cursor - cursor) } } := by
  rw [Parser.create] at hp ⊢
  split at hp
  · cases hp
  · rename_i hv
    cases hp
    refine ⟨_, t.onFile cursor bytes', by rw [if_neg hv], ?_, rfl, rfl⟩
    have hs : StandsIn cursor cursor e bytes (⟨bytes, e, cursor, headerLen, true, limit⟩ : Reader) := by
      refine ⟨Nat.le_refl _, Nat.le_refl _, by simp, fun _ => ?_, rfl, rfl⟩
      have : (2 : Nat) ^ 32 = 4294967296 := by decide
      unfold Sized at hsz
      unfold u64Size
      show headerLen + bytes.length < _
      omega
    have := (tour_agrees hlen (s := ⟨_, none⟩) hs ht (b := bytes') (fun i _ h2 h3 => hag i h2 h3)).1
    simpa only [Client.onFile, Client.reads, Nat.sub_self, List.drop_zero] using this

/-- **C88**: every history is such a tour. -/
theorem C88_every_history {s t : Client} {h : History α} (hr : Runs Z s h t) : ∃ gaps, Tour Z s h gaps t := tour_of_runs hr

/-- **C88** (nodes). What is in a node, behind the point where it is left by `skip_current_node`, does not matter. If the two files differ
only there then after the call the states are equal, so that everything is the same from then on. -/
theorem C88_skipped_node {checks : Bool} {v : FbxVersion} {pre inside inside' post : Bytes} {e : Option IoErr} {cursor limit : Nat} {p : Parser}
    (hp : Parser.create checks v ⟨pre ++ inside ++ post, e, cursor, headerLen, true, limit⟩ = .ok p) (hsz : Sized (pre ++ inside ++ post))
    (hlen : inside'.length = inside.length)
    {h : History α} {t u : Client} (ht : Runs Z ⟨p, none⟩ h t) (hpanic : ∀ c x, (c, .panic x) ∉ h) (hpre : t.parser.reader.rest = inside ++ post)
    (hc : t.call Z (.skip : Call α) = some (.done, u)) (hpost : u.parser.reader.rest = post) :
    ∃ p', Parser.create checks v ⟨pre ++ inside' ++ post, e, cursor, headerLen, true, limit⟩ = .ok p' ∧ Runs Z ⟨p', none⟩ (h ++ [(.skip, .done)]) u := by
  have hr : Runs Z ⟨p, none⟩ (h ++ [(.skip, .done)]) u := .snoc ht hpanic hc
  by_cases h0 : inside ++ post = []
  · have h1 := List.append_eq_nil_iff.mp h0
    have : inside' = inside := by rw [h1.1] at hlen ⊢; exact List.length_eq_zero_iff.mp hlen
    rw [this]
    exact ⟨p, hp, hr⟩
  obtain ⟨gaps, hg⟩ := tour_of_runs ht
  have htour := hg.snoc hpanic hc
  have hs : StandsIn cursor cursor e (pre ++ inside ++ post) p.reader := by
    rw [Parser.create] at hp
    split at hp
    · cases hp
    · cases hp
      refine ⟨Nat.le_refl _, Nat.le_refl _, by simp, fun _ => ?_, rfl, rfl⟩
      have : (2 : Nat) ^ 32 = 4294967296 := by decide
      unfold Sized at hsz
      unfold u64Size
      show headerLen + (pre ++ inside ++ post).length < _
      omega
  have hst : StandsIn cursor cursor e (pre ++ inside ++ post) t.parser.reader := runs_esc (standsIn_src _ _ _ _) (s := ⟨p, none⟩) hs ht
  have hsu : StandsIn cursor cursor e (pre ++ inside ++ post) u.parser.reader := runs_esc (standsIn_src _ _ _ _) (s := ⟨p, none⟩) hs hr
  have hskip := skip_passes hst.2.2.2.2.1 hc
  have ha : t.parser.reader.cursor = cursor + pre.length := by
    have h1 := congrArg List.length (hst.2.2.1.symm.trans hpre)
    have h2 : 0 < (inside ++ post).length := List.length_pos_iff.mpr h0
    have h3 := hst.1
    simp only [List.length_drop, List.length_append] at h1 h2
    omega
  have hb : cursor + (pre ++ inside).length ≤ u.parser.reader.cursor ∧ (post ≠ [] → u.parser.reader.cursor = cursor + (pre ++ inside).length) := by
    have h1 := congrArg List.length (hsu.2.2.1.symm.trans hpost)
    have h3 := hsu.1
    simp only [List.length_drop, List.length_append] at h1 ⊢
    refine ⟨by omega, fun hne => ?_⟩
    have h2 : 0 < post.length := List.length_pos_iff.mpr hne
    omega
  obtain ⟨p', t', h1, h2, h3, h4⟩ := C88_passed_over (bytes' := pre ++ inside' ++ post) hp hsz (by simp [hlen]) htour (fun i hi hng => by
    have : i < pre.length := by
      rw [← Nat.not_le]
      intro hle
      exact hng ⟨_, List.mem_append_right _ (List.mem_singleton.mpr rfl), by simp only; omega, by simp only; omega⟩
    rw [List.append_assoc, List.append_assoc, List.getElem?_append_left this, List.getElem?_append_left this])
  refine ⟨p', h1, ?_⟩
  have : t' = u := by
    obtain ⟨tp, ta⟩ := t'
    obtain ⟨up, ua⟩ := u
    simp only at h3 h4 hb hpost
    subst h3
    congr 1
    rw [h4]
    have : (pre ++ inside' ++ post).drop (up.reader.cursor - cursor) = up.reader.rest := by
      rw [hpost]
      by_cases hne : post = []
      · subst hne
        rw [List.append_nil]
        apply List.drop_of_length_le
        simp only [List.length_append] at hb ⊢
        omega
      · rw [hb.2 hne, Nat.add_sub_cancel_left, show (pre ++ inside).length = (pre ++ inside').length by simp [hlen], List.drop_left]
    rw [this]
  rwa [this] at h2

/-- A node `A` up to its attributes: two of them in 15 bytes; the node ends at byte 75 of the file. -/
def exGapHead : Bytes := [75, 0, 0, 0, 2, 0, 0, 0, 15, 0, 0, 0, 1, 65]

/-- The attributes and a child of `A`. -/
def exGapInside : Bytes := [73, 7, 0, 0, 0, 83, 5, 0, 0, 0, 97, 98, 99, 100, 101] ++ List.replicate 19 255

/-- The file: `A`, and then another node `B` without attributes. -/
def exGapFile : Bytes := exGapHead ++ exGapInside ++ ([89, 0, 0, 0, 0, 0, 0, 0, 0, 0, 0, 0, 1, 66] ++ List.replicate 13 0)

/-- The client after the start of `A`. -/
def exGap : Client := (⟨exParser true true 7400 exGapFile, none⟩ : Client).after Zlib.stored ([.next] : List (Call AttrValue))

/-- The state after `skip_current_node`. -/
def Client.skipped (Z : Zlib) (s : Client) : Client := match s.call Z (.skip : Call AttrValue) with
  | some (_, u) => u
  | none => s

theorem skipped_of {s : Client} (h : (match s.call Z (.skip : Call AttrValue) with | some (.done, _) => true | _ => false) = true) :
    s.call Z (.skip : Call AttrValue) = some (.done, s.skipped Z) := by
  unfold Client.skipped
  split at h
  · rename_i hs
    rw [hs]
  · cases h

/-- From the start of `A` one gets to `B` whatever the attributes and the children of `A` are: 34 bytes are passed over. -/
example (inside' : Bytes) (hlen : inside'.length = 34) := C88_skipped_node (Z := Zlib.stored) (α := AttrValue) (pre := exGapHead) (inside := exGapInside)
  (inside' := inside') (exParser_create true true 7400 exGapFile (by decide)) (by unfold Sized; decide +kernel) hlen (t := exGap)
  (runs_history ⟨exParser true true 7400 exGapFile, none⟩ [.next] (by decide +kernel)) (calm_of_all (by decide +kernel)) (by decide +kernel)
  (u := exGap.skipped Zlib.stored) (skipped_of (by decide +kernel)) (by decide +kernel)

example : passes exGap (.skip : Call AttrValue) = 34 ∧ passes exGap (.next : Call AttrValue) = 15 := by decide +kernel

/-- The first of the attributes is read and the second one is not: `next_event` passes over it. -/
example : passes ((⟨exParser true true 7400 exGapFile, none⟩ : Client).after Zlib.stored [.next, .load false directLoader]) (.next : Call AttrValue) = 10 := by
  decide +kernel

/-- Where an attribute is looked at its bytes do matter: with another byte in place of the type of the first attribute `load_next` fails. -/
example : ((⟨exParser true true 7400 (exGapHead ++ (0 : UInt8) :: exGapFile.drop 15), none⟩ : Client).history Zlib.stored [.next, .load false directLoader]).map
    (fun x => (x : Call AttrValue × Outcome AttrValue).2.isPanic) = [false, false] ∧
    ((⟨exParser true true 7400 (exGapHead ++ (0 : UInt8) :: exGapFile.drop 15), none⟩ : Client).after Zlib.stored [.next, .load false directLoader]).parser.health ≠ .running := by
  decide +kernel

end Fbx
