import Verif.Proof.PromptArray
import Verif.Props.WriterLayout
import Verif.Model.Inflate

/-!
# C86: failures of the device are reported at once, by the call in which they happen
-/

namespace Fbx
open Spec Writer

/-- **C86.** In whatever state a writer is: every call stops at the first operation of the device which fails and returns its error; what is no
failure of the device is not reported as one, but for a full device and for errors which the client handed in. -/
theorem C86_call (Z : Zlib) (op : Op) (w : Writer) : Prompt (packs op) (handedIn op) (exec Z op w).1 w.sink (exec Z op w).2.sink :=
  Prompts.call Z op w

theorem C86_finalize (f : FooterSpec) (w : Writer) : Prompt False (fun _ => False) (Writer.finalize f w).1 w.sink (Writer.finalize f w).2.sink :=
  Prompts.finalize f w

theorem C86_flush (f : FooterSpec) (w : Writer) : Prompt False (fun _ => False) (Writer.finalizeAndFlush f w).1 w.sink (Writer.finalizeAndFlush f w).2.sink :=
  Prompts.bind (.finalize f) (fun _ => .io device_flush) w

theorem C86_tree (Z : Zlib) (t : Tree) (w : Writer) : Prompt False (fun _ => False) (writeTree Z t w).1 w.sink (writeTree Z t w).2.sink :=
  Prompts.tree Z t w

theorem C86_new (s : Sink) (v : FbxVersion) : Prompt False (fun _ => False) (Writer.new s v).1 s (Writer.new s v).2 := by
  unfold Writer.new
  split
  · exact .stay (fun e he hd => by cases he; exact hd.elim)
  · have h : Prompts False (fun _ => False) (do Writer.io (Sink.seek 0); Writer.put magic; Writer.put (leBytes 4 v.toNat)) :=
      .bind (.seek 0) (fun _ => .bind (.put _) (fun _ => .put _))
    have h' := h ⟨s, v, []⟩
    have e : ∀ (m : M IoErr Sink Unit), Writer.io m ⟨s, v, []⟩ = (((M.mapErr WErr.io m : M WErr Sink Unit) s).1, ⟨((M.mapErr WErr.io m : M WErr Sink Unit) s).2, v, []⟩) := by
      intro m
      rw [io_apply, M.mapErr_apply]
      rcases m s with ⟨_ | _ | _, _⟩ <;> rfl
    have e' : (do Writer.io (Sink.seek 0); Writer.put magic; Writer.put (leBytes 4 v.toNat) : M WErr Writer Unit) ⟨s, v, []⟩ =
        Writer.io (do Sink.seek 0; Sink.writeAll magic; Sink.writeAll (leBytes 4 v.toNat)) ⟨s, v, []⟩ := by
      simp only [Writer.put, M.bind_apply, io_apply]
      rcases Sink.seek 0 s with ⟨_ | _ | _, s1⟩ <;> simp only
      rcases Sink.writeAll magic s1 with ⟨_ | _ | _, s2⟩ <;> simp only
    rw [e', e] at h'
    simp only
    rcases hr : (M.mapErr WErr.io (do Sink.seek 0; Sink.writeAll magic; Sink.writeAll (leBytes 4 v.toNat)) : M WErr Sink Unit) s with ⟨r, s'⟩
    rw [hr] at h'
    rcases h' with ⟨n, h1, h2, h3⟩ | ⟨n, h1, h2, y, h3, h4⟩
    · cases r with
      | ok a => exact .inl ⟨n, h1, h2, fun e he => by cases he⟩
      | err e => exact .inl ⟨n, h1, h2, fun e' he hd => by cases he; exact h3 e rfl hd⟩
      | panic x => exact .inl ⟨n, h1, h2, fun e he => by cases he⟩
    · rcases h4 with h4 | ⟨h4, -⟩
      · cases h4
        exact .inr ⟨n, h1, h2, y, h3, .inl rfl⟩
      · exact h4.elim

theorem run_prompts (Z : Zlib) (pk : Prop) (own : WErr → Prop) : ∀ (ops : List Op), (∀ op ∈ ops, packs op → pk) → (∀ op ∈ ops, ∀ e, handedIn op e → own e) → Prompts pk own (run Z ops)
  | [], _, _ => .pure ()
  | o :: os, hp, ho => .bind ((Prompts.call Z o).mono (hp o (List.mem_cons_self ..)) (ho o (List.mem_cons_self ..)))
      (fun _ => run_prompts Z pk own os (fun x hx => hp x (List.mem_cons_of_mem _ hx)) (fun x hx => ho x (List.mem_cons_of_mem _ hx)))

theorem prompt_behind_new {pk : Prop} {own : WErr → Prop} {s : Sink} {v : FbxVersion} {m : M WErr Writer Unit} (hm : Prompts pk own m) :
    let r := (match Writer.new s v with
      | (.ok w, _) => ((m w).1, (m w).2.sink)
      | (.err e, s') => (.err e, s')
      | (.panic p, s') => (.panic p, s') : Res WErr Unit × Sink)
    Prompt pk own r.1 s r.2 := by
  have h := C86_new s v
  have hs : ∀ w s', Writer.new s v = (.ok w, s') → w.sink = s' := by
    intro w s' hw
    unfold Writer.new at hw
    split at hw
    · cases hw
    · simp only at hw
      split at hw <;> cases hw
      rfl
  rcases hr : Writer.new s v with ⟨w | e | x, s'⟩ <;> rw [hr] at h
  · rcases h with ⟨n, h1, h2, -⟩ | ⟨n, -, -, y, -, h4 | ⟨h4, -⟩⟩
    · have hw := hs w s' hr
      subst hw
      exact (hm w).trans h1 h2
    · cases h4
    · exact h4.elim
  · rcases h with ⟨n, h1, h2, h3⟩ | ⟨n, h1, h2, y, h3, h4 | ⟨h4, -⟩⟩
    · refine .inl ⟨n, h1, h2, fun e' he hd => ?_⟩
      cases he
      rcases h3 e rfl hd with h | ⟨h, -⟩ | h
      · exact .inl h
      · exact h.elim
      · exact h.elim
    · cases h4
      exact .inr ⟨n, h1, h2, y, h3, .inl rfl⟩
    · exact h4.elim
  · rcases h with ⟨n, h1, h2, h3⟩ | ⟨n, h1, h2, y, h3, h4 | ⟨h4, -⟩⟩
    · exact .inl ⟨n, h1, h2, fun e he => by cases he⟩
    · cases h4
    · exact h4.elim

/-- **C86** for a whole use of the writer: `Writer::new`, calls, `finalize` or `finalize_and_flush`. -/
theorem C86_session (Z : Zlib) (s : Sink) (v : FbxVersion) (ops : List Op) (f : FooterSpec) :
    Prompt (∃ op ∈ ops, packs op) (fun e => ∃ op ∈ ops, handedIn op e) (session Z s v ops f).1 s (session Z s v ops f).2 ∧
    Prompt (∃ op ∈ ops, packs op) (fun e => ∃ op ∈ ops, handedIn op e) (flushedSession Z s v ops f).1 s (flushedSession Z s v ops f).2 := by
  have hr := run_prompts Z (∃ op ∈ ops, packs op) (fun e => ∃ op ∈ ops, handedIn op e) ops (fun o ho h => ⟨o, ho, h⟩) (fun o ho e h => ⟨o, ho, h⟩)
  have h1 := prompt_behind_new (s := s) (v := v) (Prompts.bind hr (fun _ => Prompts.finalize f))
  have h2 := prompt_behind_new (s := s) (v := v) (Prompts.bind hr (fun _ => Prompts.bind (Prompts.finalize f) (fun _ => Prompts.io device_flush)))
  refine ⟨?_, ?_⟩
  · unfold session
    rcases hn : Writer.new s v with ⟨w | e | x, s'⟩ <;> rw [hn] at h1 <;> exact h1
  · unfold flushedSession
    rcases hn : Writer.new s v with ⟨w | e | x, s'⟩ <;> rw [hn] at h2 <;> exact h2

/-- **C86**, consequence: whoever is told that everything went well can be sure that no operation of the device failed, and whoever is told of an
error of a device which is never full, that one did (the last one done), with this error. -/
theorem C86_no_silent_failure (Z : Zlib) (s : Sink) (v : FbxVersion) (ops : List Op) (f : FooterSpec) :
    ((flushedSession Z s v ops f).1 = .ok () →
      ∃ n, (flushedSession Z s v ops f).2.fault = (fun i => s.fault (i + n)) ∧ ∀ i, i < n → s.fault i = none) ∧
    (∀ e, (flushedSession Z s v ops f).1 = .err e → ofDevice e → e ≠ .io (.other 1) → e ≠ .compression (.other 1) → (∀ op ∈ ops, ¬ handedIn op e) →
      ∃ n, (flushedSession Z s v ops f).2.fault = (fun i => s.fault (i + (n + 1))) ∧ (∀ i, i < n → s.fault i = none) ∧ ∃ x, s.fault n = some x ∧
        (e = .io x.error ∨ e = .compression x.error)) := by
  have h := (C86_session Z s v ops f).2
  refine ⟨fun hr => ?_, fun e hr hd h1 h2 h3 => ?_⟩
  · rcases h with ⟨n, g1, g2, -⟩ | ⟨n, -, -, x, -, h4 | ⟨-, h4⟩⟩
    · exact ⟨n, g1, g2⟩
    · rw [hr] at h4; cases h4
    · rw [hr] at h4; cases h4
  · rcases h with ⟨n, g1, g2, g3⟩ | ⟨n, g1, g2, x, g3, g4⟩
    · rcases g3 e hr hd with h | ⟨-, h⟩ | ⟨op, ho, h⟩
      · exact absurd h h1
      · exact absurd h h2
      · exact absurd h (h3 op ho)
    · refine ⟨n, g1, g2, x, g3, ?_⟩
      rw [hr] at g4
      rcases g4 with g4 | ⟨-, g4⟩ <;> cases g4
      · exact .inl rfl
      · exact .inr rfl

/-- **C86**, which error it is, for the calls which append arrays. Suppose the call succeeds on a device without failures. On a device whose
first failing operation is number `k` from here on, it succeeds if it does not get that far; otherwise it fails with an I/O error, except that it
fails with a compression error if that operation is the one by which the encoder is finished. -/
theorem C86_packing (Z : Zlib) (a : Append) (ha : appendsArray a) (w : Writer) (hok : (exec Z (.append a) (onDevice w (fun _ => none))).1 = .ok ())
    (f : Nat → Option Fault) (k : Nat) (x : Fault) (hb : ∀ i, i < k → f i = none) (hk : f k = some x) :
    (exec Z (.append a) (onDevice w f)).1 =
      if arrayOperations Z (denote a) ≤ k then .ok ()
      else if (denote a).enc = .zlib ∧ Z.encLate (arrayData (denote a).value) ≠ [] ∧ k = finishing Z (denote a) then .err (.compression x.error)
      else .err (.io x.error) := by
  have key : ∀ {e : Type} (t : AttrType) (enc : Option ArrEnc) (g : e → Bytes) (items : List (Except WErr e)) (d : DAttr), (∀ x, g x ≠ []) →
      d.enc = enc.getD .direct → arrayData d.value = (oks items).flatMap g → arrayCount d.value = (oks items).length →
      (appendArray Z t enc (elemBytes g items) (onDevice w (fun _ => none))).1 = .ok () →
      (appendArray Z t enc (elemBytes g items) (onDevice w f)).1 =
        if arrayOperations Z d ≤ k then .ok ()
        else if d.enc = .zlib ∧ Z.encLate (arrayData d.value) ≠ [] ∧ k = finishing Z d then .err (.compression x.error)
        else .err (.io x.error) := by
    intro e t enc g items d hg he hd hc hok
    rw [(appendArray_result Z t enc g hg items w hok).2 f k x hb hk, ← he, ← hd, ← hc]
    have hget : (ios 6 ++ (elementOps Z d.enc (arrayData d.value) (arrayCount d.value) ++ ios 7))[k]? =
        (if k < finishing Z d + (if d.enc = .zlib ∧ Z.encLate (arrayData d.value) ≠ [] then 1 else 0) + 7 then
          some (if (if d.enc = .zlib ∧ Z.encLate (arrayData d.value) ≠ [] then 1 else 0) = 1 ∧ k = finishing Z d then WErr.compression else WErr.io) else none) :=
      arrayOps_get Z d.enc _ _ k
    rw [hget]
    by_cases hl : d.enc = .zlib ∧ Z.encLate (arrayData d.value) ≠ []
    · have hops : arrayOperations Z d = finishing Z d + 1 + 7 := by rw [arrayOperations, if_pos hl]
      have hl' : (d.enc = .zlib ∧ Z.encLate (arrayData d.value) ≠ [] ∧ k = finishing Z d) ↔ k = finishing Z d := ⟨fun h => h.2.2, fun h => ⟨hl.1, hl.2, h⟩⟩
      simp only [if_pos hl, hops, hl', true_and]
      by_cases hlt : k < finishing Z d + 1 + 7
      · have hle : ¬ finishing Z d + 1 + 7 ≤ k := by omega
        rw [if_pos hlt, if_neg hle]
        by_cases hkf : k = finishing Z d
        · rw [if_pos hkf, if_pos hkf]
        · rw [if_neg hkf, if_neg hkf]
      · rw [if_neg hlt, if_pos (by omega)]
    · have hops : arrayOperations Z d = finishing Z d + 0 + 7 := by rw [arrayOperations, if_neg hl]
      have hl' : ¬ (d.enc = .zlib ∧ Z.encLate (arrayData d.value) ≠ [] ∧ k = finishing Z d) := fun h => hl ⟨h.1, h.2.1⟩
      simp only [if_neg hl, hops, if_neg hl']
      by_cases hlt : k < finishing Z d + 0 + 7
      · have hle : ¬ finishing Z d + 0 + 7 ≤ k := by omega
        rw [if_pos hlt, if_neg hle, if_neg (by omega)]
      · rw [if_neg hlt, if_pos (by omega)]
  cases a with
  | arrBool enc items => exact key .arrBool enc boolBytes items _ (fun _ => by simp [boolBytes]) rfl (flatMap_singleton_map _ _).symm rfl hok
  | arrI32 enc items => exact key .arrI32 enc b32Bytes items _ (fun _ => leBytes_ne _ _) rfl (by simp only [denote, arrayData, le_eq]; rfl) rfl hok
  | arrI64 enc items => exact key .arrI64 enc b64Bytes items _ (fun _ => leBytes_ne _ _) rfl (by simp only [denote, arrayData, le_eq]; rfl) rfl hok
  | arrF32 enc items => exact key .arrF32 enc b32Bytes items _ (fun _ => leBytes_ne _ _) rfl (by simp only [denote, arrayData, le_eq]; rfl) rfl hok
  | arrF64 enc items => exact key .arrF64 enc b64Bytes items _ (fun _ => leBytes_ne _ _) rfl (by simp only [denote, arrayData, le_eq]; rfl) rfl hok
  | _ => exact ha.elim

/-! Examples: a writer in a node, and a compressed array of two numbers. -/

/-- A device on which the operation `k` fails. -/
def exFails (k : Nat) : Nat → Option Fault := fun i => if i = k then some ⟨0, .other 7⟩ else none
/-- A writer in a node. -/
def exInNode : Writer := ⟨⟨[0, 0], 2, fun _ => none⟩, 7400, [⟨0, 2, ⟨0, 0, 0, 0⟩, false, false⟩]⟩
/-- A compressed array. -/
def exPack : Append := .arrI32 (some .zlib) [.ok 1, .ok 2]

example : (exec Zlib.rfc (.append exPack) (onDevice exInNode (fun _ => none))).1 = .ok () := by decide +kernel
example : finishing Zlib.rfc (denote exPack) = 7 ∧ arrayOperations Zlib.rfc (denote exPack) = 15 := by decide +kernel
example : (exec Zlib.rfc (.append exPack) (onDevice exInNode (exFails 6))).1 = .err (.io (.other 7)) ∧
    (exec Zlib.rfc (.append exPack) (onDevice exInNode (exFails 7))).1 = .err (.compression (.other 7)) ∧
    (exec Zlib.rfc (.append exPack) (onDevice exInNode (exFails 8))).1 = .err (.io (.other 7)) ∧
    (exec Zlib.rfc (.append exPack) (onDevice exInNode (exFails 14))).1 = .err (.io (.other 7)) ∧
    (exec Zlib.rfc (.append exPack) (onDevice exInNode (exFails 15))).1 = .ok () := by decide +kernel
example : appendsArray exPack ∧ packs (.append exPack) := ⟨trivial, rfl⟩
/-- A whole session on a device whose 20th operation fails, and on one whose thousandth would. -/
example : (flushedSession Zlib.stored { exSink with fault := exFails 20 } 7400 (calls (.cons "A" [.i32 5] .nil .nil)) exFooter).1 = .err (.io (.other 7)) ∧
    (flushedSession Zlib.stored { exSink with fault := exFails 1000 } 7400 (calls (.cons "A" [.i32 5] .nil .nil)) exFooter).1 = .ok () := by decide +kernel

end Fbx
