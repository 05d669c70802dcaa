import Verif.Proof.Decision
import Verif.Props.ParserHistory

/-! # C55 `next_event` is decided by the bytes ahead -/

namespace Fbx
open Reader Parser Spec
variable {α : Type} {Z : Zlib}

/-- After any calls on any bytes of a seekable source, while the parser is running and its handler does not object,
`next_event` answers what the table `Ahead.next` (`Verif/Spec/Decision.lean`) says: the event, error or panic, the
warning with its position, the open nodes and the offset it leaves. At the end of the document `footerSays` tells what
becomes of the footer. -/
theorem C55_next_event {checks : Bool} {v : FbxVersion} {bytes : Bytes} {ending : Option IoErr} {cursor limit : Nat} {p : Parser}
    (hp : Parser.create checks v ⟨bytes, ending, cursor, headerLen, true, limit⟩ = .ok p) (hsz : Sized bytes) {h : History α} {s : Client}
    (hr : Runs Z ⟨p, none⟩ h s) (hn : h.calm) (hrun : s.parser.health = .running) (ht : tolerant s.parser) (hpass : canPass s.parser) :
    ∃ o t, s.call Z (.next : Call α) = some (o, t) ∧ Answers s o t ((look s.parser).next checks) := by
  obtain ⟨hi, hL⟩ := open_inv ⟨_, _, _, _, _, _, hp⟩ hsz
  have hst := Opens.state ⟨_, _, _, _, _, _, hp⟩
  obtain ⟨k, hk⟩ := C31_position hp hsz hr hn
  have hck : s.parser.checks = checks := by
    rw [(hr.frame hL hi hn).2]
    unfold Parser.create at hp
    split at hp
    · cases hp
    · cases hp; rfl
  have hkids := hr.kids hL hi hn hst.2.1 hrun
  have := answers_next (Z := Z) (α := α) hL (hr.inv hL hi hn) hrun ht (by rw [hk]) hpass (fun n outer h => (hkids n outer h).1)
  rwa [hck] at this

/-- What lies ahead (`look`) is determined by the file and by what the client has observed: the bytes are those of the
file after the offset; the open nodes are nodes declared by headers in the file; after a history without failures they
are the ones started and not ended, in that order, with the numbers of children started. -/
theorem C55_ahead {checks : Bool} {v : FbxVersion} {bytes : Bytes} {ending : Option IoErr} {cursor limit : Nat} {p : Parser}
    (hp : Parser.create checks v ⟨bytes, ending, cursor, headerLen, true, limit⟩ = .ok p) (hsz : Sized bytes) {h : History α} {s : Client}
    (hr : Runs Z ⟨p, none⟩ h s) (hn : h.calm) :
    (∃ k, (look s.parser).pos = 27 + k ∧ (look s.parser).bytes = bytes.drop k) ∧
    (look s.parser).width = headWidth v ∧ (look s.parser).eof = ending.getD .unexpectedEof ∧
    (∀ n ∈ (look s.parser).opened, Declared (headWidth v) bytes n) ∧
    (h.clean → (look s.parser).opened.map (fun n => (n.name, n.kids)) = h.openNodes.1.map (fun n => (n.1, n.2.2)) ∧
      (look s.parser).top = h.openNodes.2) := by
  obtain ⟨hi, hL⟩ := open_inv ⟨_, _, _, _, _, _, hp⟩ hsz
  have hst := Opens.state ⟨_, _, _, _, _, _, hp⟩
  obtain ⟨k, hk⟩ := C31_position hp hsz hr hn
  have hfr := hr.frame hL hi hn
  have hpv : p.version = v ∧ p.reader.seekable = true := by
    unfold Parser.create at hp
    split at hp
    · cases hp
    · cases hp; exact ⟨rfl, rfl⟩
  have hv : s.parser.version = v := hfr.1.trans hpv.1
  refine ⟨⟨k, ?_, ?_⟩, ?_, ?_, ?_, ?_⟩
  · simp only [look, hk]
  · simp only [look, hk]
  · simp only [look, hv]
  · simp only [look, hk]
  · have := hr.declared hL hi hn hst.2.1 hst.2.2.2.2.2.2.2 hst.2.2.2.2.2.2.1 hpv.2
    rw [show (Client.mk p none).parser.version = v from hpv.1] at this
    exact this
  · intro hcl
    obtain ⟨h1, h2⟩ := hr.paths hL hi ⟨hst.2.1, hst.2.2.1⟩ hn hcl
    refine ⟨?_, h1⟩
    have key : ∀ (tl : Nat) (st : List (String × Nat × Nat)) (l : List Started), Matches tl st l →
        l.map (fun n => (n.name, n.kids)) = st.map (fun n => (n.1, n.2.2)) := by
      intro tl st
      induction st with
      | nil => intro l hm; cases l with
        | nil => rfl
        | cons => exact hm.elim
      | cons x st ih =>
        obtain ⟨nm, i, k⟩ := x
        intro l hm
        cases l with
        | nil => exact hm.elim
        | cons n outer => simp only [List.map_cons, ih outer hm.2.2.2, hm.1, hm.2.1]
    exact key _ _ _ h2

/-- Which end marker warnings there are. When a node ends, either its end offset is the offset reached after its
attributes and children, and there is no marker: then `MissingNodeEndMarker` is raised exactly if children of the node
have been started or it has no attributes. Or the header that follows is zero and the node ends after it: then
`ExtraNodeEndMarker` is raised exactly if it has attributes and no children have been started. Nothing else is raised. -/
theorem C55_markers {checks : Bool} {v : FbxVersion} {bytes : Bytes} {ending : Option IoErr} {cursor limit : Nat} {p : Parser}
    (hp : Parser.create checks v ⟨bytes, ending, cursor, headerLen, true, limit⟩ = .ok p) (hsz : Sized bytes) {h : History α} {s t : Client}
    (hr : Runs Z ⟨p, none⟩ h s) (hn : h.calm) (hcl : h.clean) (ht : tolerant s.parser) (hpass : canPass s.parser)
    (hrun : s.parser.health = .running) (hc : s.call Z (.next : Call α) = some (.event .endNode, t))
    {name : String} {i kids : Nat} {outer : List (String × Nat × Nat)} (ho : h.openNodes.1 = (name, i, kids) :: outer) :
    ∃ n, Declared (headWidth v) bytes n ∧ n.name = name ∧
      let off := max s.parser.reader.position n.attrEnd
      (off = n.endOff ∧ ∃ pos : SynPos, pos.bytePos = n.endOff ∧
        t.parser.log = if kids ≠ 0 ∨ n.attrCount = 0 then (.missingNodeEndMarker, pos) :: s.parser.log else s.parser.log) ∨
      (off + (3 * headWidth v + 1) = n.endOff ∧ headerAt (headWidth v) (bytes.drop (off - 27)) = .nodeEnd ∧
        ∃ pos : SynPos, pos.bytePos = n.endOff ∧
        t.parser.log = if n.attrCount ≠ 0 ∧ kids = 0 then (.extraNodeEndMarker, pos) :: s.parser.log else s.parser.log) := by
  obtain ⟨⟨k, a1, a2⟩, a3, a4, a5, a6⟩ := C55_ahead hp hsz hr hn
  obtain ⟨o, t', hc', hans⟩ := C55_next_event hp hsz hr hn hrun ht hpass
  rw [hc] at hc'
  cases hc'
  obtain ⟨e1, e2⟩ := a6 hcl
  rw [ho] at e1
  have hpos : s.parser.reader.position = 27 + k := a1
  generalize look s.parser = a at *
  obtain ⟨w, opened, top, pos, bs, eof⟩ := a
  simp only at a1 a2 a3 a5 e1
  subst a1 a2 a3
  cases opened with
  | nil => cases e1
  | cons n outer' =>
    simp only [List.map_cons, List.cons.injEq, Prod.mk.injEq] at e1
    obtain ⟨⟨e1, e3⟩, _⟩ := e1
    refine ⟨n, a5 n (by simp), e1, ?_⟩
    simp only [Ahead.next, Ahead.pass, Ahead.move] at hans
    have hoff : 27 + k + (n.attrEnd - (27 + k)) = max s.parser.reader.position n.attrEnd := by rw [hpos]; omega
    simp only [hoff] at hans
    generalize hO : max s.parser.reader.position n.attrEnd = off at *
    simp only
    have hle : 27 + k ≤ off := by omega
    by_cases h1 : n.endOff < off
    · rw [if_pos h1] at hans
      exact absurd hans.1 (by simp)
    rw [if_neg h1] at hans
    by_cases h2 : n.endOff = off
    · rw [if_pos h2] at hans
      refine .inl ⟨h2.symm, ⟨off, n.startOff, pathOf top (n :: outer'), none⟩, h2.symm, ?_⟩
      rw [hans.2.1, ← e3]
      by_cases h3 : n.kids ≠ 0 ∨ n.attrCount = 0
      · rw [if_pos h3, if_pos h3]; rfl
      · rw [if_neg h3, if_neg h3]; rfl
    · rw [if_neg h2] at hans
      simp only [Ahead.header] at hans
      split at hans
      · exact absurd hans.1 (by simp)
      split at hans
      · rename_i hz
        split at hans
        · exact absurd hans.1 (by simp)
        · rename_i h5
          have h5' := Decidable.not_not.mp h5
          simp only [Ahead.move] at h5'
          refine .inr ⟨h5'.symm, ?_, ?_⟩
          · rw [← hz, List.drop_drop]
            congr 2
            omega
          · refine ⟨_, ?_, by
              rw [hans.2.1, ← e3]
              by_cases h3 : n.attrCount ≠ 0 ∧ n.kids = 0
              · rw [if_pos h3, if_pos h3]; rfl
              · rw [if_neg h3, if_neg h3]; rfl⟩
            exact h5'.symm
      · simp only [Ahead.start] at hans
        split at hans
        · exact absurd hans.1 (by simp)
        split at hans
        · exact absurd hans.1 (by simp)
        split at hans
        · exact absurd hans (by simp [Answers])
        · exact absurd hans.1 (by simp)

/-! ## Example: an extra and a missing marker, and a broken footer -/

/-- A node `A` without attributes, with a child and without an end marker; the child `B` has an attribute and an end
marker; after the end of the document there are 16 bytes. -/
def exMarkers : Bytes :=
  [70, 0, 0, 0, 0, 0, 0, 0, 0, 0, 0, 0, 1, 65] ++ [70, 0, 0, 0, 1, 0, 0, 0, 2, 0, 0, 0, 1, 66] ++ [67, 84] ++ zeros 13 ++ zeros 13 ++ zeros 16

theorem exMarkers_sized : Sized exMarkers := by
  have : exMarkers.length = 72 := by decide +kernel
  simp [Sized, this, headerLen]

def exMarkersClient : Client := ⟨exParser true true 7400 exMarkers, none⟩

/-- The first calls on it. -/
def exMarkersAfter (n : Nat) : Client := exMarkersClient.after Zlib.stored (List.replicate n (.next : Call Unit))

/-- What `next_event` returns. -/
example : (exMarkersClient.history Zlib.stored (List.replicate 5 (.next : Call Unit))).map Prod.snd =
    [.event (.startNode "A" 0), .event (.startNode "B" 1), .event .endNode, .event .endNode,
      .event (.endFbx (.error (PErr.ofIo .unexpectedEof)))] := by decide +kernel

/-- What the table says. -/
example : ((look (exMarkersAfter 0).parser).next true).1 = .starts "A" 0 := by decide +kernel
example : ((look (exMarkersAfter 1).parser).next true).1 = .starts "B" 1 := by decide +kernel
example : ((look (exMarkersAfter 2).parser).next true).1 = .ends ∧
    ((look (exMarkersAfter 2).parser).next true).2.1 = some (.extraNodeEndMarker, ⟨70, 27, [(0, "A")], none⟩) := by decide +kernel
example : ((look (exMarkersAfter 3).parser).next true).1 = .ends ∧
    ((look (exMarkersAfter 3).parser).next true).2.1 = some (.missingNodeEndMarker, ⟨70, 27, [(0, "A")], none⟩) := by decide +kernel
example : ((look (exMarkersAfter 4).parser).next true).1 = .finishes := by decide +kernel

/-- The warnings on record at the end (newest first). -/
example : (exMarkersAfter 5).parser.log = [(.unexpectedFooterField, ⟨83, 83, [], none⟩), (.missingNodeEndMarker, ⟨70, 27, [(0, "A")], none⟩),
    (.extraNodeEndMarker, ⟨70, 27, [(0, "A")], none⟩)] := by decide +kernel

theorem exMarkersRuns (n : Nat) (hn : n ≤ 5) : Runs Zlib.stored exMarkersClient (exMarkersClient.history Zlib.stored (List.replicate n (.next : Call Unit)))
    (exMarkersAfter n) := by
  rcases n with _ | _ | _ | _ | _ | _ | n
  all_goals first | exact runs_history _ _ (by decide +kernel) | omega

theorem exCanPass {p : Parser} (h : (match p.started with | [] => true | n :: _ => decide (p.reader.cursor + (n.attrEnd - p.reader.position) ≤ p.reader.seekLimit)) = true) :
    canPass p := by
  intro n outer hst
  rw [hst] at h
  simpa using h

theorem exTolerant {p : Parser} (h : p.handler.isNone = true) : tolerant p := by
  intro f hf
  rw [hf] at h
  cases h

example := C55_next_event (exParser_create true true 7400 exMarkers (by decide)) exMarkers_sized (exMarkersRuns 3 (by omega)) (calm_of_all (by decide +kernel))
  (by decide +kernel) (exTolerant (by decide +kernel)) (exCanPass (by decide +kernel))
example := C55_ahead (exParser_create true true 7400 exMarkers (by decide)) exMarkers_sized (exMarkersRuns 3 (by omega)) (calm_of_all (by decide +kernel))
example := C55_markers (exParser_create true true 7400 exMarkers (by decide)) exMarkers_sized (exMarkersRuns 3 (by omega)) (calm_of_all (by decide +kernel))
  (clean_of_all (by decide +kernel)) (exTolerant (by decide +kernel)) (exCanPass (by decide +kernel)) (by decide +kernel)
  (call_after _ _ _ (by decide +kernel)) (name := "A") (i := 0) (kids := 1) (outer := []) (by decide +kernel)

/-- A file cut within a node header, and a node that claims to end within its own header. -/
example : ((look (exParser true true 7400 [70, 0, 0, 0, 0])).next true).1 = .fails (.io .unexpectedEof) := by decide +kernel
example : ((look (exParser true true 7400 ([30, 0, 0, 0, 0, 0, 0, 0, 0, 0, 0, 0, 1, 65] ++ zeros 13))).next true).1 = .starts "A" 0 := by decide +kernel

end Fbx
