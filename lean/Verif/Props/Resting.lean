import Verif.Props.Skipping
import Verif.Proof.Chunked
import Verif.Props.Within

/-! # C90 `skip_current_node` leads to one place, whatever was done inside the node -/

namespace Fbx
open Reader Parser Spec
variable {α : Type} {Z : Zlib}

/-- What `skip_current_node` does on a source that can seek, to the end of the node. -/
theorem skip_lands {s : Client} {n : Started} {outer : List Started} (hst : s.parser.started = n :: outer) (hs : s.parser.reader.seekable = true)
    (hge : s.parser.reader.position ≤ n.endOff) (hend : n.endOff < 2 ^ 64) (hlim : s.parser.reader.cursor + (n.endOff - s.parser.reader.position) ≤ s.parser.reader.seekLimit) :
    s.call Z (.skip : Call α) = some (.done, ⟨{ s.parser with started := outer, last := some .endNode, reader := s.parser.reader.consume (n.endOff - s.parser.reader.position) }, none⟩) := by
  have hskip := skipTo_ok (r := s.parser.reader) hs n.endOff hge hend hlim
  have : skipCurrentNode s.parser = (.ok (), { s.parser with started := outer, last := some .endNode, reader := s.parser.reader.consume (n.endOff - s.parser.reader.position) }) := by
    rw [skipCurrentNode, M.get_bind]
    simp only [hst]
    rw [M.bind_apply]
    simp only [M.set]
    exact io_exact hskip
  simp only [Client.call, this]

/-- What has been done inside a node, as far as skipping is concerned: the parser has moved on, and is still inside of the same nodes. -/
theorem inside_node {checks : Bool} {v : FbxVersion} {bytes : Bytes} {ending : Option IoErr} {cursor limit : Nat} {p : Parser}
    (hp : Parser.create checks v ⟨bytes, ending, cursor, headerLen, true, limit⟩ = .ok p) (hsz : Sized bytes)
    {a b : History α} {s t : Client} (h1 : Runs Z ⟨p, none⟩ a s) (ha : a.calm)
    (h2 : Runs Z s b t) (hb : b.calm) (hcl : b.clean) (hin : b.inner) (hbal : b.starts = b.ends + b.skips) (hrun : t.parser.health = .running)
    {n : Started} {outer : List Started} (hst : s.parser.started = n :: outer) :
    s.parser.health = .running ∧ t.parser.version = s.parser.version ∧ t.parser.checks = s.parser.checks ∧ t.parser.toplevel = s.parser.toplevel ∧
      (∃ kids, t.parser.started = { n with kids := kids } :: outer) ∧ s.parser.reader.seekable = true ∧ s.parser.reader.seekLimit = limit ∧
      ∃ j, t.parser.reader = s.parser.reader.consume j := by
  obtain ⟨hi, hL⟩ := open_inv ⟨_, _, _, _, _, _, hp⟩ hsz
  have hsi := h1.inv hL hi ha
  obtain ⟨k, hk⟩ := C31_position hp hsz h1 ha
  have hdep := (h2.depth hL hsi hb).2 hcl
  obtain ⟨up, kids, e1, e2⟩ := h2.stack hL hsi hst hb hcl hin
  have f1 := h2.frame hL hsi hb
  have hm := h2.moves hL hsi hb
  refine ⟨(h2.running hL hsi hb hrun).1, f1.1, f1.2, e2, ⟨kids, ?_⟩, by rw [hk], by rw [hk], hm.seekable (by rw [hk])⟩
  simp only [Parser.depth, hst, e1, List.length_append, List.length_cons] at hdep
  have : up = [] := List.eq_nil_of_length_eq_zero (by omega)
  rw [e1, this]
  rfl

/-- **C90**. Any bytes in a source that can seek, any earlier calls. Inside a node, let the client do anything that does not fail and does not leave
the node (load attributes, read some of the nodes in it, skip others). If `skip_current_node` then succeeds, then it also does when it is called
at once, and it leaves the parser in the same state. (Only the warnings raised meanwhile, and a handler set meanwhile, make a difference.) -/
theorem C90_skip_at_once {checks : Bool} {v : FbxVersion} {bytes : Bytes} {ending : Option IoErr} {cursor limit : Nat} {p : Parser}
    (hp : Parser.create checks v ⟨bytes, ending, cursor, headerLen, true, limit⟩ = .ok p) (hsz : Sized bytes)
    {a b : History α} {s t u : Client} (h1 : Runs Z ⟨p, none⟩ a s) (ha : a.calm)
    (h2 : Runs Z s b t) (hb : b.calm) (hcl : b.clean) (hin : b.inner) (hbal : b.starts = b.ends + b.skips) (hrun : t.parser.health = .running)
    (h3 : t.call Z (.skip : Call α) = some (.done, u)) (hlim : u.parser.reader.cursor ≤ limit) :
    s.call Z (.skip : Call α) = some (.done, ⟨{ u.parser with log := s.parser.log, handler := s.parser.handler }, u.attrs⟩) := by
  obtain ⟨hi, hL⟩ := open_inv ⟨_, _, _, _, _, _, hp⟩ hsz
  have hsi := h1.inv hL hi ha
  have hti := h2.inv hL hsi hb
  have hd := call_did hL hti h3
  cases hst : s.parser.started with
  | nil =>
    have hdep := (h2.depth hL hsi hb).2 hcl
    cases hd with
    | skip hst' =>
      simp only [Parser.depth, hst, hst', List.length_cons, List.length_nil] at hdep
      omega
  | cons n outer =>
    obtain ⟨g1, g2, g3, g4, ⟨kids, g5⟩, g6, g7, j, g8⟩ := inside_node hp hsz h1 ha h2 hb hcl hin hbal hrun hst
    cases hd with
    | skip hst' hm hi' hge hpos hplain ht =>
      rw [g5] at hst'
      cases hst'
      have ht6 : t.parser.reader.seekable = true := by rw [g8]; exact g6
      have hpos := hpos ht6
      obtain ⟨i, hmv⟩ := hm.seekable ht6
      subst ht
      simp only at hlim hge hpos
      have hpos64 := hi'.1
      rw [hmv, g8] at hlim hpos hpos64
      rw [g8] at hge
      simp only [Reader.consume] at hlim hpos hpos64 hge
      rw [skip_lands hst g6 (by omega) (by omega) (by rw [g7]; omega)]
      have hr : s.parser.reader.consume (n.endOff - s.parser.reader.position) = (s.parser.reader.consume j).consume i := by
        rw [Chunked.consume_consume]
        congr 1
        omega
      refine congrArg (fun q => some (Outcome.done, Client.mk q none)) ?_
      refine Parser.same g2.symm (g1.trans hrun.symm) rfl rfl g4.symm ?_ rfl rfl g3.symm
      show s.parser.reader.consume _ = _
      rw [hr, hmv, g8]

example := C90_skip_at_once (Z := Zlib.stored) (exParser_create true true 7400 exBody (by decide)) exBody_sized
  (runs_history exClient ([.next] : List (Call AttrValue)) (by decide +kernel)) (calm_of_all (by decide +kernel))
  (runs_history (Client.after Zlib.stored exClient ([.next] : List (Call AttrValue))) [.load false directLoader, .next, .skip] (by decide +kernel))
  (calm_of_all (by decide +kernel)) (clean_of_all (by decide +kernel)) (by
    rw [history_of _ _ [.value (.i32 5), .event (.startNode "B" 0), .done] (by decide +kernel)]
    intro a b h
    match a, h with
    | [], _ => exact Nat.le_refl _
    | [_], h => simp at h; obtain ⟨rfl, _⟩ := h; decide
    | [_, _], h => simp at h; obtain ⟨rfl, rfl, _⟩ := h; decide
    | [_, _, _], h => simp at h; obtain ⟨rfl, rfl, rfl, _⟩ := h; decide
    | _ :: _ :: _ :: _ :: _, h => simp at h) (by decide +kernel) (by decide +kernel)
  (call_after _ .skip .done (by decide +kernel)) (by decide +kernel)

/-- **C90** (the converse). If `skip_current_node` succeeds at once, then it does so after anything the client does inside the node, and leaves the same
state, unless it panics because something was read beyond the end of the node (C29). -/
theorem C90_skip_later {checks : Bool} {v : FbxVersion} {bytes : Bytes} {ending : Option IoErr} {cursor limit : Nat} {p : Parser}
    (hp : Parser.create checks v ⟨bytes, ending, cursor, headerLen, true, limit⟩ = .ok p) (hsz : Sized bytes)
    {a b : History α} {s t u : Client} (h1 : Runs Z ⟨p, none⟩ a s) (ha : a.calm)
    (h2 : Runs Z s b t) (hb : b.calm) (hcl : b.clean) (hin : b.inner) (hbal : b.starts = b.ends + b.skips) (hrun : t.parser.health = .running)
    (h3 : s.call Z (.skip : Call α) = some (.done, u)) (hlim : u.parser.reader.cursor ≤ limit) :
    (∃ w, t.call Z (.skip : Call α) = some (.panic .skipBackward, w)) ∨
    t.call Z (.skip : Call α) = some (.done, ⟨{ u.parser with log := t.parser.log, handler := t.parser.handler }, u.attrs⟩) := by
  obtain ⟨hi, hL⟩ := open_inv ⟨_, _, _, _, _, _, hp⟩ hsz
  have hsi := h1.inv hL hi ha
  have hd := call_did hL hsi h3
  cases hd with
  | @skip n outer r hst hm hi' hge hpos hplain ht =>
    obtain ⟨g1, g2, g3, g4, ⟨kids, g5⟩, g6, g7, j, g8⟩ := inside_node hp hsz h1 ha h2 hb hcl hin hbal hrun hst
    obtain ⟨i, hmv⟩ := hm.seekable g6
    have hpos := hpos g6
    subst ht
    simp only at hlim
    have hpos64 := hi'.1
    rw [hmv] at hlim hpos hpos64
    simp only [Reader.consume] at hlim hpos hpos64
    have hti := h2.inv hL hsi hb
    by_cases hb : t.parser.reader.position ≤ n.endOff
    · right
      have hb' := hb
      rw [g8] at hb'
      simp only [Reader.consume] at hb'
      rw [skip_lands g5 (by rw [g8]; exact g6) hb (by simp only; omega) (by rw [g8]; simp only [Reader.consume]; rw [g7]; omega)]
      refine congrArg (fun q => some (Outcome.done, Client.mk q none)) ?_
      refine Parser.same g2 (hrun.trans g1.symm) rfl rfl g4 ?_ rfl rfl g3
      show t.parser.reader.consume _ = r
      rw [hmv, g8, Chunked.consume_consume]
      congr 1
      simp only [Reader.consume]
      omega
    · left
      obtain ⟨x, w, hx⟩ := (C29_panics_iff ⟨_, _, _, _, _, _, hp⟩ hsz (h1.trans ha h2) (calm_append.mpr ⟨ha, ‹_›⟩)).mpr (.inr ⟨_, _, g5, by simp only; omega⟩)
      have hd := call_did hL hti hx
      cases hd with
      | skipPanic hx' =>
        rcases hx' with ⟨_, h⟩ | ⟨rfl, _⟩
        · rw [g5] at h; cases h
        · exact ⟨w, hx⟩

example := C90_skip_later (Z := Zlib.stored) (exParser_create true true 7400 exBody (by decide)) exBody_sized
  (runs_history exClient ([.next] : List (Call AttrValue)) (by decide +kernel)) (calm_of_all (by decide +kernel))
  (runs_history (Client.after Zlib.stored exClient ([.next] : List (Call AttrValue))) [.load false directLoader, .next, .skip] (by decide +kernel))
  (calm_of_all (by decide +kernel)) (clean_of_all (by decide +kernel)) (by
    rw [history_of _ _ [.value (.i32 5), .event (.startNode "B" 0), .done] (by decide +kernel)]
    intro a b h
    match a, h with
    | [], _ => exact Nat.le_refl _
    | [_], h => simp at h; obtain ⟨rfl, _⟩ := h; decide
    | [_, _], h => simp at h; obtain ⟨rfl, rfl, _⟩ := h; decide
    | [_, _, _], h => simp at h; obtain ⟨rfl, rfl, rfl, _⟩ := h; decide
    | _ :: _ :: _ :: _ :: _, h => simp at h) (by decide +kernel) (by decide +kernel)
  (call_after _ .skip .done (by decide +kernel)) (by decide +kernel)

/-- A node `A` with the attributes 7 and true, whose header declares an end (43) inside the first of them. -/
def exShortNode : Bytes := [43, 0, 0, 0, 2, 0, 0, 0, 7, 0, 0, 0, 1, 65] ++ [73, 7, 0, 0, 0, 67, 84]

/-- **C90** (beyond the end). `skip_current_node` succeeds at once, but panics after an attribute has been loaded, which is no error and raises no
warning though it is read beyond the end of the node. -/
theorem C90_beyond : Opens (exParser true true 7400 exShortNode) exShortNode ∧ Sized exShortNode ∧
    ((Client.mk (exParser true true 7400 exShortNode) none).session Zlib.stored ([.next, .skip] : List (Call AttrType))).map Prod.fst =
      some [.event (.startNode "A" 2), .done] ∧
    ((Client.mk (exParser true true 7400 exShortNode) none).session Zlib.stored ([.next, .load false typeLoader, .skip] : List (Call AttrType))).map Prod.fst =
      some [.event (.startNode "A" 2), .value .i32, .panic .skipBackward] :=
  ⟨exParser_opens _ _ _ _ (by decide), by simp [Sized, exShortNode, headerLen], by decide +kernel, by decide +kernel⟩

end Fbx
