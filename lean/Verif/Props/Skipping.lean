import Verif.Props.ParserHistory

/-! # `skip_current_node` -/

namespace Fbx
open Reader Parser Spec
variable {α : Type} {Z : Zlib}

/-! ## C28 Skipping and draining -/

theorem Parser.same {p q : Parser} (h1 : p.version = q.version) (h2 : p.health = q.health) (h3 : p.started = q.started)
    (h4 : p.last = q.last) (h5 : p.toplevel = q.toplevel) (h6 : p.reader = q.reader) (h7 : p.handler = q.handler)
    (h8 : p.log = q.log) (h9 : p.checks = q.checks) : p = q := by
  cases p; cases q
  simp only [Parser.mk.injEq]
  exact ⟨h1, h2, h3, h4, h5, h6, h7, h8, h9⟩

/-- Seekable source, arbitrary bytes, arbitrary earlier calls. If draining the current node (any calls that do not fail,
do not leave the node, and then an `EndNode`) succeeds, then so does `skip_current_node`, provided the device can seek to
where draining ended, and it leaves the same parser: the same source, open nodes, last event and health. (Only the
warnings raised while draining, which skipping does not raise, and the handler, which a client might change while
draining, are not affected by skipping.) -/
theorem C28_skip_equals_drain {checks : Bool} {v : FbxVersion} {bytes : Bytes} {ending : Option IoErr} {cursor limit : Nat} {p : Parser}
    (hp : Parser.create checks v ⟨bytes, ending, cursor, headerLen, true, limit⟩ = .ok p) (hsz : Sized bytes)
    {a b : History α} {s t u : Client} (h1 : Runs Z ⟨p, none⟩ a s) (ha : a.calm)
    (h2 : Runs Z s b t) (hb : b.calm) (hcl : b.clean) (hin : b.inner) (hbal : b.starts = b.ends + b.skips)
    (h3 : t.call Z (.next : Call α) = some (.event .endNode, u)) (hlim : u.parser.reader.cursor ≤ limit) :
    s.call Z (.skip : Call α) = some (.done, ⟨{ u.parser with log := s.parser.log, handler := s.parser.handler }, u.attrs⟩) := by
  obtain ⟨hi, hL⟩ := open_inv ⟨_, _, _, _, _, _, hp⟩ hsz
  have hsi := h1.inv hL hi ha
  have hti := h2.inv hL hsi hb
  obtain ⟨k, hk⟩ := C31_position hp hsz h1 ha
  have hdep := (h2.depth hL hsi hb).2 hcl
  have hd := call_did hL hti h3
  cases hst : s.parser.started with
  | nil =>
    cases hd with
    | event hrun he hi' hat =>
      obtain ⟨n, ou, e1, _⟩ := he.ended
      simp [Parser.depth, hst, e1] at hdep
      omega
  | cons n outer =>
    obtain ⟨e1, e2, e3, e4, e5⟩ := h2.closes hL hsi hst hb hcl hin hbal h3
    have hui := hd.inv hti (fun x hx => by cases hx)
    have f1 := h2.frame hL hsi hb
    have f2 := hd.frame (fun x hx => by cases hx)
    have hrun : s.parser.health = .running := by
      cases hd with
      | event hrun he hi' hat => exact (h2.running hL hsi hb hrun).1
    have hm := (h2.moves hL hsi hb).trans (hd.moves (fun x hx => by cases hx))
    obtain ⟨j, hj⟩ := hm.seekable (by rw [hk])
    have hat : u.attrs = none := by
      cases hd with
      | event hrun he hi' hat => exact hat
    have hpos : u.parser.reader.position < 2 ^ 64 := hui.parser.reader.1
    have hjp : s.parser.reader.position + j = n.endOff := by rw [← e2, hj]; rfl
    have hjc : s.parser.reader.cursor + j ≤ s.parser.reader.seekLimit := by
      rw [hj] at hlim
      simp only [Reader.consume] at hlim
      rw [show s.parser.reader.seekLimit = limit by rw [hk]]
      exact hlim
    have hskip := skipTo_ok (r := s.parser.reader) (by rw [hk]) n.endOff (by omega) (by rw [← e2]; exact hpos)
      (by rw [← hjp]; omega)
    rw [show n.endOff - s.parser.reader.position = j by omega, ← hj] at hskip
    have : skipCurrentNode s.parser = (.ok (), { s.parser with started := outer, last := some .endNode, reader := u.parser.reader }) := by
      rw [skipCurrentNode, M.get_bind]
      simp only [hst]
      rw [M.bind_apply]
      simp only [M.set]
      exact io_exact hskip
    simp only [Client.call, this, hat]
    have hv : u.parser.version = s.parser.version := by rw [← f1.1]; exact f2.1
    have hck : u.parser.checks = s.parser.checks := by rw [← f1.2]; exact f2.2
    exact congrArg (fun q => some (Outcome.done, Client.mk q none)) (Parser.same hv.symm (hrun.trans e5.symm) e1.symm e4.symm e3.symm rfl rfl rfl hck.symm)

example := C28_skip_equals_drain (Z := Zlib.stored) (exParser_create true true 7400 exBody (by decide)) exBody_sized
  (runs_history exClient ([.next] : List (Call AttrValue)) (by decide +kernel)) (calm_of_all (by decide +kernel))
  (runs_history (Client.after Zlib.stored exClient ([.next] : List (Call AttrValue))) [.load false directLoader, .next, .next] (by decide +kernel))
  (calm_of_all (by decide +kernel)) (clean_of_all (by decide +kernel)) (by
    rw [history_of _ _ [.value (.i32 5), .event (.startNode "B" 0), .event .endNode] (by decide +kernel)]
    intro a b h
    match a, h with
    | [], _ => exact Nat.le_refl _
    | [_], h => simp at h; obtain ⟨rfl, _⟩ := h; decide
    | [_, _], h => simp at h; obtain ⟨rfl, rfl, _⟩ := h; decide
    | [_, _, _], h => simp at h; obtain ⟨rfl, rfl, rfl, _⟩ := h; decide
    | _ :: _ :: _ :: _ :: _, h => simp at h) (by decide +kernel)
  (call_after _ .next (.event .endNode) (by decide +kernel)) (by decide +kernel)

/-- The side condition on the device follows when the node's end lies within a file that the device can seek in: for a
device whose limit is not below the end of the file, a position up to the end of the file is one it can seek to. -/
theorem C28_within_file {checks : Bool} {v : FbxVersion} {bytes : Bytes} {ending : Option IoErr} {cursor limit : Nat} {p : Parser}
    (hp : Parser.create checks v ⟨bytes, ending, cursor, headerLen, true, limit⟩ = .ok p) (hsz : Sized bytes)
    (hlim : cursor + bytes.length ≤ limit) {a : History α} {u : Client} (h1 : Runs Z ⟨p, none⟩ a u) (ha : a.calm)
    (hu : u.parser.reader.position ≤ headerLen + bytes.length) : u.parser.reader.cursor ≤ limit := by
  obtain ⟨k, hk⟩ := C31_position hp hsz h1 ha
  rw [hk] at hu ⊢
  have hu' : headerLen + k ≤ headerLen + bytes.length := hu
  show cursor + k ≤ limit
  omega

example := C28_within_file (exParser_create true true 7400 exBody (by decide)) exBody_sized (by decide +kernel) exRuns
  (calm_of_all (by decide +kernel)) (by decide +kernel)

/-! ## C29 Panics of `skip_current_node` -/

/-- `skip_current_node` panics exactly when no node is open, or when the open node declares an end that lies before the
current position. -/
theorem C29_panics_iff {p : Parser} {bytes : Bytes} (hp : Opens p bytes) (hsz : Sized bytes) {a : History α} {s : Client}
    (h1 : Runs Z ⟨p, none⟩ a s) (ha : a.calm) :
    (∃ x t, s.call Z (.skip : Call α) = some (.panic x, t)) ↔
      s.parser.started = [] ∨ ∃ n outer, s.parser.started = n :: outer ∧ n.endOff < s.parser.reader.position := by
  obtain ⟨hi, hL⟩ := open_inv hp hsz
  have hsi := h1.inv hL hi ha
  constructor
  · rintro ⟨x, t, h⟩
    have hd := call_did hL hsi h
    cases hd with
    | skipPanic hx =>
      rcases hx with ⟨_, h⟩ | ⟨_, h⟩
      · exact .inl h
      · exact .inr h
  · intro h
    rcases hc : s.call Z (.skip : Call α) with _ | ⟨o, t⟩
    · simp only [Client.call] at hc
      split at hc <;> cases hc
    · have hd := call_did hL hsi hc
      cases hd with
      | skip hst hm hi hge hpos hplain ht =>
        rcases h with h | ⟨n, outer, h, hlt⟩
        · rw [hst] at h; cases h
        · rw [hst] at h; cases h; omega
      | skipFailed hst hm hi hge ht =>
        rcases h with h | ⟨n, outer, h, hlt⟩
        · rw [hst] at h; cases h
        · rw [hst] at h; cases h; omega
      | skipPanic hx => exact ⟨_, _, rfl⟩

/-- A node `A` without attributes whose header declares the end offset 30, inside that header (27 to 41). -/
def exBackward : Bytes := leBytes 4 30 ++ leBytes 4 0 ++ leBytes 4 0 ++ [1, 65]

/-- The documented claim that `skip_current_node` panics only when there is no open node is false: here a node is open
and nothing has failed. -/
theorem C29_skip_can_panic :
    Opens (exParser true true 7400 exBackward) exBackward ∧ Sized exBackward ∧
    ∃ s t, Runs Zlib.stored ⟨exParser true true 7400 exBackward, none⟩ ([(.next, .event (.startNode "A" 0))] : History Unit) s ∧
      s.parser.depth = 1 ∧ s.call Zlib.stored (.skip : Call Unit) = some (.panic .skipBackward, t) := by
  refine ⟨exParser_opens _ _ _ _ (by decide), by simp [Sized, exBackward, headerLen],
    Client.after Zlib.stored ⟨exParser true true 7400 exBackward, none⟩ ([.next] : List (Call Unit)), _, ?_, ?_, call_after _ _ _ ?_⟩
  · have := runs_history (Z := Zlib.stored) ⟨exParser true true 7400 exBackward, none⟩ ([.next] : List (Call Unit)) (by decide +kernel)
    rw [history_of _ _ [.event (.startNode "A" 0)] (by decide +kernel)] at this
    exact this
  · decide +kernel
  · decide +kernel

example := C29_panics_iff (exParser_opens true true 7400 exBody (by decide)) exBody_sized exRuns (calm_of_all (by decide +kernel))

end Fbx
