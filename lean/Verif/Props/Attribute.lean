import Verif.Proof.Attribute
import Verif.Props.Decision

/-! # C57 `load_next` with `DirectLoader` is decided by the bytes ahead -/

namespace Fbx
open Reader Parser Spec
variable {Z : Zlib}

/-- After any calls on any bytes of a seekable source, while the parser is running, its handler does not object and there
are attributes left, `load_next` and `load_next_buffered` with `DirectLoader` answer what the table `attrInFront`
(`Verif/Spec/Attribute.lean`) says about the bytes at the offset of the next attribute: the value or the error, the warning
with its position, where the reader stands afterwards and where the next attribute is expected. -/
theorem C57_load {checks : Bool} {v : FbxVersion} {bytes : Bytes} {ending : Option IoErr} {cursor limit : Nat} {p : Parser}
    (hp : Parser.create checks v ⟨bytes, ending, cursor, headerLen, true, limit⟩ = .ok p) (hsz : Sized bytes) {h : History AttrValue} {s : Client}
    (hr : Runs Z ⟨p, none⟩ h s) (hn : h.calm) {a : Attrs} (ha : s.attrs = some a) (hrest : a.rest ≠ 0)
    (hrun : s.parser.health = .running) (ht : tolerant s.parser) (hreach : canReach s.parser a) (buffered : Bool) :
    ∃ o t, s.call Z (.load buffered directLoader) = some (o, t) ∧ LoadAnswers Z ending s a o t := by
  obtain ⟨hi, hL⟩ := open_inv ⟨_, _, _, _, _, _, hp⟩ hsz
  obtain ⟨k, hk⟩ := C31_position hp hsz hr hn
  obtain ⟨o, t, h1, h2, _⟩ := answers_load (Z := Z) hL (hr.inv hL hi hn) ha hrest hrun ht (by rw [hk]) hreach buffered
  refine ⟨o, t, h1, ?_⟩
  rwa [show s.parser.reader.ending = ending by rw [hk]] at h2

/-- All the attributes of a node. After the start of a node with `n` attributes, loading them one after the other with
`DirectLoader` gives the values and the error which the table `attributesHere` makes of the bytes ahead, with the same
warnings, and leaves the reader where the table says. -/
theorem C57_node {checks : Bool} {v : FbxVersion} {bytes : Bytes} {ending : Option IoErr} {cursor limit : Nat} {p : Parser}
    (hp : Parser.create checks v ⟨bytes, ending, cursor, headerLen, true, limit⟩ = .ok p) (hsz : Sized bytes) {h : History AttrValue} {s t : Client}
    (hr : Runs Z ⟨p, none⟩ h s) (hn : h.calm) {name : String} {n : Nat} (hc : s.call Z (.next : Call AttrValue) = some (.event (.startNode name n), t))
    (ht : tolerant t.parser) (hfar : farSeeking t.parser) (buffered : Bool) :
    let r := attributesHere Z ending n (look t.parser)
    ∃ u, t.session Z (List.replicate r.outcomes.length (.load buffered directLoader)) = some (r.outcomes, u) ∧
      look u.parser = r.ahead ∧ u.parser.log = r.warnings ++ t.parser.log ∧
      (r.error = none → u.parser.health = .running ∧ r.values.length = n) ∧
      (∀ e, r.error = some e → ∃ pos, e.pos = some pos ∧ u.parser.health = .aborted pos) := by
  obtain ⟨hi, hL⟩ := open_inv ⟨_, _, _, _, _, _, hp⟩ hsz
  have hi' := hr.inv hL hi hn
  have hd := call_did hL hi' hc
  have hti := hd.inv hi' (by simp)
  have hr' := Runs.snoc hr hn hc
  obtain ⟨k, hk⟩ := C31_position hp hsz hr' (calm_append.mpr ⟨hn, by intro c x hm; simp at hm⟩)
  have hat : t.parser.health = .running ∧ t.attrs = some ⟨n, n, t.parser.reader.position⟩ := by
    cases hd with
    | event hrun he hi ha => exact ⟨by rw [he.health]; exact hrun, ha⟩
  obtain ⟨u, h1, h2, h3, h4, _⟩ := session_loads (Z := Z) hL ending buffered n n t.parser.reader.position t hti hat.2 hat.1 ht (by rw [hk]) (by rw [hk]) hfar (by omega)
  refine ⟨u, h1, h2, h3, fun hne => ⟨?_, attributes_length _ _ _ _ _ _ hne⟩, fun e he => ?_⟩
  · rw [h4, show (attributes Z ending n n t.parser.reader.position (look t.parser)).error = none from hne]
  · obtain ⟨pos, hpos⟩ := attributes_error _ _ _ _ _ _ e he
    refine ⟨pos, hpos, ?_⟩
    obtain ⟨k, q⟩ := e
    cases hpos
    rw [h4, show (attributes Z ending n n t.parser.reader.position (look t.parser)).error = some ⟨k, some pos⟩ from he]

/-! ## Example: odd booleans, an array longer than declared, a string cut off -/

/-- A node with three attributes: a boolean 2; an array of two booleans which claims to have one byte; a string of five
bytes of which there is one. -/
def exAttrs : Bytes :=
  [70, 0, 0, 0, 3, 0, 0, 0, 23, 0, 0, 0, 1, 65] ++ [67, 2] ++ [98, 2, 0, 0, 0, 0, 0, 0, 0, 1, 0, 0, 0, 84, 1] ++ [83, 5, 0, 0, 0, 66]

theorem exAttrs_sized : Sized exAttrs := by
  have : exAttrs.length = 37 := by decide +kernel
  simp [Sized, this, headerLen]

def exAttrsClient : Client := ⟨exParser true true 7400 exAttrs, none⟩

/-- After the start of the node and `n` attributes. -/
def exAttrsAfter (n : Nat) : Client := exAttrsClient.after Zlib.stored (.next :: List.replicate n (.load false directLoader : Call AttrValue))

/-- What the table makes of it. -/
example : (attributesHere Zlib.stored none 3 (look (exAttrsAfter 0).parser)).values = [.bool false, .arrBool [false, true], .string "B"] := by decide +kernel
example : (attributesHere Zlib.stored none 3 (look (exAttrsAfter 0).parser)).error = none := by decide +kernel
example : (attributesHere Zlib.stored none 3 (look (exAttrsAfter 0).parser)).warnings =
    [(.incorrectBool, ⟨58, 43, [(0, "A")], some 1⟩), (.incorrectBool, ⟨43, 41, [(0, "A")], some 0⟩)] := by decide +kernel

/-- With a source whose last read fails, the string is not loaded. -/
example : (attributesHere Zlib.stored (some (.other 7)) 3 (look (exAttrsAfter 0).parser)).error =
    some ⟨.io (.other 7), some ⟨64, 57, [(0, "A")], some 2⟩⟩ := by decide +kernel

/-- Unknown type codes and encodings. -/
example : (attrInFront Zlib.stored none [90, 1, 2]).answer = .error (.data (.invalidAttrTypeCode 90)) := by rfl
example : (attrInFront Zlib.stored none [105, 1, 0, 0, 0, 2, 0, 0, 0, 4, 0, 0, 0, 7, 0, 0, 0]).answer = .error (.data (.invalidArrayEncoding 2)) := by rfl

theorem exAttrsRuns (n : Nat) (hn : n ≤ 3) : Runs Zlib.stored exAttrsClient
    (exAttrsClient.history Zlib.stored (.next :: List.replicate n (.load false directLoader : Call AttrValue))) (exAttrsAfter n) := by
  rcases n with _ | _ | _ | _ | n
  all_goals first | exact runs_history _ _ (by decide +kernel) | omega

example := C57_load (exParser_create true true 7400 exAttrs (by decide)) exAttrs_sized (exAttrsRuns 1 (by omega)) (calm_of_all (by decide +kernel))
  (a := ⟨3, 2, 43⟩) (by decide +kernel) (by decide) (by decide +kernel) (exTolerant (by decide +kernel)) (by simp only [canReach]; decide +kernel) true
example := C57_node (name := "A") (n := 3) (exParser_create true true 7400 exAttrs (by decide)) exAttrs_sized (.nil (Z := Zlib.stored) (s := exAttrsClient)) (by intro c x hm; simp at hm)
  (t := exAttrsAfter 0) (call_after _ _ _ (by decide +kernel)) (exTolerant (by decide +kernel)) (by simp only [farSeeking]; decide +kernel) false

end Fbx
