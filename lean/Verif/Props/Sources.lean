import Verif.Props.Skipping
import Verif.Proof.Plain
import Verif.Proof.Cut
import Verif.Proof.Lag

/-! # Different sources: seekable or not, and cut short -/

namespace Fbx
open Reader Parser Spec
variable {α : Type} {Z : Zlib}

/-! ## C30 Seekable and plain sources -/

/-- Arbitrary bytes and calls: as long as no call has anything to skip, a plain source gives the same results as a
seekable one, and the two parsers end in the same state. -/
theorem C30_same_while_nothing_is_skipped_partial {checks : Bool} {v : FbxVersion} {bytes : Bytes} {ending : Option IoErr} {cursor limit : Nat} {p q : Parser}
    (hp : Parser.create checks v ⟨bytes, ending, cursor, headerLen, true, limit⟩ = .ok p)
    (hq : Parser.create checks v ⟨bytes, ending, cursor, headerLen, false, limit⟩ = .ok q) (hsz : Sized bytes)
    {h : History α} {t : Client} (hr : Runs Z ⟨p, none⟩ h t) (hn : SkipsNothing Z ⟨p, none⟩ h) :
    Runs Z ⟨q, none⟩ h t.plain := by
  obtain ⟨hi, hL⟩ := open_inv ⟨_, _, _, _, _, _, hp⟩ hsz
  have h0 : CRel Unseek ⟨p, none⟩ ⟨q, none⟩ := by
    unfold Parser.create at hp hq
    split at hp
    · cases hp
    · rename_i hv
      rw [if_neg hv] at hq
      cases hp
      cases hq
      exact ⟨⟨rfl, rfl⟩, rfl⟩
  obtain ⟨t', h1, h2⟩ := unseek_runs hL hi h0 hr hn
  rw [unseek_eq h2] at h1
  exact h1

/-- A node `A` with one attribute, the 32-bit integer 5, and the end of the document. -/
def exOne : Bytes := leBytes 4 46 ++ leBytes 4 1 ++ leBytes 4 5 ++ [1, 65] ++ [73] ++ leBytes 4 5 ++ zeros 13

theorem exOne_sized : Sized exOne := by simp [Sized, headerLen, exOne, leBytes, zeros]

abbrev exOneCalls : List (Call AttrValue) := [.next, .load false directLoader, .next, .next]

/-- Reading the attribute: the plain source works. -/
example : Runs Zlib.stored ⟨exParser true false 7400 exOne, none⟩
    ([(.next, .event (.startNode "A" 1)), (.load false directLoader, .value (.i32 5)), (.next, .event .endNode),
      (.next, .event (.endFbx (.error (PErr.ofIo .unexpectedEof))))] : History AttrValue)
    ((Client.mk (exParser true true 7400 exOne) none).after Zlib.stored exOneCalls).plain := by
  refine C30_same_while_nothing_is_skipped_partial (exParser_create true true 7400 exOne (by decide)) (exParser_create true false 7400 exOne (by decide))
    exOne_sized ?_ ?_
  · have := runs_history (Z := Zlib.stored) ⟨exParser true true 7400 exOne, none⟩ exOneCalls (by decide +kernel)
    rw [history_of _ _ [.event (.startNode "A" 1), .value (.i32 5), .event .endNode, .event (.endFbx (.error (PErr.ofIo .unexpectedEof)))]
      (by decide +kernel)] at this
    exact this
  · have c1 := call_after (Z := Zlib.stored) ⟨exParser true true 7400 exOne, none⟩ (.next : Call AttrValue) (.event (.startNode "A" 1)) (by decide +kernel)
    refine skipsNothing_cons (fun n o h => by cases h) c1 ?_
    have c2 := call_after (Z := Zlib.stored) (c := (.load false directLoader : Call AttrValue)) (o := .value (.i32 5))
      (s := (Client.mk (exParser true true 7400 exOne) none).after Zlib.stored ([.next] : List (Call AttrValue))) (by decide +kernel)
    refine skipsNothing_cons (fun a h => ?_) c2 ?_
    · have e : ((Client.mk (exParser true true 7400 exOne) none).after Zlib.stored ([.next] : List (Call AttrValue))).attrs = some ⟨1, 1, 41⟩ := by decide +kernel
      rw [e] at h
      cases h
      exact .inr (by decide +kernel)
    have c3 := call_after (Z := Zlib.stored) (c := (.next : Call AttrValue)) (o := .event .endNode)
      (s := ((Client.mk (exParser true true 7400 exOne) none).after Zlib.stored ([.next] : List (Call AttrValue))).after Zlib.stored
        ([.load false directLoader] : List (Call AttrValue))) (by decide +kernel)
    refine skipsNothing_cons (fun n o h => ?_) c3 ?_
    · have e : (((Client.mk (exParser true true 7400 exOne) none).after Zlib.stored ([.next] : List (Call AttrValue))).after Zlib.stored
        ([.load false directLoader] : List (Call AttrValue))).parser.started = [⟨27, 46, 1, 46, "A", 0⟩] := by decide +kernel
      rw [e] at h
      cases h
      decide +kernel
    have c4 := call_after (Z := Zlib.stored) (c := (.next : Call AttrValue)) (o := .event (.endFbx (.error (PErr.ofIo .unexpectedEof))))
      (s := (((Client.mk (exParser true true 7400 exOne) none).after Zlib.stored ([.next] : List (Call AttrValue))).after Zlib.stored
        ([.load false directLoader] : List (Call AttrValue))).after Zlib.stored ([.next] : List (Call AttrValue))) (by decide +kernel)
    refine skipsNothing_cons (fun n o h => ?_) c4 (skipsNothing_nil _)
    have e : ((((Client.mk (exParser true true 7400 exOne) none).after Zlib.stored ([.next] : List (Call AttrValue))).after Zlib.stored
        ([.load false directLoader] : List (Call AttrValue))).after Zlib.stored ([.next] : List (Call AttrValue))).parser.started = [] := by decide +kernel
    rw [e] at h
    cases h

/-- The unrestricted claim is false: when the attribute is not read, the seekable source gives the end of the node and of
the document, but on the plain source the parser takes the bytes that follow the skipped ones for a child at the
position of the attribute, and fails. -/
theorem C30_plain_source_derails :
    Opens (exParser true true 7400 exOne) exOne ∧ Opens (exParser true false 7400 exOne) exOne ∧ Sized exOne ∧
    ((Client.mk (exParser true true 7400 exOne) none).session Zlib.stored ([.next, .next, .next] : List (Call Unit))).map Prod.fst =
      some [.event (.startNode "A" 1), .event .endNode, .event (.endFbx (.error (PErr.ofIo .unexpectedEof)))] ∧
    ((Client.mk (exParser true false 7400 exOne) none).session Zlib.stored ([.next, .next, .next] : List (Call Unit))).map Prod.fst =
      some [.event (.startNode "A" 1), .err ⟨.data (.nodeLengthMismatch 46 (some 54)), some ⟨54, 0, [], none⟩⟩,
        .err ⟨.op .alreadyAborted, some ⟨54, 0, [], none⟩⟩] := by
  refine ⟨exParser_opens _ _ _ _ (by decide), exParser_opens _ _ _ _ (by decide), exOne_sized, ?_, ?_⟩ <;> decide +kernel

/-! ## C56 Positions on plain sources -/

section
variable {p : Parser} {bytes : Bytes} (hp : Opens p bytes) (hplain : p.reader.seekable = false) (hsz : Sized bytes)
include hp hplain hsz

theorem plain_reach {h : History α} {s : Client} (hr : Runs Z ⟨p, none⟩ h s) (hn : h.calm) :
    s.parser.reader.reach ≤ headerLen + bytes.length ∧ s.parser.reader.rest.length ≤ bytes.length ∧ s.parser.reader.seekable = false ∧
    CInv (headerLen + bytes.length) s := by
  obtain ⟨hi, hL⟩ := open_inv hp hsz
  have h1 := hr.inv hL hi hn
  have h2 := hr.moves hL hi hn
  have h3 := h2.len_le
  obtain ⟨_, _, h4⟩ := h2
  have h5 := h4.seekable.trans hplain
  have h6 : p.reader.rest = bytes := by
    obtain ⟨ck, v, e, c, s, lim, h⟩ := hp
    unfold Parser.create at h
    split at h
    · cases h
    · cases h; rfl
  rw [show (Client.mk p none).parser.reader.rest = bytes from h6] at h3
  exact ⟨h1.parser.reader.reach_le h5, h3, h5, h1⟩

/-- Any history on a plain source: the tracked position is at most the true offset, and the difference never shrinks. -/
theorem C56_lag {a b : History α} {s t : Client} (h1 : Runs Z ⟨p, none⟩ a s) (ha : a.calm) (h2 : Runs Z s b t) (hb : b.calm) :
    s.parser.reader.position ≤ s.offset bytes ∧ s.lag bytes ≤ t.lag bytes := by
  obtain ⟨-, hL⟩ := open_inv hp hsz
  obtain ⟨k1, k2, k3, k4⟩ := plain_reach hp hplain hsz h1 ha
  have k5 := h2.reach_le hL k4 k3 hb
  obtain ⟨m1, m2, m3, m4⟩ := plain_reach hp hplain hsz (h1.trans ha h2) (fun c x hm => (List.mem_append.mp hm).elim (ha c x) (hb c x))
  simp only [Reader.reach] at k1 k5 m1
  simp only [Client.lag, Client.offset]
  omega

/-- Every byte that a call skips is added to the difference for good: a successful call that had `n` bytes to skip
increases it by at least `n` (or by what was left of the source). -/
theorem C56_skipped_bytes_are_lost {a : History α} {s t : Client} (h1 : Runs Z ⟨p, none⟩ a s) (ha : a.calm) {c : Call α} {o : Outcome α}
    (hc : s.call Z c = some (o, t)) (ho : o.isErr = false) (hx : ∀ x, o ≠ .panic x) :
    s.lag bytes + min (s.unread c) s.parser.reader.rest.length ≤ t.lag bytes := by
  obtain ⟨-, hL⟩ := open_inv hp hsz
  obtain ⟨k1, k2, k3, k4⟩ := plain_reach hp hplain hsz h1 ha
  have k5 := call_lost hL k4 k3 hc ho hx
  have h2 : Runs Z ⟨p, none⟩ (a ++ [(c, o)]) t := .snoc h1 ha hc
  obtain ⟨m1, m2, m3, m4⟩ := plain_reach hp hplain hsz h2 (fun c' x hm => by
    rcases List.mem_append.mp hm with hm | hm
    · exact ha c' x hm
    · cases hm with
      | head => exact hx _ rfl
      | tail _ hm => cases hm)
  simp only [Reader.reach] at k1 k5 m1
  simp only [Client.lag, Client.offset]
  omega

/-- Once something has been skipped, no node is ended at its declared end: each later `EndNode` comes when the source is
past that offset, by the bytes lost until then (at least those of the previous theorem). -/
theorem C56_ends_too_late {a : History α} {s t : Client} (h1 : Runs Z ⟨p, none⟩ a s) (ha : a.calm)
    (hc : s.call Z (.next : Call α) = some (.event .endNode, t)) :
    ∃ n outer, s.parser.started = n :: outer ∧ t.offset bytes = n.endOff + t.lag bytes := by
  obtain ⟨-, hL⟩ := open_inv hp hsz
  obtain ⟨k1, k2, k3, k4⟩ := plain_reach hp hplain hsz h1 ha
  have h2 : Runs Z ⟨p, none⟩ (a ++ [(.next, .event .endNode)]) t := .snoc h1 ha hc
  have k6 := (C56_lag hp hplain hsz h2 (fun c' x hm => by
    rcases List.mem_append.mp hm with hm | hm
    · exact ha c' x hm
    · cases hm with
      | tail _ hm => cases hm) .nil (fun _ _ h => by cases h)).1
  have hd := call_did hL k4 hc
  have hend : ∃ n outer, s.parser.started = n :: outer ∧ t.parser.reader.position = n.endOff := by
    cases hd with
    | event hrun hem hi ha =>
      cases hem with
      | endNode hst' hq =>
        cases hst' with
        | implicit hr hst hp' hrd hend hq' => exact ⟨_, _, hst, by rw [hq, hq']; simp only; rw [hrd]; exact hend⟩
        | explicit hr hst hh hlen hp' hrd hend hq' => exact ⟨_, _, hst, by rw [hq, hq']; exact hend⟩
  obtain ⟨n, outer, h3, h4⟩ := hend
  refine ⟨n, outer, h3, ?_⟩
  simp only [Client.lag]
  omega

end

/-- In the example, 5 bytes are to be skipped after the start of the node. -/
example : let s := (Client.mk (exParser true false 7400 exOne) none).after Zlib.stored ([.next] : List (Call Unit))
    s.unread (.next : Call Unit) = 5 ∧ s.lag exOne = 0 ∧ s.parser.reader.rest.length = 18 := by decide +kernel

/-- After `skip_current_node` they are lost. -/
example : 5 ≤ ((Client.mk (exParser true false 7400 exOne) none).after Zlib.stored ([.next, .skip] : List (Call Unit))).lag exOne := by
  have h1 := runs_history (Z := Zlib.stored) ⟨exParser true false 7400 exOne, none⟩ ([.next] : List (Call Unit)) (by decide +kernel)
  have c1 := call_after (Z := Zlib.stored) (c := (.skip : Call Unit)) (o := .done)
    (s := (Client.mk (exParser true false 7400 exOne) none).after Zlib.stored ([.next] : List (Call Unit))) (by decide +kernel)
  have := C56_skipped_bytes_are_lost (exParser_opens true false 7400 exOne (by decide)) rfl exOne_sized h1 (calm_of_all (by decide +kernel)) c1 rfl
    (fun x h => by cases h)
  have e : min (((Client.mk (exParser true false 7400 exOne) none).after Zlib.stored ([.next] : List (Call Unit))).unread (.skip : Call Unit))
    ((Client.mk (exParser true false 7400 exOne) none).after Zlib.stored ([.next] : List (Call Unit))).parser.reader.rest.length = 5 := by decide +kernel
  rw [e] at this
  exact Nat.le_trans (Nat.le_add_left _ _) this

/-- A node which declares 8 bytes more than it has: on a plain source, when its attribute is not read, it is ended 5
bytes too late. -/
def exLate : Bytes := leBytes 4 54 ++ leBytes 4 1 ++ leBytes 4 5 ++ [1, 65] ++ [73] ++ leBytes 4 5 ++ zeros 13

example : ((Client.mk (exParser true false 7400 exLate) none).after Zlib.stored ([.next, .next] : List (Call Unit))).offset exLate = 59 ∧
    ∃ n outer, ((Client.mk (exParser true false 7400 exLate) none).after Zlib.stored ([.next] : List (Call Unit))).parser.started = n :: outer ∧
      59 = n.endOff + ((Client.mk (exParser true false 7400 exLate) none).after Zlib.stored ([.next, .next] : List (Call Unit))).lag exLate := by
  have h1 := runs_history (Z := Zlib.stored) ⟨exParser true false 7400 exLate, none⟩ ([.next] : List (Call Unit)) (by decide +kernel)
  have c1 := call_after (Z := Zlib.stored) (c := (.next : Call Unit)) (o := .event .endNode)
    (s := (Client.mk (exParser true false 7400 exLate) none).after Zlib.stored ([.next] : List (Call Unit))) (by decide +kernel)
  have e : ((Client.mk (exParser true false 7400 exLate) none).after Zlib.stored ([.next, .next] : List (Call Unit))).offset exLate = 59 := by decide +kernel
  refine ⟨e, ?_⟩
  have := C56_ends_too_late (exParser_opens true false 7400 exLate (by decide)) rfl (by simp [Sized, headerLen, exLate, leBytes, zeros]) h1 (calm_of_all (by decide +kernel)) c1
  rw [← e]
  exact this

/-! ## C33 Files cut short -/

theorem cut_open {checks seekable : Bool} {v : FbxVersion} {bytes suf : Bytes} {ending ending' : Option IoErr} {cursor limit : Nat} {p q : Parser}
    (hp : Parser.create checks v ⟨bytes ++ suf, ending, cursor, headerLen, seekable, limit⟩ = .ok p)
    (hq : Parser.create checks v ⟨bytes, ending', cursor, headerLen, seekable, limit⟩ = .ok q) (hsz : Sized (bytes ++ suf)) :
    CRel (Cut suf) ⟨p, none⟩ ⟨q, none⟩ ∧ Sized bytes := by
  simp only [Sized, List.length_append] at hsz
  unfold Parser.create at hp hq
  split at hp
  · cases hp
  · rename_i hv
    rw [if_neg hv] at hq
    cases hp
    cases hq
    refine ⟨⟨⟨rfl, ⟨rfl, rfl, rfl, rfl, rfl, ?_⟩⟩, rfl⟩, ?_⟩
    · show headerLen + bytes.length < 2 ^ 64
      omega
    · simp only [Sized]
      omega

/-- A file cut at an arbitrary place, after which the source ends or fails, and arbitrary calls. Either everything the
client sees is what it would see in the whole file, or this holds up to some call; that call then starts no node, and
ends the document only if it does so in the whole file; and after it no node starts and no document ends. -/
theorem C33_agrees_until_exhausted {checks seekable : Bool} {v : FbxVersion} {bytes suf : Bytes} {ending ending' : Option IoErr} {cursor limit : Nat} {p q : Parser}
    (hp : Parser.create checks v ⟨bytes ++ suf, ending, cursor, headerLen, seekable, limit⟩ = .ok p)
    (hq : Parser.create checks v ⟨bytes, ending', cursor, headerLen, seekable, limit⟩ = .ok q) (hsz : Sized (bytes ++ suf))
    {h : History α} {t : Client} (hr : Runs Z ⟨q, none⟩ h t) (hc : h.calm) :
    (∃ u, Runs Z ⟨p, none⟩ h u) ∨
    ∃ a c o b u o' u', h = a ++ (c, o) :: b ∧ Runs Z ⟨p, none⟩ a u ∧ u.call Z c = some (o', u') ∧
      o.isStart = false ∧ (o.isEndFbx = true → o'.isEndFbx = true) ∧ ∀ x ∈ b, x.2.isStart = false ∧ x.2.isEndFbx = false := by
  obtain ⟨h0, hsz'⟩ := cut_open hp hq hsz
  obtain ⟨hi, hL⟩ := open_inv ⟨_, _, _, _, _, _, hp⟩ hsz
  obtain ⟨hi', hL'⟩ := open_inv ⟨_, _, _, _, _, _, hq⟩ hsz'
  rcases cut_runs hL hL' hi hi' h0 hr hc with ⟨u, h1, _⟩ | ⟨a, c, o', b, u, u', o, w, h1, h2, _, _, h5, h6, h7, _, h9⟩
  · exact .inl ⟨u, h1⟩
  · exact .inr ⟨a, c, o', b, u, o, w, h1, h2, h5, h6, h7, h9⟩

theorem terminatorLen_eq (v : FbxVersion) : terminatorLen v = 3 * headWidth v + 1 := by
  unfold terminatorLen headWidth
  split <;> rfl

theorem Outcome.endFbx_of {o : Outcome α} (h : o.isEndFbx = true) : ∃ f, o = .event (.endFbx f) := by
  cases o with
  | event e => cases e with
    | endFbx f => exact ⟨f, rfl⟩
    | startNode n m => cases h
    | endNode => cases h
  | _ => cases h

/-- If the end of the document is reported for the cut file, then it is reported at the same place for the whole file,
and the terminator of the top level nodes is not affected by the cut: of the bytes left in the whole file before that
call, at least the terminator is left besides the ones that were cut off. -/
theorem C33_end_only_after_terminator {checks seekable : Bool} {v : FbxVersion} {bytes suf : Bytes} {ending ending' : Option IoErr} {cursor limit : Nat} {p q : Parser}
    (hp : Parser.create checks v ⟨bytes ++ suf, ending, cursor, headerLen, seekable, limit⟩ = .ok p)
    (hq : Parser.create checks v ⟨bytes, ending', cursor, headerLen, seekable, limit⟩ = .ok q) (hsz : Sized (bytes ++ suf))
    {a : History α} {t t' : Client} {f : Except PErr Footer} (hr : Runs Z ⟨q, none⟩ a t) (hc : a.calm)
    (he : t.call Z (.next : Call α) = some (.event (.endFbx f), t')) :
    ∃ u g u', Runs Z ⟨p, none⟩ a u ∧ u.call Z (.next : Call α) = some (.event (.endFbx g), u') ∧
      suf.length + terminatorLen v ≤ u.parser.reader.rest.length := by
  obtain ⟨h0, hsz'⟩ := cut_open hp hq hsz
  obtain ⟨hi, hL⟩ := open_inv ⟨_, _, _, _, _, _, hp⟩ hsz
  obtain ⟨hi', hL'⟩ := open_inv ⟨_, _, _, _, _, _, hq⟩ hsz'
  have hti := hr.inv hL' hi' hc
  have hd := call_did hL' hti he
  have hlen : t.parser.health = .running ∧ terminatorLen v ≤ t.parser.reader.rest.length := by
    have hv : t.parser.version = v := by
      rw [(hr.frame hL' hi' hc).1]
      unfold Parser.create at hq
      split at hq <;> cases hq
      rfl
    cases hd with
    | event hrun he hi ha =>
      cases he with
      | endFbx h1 h2 =>
        cases h1 with
        | endFbx hst hh hlen hq => rw [terminatorLen_eq, ← hv]; exact ⟨hrun, hlen⟩
  rcases cut_runs hL hL' hi hi' h0 hr hc with ⟨u, h1, h2⟩ | ⟨a, c, o', b, u, u', o, w, h1, h2, _, _, h5, h6, h7, h8, h9⟩
  · have := call_sim (Z := Z) (cut_related suf) hL h2 (h1.inv hL hi hc) (.next : Call α) (cut_skipSim h2 _)
    rw [he] at this
    have hl : suf.length + terminatorLen v ≤ u.parser.reader.rest.length := by
      rw [h2.1.2.rest, List.length_append]
      have := hlen.2
      omega
    cases hv : u.call Z (.next : Call α) with
    | none => rw [hv] at this; exact this.elim
    | some x =>
      obtain ⟨o, w⟩ := x
      rw [hv] at this
      rcases this with ⟨e1, e2⟩ | ⟨e1, e2, e3⟩
      · subst e1
        exact ⟨u, f, w, h1, hv, hl⟩
      · obtain ⟨g, rfl⟩ := Outcome.endFbx_of (e3 rfl)
        exact ⟨u, g, w, h1, hv, hl⟩
  · have h8' : t.parser.reader.rest = [] := h8
    have := hlen.2
    rw [h8', List.length_nil, terminatorLen_eq] at this
    omega

/-- Runs are determined by the calls. -/
theorem Runs.det {s t t' : Client} {a b : History α} (h1 : Runs Z s a t) (h2 : Runs Z s b t') (h : a.map Prod.fst = b.map Prod.fst) :
    a = b ∧ t = t' := by
  induction h1 generalizing b t' with
  | nil =>
    have : b = [] := by simpa using h.symm
    subst this
    exact ⟨rfl, h2.nil_eq.symm⟩
  | @snoc a t u c o hr hn hc ih =>
    cases h2 with
    | nil => simp at h
    | @snoc b t' u' c' o' hr' hn' hc' =>
      simp only [List.map_append, List.map_cons, List.map_nil] at h
      obtain ⟨e1, e2⟩ := List.append_inj' h rfl
      obtain ⟨rfl, rfl⟩ := ih hr' e1
      simp only [List.cons.injEq, and_true] at e2
      subst e2
      rw [hc] at hc'
      cases hc'
      exact ⟨rfl, rfl⟩

/-- A file in which some calls `a` lead to the end of the document is cut before the end of its terminator. Then no
sequence of calls that begins like those of the whole file (and goes on in any way) ever reports the end of the document
for the cut file. -/
theorem C33_never_taken_for_complete {checks seekable : Bool} {v : FbxVersion} {bytes suf : Bytes} {ending ending' : Option IoErr} {cursor limit : Nat} {p q : Parser}
    (hp : Parser.create checks v ⟨bytes ++ suf, ending, cursor, headerLen, seekable, limit⟩ = .ok p)
    (hq : Parser.create checks v ⟨bytes, ending', cursor, headerLen, seekable, limit⟩ = .ok q) (hsz : Sized (bytes ++ suf))
    {a : History α} {u u' : Client} {f : Except PErr Footer} (hr : Runs Z ⟨p, none⟩ a u) (ha : a.calm)
    (he : u.call Z (.next : Call α) = some (.event (.endFbx f), u'))
    (hcut : u.parser.reader.rest.length < suf.length + terminatorLen v)
    {h : History α} {t : Client} {more : List (Call α)} (hh : Runs Z ⟨q, none⟩ h t)
    (hcalls : h.map Prod.fst <+: a.map Prod.fst ++ .next :: more) : ∀ x ∈ h, x.2.isEndFbx = false := by
  intro x hx
  cases hb : x.2.isEndFbx with
  | false => rfl
  | true =>
    exfalso
    obtain ⟨g, hg⟩ := Outcome.endFbx_of hb
    obtain ⟨c, o⟩ := x
    simp only at hg
    subst hg
    obtain ⟨b, d, rfl⟩ := List.append_of_mem hx
    obtain ⟨t1, r1, r2, r3⟩ := Runs.split (a := b) hh
    have hbcalm := r3 (by simp)
    obtain ⟨t2, r4, _, _⟩ := Runs.split (a := [(c, .event (.endFbx g))]) r2
    have hcall := r4.one
    obtain ⟨h0, hsz'⟩ := cut_open hp hq hsz
    obtain ⟨hi, hL⟩ := open_inv ⟨_, _, _, _, _, _, hp⟩ hsz
    obtain ⟨hi', hL'⟩ := open_inv ⟨_, _, _, _, _, _, hq⟩ hsz'
    have hcn : c = .next := by
      have hd := call_did hL' (r1.inv hL' hi' hbcalm) hcall
      cases hd with
      | event => rfl
    subst hcn
    obtain ⟨w, k, w', k1, k2, k3⟩ := C33_end_only_after_terminator hp hq hsz r1 hbcalm hcall
    have run1 : ∀ {z z' : Client} {e : Except PErr Footer} {l : History α}, Runs Z ⟨p, none⟩ l z → l.calm →
        z.call Z (.next : Call α) = some (.event (.endFbx e), z') → ∀ x ∈ l, x.2.isEndFbx = false := by
      intro z z' e l e1 e2 e3
      have hd := call_did hL (e1.inv hL hi e2) e3
      cases hd with
      | event hrun he' hi'' ha' => exact (e1.running hL hi e2 hrun).2.2
    have na := run1 hr ha he
    have nb := run1 k1 hbcalm k2
    simp only [List.map_append, List.map_cons] at hcalls
    obtain ⟨rest, hrest⟩ := hcalls
    simp only [List.append_assoc, List.cons_append] at hrest
    rcases Nat.lt_trichotomy b.length a.length with hlt | heq | hgt
    · have e1 : (b.map Prod.fst ++ .next :: (d.map Prod.fst ++ rest)) = a.map Prod.fst ++ .next :: more := hrest
      have e2 : b.map Prod.fst ++ [.next] <+: a.map Prod.fst := by
        refine List.prefix_of_prefix_length_le (l₃ := a.map Prod.fst ++ .next :: more) ?_ ?_ (by simp; omega)
        · rw [← e1]; exact ⟨d.map Prod.fst ++ rest, by simp⟩
        · exact List.prefix_append _ _
      obtain ⟨z, hz⟩ := e2
      obtain ⟨a1, a2, rfl, ea1, ea2⟩ := List.map_eq_append_iff.mp hz.symm
      obtain ⟨z1, r5, _, _⟩ := Runs.split hr
      have := Runs.snoc k1 hbcalm k2
      obtain ⟨e3, _⟩ := r5.det this (by rw [ea1]; simp)
      have := na (.next, .event (.endFbx k)) (by rw [e3]; simp)
      cases this
    · have e1 : b.map Prod.fst = a.map Prod.fst := by
        have := List.append_inj hrest (by simp [heq])
        exact this.1
      obtain ⟨rfl, rfl⟩ := k1.det hr e1
      omega
    · have e2 : a.map Prod.fst ++ [.next] <+: b.map Prod.fst := by
        refine List.prefix_of_prefix_length_le (l₃ := a.map Prod.fst ++ .next :: more) ?_ ?_ (by simp; omega)
        · exact ⟨more, by simp⟩
        · rw [← hrest]; exact List.prefix_append _ _
      obtain ⟨z, hz⟩ := e2
      obtain ⟨a1, a2, rfl, ea1, ea2⟩ := List.map_eq_append_iff.mp hz.symm
      obtain ⟨z1, r5, _, _⟩ := Runs.split k1
      have := Runs.snoc hr ha he
      obtain ⟨e3, _⟩ := r5.det this (by rw [ea1]; simp)
      have := nb (.next, .event (.endFbx f)) (by rw [e3]; simp)
      cases this

abbrev exCutCalls : List (Call Unit) := [.next, .next]

/-- The document of one node, cut inside the terminator. -/
example := C33_never_taken_for_complete (Z := Zlib.stored) (bytes := exOne.take 25) (suf := exOne.drop 25) (v := 7400)
  (exParser_create true true 7400 (exOne.take 25 ++ exOne.drop 25) (by decide)) (exParser_create true true 7400 (exOne.take 25) (by decide))
  (by rw [List.take_append_drop]; exact exOne_sized)
  (runs_history (Z := Zlib.stored) ⟨exParser true true 7400 (exOne.take 25 ++ exOne.drop 25), none⟩ exCutCalls (by decide +kernel))
  (calm_of_all (by decide +kernel))
  (call_after _ (.next : Call Unit) (.event (.endFbx (.error (PErr.ofIo .unexpectedEof)))) (by decide +kernel)) (by decide +kernel)
  (more := [])
  (runs_history (Z := Zlib.stored) ⟨exParser true true 7400 (exOne.take 25), none⟩ ([.next, .next, .next] : List (Call Unit)) (by decide +kernel))
  (by
    rw [history_of (Z := Zlib.stored) _ _ [.event (.startNode "A" 1), .event .endNode, .err ⟨.io .unexpectedEof, some ⟨52, 0, [], none⟩⟩] (by decide +kernel),
      history_of (Z := Zlib.stored) _ _ [.event (.startNode "A" 1), .event .endNode] (by decide +kernel)]
    exact ⟨[], rfl⟩)

/-- On a seekable source an `EndNode` can be reported for a node that was cut off: here the file ends inside the
attribute of `A`, the client does not read it, and the seek past the end of the file is not noticed. Only the missing
end of the document shows it. -/
theorem C33_end_node_is_no_evidence :
    Opens (exParser true true 7400 (exOne.take 16)) (exOne.take 16) ∧
    ((Client.mk (exParser true true 7400 (exOne.take 16)) none).session Zlib.stored ([.next, .next, .next] : List (Call Unit))).map Prod.fst =
      some [.event (.startNode "A" 1), .event .endNode, .err ⟨.io .unexpectedEof, some ⟨46, 0, [], none⟩⟩] := by
  exact ⟨exParser_opens _ _ _ _ (by decide), by decide +kernel⟩

example := C33_agrees_until_exhausted (Z := Zlib.stored) (bytes := exOne.take 25) (suf := exOne.drop 25) (v := 7400)
  (exParser_create true true 7400 (exOne.take 25 ++ exOne.drop 25) (by decide)) (exParser_create true true 7400 (exOne.take 25) (by decide))
  (by rw [List.take_append_drop]; exact exOne_sized)
  (runs_history (Z := Zlib.stored) ⟨exParser true true 7400 (exOne.take 25), none⟩ ([.next, .next, .next] : List (Call Unit)) (by decide +kernel))
  (calm_of_all (by decide +kernel))

/-- The file cut right after the terminator. -/
example := C33_end_only_after_terminator (Z := Zlib.stored) (bytes := exOne) (suf := [1, 2, 3]) (v := 7400)
  (exParser_create true true 7400 (exOne ++ [1, 2, 3]) (by decide)) (exParser_create true true 7400 exOne (by decide))
  (by simp [Sized, headerLen, exOne, leBytes, zeros])
  (runs_history (Z := Zlib.stored) ⟨exParser true true 7400 exOne, none⟩ exCutCalls (by decide +kernel))
  (calm_of_all (by decide +kernel))
  (call_after _ (.next : Call Unit) (.event (.endFbx (.error (PErr.ofIo .unexpectedEof)))) (by decide +kernel))

end Fbx
