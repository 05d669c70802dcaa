import Verif.Proof.Reference

/-! # C58 A file is decided by its bytes -/

namespace Fbx
open Reader Parser Spec Tree
variable {Z : Zlib}

/-- The parser of a file and its handler. -/
theorem open_file {checks seekable : Bool} {bytes body : Bytes} {ending : Option IoErr} {cursor limit : Nat} {a b c d : UInt8} {v : FbxVersion}
    (hlen : bytes.length + 2 ^ 32 ≤ 2 ^ 64) (hb : bytes = signature ++ [a, b, c, d] ++ body) (hv : v.toNat = le32 a b c d) (hs : supported v.toNat) :
    ∃ p, anyParser checks seekable bytes ending cursor limit = .ok p ∧ Parser.create checks v ⟨body, ending, cursor + 27, headerLen, seekable, limit⟩ = .ok p ∧
      Sized body ∧ p = ⟨v, .running, [], none, 0, ⟨body, ending, cursor + 27, headerLen, seekable, limit⟩, none, [], checks⟩ := by
  obtain ⟨p, hp⟩ := (C02_parser_versions checks v ⟨body, ending, cursor + 27, headerLen, seekable, limit⟩).mpr hs
  refine ⟨p, (anyParser_ok_iff (by omega)).mpr ⟨a, b, c, d, body, v, hb, hv, hp⟩, hp, ?_, ?_⟩
  · have : bytes.length = 27 + body.length := by
      rw [hb, List.length_append, List.length_append, show signature.length = 23 by decide]; simp
    simp only [Sized, headerLen]
    omega
  · unfold Parser.create at hp
    split at hp <;> cases hp
    rfl

/-- The handler is set by a call. -/
theorem handler_runs {α : Type} (p : Parser) (hp : p.handler = none) (H : Option Handler) (hH : indulgent H) :
    ∃ h : History α, Runs Z ⟨p, none⟩ h ⟨{ p with handler := H }, none⟩ ∧ h.calm ∧ tolerant { p with handler := H } := by
  cases H with
  | none => exact ⟨[], by rw [show ({ p with handler := none } : Parser) = p by rw [← hp]]; exact .nil, by intro c x h; simp at h, by intro f hf; cases hf⟩
  | some f =>
    refine ⟨[] ++ [(.setHandler f, .done)], .snoc .nil (by intro c x h; simp at h) rfl, by intro c x h; simp at h, ?_⟩
    intro g hg
    exact hH g hg

/-- **C58** (the pull parser). Whatever the bytes after the header of a file, in a source that can seek: a client that calls
`next_event` at most `n` times and loads every attribute with `DirectLoader` sees what the reference reader finds in these bytes:
the events, the values, the error with its position, and all warnings with their positions. -/
theorem C58_client (Z : Zlib) (checks : Bool) {bytes body : Bytes} (ending : Option IoErr) {cursor limit : Nat} {a b c d : UInt8} {v : FbxVersion}
    (hlen : bytes.length + 2 ^ 32 ≤ 2 ^ 64) (hb : bytes = signature ++ [a, b, c, d] ++ body) (hv : v.toNat = le32 a b c d) (hs : supported v.toNat)
    (hsk : canSeek v body (cursor + 27) limit) (H : Option Handler) (hH : indulgent H) (buffered : Bool) (n : Nat) :
    ∃ x, parseFile Z checks H ending cursor limit buffered everything n bytes = some x ∧
      Sees v (reading Z ending checks n (bodyStart v ending body)) [] [] x := by
  obtain ⟨p, h1, h2, h3, h4⟩ := open_file (checks := checks) (seekable := true) (ending := ending) (cursor := cursor) (limit := limit) hlen hb hv hs
  obtain ⟨h, k1, k2, k3⟩ := handler_runs (Z := Z) p (by rw [h4]) H hH
  refine ⟨_, by simp only [parseFile, h1]; rfl, ?_⟩
  have := drive_reading h2 h3 hsk buffered n 0 [] h _ k1 k2 (by rw [h4]) k3 (by
    rw [h4]
    simp only [headerLen]
    rcases hsk with hs | ⟨-, hs⟩
    · simp only [headerLen] at hs; omega
    · omega)
  subst h4
  exact this

theorem obs_inj : ∀ {p q : List Part}, p.map Part.obs = q.map Part.obs → p = q
  | [], [], _ => rfl
  | [], _ :: _, h => by cases h
  | _ :: _, [], h => by cases h
  | p :: ps, q :: qs, h => by
    simp only [List.map_cons, List.cons.injEq] at h
    obtain ⟨h1, h2⟩ := h
    rw [obs_inj h2]
    cases p with
    | «end» => cases q with
      | «end» => rfl
      | node => cases h1
    | node name vs => cases q with
      | «end» => cases h1
      | node name' vs' =>
        simp only [Part.obs, Obs.start.injEq] at h1
        obtain ⟨rfl, -, h1⟩ := h1
        have : vs = vs' := by
          have := congrArg (List.filterMap id) h1
          simpa using this
        rw [this]

theorem events_parts : ∀ F : Forest AttrValue, events F.plain = (partsOf F).map Part.obs
  | .nil => rfl
  | .cons name attrs children rest => by
    have h1 := events_parts children
    have h2 := events_parts rest
    simp only [Forest.plain] at h1 h2
    simp only [Forest.plain, Forest.map, events, partsOf, List.map_cons, List.map_append, Part.obs, h1, h2, List.length_map, List.map_map]
    rfl

/-- What the tree loader makes of a reading. -/
theorem tree_of_reading {checks seekable : Bool} {bytes body : Bytes} {ending : Option IoErr} {cursor limit : Nat} {v : FbxVersion} {p : Parser} {r : Reading}
    {x : Res PErr (List (Obs AttrValue)) × Parser}
    (h1 : anyParser checks seekable bytes ending cursor limit = .ok p)
    (h2 : Parser.create checks v ⟨body, ending, cursor + 27, headerLen, seekable, limit⟩ = .ok p) (h3 : Sized body)
    (h4 : p = ⟨v, .running, [], none, 0, ⟨body, ending, cursor + 27, headerLen, seekable, limit⟩, none, [], checks⟩)
    (k1 : drive Z false everything (2 * body.length + 1) 0 [] { p with handler := some (fun _ _ _ => none) } = x) (k2 : Sees v r [] [] x) :
    match r.close with
    | .footer at_ => ∃ F t footer, r.parts = partsOf F ∧
        anyTree Z checks seekable bytes ending cursor limit = .ok (v, t, footer) ∧ WF t ∧ Rep t t.root (.node "" [] F.roses) ∧
        ∀ f, footer = .ok f ↔ startsWithFooter v.toNat at_.bytes f
    | .error e => anyTree Z checks seekable bytes ending cursor limit = .err (.load (.parser e))
    | .overflow => anyTree Z checks seekable bytes ending cursor limit = .panic .attrEndOverflow ∧ checks = true ∧ 7500 ≤ v.toNat
    | .more _ => False := by
  obtain ⟨hi, hL, g1, g2, g3, g4, g5⟩ := anyTree_open (fun _ _ _ => none) h3 h2
  have hl := Load.load_spec (Z := Z) hL hi g1 g2 (2 * body.length + 1) (by
    have : (p.setHandler (fun _ _ _ => none)).reader.rest = body := by rw [h4]; rfl
    rw [this]; omega)
  rw [show p.setHandler (fun _ _ _ => none) = { p with handler := some (fun _ _ _ => none) } from rfl, k1] at hl
  have ht : anyTree Z checks seekable bytes ending cursor limit = match (Load.load Z { p with handler := some (fun _ _ _ => none) }).1 with
      | .ok (t, f) => .ok (p.version, t, f)
      | .err e => .err (.load e)
      | .panic x => .panic x := by
    simp only [anyTree, h1]
    rfl
  obtain ⟨x, q⟩ := x
  unfold Sees at k2
  cases hc : r.close with
  | footer at_ =>
    rw [hc] at k2
    obtain ⟨footer, m1, m2⟩ := k2
    simp only at m1
    subst m1
    obtain ⟨F, f, t, l1, l2, l3, l4⟩ := hl
    rw [List.nil_append] at l1
    obtain ⟨l5, l6⟩ := List.append_inj' l1 rfl
    cases l6
    refine ⟨F, t, footer, ?_, ?_, l3, l4, m2.1⟩
    · rw [events_parts] at l5
      exact obs_inj l5
    · rw [ht, l2, g3]
  | error e =>
    rw [hc] at k2
    obtain ⟨m1, m2⟩ := k2
    simp only at m1
    subst m1
    simp only
    rw [ht, hl]
  | overflow =>
    rw [hc] at k2
    cases k2
    obtain ⟨l1, l2, l3, l4⟩ := hl
    refine ⟨by rw [ht, l1], g5 ▸ l3, ?_⟩
    have l4 : ¬ p.version < 7500 := l4
    rw [g3, UInt32.not_lt, UInt32.le_iff_toNat_le] at l4
    exact l4
  | more at_ =>
    rw [hc] at k2
    obtain ⟨m1, m2, m3⟩ := k2
    simp only at m1
    subst m1
    obtain ⟨F, f, t, l1, -⟩ := hl
    rw [List.nil_append] at l1
    have : Obs.fbx f ∈ r.parts.map Part.obs := by rw [l1]; simp
    obtain ⟨y, -, hy⟩ := List.mem_map.mp this
    cases y <;> cases hy

/-- **C58** (trees). Whatever the bytes after the header of a file, in a source that can seek: `AnyTree` returns the tree of the
document which the reference reader finds, or the error; and the document is complete: its parts are those of a forest. -/
theorem C58_tree (Z : Zlib) (checks : Bool) {bytes body : Bytes} (ending : Option IoErr) {cursor limit : Nat} {a b c d : UInt8} {v : FbxVersion}
    (hlen : bytes.length + 2 ^ 32 ≤ 2 ^ 64) (hb : bytes = signature ++ [a, b, c, d] ++ body) (hv : v.toNat = le32 a b c d) (hs : supported v.toNat)
    (hsk : canSeek v body (cursor + 27) limit) :
    match (readBody Z ending checks v body).close with
    | .footer at_ => ∃ F t footer, (readBody Z ending checks v body).parts = partsOf F ∧
        anyTree Z checks true bytes ending cursor limit = .ok (v, t, footer) ∧ WF t ∧ Rep t t.root (.node "" [] F.roses) ∧
        ∀ f, footer = .ok f ↔ startsWithFooter v.toNat at_.bytes f
    | .error e => anyTree Z checks true bytes ending cursor limit = .err (.load (.parser e))
    | .overflow => anyTree Z checks true bytes ending cursor limit = .panic .attrEndOverflow ∧ checks = true ∧ 7500 ≤ v.toNat
    | .more _ => False := by
  obtain ⟨p, h1, h2, h3, h4⟩ := open_file (checks := checks) (seekable := true) (ending := ending) (cursor := cursor) (limit := limit) hlen hb hv hs
  obtain ⟨x, k1, k2⟩ := C58_client Z checks ending hlen hb hv hs hsk (some (fun _ _ _ => none)) (by intro f hf; cases hf; intros; rfl) false (2 * body.length + 1)
  simp only [parseFile, h1, Option.some.injEq] at k1
  exact tree_of_reading h1 h2 h3 h4 k1 k2

/-- The values of a forest. -/
def valuesOf (F : Forest DAttr) : Forest AttrValue := F.map DAttr.value

theorem events_values : ∀ F : Forest DAttr, events F = (partsOf (valuesOf F)).map Part.obs
  | .nil => rfl
  | .cons name attrs children rest => by
    have h1 := events_values children
    have h2 := events_values rest
    simp only [valuesOf] at h1 h2
    simp only [valuesOf, Forest.map, events, partsOf, List.map_cons, List.map_append, Part.obs, h1, h2, List.length_map, List.map_map]
    rfl

theorem le4 (n : Nat) (h : n < 2 ^ 32) : ∃ a b c d, le 4 n = [a, b, c, d] ∧ n = le32 a b c d := by
  refine ⟨_, _, _, _, rfl, ?_⟩
  simp only [le32, UInt8.toNat_ofNat']
  omega

/-- **C58** (written files). What the reference reader finds in a file that was written is what was written: it agrees with the
layout of documents by which the writer is specified (C09). -/
theorem C58_written (Z : Zlib) (hZ : Z.Lawful) (s s' : Sink) (v : FbxVersion) (F : Forest Writer.Append) (f : Writer.FooterSpec)
    (h : Writer.session Z s v (calls F) f = (.ok (), s')) (hi : F.All (fun _ as => ∀ a ∈ as, intact a))
    (hlen : s'.buf.length + 2 ^ 32 ≤ 2 ^ 64) (checks : Bool) (ending : Option IoErr) :
    ∃ at_, (reading Z ending checks (2 * F.count + 1) (bodyStart v ending (s'.buf.drop 27))).close = .footer at_ ∧
      (reading Z ending checks (2 * F.count + 1) (bodyStart v ending (s'.buf.drop 27))).parts = partsOf (valuesOf (F.map denote)) := by
  obtain ⟨hs, t, ht, hp⟩ := parse_forest hZ h hi
  obtain ⟨a, b, c, d, e1, e2⟩ := le4 v.toNat v.toNat_lt
  have hbuf : ∃ tail, s'.buf = signature ++ [a, b, c, d] ++ tail := by
    rw [ht, document, body, ← e1]
    simp only [List.append_assoc]
    exact ⟨_, rfl⟩
  obtain ⟨tail, htail⟩ := hbuf
  have htl : s'.buf.drop 27 = tail := by
    rw [htail]
    exact List.drop_left' (by rw [List.length_append, show signature.length = 23 by decide]; rfl)
  rw [htl]
  obtain ⟨x, k1, k2⟩ := C58_client Z checks ending (cursor := 0) (limit := 2 ^ 64) (v := v) hlen htail e2 hs (.inl (by simp [headerLen])) none (by intro f hf; cases hf) false (2 * F.count + 1)
  have hd := ht
  simp only [document, List.append_assoc] at hd
  obtain ⟨P, -, -, -, -, -, -, hP⟩ := hp _ false checks everything none ending 0 (2 ^ 64) _ (Parser.everything_ok _ _ _) (by rw [← hd]; omega) (by rw [← hd]; omega) (.inr (by intro f hf; cases hf))
  rw [← hd, k1, Parser.everything_expected, events_values] at hP
  cases hP
  generalize reading Z ending checks (2 * F.count + 1) (bodyStart v ending tail) = r at k2 ⊢
  unfold Sees at k2
  cases hc : r.close with
  | footer at_ =>
    rw [hc] at k2
    obtain ⟨ft, m1, -⟩ := k2
    simp only [List.nil_append, Res.ok.injEq] at m1
    exact ⟨at_, rfl, (obs_inj (List.append_inj' m1 rfl).1).symm⟩
  | error e => rw [hc] at k2; cases k2.1
  | overflow => rw [hc] at k2; cases k2
  | more at_ =>
    rw [hc] at k2
    have m1 := k2.1
    simp only [List.nil_append, Res.ok.injEq] at m1
    have : Obs.fbx (footerResult (readFooter P).1) ∈ r.parts.map Part.obs := by rw [← m1]; simp
    obtain ⟨y, -, hy⟩ := List.mem_map.mp this
    cases y <;> cases hy

/-! ## Examples -/

/-- A malformed body: the node `A` claims more attribute bytes than its attributes take (a boolean 2), its child `` has no name and
no end marker, `A` has a marker, and the end of the document follows. -/
def exOdd : Bytes :=
  [71, 0, 0, 0, 1, 0, 0, 0, 4, 0, 0, 0, 1, 65] ++ [67, 2, 9, 9] ++
    ([58, 0, 0, 0, 0, 0, 0, 0, 0, 0, 0, 0, 0] ++ List.replicate 13 0) ++ List.replicate 13 0

/-- What the reference reader finds in it, and in a beginning of it. -/
example : (readBody Zlib.stored none true 7400 exOdd).parts = [.node "A" [.bool false], .node "" [], .end, .end] ∧
    (readBody Zlib.stored none true 7400 exOdd).warnings =
      [(.missingNodeEndMarker, ⟨58, 45, [(0, "A"), (0, "")], none⟩), (.emptyNodeName, ⟨58, 45, [(0, "A"), (0, "")], none⟩),
        (.incorrectBool, ⟨43, 41, [(0, "A")], some 0⟩)] := by decide +kernel
example : (readBody Zlib.stored none true 7400 (exOdd.take 20)).close = .error ⟨.io .unexpectedEof, some ⟨47, 27, [(0, "A")], none⟩⟩ := by decide +kernel

example := C58_client Zlib.stored true (body := exOdd) none (cursor := 0) (limit := 2 ^ 64) (a := 0xe8) (b := 0x1c) (c := 0) (d := 0) (v := 7400)
  (by decide +kernel) rfl (by decide) (by simp [supported]) (.inl (by decide)) none (by intro f hf; cases hf) false 5
example := C58_tree Zlib.stored true (body := exOdd) none (cursor := 0) (limit := 2 ^ 63) (a := 0xe8) (b := 0x1c) (c := 0) (d := 0) (v := 7400)
  (by decide +kernel) rfl (by decide) (by simp [supported]) (.inr ⟨by decide, by decide +kernel⟩)

example : ∃ at_, (reading Zlib.stored none true 7 (bodyStart 7400 none ((Writer.session Zlib.stored exSink 7400 (calls exForest) exFooter).2.buf.drop 27))).close = .footer at_ ∧
    (reading Zlib.stored none true 7 (bodyStart 7400 none ((Writer.session Zlib.stored exSink 7400 (calls exForest) exFooter).2.buf.drop 27))).parts =
      [.node "A" [.i32 5, .string "xy", .arrI32 [1, 2]], .node "B" [], .end, .end, .node "C" [.bool true], .end] :=
  C58_written Zlib.stored Zlib.stored_lawful exSink _ 7400 exForest exFooter (pair_eq (by decide +kernel)) (by simp [exForest, Forest.All, intact]) (by decide +kernel) true none

end Fbx
