import Verif.Proof.Select
import Verif.Props.Edited

/-! # C80 Clients that leave nodes out, and filters -/

namespace Fbx
open Reader Parser Spec
open Writer (session appendOf)
variable {Z : Zlib}

theorem parts_cut : ∀ (F G : Forest AttrValue) (xs ys : List Part), (∀ n as r, xs ≠ .node n as :: r) → (∀ n as r, ys ≠ .node n as :: r) →
    partsOf F ++ xs = partsOf G ++ ys → F = G ∧ xs = ys
  | .nil, .nil, _, _, _, _, h => ⟨rfl, h⟩
  | .nil, .cons _ _ _ _, xs, _, hx, _, h => absurd h (hx _ _ _)
  | .cons _ _ _ _, .nil, _, ys, _, hy, h => absurd h.symm (hy _ _ _)
  | .cons n as c r, .cons n' as' c' r', xs, ys, hx, hy, h => by
    simp only [partsOf, List.cons_append, List.append_assoc, List.cons.injEq, Part.node.injEq] at h
    obtain ⟨⟨rfl, rfl⟩, h⟩ := h
    obtain ⟨rfl, h1⟩ := parts_cut c c' _ _ (by simp) (by simp) h
    obtain ⟨rfl, h2⟩ := parts_cut r r' xs ys hx hy (List.cons.inj h1).2
    exact ⟨rfl, h2⟩

/-- The parts determine the document. -/
theorem partsOf_inj {F G : Forest AttrValue} (h : partsOf F = partsOf G) : F = G :=
  (parts_cut F G [] [] (by simp) (by simp) (by rw [h])).1

theorem open_placed {checks : Bool} {v : FbxVersion} {body : Bytes} {ending : Option IoErr} {cursor limit : Nat} {p : Parser}
    (h4 : p = ⟨v, .running, [], none, 0, ⟨body, ending, cursor + 27, headerLen, true, limit⟩, none, [], checks⟩) (hsz : Sized body)
    (hsk : canSeek v body (cursor + 27) limit) (H : Option Handler) (hH : indulgent H) :
    Placed Z p (cursor + 27) limit ⟨{ p with handler := H }, none⟩ := by
  obtain ⟨h, k1, k2, k3⟩ := handler_runs (α := AttrValue) (Z := Z) p (by rw [h4]) H hH
  have := canSeek_room hsz hsk
  refine ⟨⟨h, k1, k2⟩, by rw [h4], k3, ?_⟩
  rw [h4]
  simp only [headerLen]
  omega

/-- **C80** (any file). Whatever the bytes after the header of a file, in a source that can seek, and whatever the policy: a client that
calls `next_event` at most `n` times, loads the attributes of some nodes with `DirectLoader` and leaves some nodes with
`skip_current_node` keeps what the table selects, ends as the table says (with the footer, an error with its position, or a panic) and
raises the warnings of the table. -/
theorem C80_client (Z : Zlib) (checks : Bool) {bytes body : Bytes} (ending : Option IoErr) {cursor limit : Nat} {a b c d : UInt8} {v : FbxVersion}
    (hlen : bytes.length + 2 ^ 32 ≤ 2 ^ 64) (hb : bytes = signature ++ [a, b, c, d] ++ body) (hv : v.toNat = le32 a b c d) (hs : supported v.toNat)
    (hsk : canSeek v body (cursor + 27) limit) (H : Option Handler) (hH : indulgent H) (buffered : Bool) (policy : Policy) (n : Nat) :
    ∃ x, selectFile Z checks H ending cursor limit buffered policy n bytes = some x ∧
      Selects v (selecting Z ending checks policy n [] (bodyStart v ending body)) [] x := by
  obtain ⟨p, h1, h2, h3, h4⟩ := open_file (checks := checks) (seekable := true) (ending := ending) (cursor := cursor) (limit := limit) hlen hb hv hs
  refine ⟨_, by simp only [selectFile, h1]; rfl, ?_⟩
  have := select_selects h2 h3 hsk buffered policy n [] _ (open_placed (Z := Z) h4 h3 hsk H hH)
  subst h4
  exact this

/-- **C80** (documents). If the whole file can be read, as far as the footer, and says `F`, then a client that leaves nodes out keeps
exactly the document `F` without these nodes, and is told of the same footer. Nothing fails, in particular not `skip_current_node`. -/
theorem C80_pruned (Z : Zlib) (checks : Bool) {bytes body : Bytes} (ending : Option IoErr) {cursor limit : Nat} {a b c d : UInt8} {v : FbxVersion}
    (hlen : bytes.length + 2 ^ 32 ≤ 2 ^ 64) (hb : bytes = signature ++ [a, b, c, d] ++ body) (hv : v.toNat = le32 a b c d) (hs : supported v.toNat)
    (hsk : canSeek v body (cursor + 27) limit) {at_ : Ahead} (hc : (readBody Z ending checks v body).close = .footer at_) :
    ∃ F, (readBody Z ending checks v body).parts = partsOf F ∧
      ∀ (H : Option Handler), indulgent H → ∀ (buffered : Bool) (policy : Policy) (n : Nat), 2 * body.length < n →
        ∃ footer q, selectFile Z checks H ending cursor limit buffered policy n bytes = some (.ok (partsOf (prune policy [] F), some footer), q) ∧
          ∀ f, footer = .ok f ↔ startsWithFooter v.toNat at_.bytes f := by
  have ht := C58_tree Z checks ending hlen hb hv hs hsk
  rw [hc] at ht
  obtain ⟨F, -, -, hF, -⟩ := ht
  refine ⟨F, hF, fun H hH buffered policy n hn => ?_⟩
  obtain ⟨k1, e, w, k2, k3⟩ := reading_walks hc
  change (readBody Z ending checks v body).parts.length < _ at k1
  change Walks Z ending checks _ (readBody Z ending checks v body).parts e at k2
  rw [hF] at k1 k2
  obtain ⟨m, ws, l1, l2⟩ := selecting_prune policy F k2 [] n (by omega)
  obtain ⟨m, rfl⟩ : ∃ i, m = i + 1 := ⟨m - 1, by omega⟩
  obtain ⟨x, g1, g2⟩ := C80_client Z checks ending (cursor := cursor) (limit := limit) hlen hb hv hs hsk H hH buffered policy n
  rw [l2] at g2
  simp only [selecting, k3] at g2
  obtain ⟨footer, g3, g4⟩ := g2
  refine ⟨footer, x.2, ?_, g4.1⟩
  rw [g1]
  obtain ⟨x1, x2⟩ := x
  simp only at g3
  rw [g3]
  rfl

/-- **C80** (filters). A program that pulls events, leaves nodes out and repeats the others on a writer as they come (`new_node`, an append
for each value, `close_node`, and `finalize` at the end) does to the sink exactly what one session with the writer does that writes the
document without these nodes, with the same error if writing fails. -/
theorem C80_filtered (Z Z' : Zlib) (checks : Bool) {bytes body : Bytes} (ending : Option IoErr) {cursor limit : Nat} {a b c d : UInt8} {v : FbxVersion}
    (hlen : bytes.length + 2 ^ 32 ≤ 2 ^ 64) (hb : bytes = signature ++ [a, b, c, d] ++ body) (hv : v.toNat = le32 a b c d) (hs : supported v.toNat)
    (hsk : canSeek v body (cursor + 27) limit) {at_ : Ahead} (hc : (readBody Z ending checks v body).close = .footer at_) :
    ∃ F, (readBody Z ending checks v body).parts = partsOf F ∧
      ∀ (H : Option Handler), indulgent H → ∀ (buffered : Bool) (policy : Policy) (foot : Except PErr Footer → Writer.FooterSpec) (n : Nat), 2 * body.length < n →
        ∀ (s : Sink) (v' : FbxVersion), ∃ footer, (∀ f, footer = .ok f ↔ startsWithFooter v.toNat at_.bytes f) ∧
          filterFile Z Z' checks H ending cursor limit buffered policy foot n bytes s v' =
            some (asFilter (session Z' s v' (calls ((prune policy [] F).map appendOf)) (foot footer)).1,
              (session Z' s v' (calls ((prune policy [] F).map appendOf)) (foot footer)).2) := by
  obtain ⟨F, hF, hsel⟩ := C80_pruned Z checks ending (cursor := cursor) (limit := limit) hlen hb hv hs hsk hc
  refine ⟨F, hF, fun H hH buffered policy foot n hn s v' => ?_⟩
  obtain ⟨footer, q, h1, h2⟩ := hsel H hH buffered policy n hn
  refine ⟨footer, h2, ?_⟩
  obtain ⟨p, k1, -⟩ := open_file (checks := checks) (seekable := true) (ending := ending) (cursor := cursor) (limit := limit) hlen hb hv hs
  simp only [selectFile, k1, Option.some.injEq] at h1
  simp only [filterFile, k1, Writer.session]
  rcases hw : Writer.new s v' with ⟨w | e | x, s'⟩
  · obtain ⟨g1, g2⟩ := filter_select Z' buffered policy foot footer n [] _ _ q w h1
    rw [calls_parts] at g1 g2
    simp only [Option.some.injEq, Prod.mk.injEq]
    exact ⟨g1, congrArg Writer.sink g2⟩
  · rfl
  · rfl

/-- **C80** (the filtered file). If the program succeeds then the file it has written loads, and shows the document without the nodes left
out, with ids in the order of the document. -/
theorem C80_reloaded (Z Z' : Zlib) (hZ : Z'.Lawful) (checks : Bool) {bytes body : Bytes} (ending : Option IoErr) {cursor limit : Nat} {a b c d : UInt8} {v : FbxVersion}
    (hlen : bytes.length + 2 ^ 32 ≤ 2 ^ 64) (hb : bytes = signature ++ [a, b, c, d] ++ body) (hv : v.toNat = le32 a b c d) (hs : supported v.toNat)
    (hsk : canSeek v body (cursor + 27) limit) {at_ : Ahead} (hc : (readBody Z ending checks v body).close = .footer at_)
    (H : Option Handler) (hH : indulgent H) (buffered : Bool) (policy : Policy) (foot : Except PErr Footer → Writer.FooterSpec) (n : Nat) (hn : 2 * body.length < n)
    (s s' : Sink) (v' : FbxVersion) (hw : filterFile Z Z' checks H ending cursor limit buffered policy foot n bytes s v' = some (.ok true, s'))
    (hlen' : s'.buf.length + 2 ^ 32 ≤ 2 ^ 64) (ending' : Option IoErr) (cursor' limit' : Nat) (hlim : cursor' + s'.buf.length ≤ limit') :
    ∃ F u footer, (readBody Z ending checks v body).parts = partsOf F ∧ anyTree Z' checks true s'.buf ending' cursor' limit' = .ok (v', u, footer) ∧
      u.size = (prune policy [] F).count + 1 ∧ ∀ i, i < u.size → seen u i = (Rows.ofForest (prune policy [] F)).view i := by
  obtain ⟨F, hF, hfil⟩ := C80_filtered Z Z' checks ending (cursor := cursor) (limit := limit) hlen hb hv hs hsk hc
  obtain ⟨footer, -, h1⟩ := hfil H hH buffered policy foot n hn s v'
  rw [hw] at h1
  simp only [Option.some.injEq, Prod.mk.injEq] at h1
  obtain ⟨h1, h2⟩ := h1
  have hok : session Z' s v' (calls ((prune policy [] F).map appendOf)) (foot footer) = (.ok (), s') := by
    rcases hx : session Z' s v' (calls ((prune policy [] F).map appendOf)) (foot footer) with ⟨x | e | y, s1⟩ <;> rw [hx] at h1 h2
    · simp only at h2; rw [h2]
    · cases h1
    · cases h1
  obtain ⟨u, footer', g1, g2⟩ := session_outline hZ hok hlen' checks ending' cursor' limit' hlim
  refine ⟨F, u, footer', hF, g1, ?_, fun i hi => g2.view hi⟩
  rw [g2.size]
  simp only [Rows.ofForest, List.length_cons, Forest.flat_length]

/-- **C80** (copies). A policy that enters every node leaves nothing out. -/
theorem C80_everything (policy : Policy) (h : ∀ kept name attrs, policy.enters kept name attrs = true) : ∀ (kept : List Part) (F : Forest AttrValue),
    prune policy kept F = F
  | _, .nil => rfl
  | kept, .cons name attrs children rest => by
    simp only [prune, h, if_true, C80_everything policy h]

/-- **C80** (by name). A policy that leaves out the nodes with certain names, wherever they are, gives the document from which each such
node is taken away with all that is in it: none is left, and the others are as they were, in the same order. -/
theorem C80_by_name (unwanted : String → Bool) : ∀ (kept : List Part) (F : Forest AttrValue),
    prune (fun _ name _ => if unwanted name then .leave else .load (fun _ => true)) kept F = without unwanted F
  | _, .nil => rfl
  | kept, .cons name attrs children rest => by
    by_cases hu : unwanted name = true
    · simp only [prune, Policy.enters, hu, if_true, without, C80_by_name unwanted]
      rfl
    · simp only [prune, Policy.enters, hu, without, C80_by_name unwanted]
      rfl

/-! ## Examples -/

/-- A client that leaves out nodes without a name at once, and nodes with an attribute 7 after loading it. -/
def exPolicy : Policy := fun _ name _ => if name = "" then .leave else .load (fun vs => ! vs.contains (.i16 7))

/-- The malformed body of C58 without the node that has no name: the warnings about it are the same, except for that of its end. -/
example : (selecting Zlib.stored none true exPolicy 9 [] (bodyStart 7400 none exOdd)).parts = [.node "A" [.bool false], .end] ∧
    (selecting Zlib.stored none true exPolicy 9 [] (bodyStart 7400 none exOdd)).warnings =
      [(.emptyNodeName, ⟨58, 45, [(0, "A"), (0, "")], none⟩), (.incorrectBool, ⟨43, 41, [(0, "A")], some 0⟩)] := by decide +kernel

theorem exOdd_footer : ∃ at_, (readBody Zlib.stored none true 7400 exOdd).close = .footer at_ := by
  have h : (match (readBody Zlib.stored none true 7400 exOdd).close with | .footer _ => true | _ => false) = true := by decide +kernel
  split at h
  · rename_i at_ he; exact ⟨at_, he⟩
  · cases h

example := C80_client Zlib.stored true (body := exOdd) none (cursor := 0) (limit := 2 ^ 64) (a := 0xe8) (b := 0x1c) (c := 0) (d := 0) (v := 7400)
  (by decide +kernel) rfl (by decide) (by simp [supported]) (.inl (by decide)) none (by intro f hf; cases hf) false exPolicy 9
example := C80_pruned Zlib.stored true (body := exOdd) none (cursor := 0) (limit := 2 ^ 64) (a := 0xe8) (b := 0x1c) (c := 0) (d := 0) (v := 7400)
  (by decide +kernel) rfl (by decide) (by simp [supported]) (.inl (by decide)) exOdd_footer.choose_spec
example := C80_filtered Zlib.stored Zlib.stored true (body := exOdd) none (cursor := 0) (limit := 2 ^ 64) (a := 0xe8) (b := 0x1c) (c := 0) (d := 0) (v := 7400)
  (by decide +kernel) rfl (by decide) (by simp [supported]) (.inl (by decide)) exOdd_footer.choose_spec

/-- The program succeeds on a concrete file and a concrete sink. -/
theorem exFiltered : ∃ s, filterFile Zlib.stored Zlib.stored true none none 0 (2 ^ 64) false exPolicy (fun _ => exFooter) 150
    (signature ++ [0xe8, 0x1c, 0, 0] ++ exOdd) exSink 7400 = some (.ok true, s) ∧ s.buf.length ≤ 1000 := by
  obtain ⟨F, h1, h2⟩ := C80_filtered Zlib.stored Zlib.stored true (bytes := signature ++ [0xe8, 0x1c, 0, 0] ++ exOdd) (body := exOdd) none (cursor := 0) (limit := 2 ^ 64)
    (a := 0xe8) (b := 0x1c) (c := 0) (d := 0) (v := 7400) (by decide +kernel) rfl (by decide) (by simp [supported]) (.inl (by decide)) exOdd_footer.choose_spec
  have hF : F = .cons "A" [.bool false] (.cons "" [] .nil .nil) .nil := partsOf_inj (h1.symm.trans (by decide +kernel))
  subst hF
  obtain ⟨footer, -, h3⟩ := h2 none (by intro f hf; cases hf) false exPolicy (fun _ => exFooter) 150 (by decide +kernel) exSink 7400
  rw [h3]
  have hp : prune exPolicy [] (.cons "A" [.bool false] (.cons "" [] .nil .nil) .nil) = .cons "A" [.bool false] .nil .nil := by
    simp [prune, exPolicy, Policy.enters]
  rw [hp]
  have hs : (match session Zlib.stored exSink 7400 (calls ((Forest.cons "A" [.bool false] .nil .nil).map appendOf)) exFooter with
      | (.ok (), s) => decide (s.buf.length ≤ 1000) | _ => false) = true := by decide +kernel
  split at hs
  · rename_i s he
    rw [he]
    exact ⟨s, rfl, of_decide_eq_true hs⟩
  · cases hs

example : ∃ s' : Sink, s'.buf.length ≤ 1000 ∧ ∃ F u footer, (readBody Zlib.stored none true 7400 exOdd).parts = partsOf F ∧
    anyTree Zlib.stored true true s'.buf none 0 (2 ^ 64) = .ok (7400, u, footer) ∧ u.size = (prune exPolicy [] F).count + 1 ∧
    ∀ i, i < u.size → seen u i = (Rows.ofForest (prune exPolicy [] F)).view i := by
  obtain ⟨s', h1, h2⟩ := exFiltered
  have h3 : s'.buf.length + 2 ^ 32 ≤ 2 ^ 64 := by omega
  have h4 : 0 + s'.buf.length ≤ 2 ^ 64 := by omega
  exact ⟨s', h2, C80_reloaded Zlib.stored Zlib.stored Zlib.stored_lawful true (body := exOdd) none (cursor := 0) (limit := 2 ^ 64) (a := 0xe8) (b := 0x1c) (c := 0)
    (d := 0) (v := 7400) (by decide +kernel) rfl (by decide) (by simp [supported]) (.inl (by decide)) exOdd_footer.choose_spec none (by intro f hf; cases hf) false
    exPolicy (fun _ => exFooter) 150 (by decide +kernel) exSink s' 7400 h1 h3 none 0 (2 ^ 64) h4⟩

example := C80_everything (fun _ _ _ => .load (fun _ => true)) (fun _ _ _ => rfl) [] exBranches
example : prune exPolicy [] (.cons "A" [] (.cons "" [] (.cons "B" [] .nil .nil) (.cons "C" [.i16 7] .nil .nil)) (.cons "D" [.i16 8] .nil .nil)) =
    .cons "A" [] .nil (.cons "D" [.i16 8] .nil .nil) := by simp [prune, exPolicy, Policy.enters]

/-- A body whose first node `A` has an attribute of an unknown type: reading it fails, but not for a client that leaves `A`. -/
def exBadType : Bytes := [42, 0, 0, 0, 1, 0, 0, 0, 1, 0, 0, 0, 1, 65, 90] ++ [69, 0, 0, 0, 0, 0, 0, 0, 0, 0, 0, 0, 1, 66] ++ List.replicate 26 0

example : (readBody Zlib.stored none true 7400 exBadType).parts = [] ∧
    (selecting Zlib.stored none true (fun _ name _ => if name = "A" then .leave else .load (fun _ => true)) 9 [] (bodyStart 7400 none exBadType)).parts =
      [.node "B" [], .end] := by decide +kernel

end Fbx
