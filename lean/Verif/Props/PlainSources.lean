import Verif.Spec.Drain
import Verif.Props.TreeIO

/-!
# Files left by the writer, read from a source that cannot seek

`Spec.planDrains` says that the client reads every attribute to its end and that no array is compressed;
`Spec.parseSource false` opens the bytes with `AnyParser::from_reader`.
-/

namespace Fbx
open Spec
open Tree Writer
open Forest (plain)

namespace Parser

/-- The document of a session, ready to be parsed from a plain source. -/
theorem plain_forest {Z : Zlib} (hZ : Z.Lawful) {s s' : Sink} {v : FbxVersion} {F : Forest Append} {f : FooterSpec}
    (h : session Z s v (calls F) f = (.ok (), s')) (hi : F.All (fun _ as => ∀ a ∈ as, intact a)) :
    supported v.toNat ∧ ∃ t,
      s'.buf = document v.toNat (attrBytes Z) (F.map denote) (footOf f) ++ t ∧
      ∀ (α : Type) (buffered checks : Bool) (plan : Nat → String → Nat → List (Loader α)) (H : Option Handler) (ending : Option IoErr) (cursor limit : Nat) (bs : Bytes),
        planOk buffered plan (F.map denote) 0 → planDrains buffered plan (F.map denote) 0 →
        (body v.toNat (attrBytes Z) (F.map denote) ++ bs).length < 2 ^ 64 →
        (F.All (fun name _ => name ≠ "") ∨ indulgent H) →
        ∃ P : Parser,
          P.reader = ⟨bs, ending, cursor + (body v.toNat (attrBytes Z) (F.map denote)).length,
            (body v.toNat (attrBytes Z) (F.map denote)).length, false, limit⟩ ∧ P.version = v ∧ P.handler = H ∧ Reader.Fine P.reader ∧
          (∀ e ∈ P.log, e.1 = .emptyNodeName) ∧ P.log.length = emptyNames F ∧
          parseSource false Z checks H ending cursor limit buffered plan (2 * F.count + 1) (body v.toNat (attrBytes Z) (F.map denote) ++ bs) =
            some (.ok (expected buffered plan (F.map denote) 0 ++ [.fbx (footerResult (readFooter P).1)]), (readFooter P).2) := by
  have hl : Writer.legal false (calls F) = true := by
    have := legal_calls F false [] (fun _ _ => rfl)
    rw [List.append_nil] at this
    rw [this]; rfl
  obtain ⟨G, h1, h2, h3⟩ := session_document Z s s' v (calls F) f hl h
  have := C06_forest_unique _ _ h1
  subst this
  obtain ⟨h4, t, h5⟩ := h3 hi
  refine ⟨h2, t, h5, ?_⟩
  intro α buffered checks plan H ending cursor limit bs hp hd hlen hn
  have := parse_plain hZ buffered plan checks H ending cursor limit v (F.map denote) bs h2 h4 hp hd hlen
    (hn.imp (all_map denote F _).mpr id)
  rwa [count_map, emptyNames_map] at this

theorem rest_collect {e α : Type} (fin : List e → α) : ∀ (xs : List e) (acc : List e),
    restSeq (collectSeq fin (xs.length + 1) acc) xs = [] := by
  intro xs
  induction xs with
  | nil => intro acc; simp [collectSeq, restSeq]
  | cons x xs ih =>
    intro acc
    simp only [List.length_cons]
    rw [collectSeq, restSeq]
    exact ih _

theorem rest_readToEnd {α : Type} (fin : Bytes → Except PErr α) (bs : Bytes) :
    restBytes (readToEnd bs.length fin (bs.length + 1) []) bs = [] := by
  cases bs with
  | nil => simp [readToEnd, restBytes]
  | cons b bs =>
    simp only [List.length_cons]
    rw [readToEnd, restBytes]
    simp only [List.take_succ_cons, List.take_length, List.drop_succ_cons, List.drop_length]
    cases bs with
    | nil => simp [readToEnd, restBytes]
    | cons => simp [readToEnd, restBytes]

theorem drains_direct (b : Bool) (d : DAttr) (hd : d.enc = .direct) : drains b directLoader d := by
  obtain ⟨v, e⟩ := d
  simp only at hd
  subst hd
  cases v <;> simp only [drains, directLoader, rest_collect, readBinary, readString, ite_self, rest_readToEnd, and_self]

theorem drainsAll_direct (b : Bool) (ds : List DAttr) (h : ∀ d ∈ ds, d.enc = .direct) :
    drainsAll b (List.replicate ds.length directLoader) ds := by
  induction ds with
  | nil => rfl
  | cons d ds ih => exact ⟨drains_direct b d (h d (by simp)), ih (fun x hx => h x (by simp [hx]))⟩

/-- The client that loads everything with `DirectLoader` leaves nothing unread if no array is compressed. -/
theorem everything_drains (b : Bool) (F : Forest DAttr) (h : F.All (fun _ as => ∀ d ∈ as, d.enc = .direct)) : ∀ k, planDrains b everything F k := by
  induction F with
  | nil => intro k; trivial
  | cons name attrs ch r ih1 ih2 => intro k; exact ⟨drainsAll_direct b attrs h.1, ih1 h.2.1 _, ih2 h.2.2 _⟩

theorem direct_map (F : Forest Append) (h : F.All (fun _ as => ∀ a ∈ as, (denote a).enc = .direct)) :
    (F.map denote).All (fun _ as => ∀ d ∈ as, d.enc = .direct) := by
  induction F with
  | nil => trivial
  | cons n as ch r ih1 ih2 =>
    refine ⟨?_, ih1 h.2.1, ih2 h.2.2⟩
    intro d hd
    obtain ⟨a, ha, rfl⟩ := List.mem_map.mp hd
    exact h.1 a ha

end Parser

open Parser

/-! ## C30 Seekable and plain sources -/

/-- Files left by the writer, whatever they contain and whatever footer they have, and any client that reads every
attribute to its end: the plain source gives exactly what the seekable one gives, the footer included. -/
theorem C30_written_files (Z : Zlib) (hZ : Z.Lawful) (s s' : Sink) (v : FbxVersion) (F : Forest Append) (f : FooterSpec)
    (hf : footSized f) (h : session Z s v (calls F) f = (.ok (), s')) (hi : F.All (fun _ as => ∀ a ∈ as, intact a))
    (hlen : s'.buf.length < 2 ^ 64) {α : Type} (buffered checks : Bool) (plan : Nat → String → Nat → List (Loader α))
    (hplan : planOk buffered plan (F.map denote) 0) (hdrain : planDrains buffered plan (F.map denote) 0)
    (H : Option Handler) (hH : F.All (fun name _ => name ≠ "") ∨ indulgent H) (ending : Option IoErr) (cursor limit : Nat)
    (hlim : cursor + s'.buf.length ≤ limit) :
    ∃ footer p q, parseSource true Z checks H ending cursor limit buffered plan (2 * F.count + 1) s'.buf =
        some (.ok (expected buffered plan (F.map denote) 0 ++ [.fbx footer]), p) ∧
      parseSource false Z checks H ending cursor limit buffered plan (2 * F.count + 1) s'.buf =
        some (.ok (expected buffered plan (F.map denote) 0 ++ [.fbx footer]), q) := by
  obtain ⟨h2, t, ht, hp⟩ := parse_forest hZ h hi
  obtain ⟨-, u, hu, hq⟩ := plain_forest hZ h hi
  obtain ⟨l1, l2, l3⟩ := footSized_lengths hf
  have htu : t = u := List.append_cancel_left (ht.symm.trans hu)
  subst htu
  simp only [ht, document, List.append_assoc] at hlen hlim ⊢
  obtain ⟨P, hr, hv, hH1, hfine, hlog, hlog2, hP⟩ := hp _ buffered checks plan H ending cursor limit _ hplan hlen hlim hH
  obtain ⟨Q, kr, kv, kH1, kfine, klog, klog2, hQ⟩ := hq _ buffered checks plan H ending cursor limit _ hplan hdrain hlen hH
  refine ⟨_, _, (readFooter Q).2, hP, hQ.trans ?_⟩
  have : (readFooter P).1 = (readFooter Q).1 := by
    refine readFooter_alike l1 l2 l3 (p := P) (q := Q) (ft := footOf f) ⟨?_, by rw [hv, kv], ?_, t, t, false, ?_, ?_⟩ (by rw [hv]; exact supported_ne h2)
    · rcases hH with hn | hn
      · rw [emptyNames_zero F hn] at hlog2 klog2
        exact .inr ⟨by rw [hH1, kH1], by rw [List.eq_nil_of_length_eq_zero hlog2, List.eq_nil_of_length_eq_zero klog2]⟩
      · exact .inl ⟨fun g hg => hn g (by rw [← hH1]; exact hg), fun g hg => hn g (by rw [← kH1]; exact hg)⟩
    · rw [hr, hv]
      simp only [List.length_append] at hlen ⊢
      omega
    · rw [hr, hv]
    · rw [hr, kr, hv]
  rw [this]

/-- A session without compressed arrays, read from a plain source by a client that loads every attribute with
`DirectLoader`: the events and values are those written. -/
theorem C30_round_trip (Z : Zlib) (hZ : Z.Lawful) (s s' : Sink) (v : FbxVersion) (F : Forest Append) (f : FooterSpec)
    (h : session Z s v (calls F) f = (.ok (), s')) (hi : F.All (fun _ as => ∀ a ∈ as, intact a))
    (hd : F.All (fun _ as => ∀ a ∈ as, (denote a).enc = .direct)) (hlen : s'.buf.length < 2 ^ 64)
    (buffered checks : Bool) (H : Option Handler) (hH : indulgent H) (ending : Option IoErr) (cursor limit : Nat) :
    ∃ footer q, parseSource false Z checks H ending cursor limit buffered everything (2 * F.count + 1) s'.buf =
      some (.ok (events (F.map denote) ++ [.fbx footer]), q) := by
  obtain ⟨-, t, ht, hp⟩ := plain_forest hZ h hi
  simp only [ht, document, List.append_assoc] at hlen ⊢
  obtain ⟨P, -, -, -, -, -, -, hP⟩ := hp _ buffered checks everything H ending cursor limit _ (everything_ok _ _ _)
    (everything_drains _ _ (direct_map F hd) _) hlen (.inr hH)
  exact ⟨_, _, by rw [hP, everything_expected]⟩

/-- `AnyTree::from_reader` on a plain source: trees written by `write_tree` are read back (compare `C23_any_tree`, for
seekable sources). -/
theorem C30_any_tree (Z : Zlib) (hZ : Z.Lawful) {t : Tree} (ht : Reachable t) (ha : (t.nodes t.root).attrs = [])
    (s s' : Sink) (v : FbxVersion) (f : FooterSpec) (h : treeSession Z s v t f = (.ok (), s')) (hlen : s'.buf.length + 2 ^ 32 ≤ 2 ^ 64)
    (checks : Bool) (ending : Option IoErr) (cursor limit : Nat) :
    ∃ u footer, anyTree Z checks false s'.buf ending cursor limit = .ok (v, u, footer) ∧ strictEq t u = .ok true := by
  have hw := C43_reachable_well_formed ht
  obtain ⟨name, F, -, hF, hr⟩ := root_forest hw
  rw [treeSession_eq hw hF] at h
  obtain ⟨h2, tl, htl, hp⟩ := plain_forest hZ h (intact_forest F)
  rw [map_denote] at htl hp
  have hopen : ∃ p, anyParser checks false s'.buf ending cursor limit = .ok p ∧ p.version = v := by
    obtain ⟨X, hX⟩ : ∃ X, s'.buf = signature ++ le 4 v.toNat ++ X := ⟨_, by rw [htl, document, body, List.append_assoc, List.append_assoc, List.append_assoc]⟩
    rw [hX] at hlen ⊢
    rw [List.length_append, List.length_append, show (le 4 v.toNat).length = 4 by rw [Writer.le_eq]; simp, show signature.length = 23 by decide] at hlen
    exact ⟨_, Parser.open_ok checks v h2 X ending cursor limit (by omega) false, rfl⟩
  obtain ⟨p, h3, h4⟩ := hopen
  have hdir : F.plain.All (fun _ as => ∀ d ∈ as, d.enc = .direct) := by
    clear hF hr h htl hp
    induction F with
    | nil => trivial
    | cons n as ch r ih1 ih2 =>
      refine ⟨?_, ih1, ih2⟩
      intro d hd
      obtain ⟨a, -, rfl⟩ := List.mem_map.mp hd
      rfl
  have hP : ∃ footer q, parseSource false Z checks (some (fun _ _ _ => none)) ending cursor limit false everything (2 * (F.map appendOf).count + 1) s'.buf =
      some (.ok (events F.plain ++ [.fbx footer]), q) := by
    have hlen' : s'.buf.length < 2 ^ 64 := by omega
    simp only [htl, document, List.append_assoc] at hlen' ⊢
    obtain ⟨P, -, -, -, -, -, -, hP⟩ := hp _ false checks everything (some (fun _ _ _ => none)) ending cursor limit _ (Parser.everything_ok _ _ _)
      (everything_drains _ _ hdir _) hlen' (.inr (fun g hg => by cases hg; intro _ _ _; rfl))
    exact ⟨_, _, by rw [hP, everything_expected]⟩
  obtain ⟨footer, q, hP⟩ := hP
  obtain ⟨p', u, h5, h6, hu2, hu3⟩ := parse_load_source (by omega) hP
  rw [h3] at h5
  cases h5
  refine ⟨u, footer, ?_, written_loaded hw ht.root ha hF hu2 hu3⟩
  simp only [anyTree, h3, Parser.setHandler, h6]
  rw [h4]

/-- Like `Zlib.stored`, with a checksum at the end (of the right length: 4 bytes), which the decoder never reads. -/
def exSummed : Zlib := { Zlib.stored with encLate := fun _ => [1, 2, 3, 4] }

theorem exSummed_lawful : exSummed.Lawful where
  roundtrip bs := by
    refine ⟨none, rfl, ?_⟩
    show Zlib.Decodes exSummed none (bs ++ [1, 2, 3, 4]) bs
    induction bs with
    | nil => exact .done _ _
    | cons b bs ih => exact .need rfl (.emit rfl ih)

/-- A node with an array. -/
def exArray (enc : Option ArrEnc) : Forest Append := .cons "A" [.arrI32 enc [.ok 1, .ok 2]] .nil .nil

/-- How parsing went. -/
def seenOrError (r : Option (Res PErr (List (Obs AttrValue)) × Parser)) : Option (Except ErrKind (List (String × List (Option AttrValue)))) :=
  match r with
  | some (.ok l, _) => some (.ok (l.filterMap (fun | .start name _ vs => some (name, vs) | _ => none)))
  | some (.err e, _) => some (.error e.kind)
  | _ => none

/-- In `C30_round_trip` it is not enough that every element is pulled: the end of a compressed array is not read even
then. Here a file with one compressed array, of which the client loads all elements, is parsed from a seekable source;
on the plain source the client also gets the elements, but then parsing fails. Uncompressed, the same array is fine. -/
theorem C30_compressed_derails :
    exSummed.Lawful ∧ (session exSummed exSink 7400 (calls (exArray (some .zlib))) exFooter).1 = .ok () ∧
    seenOrError (parseSource true exSummed true none none 0 (2 ^ 64) false everything 3
      (session exSummed exSink 7400 (calls (exArray (some .zlib))) exFooter).2.buf) = some (.ok [("A", [some (.arrI32 [1, 2])])]) ∧
    seenOrError (parseSource false exSummed true none none 0 (2 ^ 64) false everything 3
      (session exSummed exSink 7400 (calls (exArray (some .zlib))) exFooter).2.buf) = some (.error (.data (.nodeLengthMismatch 68 (some 77)))) ∧
    seenOrError (parseSource false exSummed true none none 0 (2 ^ 64) false everything 3
      (session exSummed exSink 7400 (calls (exArray none)) exFooter).2.buf) = some (.ok [("A", [some (.arrI32 [1, 2])])]) := by
  refine ⟨exSummed_lawful, ?_, ?_, ?_, ?_⟩ <;> decide +kernel

/-! ### Examples -/

/-- Some nodes, with an array that is not compressed. -/
def exUncompressed : Forest Append :=
  .cons "A" [.i32 5, .string "xy", .arrI32 none [.ok 1, .ok 2]] (.cons "B" [] .nil .nil) (.cons "C" [.bool true] .nil .nil)


example := C30_written_files Zlib.stored Zlib.stored_lawful exSink _ 7400 exUncompressed exFooter
  ⟨by simp [exFooter], by simp [exFooter], by simp [exFooter]⟩ (pair_eq (by decide +kernel)) (by simp [exUncompressed, Forest.All, intact])
  (by decide +kernel) true true everything (everything_ok _ _ _)
  (everything_drains _ _ (direct_map _ (by simp [exUncompressed, Forest.All, denote])) _) none (.inl (by simp [exUncompressed, Forest.All])) none 0 (2 ^ 64) (by decide +kernel)

/-- The events of the example, from a plain source. -/
example : ∃ footer q, parseSource false Zlib.stored true none none 0 0 false everything 7
      (session Zlib.stored exSink 7400 (calls exUncompressed) exFooter).2.buf = some (.ok ([.start "A" 3
        [some (.i32 5), some (.string "xy"), some (.arrI32 [1, 2])], .start "B" 0 [], .end, .end,
        .start "C" 1 [some (.bool true)], .end] ++ [.fbx footer]), q) :=
  C30_round_trip Zlib.stored Zlib.stored_lawful exSink _ 7400 exUncompressed exFooter (pair_eq (by decide +kernel))
    (by simp [exUncompressed, Forest.All, intact]) (by simp [exUncompressed, Forest.All, denote]) (by decide +kernel) false true none
    (by intro f hf; cases hf) none 0 0

example : ∃ u footer, anyTree Zlib.stored true false exWritten.2.buf none 0 0 = .ok (7400, u, footer) ∧ strictEq exTree u = .ok true :=
  C30_any_tree Zlib.stored Zlib.stored_lawful exTree_reachable (by decide) exSink _ 7400 exFooter exWritten_ok (by rw [exWritten_len]; decide)
    true none 0 0

end Fbx
