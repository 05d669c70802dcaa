import Verif.Spec.Stream
import Verif.Props.PlainSources
import Verif.Props.Files
import Verif.Proof.HistoryCounts
import Verif.Proof.EndMarkers

/-! # C85 The parser stops behind the footer: documents one behind the other -/

namespace Fbx
open Reader Parser Spec Tree Writer
variable {α : Type} {Z : Zlib}

theorem fromLe_zero {bs : Bytes} (h : fromLe bs = 0) : bs = zeros bs.length := by
  have h1 := leBytes_fromLe bs
  rw [h, ← fromLe_zeros bs.length] at h1
  have h2 := leBytes_fromLe (zeros bs.length)
  rw [show (zeros bs.length).length = bs.length by simp] at h2
  exact h1.symm.trans h2

/-- An end marker consists of zeros. -/
theorem marker_zeros {w : Nat} {bs : Bytes} (h : headerAt w bs = .nodeEnd) (hl : 3 * w + 1 ≤ bs.length) :
    bs = zeros (3 * w + 1) ++ bs.drop (3 * w + 1) := by
  simp only [headerAt, NodeHeader.nodeEnd, NodeHeader.mk.injEq] at h
  obtain ⟨h1, h2, h3, h4⟩ := h
  have h1 := fromLe_zero h1
  have h2 := fromLe_zero h2
  have h3 := fromLe_zero h3
  have h4 := fromLe_zero h4
  simp only [List.length_take, List.length_drop, show min w bs.length = w by omega, show min w (bs.length - w) = w by omega,
    show min w (bs.length - (w + w)) = w by omega, show min 1 (bs.length - (w + w + w)) = 1 by omega] at h1 h2 h3 h4
  have e : bs.take (3 * w + 1) = zeros (3 * w + 1) := by
    have : bs.take (3 * w + 1) = bs.take w ++ ((bs.drop w).take w ++ ((bs.drop (w + w)).take w ++ (bs.drop (w + w + w)).take 1)) := by
      rw [show 3 * w + 1 = w + (w + (w + 1)) by omega, List.take_add, List.take_add, List.take_add]
      simp only [List.drop_drop]
    rw [this, h1, h2, h3, h4]
    simp only [zeros, List.replicate_append_replicate]
    congr 1
    omega
  rw [← e, List.take_append_drop]

theorem ended_split {p t : Parser} {f : Footer} (h : nextEvent p = (.ok (.endFbx (.ok f)), t))
    (hm : headerAt (headWidth p.version) p.reader.rest = .nodeEnd) (hl : 3 * headWidth p.version + 1 ≤ p.reader.rest.length)
    (hq : ∀ q, nextEventImpl p = (.ok .endFbx, q) → q = { p with reader := p.reader.consume (3 * headWidth p.version + 1) }) :
    p.reader.rest = List.replicate (3 * headWidth p.version + 1) 0 ++
      (f.unknown1 ++ List.replicate f.paddingLen 0 ++ [0, 0, 0, 0] ++ le 4 p.version.toNat ++ List.replicate 120 0 ++
        [0xf8, 0x5a, 0x8c, 0x6a, 0xde, 0xf5, 0xd9, 0x7e, 0xec, 0xe9, 0x0c, 0xe3, 0x75, 0x8f, 0x29, 0x0b]) ++ t.reader.rest ∧
    f.unknown1.length = 16 ∧ f.paddingLen ≤ 15 ∧ t.reader.cursor + t.reader.rest.length = p.reader.cursor + p.reader.rest.length ∧
    t.health = .finished := by
  rw [nextEvent_eq] at h
  cases hh : p.health with
  | finished => rw [hh] at h; cases h
  | aborted _ => rw [hh] at h; cases h
  | running =>
    rw [hh] at h
    simp only at h
    rcases hi : nextEventImpl p with ⟨k | e | x, q⟩
    · rw [hi] at h
      simp only at h
      by_cases hd : depthOk k p.depth (recorded k q).depth = true
      · rw [if_pos hd] at h
        cases k with
        | startNode => unfold makeEvent at h; simp only at h; split at h <;> cases h
        | endNode => cases h
        | endFbx =>
          have hq := hq q hi
          simp only [makeEvent] at h
          rcases hf : readFooter (recorded .endFbx q) with ⟨g | e | x, q'⟩
          · rw [hf] at h
            cases h
            obtain ⟨⟨l1, l2, l3, l4, l5, tl, hr⟩, ht⟩ := readFooter_inv hf
            have er : (recorded .endFbx q).reader = p.reader.consume (3 * headWidth p.version + 1) := by rw [hq]; rfl
            have ev : (recorded .endFbx q).version = p.version := by rw [hq]; rfl
            have et : t.reader.rest = tl := by
              rw [ht]
              show ((recorded .endFbx q).reader.consume (160 + f.paddingLen)).rest = tl
              rw [consume_rest, hr]
              have : (f.unknown1 ++ List.replicate f.paddingLen 0 ++ f.unknown2 ++ le 4 (recorded .endFbx q).version.toNat ++ List.replicate 120 0 ++ f.unknown3).length =
                  160 + f.paddingLen := by
                simp [l1, l3, l5, Writer.le_eq]; omega
              rw [← this, List.drop_left]
            have ec : t.reader.cursor = p.reader.cursor + (3 * headWidth p.version + 1) + (160 + f.paddingLen) := by
              rw [ht]
              show ((recorded .endFbx q).reader.consume (160 + f.paddingLen)).cursor = _
              rw [er]
              rfl
            have hlr : p.reader.rest.length = (3 * headWidth p.version + 1) + (160 + f.paddingLen) + tl.length := by
              have h1 : (p.reader.rest.drop (3 * headWidth p.version + 1)).length = 160 + f.paddingLen + tl.length := by
                rw [er, consume_rest] at hr
                rw [hr]
                simp [l1, l3, l5, Writer.le_eq]; omega
              rw [List.length_drop] at h1
              omega
            have hfin : t.health = .finished := by rw [ht]; rfl
            refine ⟨?_, l1, l2, by rw [ec, et, hlr]; omega, hfin⟩
            rw [er, consume_rest, l3, l5, ev] at hr
            have := marker_zeros hm hl
            rw [hr] at this
            rw [et]
            simpa [zeros, List.append_assoc] using this
          · rw [hf] at h; cases h
          · rw [hf] at h; cases h
      · rw [if_neg hd] at h; cases h
    · rw [hi] at h
      simp only at h
      split at h <;> cases h
    · rw [hi] at h; cases h

/-- **C85** (where the parser stops). Any client, with any loaders and handlers, on any bytes of any source. Once `next_event` has
returned the end of the document with a footer, the source stands right behind that footer, whatever is called afterwards: what has been
read ends with the end marker and the footer, and everything else is still there to be read. -/
theorem C85_stops (Z : Zlib) {p : Parser} {bytes : Bytes} (hp : Opens p bytes) (hsz : Sized bytes) {h : History α} {t : Client}
    (hr : Runs Z ⟨p, none⟩ h t) (hx : ∀ c x, (c, .panic x) ∉ h) {f : Footer} (hf : (.next, .event (.endFbx (.ok f))) ∈ h) :
    behindFooter p bytes f t.parser := by
  obtain ⟨hi, hL⟩ := open_inv hp hsz
  obtain ⟨-, -, -, -, -, -, hb, -⟩ := hp.state
  have key : h.calm → (∃ k, t.parser.reader.rest = bytes.drop k ∧ t.parser.reader.cursor = p.reader.cursor + k) ∧ t.parser.version = p.version ∧
      ∀ f, (.next, .event (.endFbx (.ok f))) ∈ h → t.parser.health = .finished ∧ behindFooter p bytes f t.parser := by
    refine hr.ind hL hi (P := fun h t => h.calm → (∃ k, t.parser.reader.rest = bytes.drop k ∧ t.parser.reader.cursor = p.reader.cursor + k) ∧
      t.parser.version = p.version ∧
      ∀ f, (.next, .event (.endFbx (.ok f))) ∈ h → t.parser.health = .finished ∧ behindFooter p bytes f t.parser)
      (fun _ => ⟨⟨0, by rw [List.drop_zero]; exact hb, rfl⟩, rfl, fun f h => by cases h⟩) ?_
    intro h s u c o hrun hs ih hn hd hcall hc
    obtain ⟨hc, ho⟩ := calm_snoc hc
    obtain ⟨⟨k, h1, h2⟩, h3, h4⟩ := ih hc
    obtain ⟨j, m, hm⟩ := hd.moves ho
    refine ⟨⟨k + m, by rw [hm.rest, h1, List.drop_drop], by rw [hm.cursor, h2, Nat.add_assoc]⟩, (hd.frame ho).1.trans h3, ?_⟩
    intro f hf
    rcases List.mem_append.mp hf with hf | hf
    · obtain ⟨hfin, hbe⟩ := h4 f hf
      have hsame : u.parser.reader = s.parser.reader ∧ u.parser.health = .finished := by
        have hst := hs.fin hfin
        cases hd with
        | event hrun he hi ha => rw [hfin] at hrun; cases hrun
        | nextRefused hp hr ha => rw [hp]; exact ⟨rfl, hfin⟩
        | nextFailed hrun hf hi hp he ha => rw [hfin] at hrun; cases hrun
        | nextPanic hx' => exact absurd rfl (ho _)
        | value ha hp hrun hr ht => rw [hfin] at hrun; cases hrun
        | noValue ha hrun h0 ht => rw [hfin] at hrun; cases hrun
        | loadRefused ha ht hr => subst ht; exact ⟨rfl, hfin⟩
        | loadFailed ha hp hrun hr hpos ht he => rw [hfin] at hrun; cases hrun
        | skip hst' hm hi hge hpos hplain ht => rw [hst] at hst'; cases hst'
        | skipFailed hst' hm hi hge ht => rw [hst] at hst'; cases hst'
        | skipPanic hx' => exact absurd rfl (ho _)
        | handler ht => subst ht; exact ⟨rfl, hfin⟩
      obtain ⟨before, e1, e2⟩ := hbe
      exact ⟨hsame.2, before, by rw [hsame.1]; exact e1, by rw [hsame.1]; exact e2⟩
    · simp only [List.mem_singleton, Prod.mk.injEq] at hf
      obtain ⟨rfl, rfl⟩ := hf
      have hne : nextEvent s.parser = (.ok (.endFbx (.ok f)), u.parser) := by
        unfold Client.call at hcall
        simp only at hcall
        rcases hx : nextEvent s.parser with ⟨ev | e | x, q⟩ <;> rw [hx] at hcall <;> cases hcall
        rfl
      cases hd with
      | event hrun he hi ha =>
        obtain ⟨-, -, e3, e4, -⟩ := he.finished
        obtain ⟨g1, g2, g3, g4, g5⟩ := ended_split hne e3 e4 (fun q hq => by
          have := wp_nextEventImpl hL hs.parser hrun (fun hl => hs.last hl hrun)
          rw [M.wp_def, hq] at this
          obtain ⟨hst, -⟩ := this
          cases hst with
          | endFbx _ _ _ hq => exact hq)
        have hk : k < bytes.length := by
          rw [h1, List.length_drop] at e4
          omega
        refine ⟨g5, bytes.take k, ?_, g2, g3, ?_⟩
        · rw [h1, h3] at g1
          rw [List.append_assoc, List.append_assoc, ← List.append_assoc (List.replicate _ _), ← g1, List.take_append_drop]
        · rw [g4, h2, h1, List.length_drop]
          omega
  exact ((key hx).2.2 f hf).2

/-- The bytes written on an empty device. -/
theorem session_exact {s s' : Sink} {v : FbxVersion} {F : Forest Append} {f : FooterSpec} (h : session Z s v (calls F) f = (.ok (), s'))
    (hi : F.All (fun _ as => ∀ a ∈ as, intact a)) (hs : s.buf = []) :
    s'.buf = document v.toNat (attrBytes Z) (F.map denote) (footOf f) := by
  have hl : legal false (calls F) = true := by
    have := legal_calls F false [] (fun _ _ => rfl)
    rw [List.append_nil] at this
    rw [this]; rfl
  obtain ⟨G, h1, -, -, -, h4, -⟩ := session_layout Z s s' v _ f hl h
  have := C06_forest_unique _ _ h1
  subst this
  rw [hs, List.drop_nil, List.append_nil] at h4
  rw [h4, Writer.document_congr v.toNat _ _ F (footOf f) (Writer.intact_all Z F hi)]
  exact document_map v.toNat denote (attrBytes Z) F (footOf f)

theorem plain_direct (F : Forest AttrValue) : F.plain.All (fun _ as => ∀ d ∈ as, d.enc = .direct) := by
  induction F with
  | nil => trivial
  | cons n as ch r ih1 ih2 =>
    refine ⟨?_, ih1, ih2⟩
    intro d hd
    obtain ⟨a, -, rfl⟩ := List.mem_map.mp hd
    rfl

theorem take_one (hZ : Z.Lawful) {d : Doc} (hd : d.Finished Z) (ha : d.Accepted) (checks seekable : Bool) (tail : Bytes) (ending : Option IoErr)
    (cursor limit : Nat) (hlen : (d.file ++ tail).length + 2 ^ 32 ≤ 2 ^ 64) (hlim : seekable = true → cursor + (d.file ++ tail).length ≤ limit) :
    ∃ x, takeTree Z checks seekable ⟨d.file ++ tail, ending, cursor, limit⟩ = (.ok x, some ⟨tail, ending, cursor + d.file.length, limit⟩) ∧ d.Is x := by
  obtain ⟨t, v, f, file⟩ := d
  obtain ⟨ht, hattrs, s, s', hs, h, hfile⟩ := hd
  simp only at ht hattrs h hfile hlen hlim ⊢
  have hw := C43_reachable_well_formed ht
  obtain ⟨name, F, -, hF, hr⟩ := root_forest hw
  rw [treeSession_eq hw hF] at h
  have hdoc := session_exact h (intact_forest F) hs
  rw [map_denote] at hdoc
  obtain ⟨h2, -, -, hp1⟩ := parse_forest hZ h (intact_forest F)
  obtain ⟨-, -, -, hp2⟩ := plain_forest hZ h (intact_forest F)
  rw [map_denote] at hp1 hp2
  obtain ⟨a1, a2, a3, a4⟩ := ha
  simp only at a1 a2 a3 a4
  obtain ⟨l1, l2, l3⟩ := footSized_lengths (f := f) ⟨a1, by simp [a3], by simp [a4]⟩
  rw [hdoc] at hfile
  generalize hB : body v.toNat (attrBytes Z) F.plain = B at hp1 hp2
  have hfile2 : file ++ tail = B ++ (footer v.toNat (footOf f) B.length ++ tail) := by
    rw [hfile, document, hB, List.append_assoc]
  have hH : indulgent (some (fun _ _ _ => none)) := fun g hg => by cases hg; intro _ _ _; rfl
  have hopen : ∃ p, anyParser checks seekable (file ++ tail) ending cursor limit = .ok p ∧ p.version = v := by
    obtain ⟨X, hX⟩ : ∃ X, file ++ tail = signature ++ le 4 v.toNat ++ X :=
      ⟨_, by rw [hfile2, ← hB, body, List.append_assoc, List.append_assoc, List.append_assoc]⟩
    rw [hX] at hlen ⊢
    rw [List.length_append, List.length_append, show (le 4 v.toNat).length = 4 by rw [Writer.le_eq]; simp, show signature.length = 23 by decide] at hlen
    exact ⟨_, Parser.open_ok checks v h2 X ending cursor limit (by omega) seekable, rfl⟩
  obtain ⟨p, hp, hpv⟩ := hopen
  rw [hfile2] at hlen hlim
  obtain ⟨P, hPr, hPv, hPH, hfine, hP⟩ : ∃ P : Parser, P.reader = ⟨footer v.toNat (footOf f) B.length ++ tail, ending, cursor + B.length, B.length, seekable, limit⟩ ∧
      P.version = v ∧ P.handler = some (fun _ _ _ => none) ∧ Reader.Fine P.reader ∧
      parseSource seekable Z checks (some (fun _ _ _ => none)) ending cursor limit false everything (2 * (F.map appendOf).count + 1)
        (B ++ (footer v.toNat (footOf f) B.length ++ tail)) =
        some (.ok (events F.plain ++ [.fbx (footerResult (readFooter P).1)]), (readFooter P).2) := by
    cases seekable with
    | true =>
      obtain ⟨P, e1, e2, e3, e4, -, -, e5⟩ := hp1 _ false checks everything (some (fun _ _ _ => none)) ending cursor limit (footer v.toNat (footOf f) B.length ++ tail)
        (Parser.everything_ok _ _ _) (by omega) (hlim rfl) (.inr hH)
      rw [Parser.everything_expected] at e5
      exact ⟨P, e1, e2, e3, e4, e5⟩
    | false =>
      obtain ⟨P, e1, e2, e3, e4, -, -, e5⟩ := hp2 _ false checks everything (some (fun _ _ _ => none)) ending cursor limit (footer v.toNat (footOf f) B.length ++ tail)
        (Parser.everything_ok _ _ _) (everything_drains _ _ (plain_direct F) _) (by omega) (.inr hH)
      rw [Parser.everything_expected] at e5
      exact ⟨P, e1, e2, e3, e4, e5⟩
  have hpad : padLen (footOf f) B.length ≤ 15 := by
    simp only [padLen, footOf]
    cases hpd : f.padding with
    | default => simp only [alignPad, Option.getD_none]; omega
    | forced n => exact a2 n hpd
  obtain ⟨ft, hft⟩ : ∃ ft : Footer, ft = ⟨(footOf f).unknown1, padLen (footOf f) B.length, [0, 0, 0, 0], v,
      [0xf8, 0x5a, 0x8c, 0x6a, 0xde, 0xf5, 0xd9, 0x7e, 0xec, 0xe9, 0x0c, 0xe3, 0x75, 0x8f, 0x29, 0x0b]⟩ := ⟨_, rfl⟩
  have hst : startsWithFooter P.version.toNat P.reader.rest ft := by
    rw [hft]
    refine ⟨l1, hpad, rfl, by rw [hPv], rfl, tail, ?_⟩
    rw [hPv, hPr]
    simp [footer, footOf, a3, a4]
  obtain ⟨q, hq⟩ := readFooter_accept (.inl (fun g hg => hH g (by rw [← hPH]; exact hg))) hfine.position hst
  obtain ⟨-, hq2⟩ := readFooter_inv hq
  obtain ⟨p', u, h5, h6, hu2, hu3⟩ := parse_load_source (by omega) hP
  rw [← hfile2, hp] at h5
  cases h5
  rw [hq] at h6
  have hflen : (footer v.toNat (footOf f) B.length).length = 160 + ft.paddingLen := by
    rw [hft]
    simp [footer, l1, l2, l3, Writer.le_eq]; omega
  have hqs : q.stream = ⟨tail, ending, cursor + file.length, limit⟩ := by
    rw [hq2]
    show Stream.mk (P.reader.consume (160 + ft.paddingLen)).rest P.reader.ending (P.reader.cursor + (160 + ft.paddingLen)) P.reader.seekLimit = _
    rw [consume_rest, hPr, ← hflen]
    simp only [List.drop_left]
    rw [hfile, document, hB, List.length_append, Nat.add_assoc]
  refine ⟨(v, u, .ok ft), ?_, rfl, written_loaded hw ht.root hattrs hF hu2 hu3, ft, rfl⟩
  simp only [takeTree, hp, Parser.setHandler, h6, footerResult, hqs]
  rw [hpv]

/-- **C85** (documents in a row). Any number of documents, of any versions and with any trees, stand one behind the other, with anything
behind them. Loading trees from the source, one after the other, gives these documents, in this order, and leaves what is behind them.
The source may be one which seeks, and starts anywhere, or one which only reads. -/
theorem C85_documents (Z : Zlib) (hZ : Z.Lawful) (docs : List Doc) (hd : ∀ d ∈ docs, d.Finished Z ∧ d.Accepted) (checks seekable : Bool) (tail : Bytes)
    (ending : Option IoErr) (cursor limit : Nat) (hlen : (docs.flatMap Doc.file ++ tail).length + 2 ^ 32 ≤ 2 ^ 64)
    (hlim : seekable = true → cursor + (docs.flatMap Doc.file ++ tail).length ≤ limit) :
    ∃ xs, takeTrees Z checks seekable docs.length ⟨docs.flatMap Doc.file ++ tail, ending, cursor, limit⟩ =
        some (xs, ⟨tail, ending, cursor + (docs.flatMap Doc.file).length, limit⟩) ∧ Doc.Are docs xs := by
  induction docs generalizing cursor with
  | nil => exact ⟨[], rfl, trivial⟩
  | cons d ds ih =>
    obtain ⟨h1, h2⟩ := hd d (List.mem_cons_self ..)
    rw [List.flatMap_cons, List.append_assoc] at hlen hlim ⊢
    obtain ⟨x, h3, h4⟩ := take_one hZ h1 h2 checks seekable (ds.flatMap Doc.file ++ tail) ending cursor limit hlen hlim
    rw [List.length_append] at hlen hlim
    obtain ⟨xs, h5, h6⟩ := ih (fun d hm => hd d (List.mem_cons_of_mem _ hm)) (cursor + d.file.length) (by omega) (fun h => by have := hlim h; omega)
    refine ⟨x :: xs, ?_, h4, h6⟩
    rw [List.length_cons, takeTrees, h3]
    simp only [h5, Option.map_some, List.length_append, Nat.add_assoc]

/-- **C85** (the same function). The tree which `takeTree` returns is what `AnyTree` returns (C23, C47, C52). -/
theorem C85_any_tree (Z : Zlib) (checks seekable : Bool) (s : Stream) :
    (takeTree Z checks seekable s).1 = anyTree Z checks seekable s.rest s.ending s.cursor s.limit := by
  unfold takeTree anyTree
  rcases anyParser checks seekable s.rest s.ending s.cursor s.limit with p | e | x
  · simp only
    rcases Load.load Z (p.setHandler (fun _ _ _ => none)) with ⟨⟨t, f⟩ | e | x, q⟩ <;> rfl
  · rfl
  · rfl

/-! ## Examples -/

/-- A tree with one node. -/
def exLeaf : Tree := Tree.after [.appendNew 0 "A"]

theorem exLeaf_reachable : Reachable exLeaf := .step (op := .appendNew 0 "A") .empty trivial rfl

/-- A footer of its own. -/
def exOwnFooter : FooterSpec := ⟨some (List.replicate 16 7), .forced 3, none, none⟩

/-- The file of a tree, on an empty device. -/
def exFile (v : FbxVersion) (t : Tree) (f : FooterSpec) : Res WErr Unit × Sink := treeSession Zlib.stored ⟨[], 0, fun _ => none⟩ v t f

theorem exFile_one : treeSession Zlib.stored ⟨[], 0, fun _ => none⟩ 7400 exTree exOwnFooter = (.ok (), (exFile 7400 exTree exOwnFooter).2) := pair_eq (by decide +kernel)
theorem exFile_two : treeSession Zlib.stored ⟨[], 0, fun _ => none⟩ 7500 exLeaf exFooter = (.ok (), (exFile 7500 exLeaf exFooter).2) := pair_eq (by decide +kernel)

/-- Two documents: the tree of C23 with a footer of its own, and a small one of another version. -/
def exDocs : List Doc :=
  [⟨exTree, 7400, exOwnFooter, (exFile 7400 exTree exOwnFooter).2.buf⟩, ⟨exLeaf, 7500, exFooter, (exFile 7500 exLeaf exFooter).2.buf⟩]

theorem finished_empty {t : Tree} {v : FbxVersion} {f : FooterSpec} {s' : Sink} (h1 : Reachable t) (h2 : (t.nodes t.root).attrs = [])
    (h3 : treeSession Z ⟨[], 0, fun _ => none⟩ v t f = (.ok (), s')) : (Doc.mk t v f s'.buf).Finished Z := ⟨h1, h2, _, _, rfl, h3, rfl⟩

theorem exDocs_ok : ∀ d ∈ exDocs, d.Finished Zlib.stored ∧ d.Accepted := by
  simp only [exDocs, List.mem_cons, List.not_mem_nil, or_false]
  rintro d (rfl | rfl)
  · exact ⟨finished_empty exTree_reachable (by decide) exFile_one, by simp [exOwnFooter], by simp [exOwnFooter], rfl, rfl⟩
  · exact ⟨finished_empty exLeaf_reachable (by decide) exFile_two, by simp [exFooter], by simp [exFooter], rfl, rfl⟩

theorem exDocs_len : (exDocs.flatMap Doc.file).length = 621 := by decide +kernel

/-- From a source which only reads, and from one which seeks; five more bytes come behind the documents. -/
example (seekable : Bool) : ∃ xs, takeTrees Zlib.stored true seekable 2 ⟨exDocs.flatMap Doc.file ++ [1, 2, 3, 4, 5], none, 100, 2 ^ 63⟩ =
    some (xs, ⟨[1, 2, 3, 4, 5], none, 100 + 621, 2 ^ 63⟩) ∧ Doc.Are exDocs xs := by
  have := C85_documents Zlib.stored Zlib.stored_lawful exDocs exDocs_ok true seekable [1, 2, 3, 4, 5] none 100 (2 ^ 63)
    (by rw [List.length_append, exDocs_len]; decide) (fun _ => by rw [List.length_append, exDocs_len]; decide)
  rwa [exDocs_len] at this

/-- A document without nodes, with two more bytes behind it. -/
def exEmptyBody : Bytes := List.replicate 13 0 ++ (List.replicate 16 7 ++ List.replicate 3 0 ++ [0, 0, 0, 0] ++ [0xe8, 0x1c, 0, 0] ++ List.replicate 120 0 ++
  [0xf8, 0x5a, 0x8c, 0x6a, 0xde, 0xf5, 0xd9, 0x7e, 0xec, 0xe9, 0x0c, 0xe3, 0x75, 0x8f, 0x29, 0x0b]) ++ [9, 9]

theorem exEmptyBody_sized : Sized exEmptyBody := by unfold Sized; decide +kernel

/-- The end is seen, and another call is refused; the two bytes are still there. -/
example : ∃ f, behindFooter (exParser true false 7400 exEmptyBody) exEmptyBody f
      ((Client.mk (exParser true false 7400 exEmptyBody) none).after Zlib.stored [(.next : Call Unit), .next]).parser ∧
    ((Client.mk (exParser true false 7400 exEmptyBody) none).after Zlib.stored [(.next : Call Unit), .next]).parser.reader.rest = [9, 9] := by
  refine ⟨⟨List.replicate 16 7, 3, [0, 0, 0, 0], 7400, [0xf8, 0x5a, 0x8c, 0x6a, 0xde, 0xf5, 0xd9, 0x7e, 0xec, 0xe9, 0x0c, 0xe3, 0x75, 0x8f, 0x29, 0x0b]⟩,
    C85_stops Zlib.stored (exParser_opens true false 7400 exEmptyBody (by decide)) exEmptyBody_sized
    (runs_history _ [(.next : Call Unit), .next] (by decide +kernel)) (calm_of_all (by decide +kernel)) ?_, by decide +kernel⟩
  rw [history_of _ [(.next : Call Unit), .next] [.event (.endFbx (.ok ⟨List.replicate 16 7, 3, [0, 0, 0, 0], 7400,
    [0xf8, 0x5a, 0x8c, 0x6a, 0xde, 0xf5, 0xd9, 0x7e, 0xec, 0xe9, 0x0c, 0xe3, 0x75, 0x8f, 0x29, 0x0b]⟩)), .err (PErr.ofOp .alreadyFinished)] (by decide +kernel)]
  simp

/-- **C85** (what is needed). A footer with more padding than usual is reported as broken, though the tree is loaded (C19); the source
then stands inside the file, and the next document is not found. -/
theorem C85_broken_footer :
    let first := (exFile 7400 Tree.empty ⟨none, .forced 40, none, none⟩).2.buf
    let second := (exFile 7400 Tree.empty exFooter).2.buf
    (match takeTree Zlib.stored true true ⟨first ++ second, none, 0, 2 ^ 63⟩ with
      | (.ok (_, _, .error e), some s) => some (e.kind, decide (s.rest.length = second.length + 40))
      | _ => none) = some (.data .brokenFbxFooter, true) ∧
    (takeTrees Zlib.stored true true 2 ⟨first ++ second, none, 0, 2 ^ 63⟩).isNone = true := by
  decide +kernel

end Fbx
