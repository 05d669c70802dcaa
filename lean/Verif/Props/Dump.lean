import Verif.Proof.DumpWritten
import Verif.Props.AnyLoader
import Verif.Props.Debug

/-! # C74 The example program prints the outline of a file

The outline is that of `Verif/Spec/Dump.lean`. -/

namespace Fbx
open Reader Parser Spec
open Writer (Append session)
variable {Z : Zlib} {S : Dump.Shows}

/-- The three formats. -/
theorem dump_formats (m : Skipping) (e : Ending) (fmt : Dump.Format) {P : Prop}
    (h : ∀ (α : Type) (l : Loader α) (text : α → Text) (f : AttrValue → α) (onError : PErr → Dump.End),
      (∀ depth a out, Dump.attributes S Z depth a out fmt = Dump.loop Z l (fun v => attributeText (text v)) onError depth (a.attrs.rest + 1) a out) →
      (∀ count b, attributesShown S Z m e count b fmt = allWith Z m e l text count b) →
      (∀ x, onError x = if fmt = .type then .unwrapped x else .failed x) →
      (∀ v, present false l v = .ok (f v)) → (∀ v, text (f v) = shown S fmt v) → P) : P := by
  cases fmt with
  | type =>
    refine h _ typeLoader kind AttrValue.type_ .unwrapped (fun depth a out => ?_) (fun _ _ => rfl) (fun _ => rfl) (fun v => ?_) (fun v => rfl)
    · simp only [Dump.attributes, dump_typeName]
      rfl
    · cases v <;> rfl
  | length =>
    refine h _ directLoader (lengthShown S) id .failed (fun depth a out => ?_) (fun _ _ => rfl) (fun _ => rfl) (fun v => present_direct false v) (fun v => rfl)
    simp only [Dump.attributes, ← dump_length]
  | full =>
    refine h _ directLoader (fullShown S) id .failed (fun depth a out => ?_) (fun _ _ => rfl) (fun _ => rfl) (fun v => present_direct false v) (fun v => rfl)
    simp only [Dump.attributes, ← dump_full]

/-- `FBX version: 7.4`. -/
theorem dump_version (v : FbxVersion) : ['F', 'B', 'X', ' ', 'v', 'e', 'r', 's', 'i', 'o', 'n', ':', ' '] ++ Debug.int v.major.toNat ++ ['.'] ++
    Debug.int v.minor.toNat ++ ['\n'] = versionText v.toNat ++ ['\n'] := by
  simp only [versionText, Debug.int_decimal, FbxVersion.major, FbxVersion.minor, UInt32.toNat_div, UInt32.toNat_mod]
  rfl

/-- **C74** (any file). Whatever the bytes after the header of a file: the program prints the version, and then the outline of these bytes
as far as they can be read, each line as far to the right as there are nodes open around; it always ends; it ends successfully, after
the lines about the footer, exactly if the footer is reached, and otherwise with the error with which reading ends. -/
theorem C74_prints (S : Dump.Shows) (Z : Zlib) (fmt : Dump.Format) (checks : Bool) {bytes body : Bytes} (ending : Option IoErr) (limit : Nat)
    {a b c d : UInt8} {v : FbxVersion} (hlen : bytes.length + 2 ^ 32 ≤ 2 ^ 64) (hb : bytes = signature ++ [a, b, c, d] ++ body)
    (hv : v.toNat = le32 a b c d) (hs : supported v.toNat) :
    let r := outline S Z (skippingOf true 27 limit) ending checks fmt (2 * bytes.length + 2) (bodyStart v ending body)
    Prints S v fmt r (versionText v.toNat ++ ['\n']) [] (Dump.main S Z fmt checks bytes ending limit) ∧ r.close ≠ .more := by
  obtain ⟨p, h1, h2, h3, h4⟩ := open_file (checks := checks) (seekable := true) (ending := ending) (cursor := 0) (limit := limit) hlen hb hv hs
  refine dump_formats (S := S) (Z := Z) (skippingOf true 27 limit) ending fmt (fun α l text f onError e1 e2 e3 _ _ => ?_)
  obtain ⟨h, k1, k2, k3⟩ := handler_runs (α := α) (Z := Z) p (by rw [h4]) (some (fun _ _ _ => none)) (by intro f hf; cases hf; intros; rfl)
  obtain ⟨i1, i2⟩ := dump_run (S := S) (Z := Z) h2 rfl h3 rfl rfl fmt l text onError e1 e2 e3 (2 * bytes.length + 2) (versionText v.toNat ++ ['\n']) h _ k1 k2
    (by rw [h4]) k3
  have hbl : bytes.length = 27 + body.length := by
    rw [hb, List.length_append, List.length_append, show signature.length = 23 by decide]; simp
  have h5 : Dump.main S Z fmt checks bytes ending limit = Dump.visible (Dump.run S Z fmt (2 * bytes.length + 2) 0 (p.setHandler (fun _ _ _ => none))
      (versionText v.toNat ++ ['\n'])) := by
    simp only [Dump.main, h1]
    rw [← dump_version, show p.version = v by rw [h4]]
    rfl
  rw [h5]
  subst h4
  refine ⟨i1, i2 ?_⟩
  simp only
  omega

/-- **C74** (how it ends). On any bytes the program ends, in one of the ways `properEnd` lists. -/
theorem C74_ends (S : Dump.Shows) (Z : Zlib) (fmt : Dump.Format) (checks : Bool) (bytes : Bytes) (ending : Option IoErr) (limit : Nat)
    (hlen : bytes.length + 2 ^ 32 ≤ 2 ^ 64) : properEnd fmt checks (Dump.main S Z fmt checks bytes ending limit) := by
  unfold properEnd
  rcases C02_any_parser checks true bytes ending 0 limit (by omega) with ⟨e, h⟩ | ⟨v, -, h⟩ | ⟨p, -, -, h⟩
  · simp only [Dump.main, h]
  · simp only [Dump.main, h]
  · obtain ⟨a, b, c, d, body, v, hb, hv, hp⟩ := (anyParser_ok_iff (by omega)).mp h
    have hs := (C02_parser_versions checks v _).mp ⟨p, hp⟩
    obtain ⟨k1, k2⟩ := C74_prints S Z fmt checks ending limit hlen hb hv hs
    have hov : ∀ (n : Nat) (a : Ahead), (outline S Z (skippingOf true 27 limit) ending checks fmt n a).close = .overflow → checks = true := by
      intro n
      induction n with
      | zero => intro a h; cases h
      | succ n ih =>
        intro a h
        simp only [outline] at h
        have hx : ∀ w b, a.nextFrom (skippingOf true 27 limit) ending checks = (.overflows, w, b) → checks = true := by
          intro w b hx
          have hd : ∀ c : Ahead, c.header checks = (.overflows, w, b) → checks = true := by
            intro c hc
            unfold Ahead.header at hc
            split at hc
            · cases hc
            split at hc
            · simp only at hc
              split at hc
              · cases hc
              · split at hc <;> cases hc
            · simp only [Ahead.start] at hc
              split at hc
              · cases hc
              split at hc
              · cases hc
              · split at hc
                · rename_i hck
                  exact hck.2
                · cases hc
          unfold Ahead.nextFrom at hx
          split at hx
          · cases hx
          · unfold Ahead.resume at hx
            split at hx
            · exact hd _ hx
            · split at hx
              · cases hx
              · split at hx
                · cases hx
                · exact hd _ hx
        rcases hn : a.nextFrom (skippingOf true 27 limit) ending checks with ⟨vd, w, bb⟩
        rw [hn] at h
        cases vd with
        | fails _ => cases h
        | overflows => exact hx _ _ hn
        | finishes => cases h
        | ends => exact ih bb h
        | starts name c =>
          simp only at h
          generalize attributesShown S Z (skippingOf true 27 limit) ending c bb fmt = r at h
          cases he : r.error with
          | some x => rw [he] at h; cases h
          | none => rw [he] at h; exact ih _ h
    have hov := hov (2 * bytes.length + 2) (bodyStart v ending body)
    unfold Prints at k1
    generalize outline S Z (skippingOf true 27 limit) ending checks fmt (2 * bytes.length + 2) (bodyStart v ending body) = r at k1 k2 hov
    cases hc : r.close with
    | footer b =>
      rw [hc] at k1
      obtain ⟨_, k1, -⟩ := k1
      rw [k1]
      trivial
    | error e => rw [hc] at k1; rw [k1]; trivial
    | badAttribute e =>
      rw [hc] at k1
      rw [k1]
      by_cases hf : fmt = .type
      · simp only [if_pos hf]; exact hf
      · simp only [if_neg hf]
    | overflow =>
      rw [hc] at k1
      rw [k1.1]
      exact ⟨rfl, hov hc⟩
    | more => exact absurd hc k2

/-- **C74** (written files). Of a file that was written, with a footer as usual, the program prints the outline of the forest that was
written: for every node its name, its attributes and its children one level further to the right, and its end; and the footer. -/
theorem C74_written (S : Dump.Shows) (Z : Zlib) (hZ : Z.Lawful) (s s' : Sink) (v : FbxVersion) (F : Forest Append) (f : Writer.FooterSpec)
    (h : session Z s v (calls F) f = (.ok (), s')) (hi : F.All (fun _ as => ∀ a ∈ as, intact a))
    (hlen : s'.buf.length + 2 ^ 32 ≤ 2 ^ 64) (hf : footSized f) (hpad : ∀ n, f.padding = .forced n → n.toNat ≤ 15)
    (hu2 : f.unknown2 = none) (hu3 : f.unknown3 = none) (fmt : Dump.Format) (checks : Bool) (ending : Option IoErr) (limit : Nat)
    (hlim : s'.buf.length ≤ limit) :
    (Dump.main S Z fmt checks s'.buf ending limit).1 = .ok ∧
    (Dump.main S Z fmt checks s'.buf ending limit).2.2 = versionText v.toNat ++ ['\n'] ++ forestText S fmt (F.map denote) 0 ++
      closingText S (.ok ⟨(footOf f).unknown1, paddingOf f (body v.toNat (attrBytes Z) (F.map denote)).length, [0, 0, 0, 0], v, [0xf8, 0x5a, 0x8c, 0x6a, 0xde, 0xf5, 0xd9, 0x7e, 0xec, 0xe9, 0x0c, 0xe3, 0x75, 0x8f, 0x29, 0x0b]⟩) := by
  refine dump_formats (S := S) (Z := Z) (skippingOf true 27 limit) ending fmt (fun α l text g onError e1 e2 e3 e4 e5 => ?_)
  obtain ⟨padding, q, h1, h2, -⟩ := C19_footer_round_trip Z hZ s s' v F f h hi (by omega) hf hpad hu2 hu3 false checks (allBy l)
    (obsText_expected fmt l text g e4 e5 _ 0 0 []).1 (some (fun _ _ _ => none)) (by intro f hf; cases hf; intros; rfl) ending 0 limit (by omega)
  have hop : ∃ p, anyParser checks true s'.buf ending 0 limit = .ok p := by
    unfold parseFile at h1
    split at h1
    · exact ⟨_, by assumption⟩
    · cases h1
  obtain ⟨p, hop⟩ := hop
  obtain ⟨a, b, c, d, bd, v', hb, hv, hp⟩ := (anyParser_ok_iff (by omega)).mp hop
  have hs := (C02_parser_versions checks v' _).mp ⟨p, hp⟩
  obtain ⟨x, y1, y2⟩ := C72_client (α := α) Z checks true ending 0 limit hlen hb hv hs (some (fun _ _ _ => none))
    (by intro f hf; cases hf; intros; rfl) false (allBy l) (2 * F.count + 1)
  have y3 : some x = some (_, q) := y1.symm.trans h1
  cases y3
  obtain ⟨k1, k2⟩ := C74_prints S Z fmt checks ending limit hlen hb hv hs
  simp only [Nat.zero_add] at y2
  have hseen := readingFor_noEnd (Z := Z) (skippingOf true 27 limit) ending checks false (allBy l) (2 * F.count + 1) 0 (bodyStart v' ending bd)
  have hout := outline_reading (S := S) (Z := Z) (skippingOf true 27 limit) ending checks fmt l text e2 (2 * F.count + 1) 0 (bodyStart v' ending bd)
  unfold SeesFor at y2
  generalize hr : readingFor Z (skippingOf true 27 limit) ending checks false (allBy l) (2 * F.count + 1) 0 (bodyStart v' ending bd) = r at y2 hseen hout
  cases hc : r.close with
  | error _ => rw [hc] at y2; cases y2.1
  | overflow => rw [hc] at y2; cases y2
  | more b =>
    rw [hc] at y2
    have := y2.1
    simp only [List.nil_append, Res.ok.injEq] at this
    have := hseen (.fbx _) (by rw [← this]; exact List.mem_append_right _ (List.mem_singleton.mpr rfl))
    cases this
  | footer bb =>
    rw [hc] at y2
    obtain ⟨footer, y2, y4⟩ := y2
    simp only [List.nil_append, Res.ok.injEq] at y2
    obtain ⟨y5, y6⟩ := List.append_inj' y2 rfl
    simp only [List.cons.injEq, Obs.fbx.injEq, and_true] at y6
    obtain ⟨o1, o2, o3⟩ := hout bb hc
    have ho := outline_unique (S := S) (Z := Z) (k := 2 * s'.buf.length + 2) (show _ ≠ OutlineEnd.more by rw [o1]; simp) k2
    rw [ho] at o1 o2
    unfold Prints at k1
    rw [o1] at k1
    obtain ⟨footer', k1, k3, k4⟩ := k1
    refine ⟨k1, ?_⟩
    have hf1 := (y4.1 _).mp y6.symm
    have hf2 := (k4.1 _).mpr hf1
    have hvv : v' = v := UInt32.toNat_inj.mp hf1.2.2.2.1.symm
    have h2' : paddingOf f (body v.toNat (attrBytes Z) (F.map denote)).length = padding := by
      rw [h2, paddingOf]
      cases f.padding <;> rfl
    rw [k3, hf2, o2, ← y5, h2', hvv]
    have := (obsText_expected fmt l text g e4 e5 (F.map denote) 0 0 []).2
    simp only [List.append_nil, obsText] at this
    rw [show (bodyStart v ending bd).opened.length = 0 from rfl, this]

/-! ## Examples -/

/-- Formats for the examples; errors are shown by whether they have a position. -/
def exDump : Dump.Shows := { exShows with error := fun e => if e.pos.isSome then ['?'] else ['!'] }

/-- The beginning of a file of version 7400, and a node `A` with one attribute whose type code does not exist. -/
def exBadAttr : Bytes := signature ++ [0xe8, 0x1c, 0, 0] ++ leBytes 4 42 ++ leBytes 4 1 ++ leBytes 4 1 ++ [1, 65] ++ [0]

/-- How a run ended, without details. -/
def Dump.End.code : Dump.End → Nat
  | .ok => 0 | .noParser _ => 1 | .failed _ => 2 | .unwrapped _ => 3 | .panics _ => 4 | .underflow => 5 | .stuck => 6

/-- **C74** (a malformed attribute). In the format with types only the program panics where it returns the error in the other formats. -/
theorem C74_type_unwraps :
    let run := fun fmt => ((Dump.main exDump Zlib.stored fmt true exBadAttr none (2 ^ 64)).1.code, (Dump.main exDump Zlib.stored fmt true exBadAttr none (2 ^ 64)).2.2)
    let text := "FBX version: 7.4\nNode start: \"A\"\n".toList
    run .type = (3, text) ∧ run .length = (2, text) ∧ run .full = (2, text) := by
  decide +kernel

example := C74_written exDump Zlib.stored Zlib.stored_lawful exSink _ 7400 exForest exFooter3
  (pair_eq (by decide +kernel)) (by simp [exForest, Forest.All, intact]) (by decide +kernel)
  ⟨by simp [exFooter3], by simp [exFooter3], by simp [exFooter3]⟩ (by simp [exFooter3]) rfl rfl .full true none (2 ^ 64) (by decide +kernel)

/-- What is printed of its nodes. -/
example : versionText 7400 ++ ['\n'] ++ forestText exDump .full (exForest.map denote) 0 = ("FBX version: 7.4\n" ++
    "Node start: \"A\"\n" ++
    "    Attribute: I32(5)\n" ++
    "    Attribute: type=String, len=2, value=\"xy\"\n" ++
    "    Attribute: type=ArrI32, len=2, value=[1, 2]\n" ++
    "    Node start: \"B\"\n" ++
    "    Node end\n" ++
    "Node end\n" ++
    "Node start: \"C\"\n" ++
    "    Attribute: Bool(true)\n" ++
    "Node end\n").toList := by decide +kernel

/-- The lines at the end. -/
example : closingText exDump (.ok ⟨[1, 2], 3, [], 7400, [4]⟩) = ("FBX end\n" ++
    "footer: FbxFooter {\n" ++
    "    unknown1: [\n" ++
    "        1,\n" ++
    "        2,\n" ++
    "    ],\n" ++
    "    padding_len: 3,\n" ++
    "    unknown2: [],\n" ++
    "    fbx_version: FbxVersion(\n" ++
    "        7400,\n" ++
    "    ),\n" ++
    "    unknown3: [\n" ++
    "        4,\n" ++
    "    ],\n" ++
    "}\n").toList := by decide +kernel

example := C74_prints exDump Zlib.stored .type true none (2 ^ 64) (bytes := exBadAttr) (a := 0xe8) (b := 0x1c) (c := 0) (d := 0) (v := 7400) (by decide) rfl
  (by decide) ⟨by decide, by decide⟩

/-- The only hypothesis of `C74_ends` is about the size of the file. -/
example : exBadAttr.length + 2 ^ 32 ≤ 2 ^ 64 := by decide +kernel

end Fbx
