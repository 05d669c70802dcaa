import Verif.Proof.WriterFree

/-! # Properties C06, C07, C10, C11, C13, C18: what the writer leaves on the device -/

namespace Fbx
open Spec Writer

/-! A concrete document for the examples: two nodes, one nested, several attributes. -/

/-- An empty working device. -/
def exSink : Sink := ⟨[1, 2, 3], 2, fun _ => none⟩
/-- The default footer. -/
def exFooter : FooterSpec := ⟨none, .default, none, none⟩
/-- A document. -/
def exForest : Forest Append :=
  .cons "A" [.i32 5, .string "xy", .arrI32 (some .zlib) [.ok 1, .ok 2]] (.cons "B" [] .nil .nil) (.cons "C" [.bool true] .nil .nil)

example : legal false (calls exForest) = true := by decide +kernel
example : (session Zlib.stored exSink 7400 (calls exForest) exFooter).1 = .ok () := by decide +kernel
example : (session Zlib.stored exSink 7500 (calls exForest) exFooter).1 = .ok () := by decide +kernel

/-! ## C06 Layout -/

/-- The layout of the calls `F`, with the bytes each call really produced. -/
theorem session_layout (Z : Zlib) (s s' : Sink) (v : FbxVersion) (ops : List Op) (f : FooterSpec)
    (hl : legal false ops = true) (h : session Z s v ops f = (.ok (), s')) :
    ∃ F, ops = calls F ∧ supported v.toNat ∧ forestFits v.toNat (produced Z) (callFits Z) F 27 ∧
      (document v.toNat (produced Z) F (footOf f)).length < 2 ^ 64 ∧
      s'.buf = document v.toNat (produced Z) F (footOf f) ++ s.buf.drop (document v.toNat (produced Z) F (footOf f)).length ∧
      s'.pos = (document v.toNat (produced Z) F (footOf f)).length := by
  have hc := session_ok_iff Z s v ops f _ _ h
  have hF : ∃ F, ops = calls F := by
    simp only [session] at h
    split at h
    · rename_i w s1 hn
      simp only [Prod.mk.injEq] at h
      have hw : w.opened = [] := by
        have := (new_ok_iff s.clear rfl v w.clear s1.clear).mp (new_calm _ _ _ _ hn)
        exact congrArg Writer.opened this.2.1
      rcases hr : (do run Z ops; finalize f : M WErr Writer Unit) w with ⟨q, w'⟩
      rw [hr] at h
      obtain ⟨h1, -⟩ := h
      simp only at h1
      subst h1
      rw [M.bind_ok_iff] at hr
      obtain ⟨_, w1, h2, h3⟩ := hr
      exact run_calls Z ops w w1 _ hl h2 hw (finalize_opened f w1 w' _ h3)
    · simp at h
    · simp at h
  obtain ⟨F, rfl⟩ := hF
  obtain ⟨h1, h2, h3, h4⟩ := (session_forest Z s.clear rfl v F f () s'.clear).mp hc
  exact ⟨F, rfl, h1, h2, h3, congrArg Sink.buf h4, congrArg Sink.pos h4⟩

/-- Whatever the device does and whatever calls are made: if all calls of a complete session succeed, the calls
are those of a forest `F`, and the device holds exactly the layout of `F` (the attributes being the ones the calls
denote), followed by whatever it held beyond; it is positioned at the end of the document. -/
theorem C06_layout (Z : Zlib) (s s' : Sink) (v : FbxVersion) (ops : List Op) (f : FooterSpec)
    (hl : legal false ops = true) (h : session Z s v ops f = (.ok (), s')) :
    ∃ F, ops = calls F ∧ supported v.toNat ∧
      (F.All (fun _ as => ∀ a ∈ as, intact a) →
        (let doc := document v.toNat (callBytes Z) F (footOf f)
         s'.buf = doc ++ s.buf.drop doc.length ∧ s'.pos = doc.length)) := by
  obtain ⟨F, h1, h2, -, -, h4, h5⟩ := session_layout Z s s' v ops f hl h
  refine ⟨F, h1, h2, fun hi => ?_⟩
  have := document_congr v.toNat _ _ F (footOf f) (intact_all Z F hi)
  simp only
  rw [← this]
  exact ⟨h4, h5⟩

/-- The forest of a sequence of calls is unique, so the layout is determined by the calls. -/
theorem C06_forest_unique : ∀ (F G : Forest Append), calls F = calls G → F = G := by
  have key : ∀ (F G : Forest Append) (xs ys : List Op), (∀ o, (o :: xs ≠ []) → True) →
      (xs = [] ∨ ∃ r, xs = .closeNode :: r) → (ys = [] ∨ ∃ r, ys = .closeNode :: r) →
      calls F ++ xs = calls G ++ ys → F = G ∧ xs = ys := by
    intro F
    induction F with
    | nil =>
      intro G xs ys _ hx hy h
      cases G with
      | nil => exact ⟨rfl, by simpa [calls] using h⟩
      | cons n as ch r =>
        simp only [calls, List.nil_append, List.cons_append] at h
        rcases hx with rfl | ⟨r, rfl⟩ <;> simp at h
    | cons n as ch r ih1 ih2 =>
      intro G xs ys _ hx hy h
      cases G with
      | nil =>
        simp only [calls, List.nil_append, List.cons_append] at h
        rcases hy with rfl | ⟨r, rfl⟩ <;> simp at h
      | cons m bs dh q =>
        simp only [calls, List.cons_append, List.append_assoc, List.cons.injEq, Op.newNode.injEq] at h
        obtain ⟨rfl, h⟩ := h
        have hattrs : ∀ (as bs : List Append) (p q : List Op), (∀ a r, p ≠ .append a :: r) → (∀ a r, q ≠ .append a :: r) →
            as.map Op.append ++ p = bs.map Op.append ++ q → as = bs ∧ p = q := by
          intro as
          induction as with
          | nil =>
            intro bs p q hp hq h
            cases bs with
            | nil => exact ⟨rfl, by simpa using h⟩
            | cons b bs => simp only [List.map_nil, List.nil_append, List.map_cons, List.cons_append] at h; exact absurd h (hp _ _)
          | cons a as ih =>
            intro bs p q hp hq h
            cases bs with
            | nil => simp only [List.map_nil, List.nil_append, List.map_cons, List.cons_append] at h; exact absurd h.symm (hq _ _)
            | cons b bs =>
              simp only [List.map_cons, List.cons_append, List.cons.injEq, Op.append.injEq] at h
              obtain ⟨rfl, h⟩ := h
              obtain ⟨rfl, rfl⟩ := ih bs p q hp hq h
              exact ⟨rfl, rfl⟩
        have hstart : ∀ (F : Forest Append) (xs : List Op) a r, calls F ++ .closeNode :: xs ≠ .append a :: r := by
          intro F xs a r
          cases F <;> simp [calls]
        obtain ⟨e1, h1⟩ := hattrs _ _ _ _ (hstart _ _) (hstart _ _) h
        obtain ⟨e2, h2⟩ := ih1 dh _ _ (fun _ _ => trivial) (.inr ⟨_, rfl⟩) (.inr ⟨_, rfl⟩) h1
        simp only [List.cons.injEq, true_and] at h2
        obtain ⟨e3, h3⟩ := ih2 q _ _ (fun _ _ => trivial) hx hy h2
        exact ⟨by rw [e1, e2, e3], h3⟩
  intro F G h
  exact (key F G [] [] (fun _ _ => trivial) (.inl rfl) (.inl rfl) (by simpa using h)).1

/-- The bytes of the example, against literal bytes. -/
example : (session Zlib.stored exSink 7400 (calls (.cons "A" [.i32 5] .nil .nil)) exFooter).2.buf.take 60 =
    signature ++ [0xe8, 0x1c, 0, 0] ++
    [46, 0, 0, 0, 1, 0, 0, 0, 5, 0, 0, 0, 1, 0x41, 0x49, 5, 0, 0, 0] ++ [0, 0, 0, 0, 0, 0, 0, 0, 0, 0, 0, 0, 0] ++ [0xf0] := by
  decide +kernel

/-! ## C07 End markers -/

/-- Closing a node moves the device forward by a marker exactly if the node has a child or no attribute, on any
device and from any state. -/
theorem C07_marker (Z : Zlib) (w w1 w2 : Writer) (name : String) (attrs : List Append) (children : Forest Append)
    (h1 : run Z (.newNode name :: (attrs.map Op.append ++ calls children)) w = (.ok (), w1))
    (h2 : closeNode w1 = (.ok (), w2)) :
    w2.sink.pos = w1.sink.pos +
      (if !children.isNil || attrs.isEmpty then (if w1.version.toNat < 7500 then 13 else 25) else 0) := by
  simp only [run, exec, run_append, M.bind_ok_iff] at h1
  obtain ⟨_, wa, ha, _, wb, hb, hc⟩ := h1
  have k1 := newNode_opened name w wa _ ha
  have k2 := run_attrs_opened Z attrs wa wb _ _ _ k1 hb
  have k3 := run_forest_opened Z children wb w1 _ hc
  obtain ⟨n, k4, k5⟩ := closeNode_opened w1 w2 _ h2
  rw [k2, k4] at k3
  rw [k5]
  have hsz : headerSize w1.version.toNat = if w1.version.toNat < 7500 then 13 else 25 := by
    simp only [headerSize, width]; split <;> rfl
  rw [hsz]
  cases children with
  | nil =>
    rw [if_pos (by simp [Forest.isNil]), List.cons.injEq] at k3
    rw [k3.1]
    cases attrs <;> simp [bumpBy, Forest.isNil]
  | cons a b c d =>
    rw [if_neg (by simp [Forest.isNil]), childTop, List.cons.injEq] at k3
    rw [k3.1]
    simp [Forest.isNil]

/-- In the final document, the marker follows the node's children and consists of zeros: see `Spec.nodes`, used by
`C06_layout`. For one node: -/
theorem C07_marker_bytes (Z : Zlib) (s s' : Sink) (v : FbxVersion) (name : String) (attrs : List Append)
    (children : Forest Append) (f : FooterSpec) (hi : (Forest.cons name attrs children .nil).All (fun _ as => ∀ a ∈ as, intact a))
    (hl : legal false (calls (.cons name attrs children .nil)) = true)
    (h : session Z s v (calls (.cons name attrs children .nil)) f = (.ok (), s')) :
    let size := if v.toNat < 7500 then 13 else 25
    let before := 27 + size + (utf8 name).length + (attrs.flatMap (callBytes Z)).length
    let childBytes := nodes v.toNat (callBytes Z) children before
    ((s'.buf.drop before).take childBytes.length = childBytes) ∧
    (children ≠ .nil ∨ attrs = [] → (s'.buf.drop (before + childBytes.length)).take size = List.replicate size 0) ∧
    (¬ (children ≠ .nil ∨ attrs = []) →
      s'.buf.drop (before + childBytes.length) = marker v.toNat ++
        (footer v.toNat (footOf f) (before + childBytes.length + size) ++
          s.buf.drop (document v.toNat (callBytes Z) (.cons name attrs children .nil) (footOf f)).length)) := by
  obtain ⟨F, h1, -, h3⟩ := C06_layout Z s s' v _ f hl h
  have := C06_forest_unique _ _ h1
  subst this
  obtain ⟨h4, -⟩ := h3 hi
  have hsz : headerSize v.toNat = if v.toNat < 7500 then 13 else 25 := by
    simp only [headerSize, width]; split <;> rfl
  simp only
  rw [← hsz]
  generalize hd : s.buf.drop (document v.toNat (callBytes Z) (.cons name attrs children .nil) (footOf f)).length = tail at *
  simp only [document, body, nodes, List.append_nil] at h4
  have hsig : signature.length = 23 := by decide
  generalize hA : attrs.flatMap (callBytes Z) = A at *
  have hch : ∀ o, o = 27 + headerSize v.toNat + (utf8 name).length + A.length → True := fun _ _ => trivial
  generalize hC : nodes v.toNat (callBytes Z) children (27 + headerSize v.toNat + (utf8 name).length + A.length) = C at *
  generalize hM : (if needsMarker attrs children = true then marker v.toNat else []) = Mk at *
  generalize hH : header v.toNat (27 + headerSize v.toNat + (utf8 name).length + A.length + C.length + Mk.length)
    attrs.length A.length (utf8 name).length = H at *
  have hHl : H.length = headerSize v.toNat := by rw [← hH]; simp
  have hpre : (signature ++ le 4 v.toNat ++ H ++ utf8 name ++ A).length = 27 + headerSize v.toNat + (utf8 name).length + A.length := by
    simp [hsig, hHl]; omega
  have hbuf : s'.buf = (signature ++ le 4 v.toNat ++ H ++ utf8 name ++ A) ++ (C ++ (Mk ++ (marker v.toNat ++
      (footer v.toNat (footOf f) (signature ++ le 4 v.toNat ++ (H ++ utf8 name ++ A ++ C ++ Mk) ++ marker v.toNat).length ++ tail)))) := by
    rw [h4]; simp only [List.append_assoc]
  have hdrop := congrArg (List.drop (27 + headerSize v.toNat + (utf8 name).length + A.length)) hbuf
  rw [List.drop_append_of_le_length (by omega),
    List.drop_of_length_le (l := signature ++ le 4 v.toNat ++ H ++ utf8 name ++ A) (by omega), List.nil_append] at hdrop
  have hdrop2 := congrArg (List.drop C.length) hdrop
  rw [List.drop_drop, List.drop_left] at hdrop2
  rw [hdrop, hdrop2, List.take_left]
  refine ⟨rfl, ?_⟩
  have hneeds : needsMarker attrs children = true ↔ (children ≠ .nil ∨ attrs = []) := by
    cases children <;> cases attrs <;> simp [needsMarker, Forest.isNil]
  constructor
  · intro hm
    rw [if_pos (hneeds.mpr hm)] at hM
    rw [← hM, show headerSize v.toNat = (marker v.toNat).length by simp, List.take_left]
    simp [marker]
  · intro hm
    rw [if_neg (fun h => hm (hneeds.mp h))] at hM
    subst hM
    rw [List.nil_append]
    congr 3
    simp [hsig, hHl]; omega

/-! ## C10 No truncated field -/

/-- If all calls of a session succeed, every length, count and offset fits the field it is stored in (and so is
stored exactly by `Spec.le`). -/
theorem C10_no_truncation (Z : Zlib) (s s' : Sink) (v : FbxVersion) (ops : List Op) (f : FooterSpec)
    (hl : legal false ops = true) (h : session Z s v ops f = (.ok (), s')) :
    ∃ F, ops = calls F ∧ (F.All (fun _ as => ∀ a ∈ as, intact a) →
      forestFits v.toNat (callBytes Z) (callFits Z) F 27) := by
  obtain ⟨F, h1, -, h3, -⟩ := session_layout Z s s' v ops f hl h
  exact ⟨F, h1, fun hi => (forestFits_congr _ _ _ _ F 27 (intact_all Z F hi)).mp h3⟩

/-- Fields that fit are not truncated. -/
theorem C10_field_exact (k n : Nat) (h : n < 256 ^ k) : fromLe (le k n) = n := by
  rw [le_eq, fromLe_leBytes h]

/-! ## C11 A well-used writer succeeds -/

/-- On a working device, a session writing `F` succeeds exactly if the version is supported and all sizes fit. -/
theorem C11_success_iff (Z : Zlib) (s : Sink) (hs : s.fault = fun _ => none) (v : FbxVersion) (F : Forest Append)
    (hi : F.All (fun _ as => ∀ a ∈ as, intact a)) (f : FooterSpec) :
    (session Z s v (calls F) f).1 = .ok () ↔
      supported v.toNat ∧ forestFits v.toNat (callBytes Z) (callFits Z) F 27 ∧
      (document v.toNat (callBytes Z) F (footOf f)).length < 2 ^ 64 := by
  have h1 := intact_all Z F hi
  rw [← forestFits_congr _ _ _ _ F 27 h1, ← document_congr _ _ _ F _ h1]
  constructor
  · intro h
    rcases hr : session Z s v (calls F) f with ⟨q, s'⟩
    rw [hr] at h
    simp only at h
    subst h
    have := (session_forest Z s hs v F f () s').mp hr
    exact ⟨this.1, this.2.1, this.2.2.1⟩
  · intro ⟨h2, h3, h4⟩
    rw [(session_forest Z s hs v F f () _).mpr ⟨h2, h3, h4, rfl⟩]

example : supported (7400 : FbxVersion).toNat ∧ forestFits 7400 (callBytes Zlib.stored) (callFits Zlib.stored) exForest 27 ∧
    (document 7400 (callBytes Zlib.stored) exForest (footOf exFooter)).length < 2 ^ 64 :=
  (C11_success_iff Zlib.stored exSink rfl 7400 exForest (by simp [exForest, Forest.All, intact]) exFooter).mp (by decide +kernel)

theorem reach_ok (Z : Zlib) (s : Session) (h : Reach Z s) : SessionOk s := by
  induction h with
  | start s s' v w hn =>
    have := (new_ok_iff s.clear rfl v w.clear s'.clear).mp (new_calm _ _ _ _ hn)
    have ho : w.opened = [] := congrArg Writer.opened this.2.1
    simp [SessionOk, Writer.Inv, ho]
  | step s s' o r _ hst hr ih =>
    have := step_safe Z s ih o r s' hst
    match r with
    | .ok _ => exact this
    | .err (.io _) => exact hr.elim
    | .err (.compression _) => exact hr.elim
    | .err (.attributeTooLong _) => exact this.resolve_left id
    | .err (.fileTooLarge _) => exact this.resolve_left id
    | .err .noNodesToClose => exact this.resolve_left id
    | .err (.nodeNameTooLong _) => exact this.resolve_left id
    | .err (.tooManyArrayElements _) => exact this.resolve_left id
    | .err (.tooManyAttributes _) => exact this.resolve_left id
    | .err (.unclosedNode _) => exact this.resolve_left id
    | .err (.unsupportedFbxVersion _) => exact this.resolve_left id
    | .err (.userDefined _) => exact this.resolve_left id
    | .panic _ => exact this.elim

/-- After any history of calls without I/O errors, on any device, no call panics (whatever the device does during
that call). -/
theorem C11_no_panic (Z : Zlib) (s s' : Session) (o : Op) (r : Res WErr Unit) (h : Reach Z s)
    (hst : s.step Z o = some (r, s')) (p : Panic) : r ≠ .panic p := by
  have := step_safe Z s (reach_ok Z s h) o r s' hst
  intro hr
  subst hr
  exact this

/-- `finalize` never panics, in any state and on any device. -/
theorem C11_finalize_no_panic (f : FooterSpec) (w : Writer) (p : Panic) : (finalize f w).1 ≠ .panic p := by
  have : M.wp (finalize f) (fun _ _ => True) (fun _ _ => True) (fun _ _ => False) w := by
    unfold finalize
    rw [M.wp_bind, M.wp_get]
    simp only [M.wp_ite]
    split
    · trivial
    · have g : Grow (do
        writeNodeHeader NodeHeader.nodeEnd
        put f.field1
        let len ← paddingLen f.padding
        put (zeros len)
        put f.field2
        writeFbxVersion
        put (zeros 120)
        put f.field3 : M WErr Writer Unit) := by
        refine Grow.bind (Grow.writeNodeHeader _) fun _ => Grow.bind (Grow.put _) fun _ => Grow.bind ?_ fun _ =>
          Grow.bind (Grow.put _) fun _ => Grow.bind (Grow.put _) fun _ => Grow.bind ?_ fun _ =>
          Grow.bind (Grow.put _) fun _ => Grow.put _
        · cases f.padding
          · exact Grow.bind Grow.tell fun _ => Grow.pure _
          · exact Grow.pure _
        · intro w
          unfold writeFbxVersion
          rw [M.wp_bind, M.wp_get]
          exact Grow.put _ w
      exact M.wp_mono (g w) (fun _ _ _ => trivial) (fun _ _ _ => trivial) (fun _ _ h => h)
  intro hp
  rcases hr : finalize f w with ⟨q, w'⟩
  rw [hr] at hp
  simp only at hp
  subst hp
  rw [M.wp, hr] at this
  exact this

/-! ## C13 Previous content -/

/-- Two successful sessions with the same calls on devices with different previous content and behaviour: both
hold the same document from offset 0, followed by what they held beyond it. -/
theorem C13_previous_content (Z : Zlib) (s1 s2 s1' s2' : Sink) (v : FbxVersion) (ops : List Op) (f : FooterSpec)
    (hl : legal false ops = true) (h1 : session Z s1 v ops f = (.ok (), s1')) (h2 : session Z s2 v ops f = (.ok (), s2')) :
    ∃ doc, s1'.buf = doc ++ s1.buf.drop doc.length ∧ s2'.buf = doc ++ s2.buf.drop doc.length ∧
      s1'.pos = doc.length ∧ s2'.pos = doc.length := by
  obtain ⟨F, e1, -, -, -, h4, h5⟩ := session_layout Z s1 s1' v ops f hl h1
  obtain ⟨G, e2, -, -, -, h6, h7⟩ := session_layout Z s2 s2' v ops f hl h2
  have : F = G := C06_forest_unique _ _ (by rw [← e1, ← e2])
  subst this
  exact ⟨_, h4, h6, h5, h7⟩

example : (session Zlib.stored ⟨[], 0, fun _ => none⟩ 7400 (calls exForest) exFooter).1 = .ok () ∧
    (session Zlib.stored ⟨List.replicate 1000 7, 500, fun i => if i = 1000 then some ⟨3, .other 0⟩ else none⟩ 7400 (calls exForest) exFooter).1 = .ok () := by
  decide +kernel

/-- Old bytes beyond the document survive: the device is not truncated. -/
example : ((session Zlib.stored ⟨List.replicate 1000 7, 500, fun _ => none⟩ 7400 (calls exForest) exFooter).2.buf.length = 1000) ∧
    ((session Zlib.stored ⟨List.replicate 1000 7, 500, fun _ => none⟩ 7400 (calls exForest) exFooter).2.pos < 1000) := by
  decide +kernel

/-! ## C18 Alignment -/

/-- With the default padding (and footer fields of the lengths their Rust types enforce) the document consists of
what precedes the footer, then 16 + pad + 4 + 4 + 120 + 16 bytes with `pad ≤ 15`, and its length is a multiple of 16. -/
theorem C18_aligned (Z : Zlib) (s s' : Sink) (v : FbxVersion) (ops : List Op) (f : FooterSpec)
    (hl : legal false ops = true) (h : session Z s v ops f = (.ok (), s')) (hp : f.padding = .default)
    (h1 : ∀ x, f.unknown1 = some x → x.length = 16) (h2 : ∀ x, f.unknown2 = some x → x.length = 4)
    (h3 : ∀ x, f.unknown3 = some x → x.length = 16) :
    s'.pos % 16 = 0 ∧ ∃ F pad, ops = calls F ∧ pad < 16 ∧
      s'.pos = (body v.toNat (produced Z) F).length + (16 + pad + 4 + 4 + 120 + 16) := by
  obtain ⟨F, e1, -, -, -, -, h5⟩ := session_layout Z s s' v ops f hl h
  have l1 : (footOf f).unknown1.length = 16 := by
    simp only [footOf]; cases hx : f.unknown1 with
    | none => rfl
    | some x => simpa using h1 x hx
  have l2 : (footOf f).unknown2.length = 4 := by
    simp only [footOf]; cases hx : f.unknown2 with
    | none => rfl
    | some x => simpa using h2 x hx
  have l3 : (footOf f).unknown3.length = 16 := by
    simp only [footOf]; cases hx : f.unknown3 with
    | none => rfl
    | some x => simpa using h3 x hx
  have lp : padLen (footOf f) (body v.toNat (produced Z) F).length = alignPad ((body v.toNat (produced Z) F).length + 16) := by
    simp only [padLen, footOf, hp] at l1 ⊢
    simp [l1]
  have hlen : (document v.toNat (produced Z) F (footOf f)).length = (body v.toNat (produced Z) F).length +
      (16 + alignPad ((body v.toNat (produced Z) F).length + 16) + 4 + 4 + 120 + 16) := by
    simp only [document, footer, List.length_append, l1, l2, l3, lp, List.length_replicate, le_length]
  rw [hlen] at h5
  refine ⟨?_, F, _, e1, ?_, h5⟩
  · rw [h5]; simp only [alignPad]; omega
  · simp only [alignPad]; omega

end Fbx
