import Verif.Proof.SimClient

/-! # Programs that do not look at what they do not consume -/

namespace Fbx
open Reader

/-- On related states: equal results and related states, or the second run has escaped; escapes are final. -/
def Loc {ε σ α : Type} (R : σ → σ → Prop) (E : σ → Prop) (m : M ε σ α) : Prop :=
  (∀ {s t}, R s t → Sim false R E (m s) (m t)) ∧ Keeps E m

namespace Loc
variable {ε ε' σ α β : Type} {R : σ → σ → Prop} {E : σ → Prop}

theorem bind {m : M ε σ α} {f : α → M ε σ β} (h : Loc R E m) (hf : ∀ a, Loc R E (f a)) : Loc R E (m >>= f) :=
  ⟨fun hr => .bind' (h.1 hr) (fun a _ _ h => (hf a).1 h) (fun a => (hf a).2), .bind h.2 fun a => (hf a).2⟩

theorem pure (a : α) : Loc R E (Pure.pure a : M ε σ α) := ⟨fun h => .pure a h, .pure a⟩
theorem throw (e : ε) : Loc R E (M.throw e : M ε σ α) := ⟨fun h => .throw e h, .throw e⟩
theorem panic (e : Panic) : Loc R E (M.panic e : M ε σ α) := ⟨fun h => .panic e h, .panic e⟩
theorem ofExcept (r : Except ε α) : Loc R E (M.ofExcept r : M ε σ α) := ⟨fun h => .ofExcept r h, .ofExcept r⟩
theorem assert (b : Bool) (e : Panic) : Loc R E (M.assert b e : M ε σ Unit) := ⟨fun h => .assert b e h, .assert b e⟩
theorem modify {g : σ → σ} (h1 : ∀ s t, R s t → R (g s) (g t)) (h2 : ∀ s, E s → E (g s)) : Loc R E (M.modify g : M ε σ Unit) :=
  ⟨fun h => .modify (h1 _ _ h), .modify h2⟩
theorem ite {c : Prop} [Decidable c] {m n : M ε σ α} (h1 : Loc R E m) (h2 : Loc R E n) : Loc R E (if c then m else n) := by
  split
  · exact h1
  · exact h2
theorem mapErr {f : ε → ε'} {m : M ε σ α} (h : Loc R E m) : Loc R E (M.mapErr f m) := ⟨fun hr => .mapErr (h.1 hr), .mapErr h.2⟩

/-- The state may be inspected as far as related states agree. -/
theorem get {f : σ → M ε σ α} (h1 : ∀ s t, R s t → f t = f s) (h2 : ∀ s, Loc R E (f s)) : Loc R E (M.get >>= f) := by
  refine ⟨fun {s t} h => ?_, fun s hs => (h2 s).2 s hs⟩
  show Sim false R E (f s s) (f t t)
  rw [h1 s t h]
  exact (h2 s).1 h

/-- The same without `get`. -/
theorem look {m : M ε σ α} (f : σ → M ε σ α) (h0 : ∀ s, m s = f s s) (h1 : ∀ s t, R s t → f t = f s) (h2 : ∀ s, Loc R E (f s)) : Loc R E m := by
  have : m = M.get >>= f := funext h0
  rw [this]
  exact .get h1 h2

/-- Continuation on any result. -/
theorem andThen {m : M ε σ α} {g : Res ε α → M ε' σ β} (h : Loc R E m) (hg : ∀ x, Loc R E (g x)) : Loc R E (fun s => g (m s).1 (m s).2) := by
  refine ⟨fun {s t} hr => ?_, fun s hs => (hg _).2 _ (h.2 s hs)⟩
  rcases h.1 hr with ⟨h1, h2⟩ | ⟨h1, _⟩
  · simp only
    rw [h1]
    exact (hg _).1 h2
  · exact .inr ⟨(hg _).2 _ h1, fun h => nomatch h⟩

theorem zoom {τ : Type} {R' : τ → τ → Prop} {E' : τ → Prop} {g : σ → τ} {st : τ → σ → σ} {m : M ε τ α} (h : Loc R' E' m)
    (h1 : ∀ s t, R s t → R' (g s) (g t)) (h2 : ∀ s t u v, R s t → R' u v → R (st u s) (st v t))
    (h3 : ∀ s, E s → E' (g s)) (h4 : ∀ t s, E' t → E (st t s)) : Loc R E (M.zoom g st m) := by
  refine ⟨fun {s t} hr => ?_, .zoom h.2 h3 h4⟩
  simp only [M.zoom_apply]
  rcases h.1 (h1 _ _ hr) with ⟨e1, e2⟩ | ⟨e1, _⟩
  · exact .inl ⟨e1, h2 _ _ _ _ hr e2⟩
  · exact .inr ⟨h4 _ _ e1, fun h => nomatch h⟩

end Loc

/-- What is needed of the sources. -/
structure LocSrc (R : Reader → Reader → Prop) (E : Reader → Prop) : Prop where
  pos : ∀ {r s}, R r s → s.position = r.position
  exact_ : ∀ n, Loc R E (readExact n)
  read : ∀ n, Loc R E (Reader.read n)
  skip : ∀ q, Loc R E (skipTo q)

namespace LocSrc
variable {R : Reader → Reader → Prop} {E : Reader → Prop} (H : LocSrc R E) {Z : Zlib} {α e : Type}

/-- Pairs with the same first component. -/
def pairRel (R : Reader → Reader → Prop) {S : Type} (x y : S × Reader) : Prop := y.1 = x.1 ∧ R x.2 y.2
def pairEsc (E : Reader → Prop) {S : Type} (x : S × Reader) : Prop := E x.2

include H

theorem le (n : Nat) : Loc R E (Reader.readLe n) := .bind (H.exact_ n) fun _ => .pure _
theorem u8 : Loc R E Reader.readU8 := .bind (H.exact_ 1) fun _ => .pure _

theorem zKeep : ∀ (fuel n : Nat) (acc : Bytes), Keeps (pairEsc E) (Dec.zRead Z fuel n acc) := by
  intro fuel
  induction fuel with
  | zero => intro n acc s h; exact h
  | succ fuel ih =>
    intro n acc s h
    obtain ⟨z, r⟩ := s
    simp only [Dec.zRead]
    split
    · exact h
    · split
      · have := H.u8.2 r h
        split
        · rename_i hr; rw [hr] at this; exact ih _ _ _ this
        · rename_i hr; rw [hr] at this; exact this
        · rename_i hr; rw [hr] at this; exact this
      · exact ih _ _ _ h
      · exact h
      · exact h

theorem zSim : ∀ (fuel fuel' n : Nat) (acc : Bytes) (z : Z.S) (r s : Reader), R r s → n + r.rest.length < fuel → n + s.rest.length < fuel' →
    Sim false (pairRel R) (pairEsc E) (Dec.zRead Z fuel n acc (z, r)) (Dec.zRead Z fuel' n acc (z, s)) := by
  intro fuel
  induction fuel with
  | zero => intro fuel' n acc z r s h h1; omega
  | succ fuel ih =>
    intro fuel' n acc z r s h h1 h2
    cases fuel' with
    | zero => omega
    | succ fuel' =>
      simp only [Dec.zRead]
      by_cases hn : n = 0
      · rw [if_pos hn, if_pos hn]; exact .inl ⟨rfl, rfl, h⟩
      · rw [if_neg hn, if_neg hn]
        cases hz : Z.step z with
        | need k =>
          simp only []
          have hb := H.u8.1 h
          rcases hr : Reader.readU8 r with ⟨x, r'⟩
          rcases hs : Reader.readU8 s with ⟨y, s'⟩
          rw [hr, hs] at hb
          rcases hb with ⟨e1, e2⟩ | ⟨e1, _⟩
          · simp only at e1 e2
            subst e1
            cases x with
            | ok b =>
              have l1 := readU8_len hr
              have l2 := readU8_len hs
              exact ih fuel' n acc (k b) r' s' e2 (by omega) (by omega)
            | err e => exact .inl ⟨rfl, rfl, e2⟩
            | panic e => exact .inl ⟨rfl, rfl, e2⟩
          · refine .inr ⟨?_, fun h => nomatch h⟩
            cases y with
            | ok b => exact H.zKeep _ _ _ _ e1
            | err e => exact e1
            | panic e => exact e1
        | emit b z' => exact ih fuel' (n - 1) (acc ++ [b]) z' r s h (by omega) (by omega)
        | eof => exact .inl ⟨rfl, rfl, h⟩
        | fail => exact .inl ⟨rfl, rfl, h⟩

theorem dec (n : Nat) : Loc (pairRel R) (pairEsc E) (Dec.readExact (Z := Z) n) := by
  constructor
  · rintro ⟨d, r⟩ ⟨d', s⟩ ⟨h1, h⟩
    simp only at h1 h
    subst h1
    cases d' with
    | direct =>
      simp only [Dec.readExact]
      rcases (H.exact_ n).1 h with ⟨h1, h2⟩ | h
      · exact .inl ⟨h1, rfl, h2⟩
      · exact .inr h
    | zlib z =>
      simp only [Dec.readExact]
      rcases H.zSim (n + r.rest.length + 1) (n + s.rest.length + 1) n [] z r s h (by omega) (by omega) with ⟨h1, h2⟩ | h
      · exact .inl ⟨h1, by show Dec.zlib _ = Dec.zlib _; rw [h2.1], h2.2⟩
      · exact .inr h
  · rintro ⟨d, r⟩ h
    cases d with
    | direct => exact (H.exact_ n).2 r h
    | zlib z => exact H.zKeep _ _ _ (z, r) h

theorem create (enc : ArrEnc) : Loc R E (Dec.create Z enc) := by
  cases enc with
  | direct => exact .pure _
  | zlib =>
    refine .bind (.mapErr H.u8) fun a => .bind (.mapErr H.u8) fun b => ?_
    cases Z.header a b with
    | none => exact .throw _
    | some z => exact .pure _

theorem elemNext (t : ElemTy e) : Loc (pairRel R) (pairEsc E) (ElemIter.next (Z := Z) t) := by
  constructor
  · rintro ⟨it, r⟩ ⟨it', s⟩ ⟨h1, h⟩
    simp only at h1 h
    subst h1
    simp only [ElemIter.next]
    by_cases hr : it'.rest = 0
    · rw [if_pos hr, if_pos hr]; exact .inl ⟨rfl, rfl, h⟩
    · rw [if_neg hr, if_neg hr]
      have hd := (H.dec (Z := Z) t.size).1 (s := (it'.dec, r)) (t := (it'.dec, s)) ⟨rfl, h⟩
      rcases h1 : Dec.readExact t.size (it'.dec, r) with ⟨x, d1, r1⟩
      rcases h2 : Dec.readExact t.size (it'.dec, s) with ⟨y, d2, s1⟩
      rw [h1, h2] at hd
      rcases hd with ⟨e1, e2⟩ | ⟨e1, e2⟩
      · obtain ⟨e2, e3⟩ := e2
        simp only at e1 e2 e3
        subst e1 e2
        cases x <;> exact .inl ⟨rfl, rfl, e3⟩
      · cases y <;> exact .inr ⟨e1, fun h => nomatch h⟩
  · rintro ⟨it, r⟩ h
    have := (H.dec (Z := Z) t.size).2 (it.dec, r) h
    simp only [ElemIter.next]
    split
    · exact h
    · split <;> (rename_i h1; rw [h1] at this; exact this)

theorem run (t : ElemTy e) (c : SeqCons e α) : Loc (pairRel R) (pairEsc E) (ElemIter.run (Z := Z) t c) := by
  induction c with
  | done r => exact .ofExcept r
  | pull k ih => exact .bind (H.elemNext t) fun x => ih x

theorem take (n : Nat) : Loc (pairRel R) (pairEsc E) (takeRead n) := by
  constructor
  · rintro ⟨l, r⟩ ⟨l', s⟩ ⟨h1, h⟩
    simp only at h1 h
    subst h1
    simp only [takeRead]
    by_cases hl : l' = 0
    · rw [if_pos hl, if_pos hl]; exact .inl ⟨rfl, rfl, h⟩
    · rw [if_neg hl, if_neg hl]
      have hd := (H.read (min n l')).1 h
      rcases h1 : Reader.read (min n l') r with ⟨x, r1⟩
      rcases h2 : Reader.read (min n l') s with ⟨y, s1⟩
      rw [h1, h2] at hd
      rcases hd with ⟨e1, e2⟩ | ⟨e1, e2⟩
      · simp only at e1 e2
        subst e1
        cases x <;> exact .inl ⟨rfl, rfl, e2⟩
      · cases y <;> exact .inr ⟨e1, fun h => nomatch h⟩
  · rintro ⟨l, r⟩ h
    have := (H.read (min n l)).2 r h
    simp only [takeRead]
    split
    · exact h
    · split <;> (rename_i h1; rw [h1] at this; exact this)

theorem cons (c : ReadCons α) : Loc (pairRel R) (pairEsc E) c.run := by
  induction c with
  | done r => exact .ofExcept r
  | read n k ih =>
    have hg : ∀ x : Res IoErr Bytes, Loc (pairRel R) (pairEsc E) (match x with
        | .ok bs => (k (.ok bs)).run | .err e => (k (.error e)).run | .panic x => M.panic x : M PErr (Nat × Reader) α) := by
      intro x
      cases x with
      | ok bs => exact ih _
      | err e => exact ih _
      | panic e => exact .panic e
    have := Loc.andThen (H.take n) hg
    refine (congrArg (Loc (pairRel R) (pairEsc E)) (funext fun s => ?_)).mp this
    simp only [ReadCons.run]
    rcases takeRead n s with ⟨_ | _ | _, s'⟩ <;> rfl

end LocSrc

namespace Parser
variable {R : Reader → Reader → Prop} {E : Reader → Prop} {α : Type}

/-- Parser programs. -/
abbrev LocP (R : Reader → Reader → Prop) (E : Reader → Prop) {α : Type} (m : M PErr Parser α) : Prop := Loc (PRel R) (PEsc E) m

theorem io_loc {m : M IoErr Reader α} (h : Loc R E m) : LocP R E (io m) := ⟨fun hr => io_sim hr (h.1 hr.2), io_keeps h.2⟩
theorem warn_loc (w : Warning) (pos : SynPos) : LocP R E (warn w pos) := ⟨fun h => warn_sim h w pos, warn_keeps w pos⟩
theorem warnIf_loc (c : Bool) (w : Warning) (pos : SynPos) : LocP R E (warnIf c w pos) := ⟨fun h => warnIf_sim h c w pos, warnIf_keeps c w pos⟩
theorem addAttrEnd_loc (a c : Nat) : LocP R E (addAttrEnd a c) := ⟨fun h => addAttrEnd_sim h a c, addAttrEnd_keeps a c⟩
theorem ensure_loc : LocP R E ensureContinuable := ⟨fun h => ensure_sim h, ensure_keeps⟩
theorem pushNode_loc (n : Started) : LocP R E (M.modify (pushNode n)) := .modify (fun _ _ h => pushNode_rel h n) (fun _ h => pushNode_esc n h)
theorem setStarted_loc (s : List Started) : LocP R E (M.modify fun p => { p with started := s }) :=
  .modify (fun _ _ h => setStarted_rel h s) (fun _ h => h)

variable (H : LocSrc R E)
include H

theorem position_loc : LocP R E position := by
  refine .look (fun p => if p.started ≠ [] ∧ p.toplevel = 0 then M.panic .noToplevel else pure p.synPos) (fun p => ?_) (fun p q h => ?_) (fun p => .ite (.panic _) (.pure _))
  · simp only [position]; split <;> rfl
  · simp only [synPos, h.started, h.toplevel, H.pos h.2]

theorem readNodeHeader_loc : LocP R E readNodeHeader := by
  refine .get (fun p q h => ?_) fun p => ?_
  · simp only [h.version]
  · exact .bind (io_loc (H.le _)) fun _ => .bind (io_loc (H.le _)) fun _ => .bind (io_loc (H.le _)) fun _ => .bind (io_loc (H.le _)) fun _ => .pure _

theorem skipUnread_loc : LocP R E skipUnreadAttributes := by
  refine .get (fun p q h => ?_) fun p => ?_
  · simp only [h.started, H.pos h.2]
  · cases p.started with
    | nil => exact .pure _
    | cons n r => exact .ite (io_loc (H.skip _)) (.pure _)

theorem tryImplicitEnd_loc : LocP R E tryImplicitEnd := by
  refine .get (fun p q h => ?_) fun p => ?_
  · simp only [h.started, H.pos h.2, h.last]
  · cases p.started with
    | nil => exact .pure _
    | cons n r =>
      refine .ite (.throw _) (.ite (.ite ?_ ?_) (.pure _))
      · exact .bind (position_loc H) fun _ => .bind (warn_loc _ _) fun _ => .bind (setStarted_loc r) fun _ => .pure _
      · exact .bind (setStarted_loc r) fun _ => .pure _

theorem explicitEnd_loc : LocP R E explicitEnd := by
  refine .look (fun p => match p.started with
    | [] => pure .endFbx
    | n :: outer => do
      M.modify (fun p => { p with started := outer })
      if n.endOff ≠ p.reader.position then M.throw (PErr.ofData (.nodeLengthMismatch n.endOff (some p.reader.position)))
      else do
        if n.attrCount ≠ 0 ∧ n.kids = 0 then do
          let pos ← position
          warn .extraNodeEndMarker pos
        else pure ()
        pure .endNode) (fun p => ?_) (fun p q h => ?_) (fun p => ?_)
  · rw [explicitEnd, M.get_bind]
    cases p.started <;> rfl
  · simp only [h.started, H.pos h.2]
  · cases p.started with
    | nil => exact .pure _
    | cons n r =>
      refine .bind (setStarted_loc r) fun _ => .ite (.throw _) (.ite ?_ (.pure _))
      exact .bind (position_loc H) fun _ => .bind (warn_loc _ _) fun _ => .pure _

theorem warnEmptyName_loc (s : Nat) : LocP R E (warnEmptyName s) := by
  refine .bind (position_loc H) fun pos => .get (fun p q h => ?_) fun p => warn_loc _ _
  simp only [h.started, H.pos h.2, h.toplevel]

theorem namePart_loc (s : Nat) (hd : NodeHeader) : LocP R E (namePart s hd) := by
  refine .bind (io_loc (H.exact_ _)) fun bs => ?_
  cases stringOfUtf8 bs with
  | none => exact .throw _
  | some name =>
    refine .get (fun p q h => ?_) fun p => .bind (addAttrEnd_loc _ _) fun _ => .bind (pushNode_loc _) fun _ => .pure _
    simp only [H.pos h.2]

theorem startNode_loc (s : Nat) (hd : NodeHeader) : LocP R E (startNode s hd) := by
  rw [startNode]
  exact .ite (.bind (warnEmptyName_loc H _) fun _ => namePart_loc H s hd) (namePart_loc H s hd)

theorem eventPart_loc : LocP R E eventPart := by
  refine .get (fun p q h => ?_) fun p => .bind (tryImplicitEnd_loc H) fun _ => .ite (.pure _)
    (.bind (readNodeHeader_loc H) fun _ => .ite (explicitEnd_loc H) (startNode_loc H _ _))
  simp only [H.pos h.2]

theorem nextEventImpl_loc : LocP R E nextEventImpl := by
  refine .get (fun p q h => ?_) fun p => .bind (.assert _ _) fun _ => .bind (.assert _ _) fun _ => .bind (skipUnread_loc H) fun _ => eventPart_loc H
  simp only [h.health, h.last]

theorem readFooter_loc : LocP R E readFooter := by
  rw [readFooter]
  refine .get (fun p q h => ?_) fun p => .bind (io_loc (H.exact_ _)) fun u1 => .get (fun p q h => ?_) fun p =>
    .bind (warnIf_loc _ _ _) fun _ => .bind (io_loc (H.exact_ _)) fun buf => ?_
  · simp only [H.pos h.2]
  · simp only [H.pos h.2]
  · cases (buf.drop 128).findIdx? (fun x => decide (x ≠ 0)) with
    | none => exact .throw _
    | some i =>
      refine .bind (.assert _ _) fun _ => .bind (.assert _ _) fun _ => .ite (.throw _) (.ite (.throw _) (.get (fun p q h => ?_) fun p => ?_))
      · simp only [h.version]
      · exact .ite (.throw _) (.ite (.throw _) (.bind (io_loc (H.exact_ _)) fun _ => .ite (.throw _) (.bind (warnIf_loc _ _ _) fun _ => .pure _)))

theorem makeEvent_loc (k : EvKind) : LocP R E (makeEvent k) := by
  cases k with
  | startNode =>
    refine .look (fun p => match p.started with | [] => M.panic .noCurrentNode | n :: _ => pure (.startNode n.name n.attrCount)) (fun p => ?_) (fun p q h => ?_) (fun p => ?_)
    · simp only [makeEvent]; cases p.started <;> rfl
    · simp only [h.started]
    · cases p.started with
      | nil => exact .panic _
      | cons n r => exact .pure _
  | endNode => exact .pure _
  | endFbx =>
    have hg : ∀ x : Res PErr Footer, LocP R E (match x with
        | .ok f => pure (.endFbx (.ok f)) | .err e => pure (.endFbx (.error e)) | .panic x => M.panic x : M PErr Parser Event) := by
      intro x
      cases x with
      | ok bs => exact .pure _
      | err e => exact .pure _
      | panic e => exact .panic e
    refine (congrArg (Loc (PRel R) (PEsc E)) (funext fun s => ?_)).mp (Loc.andThen (readFooter_loc H) hg)
    simp only [makeEvent]
    rcases readFooter s with ⟨_ | _ | _, s'⟩ <;> rfl

/-- Records the kind of the event. -/
def noteEvent (k : EvKind) (p' : Parser) : Parser :=
  let p1 := if k = .endFbx then { p' with health := .finished } else p'
  { p1 with last := some k }

omit H in
theorem noteEvent_rel {p q : Parser} (h : PRel R p q) (k : EvKind) : PRel R (noteEvent k p) (noteEvent k q) := by
  simp only [noteEvent]
  split
  · exact setLast_rel (setHealth_rel h _) _
  · exact setLast_rel h _

omit H in
theorem noteEvent_esc {p : Parser} (h : PEsc E p) (k : EvKind) : PEsc E (noteEvent k p) := by
  simp only [noteEvent]
  split <;> exact h

theorem abort_loc (e : PErr) : LocP R E (fun p' : Parser => match Parser.position p' with
      | (.ok pos, p'') => (.err (e.andPosition pos), p''.setAborted pos)
      | (.err e', p'') => (.err e', p'')
      | (.panic x, p'') => (.panic x, p'') : M PErr Parser α) := by
  have hg : ∀ x : Res PErr SynPos, LocP R E (match x with
      | .ok pos => M.modify (setAborted pos) >>= fun _ => M.throw (e.andPosition pos)
      | .err e => M.throw e | .panic x => M.panic x : M PErr Parser α) := by
    intro x
    cases x with
    | ok pos => exact .bind (.modify (fun _ _ h => setHealth_rel h _) (fun _ h => h)) fun _ => .throw _
    | err e => exact .throw _
    | panic e => exact .panic e
  refine (congrArg (Loc (PRel R) (PEsc E)) (funext fun s => ?_)).mp (Loc.andThen (position_loc H) hg)
  rcases Parser.position s with ⟨_ | _ | _, s'⟩ <;> rfl

theorem eventTail_loc (d : Nat) : LocP R E (eventTail d) := by
  have hg : ∀ x : Res PErr EvKind, LocP R E (match x with
      | .ok k => M.modify (noteEvent k) >>= fun _ => M.get >>= fun p => if depthOk k d p.depth then makeEvent k else M.panic .depthAssert
      | .err e => (fun p' : Parser => match Parser.position p' with
        | (.ok pos, p'') => (.err (e.andPosition pos), p''.setAborted pos)
        | (.err e', p'') => (.err e', p'')
        | (.panic x, p'') => (.panic x, p''))
      | .panic x => M.panic x : M PErr Parser Event) := by
    intro x
    cases x with
    | ok k =>
      refine .bind (.modify (fun _ _ h => noteEvent_rel h k) (fun _ h => noteEvent_esc h k)) fun _ =>
        .get (fun p q h => ?_) fun p => .ite (makeEvent_loc H k) (.panic _)
      rw [show q.depth = p.depth by simp only [depth, h.started]]
    | err e => exact abort_loc H e
    | panic e => exact .panic e
  refine (congrArg (Loc (PRel R) (PEsc E)) (funext fun s => ?_)).mp (Loc.andThen (nextEventImpl_loc H) hg)
  simp only [eventTail]
  rcases nextEventImpl s with ⟨k | e | x, s'⟩
  · show (if depthOk k d (noteEvent k s').depth then makeEvent k else M.panic .depthAssert : M PErr Parser Event) (noteEvent k s') =
      if depthOk k d (noteEvent k s').depth then makeEvent k (noteEvent k s') else (.panic .depthAssert, noteEvent k s')
    generalize noteEvent k s' = p2
    split <;> rfl
  · rfl
  · rfl

theorem nextEvent_loc : LocP R E nextEvent := by
  refine .look (fun p => ensureContinuable >>= fun _ => eventTail p.depth) (fun p => rfl) (fun p q h => ?_) fun p => .bind ensure_loc fun _ => eventTail_loc H _
  simp only [depth, h.started]

theorem skipCurrentNode_loc : LocP R E skipCurrentNode := by
  refine .look (fun p => match p.started with
    | [] => M.panic .skipRoot
    | n :: outer => do
      M.modify (fun p => { p with started := outer, last := some .endNode })
      io (Reader.skipTo n.endOff)) (fun p => ?_) (fun p q h => ?_) (fun p => ?_)
  · rw [skipCurrentNode, M.get_bind]
    cases p.started <;> rfl
  · simp only [h.started]
  · cases p.started with
    | nil => exact .panic _
    | cons n r => exact .bind (.modify (fun _ _ h => setLast_rel (setStarted_rel h r) _) (fun _ h => h)) fun _ => io_loc (H.skip _)

end Parser

namespace AP
variable {R : Reader → Reader → Prop} {E : Reader → Prop} {α : Type} {Z : Zlib}

abbrev LocA (R : Reader → Reader → Prop) (E : Reader → Prop) {α : Type} (m : M PErr AP α) : Prop := Loc (ARel R) (AEsc E) m

theorem par_loc {m : M PErr Parser α} (h : Parser.LocP R E m) : LocA R E (par m) := ⟨fun hr => par_sim hr (h.1 hr.1), par_keeps h.2⟩
theorem io_loc {m : M IoErr Reader α} (h : Loc R E m) : LocA R E (io m) := par_loc (Parser.io_loc h)

variable (H : LocSrc R E)
include H

theorem updateNext_loc (n : Nat) : LocA R E (updateNext n) := by
  refine ⟨fun {a b} h => ?_, updateNext_keeps n⟩
  simp only [updateNext, H.pos h.1.2, h.2]
  split
  · exact .inl ⟨rfl, h.1, rfl⟩
  · exact .inl ⟨rfl, h⟩

theorem position_loc (s i : Nat) : LocA R E (position s i) := .bind (par_loc (Parser.position_loc H)) fun _ => .pure _

theorem typePart_loc : LocA R E typePart := by
  refine .bind (io_loc H.u8) fun code => ?_
  cases AttrType.fromTypeCode code with
  | none => exact .throw _
  | some t => exact .bind (.modify (fun _ _ h => ⟨h.1, by simp only [h.2]⟩) fun _ h => h) fun _ => .pure _

theorem readNextType_loc : LocA R E readNextType := by
  refine .get (fun a b h => ?_) fun a => .ite (.pure _) (.ite (.bind (io_loc (H.skip _)) fun _ => typePart_loc H) (typePart_loc H))
  simp only [h.2, H.pos h.1.2]

theorem readArrHeader_loc : LocA R E readArrHeader := by
  refine .bind (io_loc (H.le _)) fun _ => .bind (io_loc (H.le _)) fun raw => ?_
  cases ArrEnc.fromU32 raw with
  | none => exact .throw _
  | some enc => exact .bind (io_loc (H.le _)) fun _ => .pure _

theorem create_loc (enc : ArrEnc) : LocA R E (par (M.zoom Parser.reader (fun r p => { p with reader := r }) (Dec.create Z enc))) := by
  refine ⟨fun {a b} h => ?_, par_keeps (.zoom (H.create enc).2 (fun _ h => h) (fun _ _ h => h))⟩
  simp only [par, M.zoom_apply]
  rcases (H.create (Z := Z) enc).1 h.1.2 with ⟨h1, h2⟩ | h1
  · exact .inl ⟨h1, setReader_rel h h2⟩
  · exact .inr h1

theorem runSeq_loc {e : Type} (t : ElemTy e) (k : SeqCons e α) (d : Dec Z) (n : Nat) : LocA R E (runSeq t k d n) := by
  constructor
  · intro a b h
    have hr := (H.run (Z := Z) t k).1 (s := (⟨d, n, false, false⟩, a.parser.reader)) (t := (⟨d, n, false, false⟩, b.parser.reader)) ⟨rfl, h.1.2⟩
    simp only [runSeq]
    generalize ElemIter.run t k (⟨d, n, false, false⟩, a.parser.reader) = x at hr
    generalize ElemIter.run t k (⟨d, n, false, false⟩, b.parser.reader) = y at hr
    obtain ⟨x, i1, r1⟩ := x
    obtain ⟨y, i2, r2⟩ := y
    rcases hr with ⟨e1, e2, e3⟩ | ⟨e1, _⟩
    · simp only at e1 e2 e3
      subst e1 e2
      cases x <;> exact .inl ⟨rfl, setReader_rel h e3⟩
    · cases y <;> exact .inr ⟨e1, fun h => nomatch h⟩
  · intro s hs
    have hr := (H.run (Z := Z) t k).2 (⟨d, n, false, false⟩, s.parser.reader) hs
    simp only [runSeq]
    generalize ElemIter.run t k (⟨d, n, false, false⟩, s.parser.reader) = x at hr
    obtain ⟨x, i1, r1⟩ := x
    cases x <;> exact hr

theorem seqTail_loc (s i : Nat) (v : α) (he od : Bool) : LocA R E (seqTail s i v he od) :=
  .ite (.bind (position_loc H _ _) fun _ => .bind (par_loc (Parser.warn_loc _ _)) fun _ => .ite (.throw _) (.pure _)) (.ite (.throw _) (.pure _))

theorem loadSeq_loc {e : Type} (t : ElemTy e) (k : Nat → SeqCons e α) (s i : Nat) : LocA R E (loadSeq Z t k s i) := by
  rw [loadSeq]
  exact .bind (readArrHeader_loc H) fun hd => .bind (updateNext_loc H _) fun _ => .bind (create_loc H _) fun d =>
    .bind (runSeq_loc H _ _ _ _) fun x => seqTail_loc H s i x.1 x.2.1 x.2.2

theorem loadSpecial_loc (k : Nat → ReadCons α) : LocA R E (loadSpecial k) := by
  rw [loadSpecial]
  refine .bind (io_loc (H.le _)) fun len => .bind (updateNext_loc H _) fun _ => ⟨fun {a b} h => ?_, fun s hs => (H.cons (k len)).2 (len, s.parser.reader) hs⟩
  have hr := (H.cons (k len)).1 (s := (len, a.parser.reader)) (t := (len, b.parser.reader)) ⟨rfl, h.1.2⟩
  simp only []
  generalize (k len).run (len, a.parser.reader) = x at hr
  generalize (k len).run (len, b.parser.reader) = y at hr
  obtain ⟨x, i1, r1⟩ := x
  obtain ⟨y, i2, r2⟩ := y
  rcases hr with ⟨e1, e2, e3⟩ | ⟨e1, _⟩
  · simp only at e1 e2 e3
    subst e1 e2
    exact .inl ⟨rfl, setReader_rel h e3⟩
  · exact .inr ⟨e1, fun h => nomatch h⟩

theorem loadPrim_loc (w : Nat) (f : BitVec (8 * w) → Except PErr α) : LocA R E (loadPrim w f) :=
  .bind (io_loc (H.le _)) fun _ => .bind (updateNext_loc H _) fun _ => .ofExcept _

theorem loadBool_loc (f : Bool → Except PErr α) (s i : Nat) : LocA R E (loadBool f s i) := by
  rw [loadBool]
  refine .bind (io_loc H.u8) fun len => .bind (updateNext_loc H _) fun _ => .ite ?_ (.ofExcept _)
  exact .bind (position_loc H _ _) fun _ => .bind (par_loc (Parser.warn_loc _ _)) fun _ => .ofExcept _

theorem loadImpl_loc (bf : Bool) (t : AttrType) (l : Loader α) (s i : Nat) : LocA R E (loadImpl Z bf t l s i) := by
  cases t <;> first | exact loadBool_loc H _ _ _ | exact loadPrim_loc H _ _ | exact loadSeq_loc H _ _ _ _ | exact loadSpecial_loc H _

theorem loadBody_loc (bf : Bool) (l : Loader α) (s i : Nat) : LocA R E (loadBody Z bf l s i) := by
  refine .bind (readNextType_loc H) fun t => ?_
  cases t with
  | none => exact .pure _
  | some t => exact .bind (loadImpl_loc H _ _ _ _ _) fun _ => .pure _

theorem loadTail_loc (bf : Bool) (l : Loader α) (s i : Nat) : LocA R E (loadTail Z bf l s i) := by
  have hp : ∀ e : PErr, LocA R E (fun a' : AP => match position s i a' with
      | (.ok pos, a'') => (.err (e.andPosition pos), { a'' with parser := a''.parser.setAborted pos })
      | (.err e', a'') => (.err e', a'')
      | (.panic x, a'') => (.panic x, a'') : M PErr AP (Option α)) := by
    intro e
    have hg : ∀ x : Res PErr SynPos, LocA R E (match x with
        | .ok pos => M.modify (fun a => { a with parser := a.parser.setAborted pos }) >>= fun _ => M.throw (e.andPosition pos)
        | .err e => M.throw e | .panic x => M.panic x : M PErr AP (Option α)) := by
      intro x
      cases x with
      | ok pos => exact .bind (.modify (fun _ _ h => ⟨Parser.setHealth_rel h.1 _, h.2⟩) (fun _ h => h)) fun _ => .throw _
      | err e => exact .throw _
      | panic e => exact .panic e
    refine (congrArg (Loc (ARel R) (AEsc E)) (funext fun a => ?_)).mp (Loc.andThen (position_loc H s i) hg)
    rcases AP.position s i a with ⟨_ | _ | _, s'⟩ <;> rfl
  have hg : ∀ x : Res PErr (Option α), LocA R E (match x with
      | .ok v => pure v
      | .panic x => M.panic x
      | .err e => (fun a' : AP => match position s i a' with
        | (.ok pos, a'') => (.err (e.andPosition pos), { a'' with parser := a''.parser.setAborted pos })
        | (.err e', a'') => (.err e', a'')
        | (.panic x, a'') => (.panic x, a'')) : M PErr AP (Option α)) := by
    intro x
    cases x with
    | ok k => exact .pure _
    | err e => exact hp e
    | panic e => exact .panic e
  refine (congrArg (Loc (ARel R) (AEsc E)) (funext fun a => ?_)).mp (Loc.andThen (loadBody_loc (Z := Z) H bf l s i) hg)
  simp only [loadTail]
  rcases loadBody Z bf l s i a with ⟨k | e | x, s'⟩ <;> rfl

theorem load_loc (bf : Bool) (l : Loader α) : LocA R E (load Z bf l) := by
  refine (congrArg (Loc (ARel R) (AEsc E)) ?_).mp (Loc.bind (par_loc Parser.ensure_loc) fun _ =>
    Loc.get (f := fun a : AP => M.assert (a.attrs.rest ≤ a.attrs.total) .attrIndexUnderflow >>= fun _ => loadTail Z bf l a.attrs.next (a.attrs.total - a.attrs.rest))
      (fun a b h => by simp only [h.2]) fun a => Loc.bind (.assert _ _) fun _ => loadTail_loc H bf l _ _)
  have ht : ∀ st i, loadTail Z bf l st i = fun a => match loadBody Z bf l st i a with
      | (.ok v, a') => (.ok v, a')
      | (.panic x, a') => (.panic x, a')
      | (.err e, a') => match position st i a' with
        | (.ok pos, a'') => (.err (e.andPosition pos), { a'' with parser := a''.parser.setAborted pos })
        | (.err e', a'') => (.err e', a'')
        | (.panic x, a'') => (.panic x, a'') := by
    intro st i
    funext a
    simp only [loadTail]
    rcases loadBody Z bf l st i a with ⟨_ | e | _, a'⟩
    · rfl
    · simp only []
      rcases position st i a' with ⟨_ | _ | _, _⟩ <;> rfl
    · rfl
  simp only [load, withHealthCheck, ht]
  congr 1
  funext u
  congr 1
  funext a
  congr 1
  funext u a'
  rcases loadBody Z bf l a.attrs.next (a.attrs.total - a.attrs.rest) a' with ⟨_ | e | _, a1⟩
  · rfl
  · simp only []
    rcases position a.attrs.next (a.attrs.total - a.attrs.rest) a1 with ⟨_ | _ | _, _⟩ <;> rfl
  · rfl

end AP

/-- A call on related clients. -/
theorem call_loc {R : Reader → Reader → Prop} {E : Reader → Prop} {α : Type} {Z : Zlib} (H : LocSrc R E) {s t : Client} (h : CRel R s t) (c : Call α) :
    (∀ o t', t.call Z c = some (o, t') → E t'.parser.reader ∨ ∃ s', s.call Z c = some (o, s') ∧ CRel R s' t') := by
  cases c with
  | next =>
    have := (Parser.nextEvent_loc H).1 h.1
    simp only [Client.call]
    generalize Parser.nextEvent s.parser = x at this
    generalize Parser.nextEvent t.parser = y at this
    obtain ⟨x, p⟩ := x
    obtain ⟨y, q⟩ := y
    rcases this with ⟨e1, e2⟩ | ⟨e1, e2⟩
    · simp only at e1 e2
      subst e1
      cases x with
      | ok ev =>
        rintro o t' ⟨⟩
        refine .inr ⟨_, rfl, e2, ?_⟩
        cases ev with
        | startNode nm n =>
          show attrsOf q = attrsOf p
          simp only [attrsOf, AP.ofParser, e2.started, H.pos e2.2]
          cases p.started <;> rfl
        | endNode => rfl
        | endFbx f => rfl
      | err e => rintro o t' ⟨⟩; exact .inr ⟨_, rfl, e2, rfl⟩
      | panic e => rintro o t' ⟨⟩; exact .inr ⟨_, rfl, e2, rfl⟩
    · cases y <;> (rintro o t' ⟨⟩; exact .inl e1)
  | load bf l =>
    obtain ⟨sp, sa⟩ := s
    obtain ⟨tp, ta⟩ := t
    have h2 : ta = sa := h.2
    subst h2
    cases ta with
    | none => rintro o t' ⟨⟩
    | some at_ =>
      have := (AP.load_loc (Z := Z) H bf l).1 (s := ⟨sp, at_⟩) (t := ⟨tp, at_⟩) ⟨h.1, rfl⟩
      simp only [Client.call]
      generalize AP.load Z bf l ⟨sp, at_⟩ = x at this
      generalize AP.load Z bf l ⟨tp, at_⟩ = y at this
      obtain ⟨x, p⟩ := x
      obtain ⟨y, q⟩ := y
      rcases this with ⟨e1, e2⟩ | ⟨e1, e2⟩
      · simp only at e1 e2
        subst e1
        have e3 : some q.attrs = some p.attrs := by rw [e2.2]
        cases x with
        | ok v => cases v <;> (rintro o t' ⟨⟩; exact .inr ⟨_, rfl, e2.1, e3⟩)
        | err e => rintro o t' ⟨⟩; exact .inr ⟨_, rfl, e2.1, e3⟩
        | panic e => rintro o t' ⟨⟩; exact .inr ⟨_, rfl, e2.1, e3⟩
      · cases y with
        | ok v => cases v <;> (rintro o t' ⟨⟩; exact .inl e1)
        | err e => rintro o t' ⟨⟩; exact .inl e1
        | panic e => rintro o t' ⟨⟩; exact .inl e1
  | skip =>
    have := (Parser.skipCurrentNode_loc H).1 h.1
    simp only [Client.call]
    generalize Parser.skipCurrentNode s.parser = x at this
    generalize Parser.skipCurrentNode t.parser = y at this
    obtain ⟨x, p⟩ := x
    obtain ⟨y, q⟩ := y
    rcases this with ⟨e1, e2⟩ | ⟨e1, e2⟩
    · simp only at e1 e2
      subst e1
      cases x <;> (rintro o t' ⟨⟩; exact .inr ⟨_, rfl, e2, rfl⟩)
    · cases y <;> (rintro o t' ⟨⟩; exact .inl e1)
  | setHandler g =>
    rintro o t' ⟨⟩
    exact .inr ⟨_, rfl, h.1.map (Parser.setHandler g) (fun _ _ => rfl) (fun _ => rfl), rfl⟩

/-- Escapes are final. -/
theorem call_esc {R : Reader → Reader → Prop} {E : Reader → Prop} {α : Type} {Z : Zlib} (H : LocSrc R E) {t t' : Client} {c : Call α} {o : Outcome α}
    (h : E t.parser.reader) (hc : t.call Z c = some (o, t')) : E t'.parser.reader := by
  cases c with
  | next =>
    have := (Parser.nextEvent_loc H).2 t.parser h
    simp only [Client.call] at hc
    generalize Parser.nextEvent t.parser = y at this hc
    obtain ⟨y, q⟩ := y
    cases y <;> (cases hc; exact this)
  | load bf l =>
    obtain ⟨tp, ta⟩ := t
    cases ta with
    | none => cases hc
    | some at_ =>
      have := (AP.load_loc (Z := Z) H bf l).2 ⟨tp, at_⟩ h
      simp only [Client.call] at hc
      generalize AP.load Z bf l ⟨tp, at_⟩ = y at this hc
      obtain ⟨y, q⟩ := y
      cases y with
      | ok v => cases v <;> (cases hc; exact this)
      | err e => cases hc; exact this
      | panic e => cases hc; exact this
  | skip =>
    have := (Parser.skipCurrentNode_loc H).2 t.parser h
    simp only [Client.call] at hc
    generalize Parser.skipCurrentNode t.parser = y at this hc
    obtain ⟨y, q⟩ := y
    cases y <;> (cases hc; exact this)
  | setHandler g => cases hc; exact h

theorem runs_esc {R : Reader → Reader → Prop} {E : Reader → Prop} {α : Type} {Z : Zlib} (H : LocSrc R E) {s t : Client} {h : History α}
    (hE : E s.parser.reader) (hr : Runs Z s h t) : E t.parser.reader := by
  induction hr with
  | nil => exact hE
  | snoc _ _ hc ih => exact call_esc H ih hc

/-- A history that never escapes is a history of the related client. -/
theorem runs_loc {R : Reader → Reader → Prop} {E : Reader → Prop} {α : Type} {Z : Zlib} (H : LocSrc R E) {s0 t0 t : Client} {h : History α}
    (h0 : CRel R s0 t0) (hr : Runs Z t0 h t) : E t.parser.reader ∨ ∃ s, Runs Z s0 h s ∧ CRel R s t := by
  induction hr with
  | nil => exact .inr ⟨s0, .nil, h0⟩
  | snoc _ hp hc ih =>
    rcases ih with ih | ⟨s, ih, hs⟩
    · exact .inl (call_esc H ih hc)
    · rcases call_loc H hs _ _ _ hc with h1 | ⟨s', h1, h2⟩
      · exact .inl h1
      · exact .inr ⟨s', .snoc ih hp h1, h2⟩

end Fbx
