import Verif.Proof.Unread
import Verif.Proof.TreeFile
import Verif.Proof.HandlerRuns

/-! # Loading a tree does not look at what it does not consume -/

namespace Fbx
namespace Load
open Parser Spec Tree
variable {R : Reader → Reader → Prop} {E : Reader → Prop} {Z : Zlib}

def StRel (R : Reader → Reader → Prop) (s t : St) : Prop := PRel R s.parser t.parser ∧ t.tree = s.tree ∧ t.stack = s.stack
def StEsc (E : Reader → Prop) (t : St) : Prop := E t.parser.reader

theorem collect_loc (H : LocSrc R E) : ∀ (n : Nat) (acc : List AttrValue), AP.LocA R E (collectAttrs Z n acc) := by
  intro n
  induction n with
  | zero => intro acc; exact .pure _
  | succ n ih =>
    intro acc
    refine .bind (AP.load_loc H _ _) fun x => ?_
    cases x with
    | none => exact .pure _
    | some v => exact ih _

theorem addNode_loc (H : LocSrc R E) (parent : Nat) (name : String) : Loc (StRel R) (StEsc E) (addNode Z parent name) := by
  constructor
  · rintro ⟨sp, st, ss⟩ ⟨tp, tt, ts⟩ ⟨h1, h2, h3⟩
    simp only at h1 h2 h3
    subst h2 h3
    simp only [addNode, AP.ofParser, h1.started, H.pos h1.2]
    cases sp.started with
    | nil => exact .inl ⟨rfl, h1, rfl, rfl⟩
    | cons n r =>
      simp only []
      have hc := (collect_loc (Z := Z) H (n.attrCount + 1) []).1 (s := ⟨sp, ⟨n.attrCount, n.attrCount, sp.reader.position⟩⟩)
        (t := ⟨tp, ⟨n.attrCount, n.attrCount, sp.reader.position⟩⟩) ⟨h1, rfl⟩
      generalize collectAttrs Z (n.attrCount + 1) [] ⟨sp, ⟨n.attrCount, n.attrCount, sp.reader.position⟩⟩ = x at hc
      generalize collectAttrs Z (n.attrCount + 1) [] ⟨tp, ⟨n.attrCount, n.attrCount, sp.reader.position⟩⟩ = y at hc
      obtain ⟨x, a⟩ := x
      obtain ⟨y, b⟩ := y
      rcases hc with ⟨e1, e2⟩ | ⟨e1, _⟩
      · simp only at e1 e2
        subst e1
        cases x with
        | panic z => exact .inl ⟨rfl, e2.1, rfl, rfl⟩
        | err z => exact .inl ⟨rfl, e2.1, rfl, rfl⟩
        | ok attrs =>
          simp only []
          generalize Tree.appendRaw _ _ _ = w
          obtain ⟨w, tr⟩ := w
          cases w with
          | ok u => exact .inl ⟨rfl, e2.1, rfl, rfl⟩
          | err u => exact nomatch u
          | panic u => exact .inl ⟨rfl, e2.1, rfl, rfl⟩
      · refine .inr ⟨?_, fun h => nomatch h⟩
        cases y with
        | panic z => exact e1
        | err z => exact e1
        | ok attrs =>
          simp only []
          generalize Tree.appendRaw _ _ _ = w
          obtain ⟨w, tr⟩ := w
          cases w with
          | ok u => exact e1
          | err u => exact nomatch u
          | panic u => exact e1
  · rintro ⟨tp, tt, ts⟩ h
    simp only [addNode, AP.ofParser]
    cases tp.started with
    | nil => exact h
    | cons n r =>
      simp only []
      have hc := (collect_loc (Z := Z) H (n.attrCount + 1) []).2 ⟨tp, ⟨n.attrCount, n.attrCount, tp.reader.position⟩⟩ h
      generalize collectAttrs Z (n.attrCount + 1) [] ⟨tp, ⟨n.attrCount, n.attrCount, tp.reader.position⟩⟩ = y at hc
      obtain ⟨y, b⟩ := y
      cases y with
      | panic z => exact hc
      | err z => exact hc
      | ok attrs =>
        simp only []
        generalize Tree.appendRaw _ _ _ = w
        obtain ⟨w, tr⟩ := w
        cases w with
        | ok u => exact hc
        | err u => exact nomatch u
        | panic u => exact hc

theorem loop_loc (H : LocSrc R E) : ∀ n : Nat, Loc (StRel R) (StEsc E) (loop Z n) := by
  intro n
  induction n with
  | zero => exact .panic _
  | succ n ih =>
    have hk : ∀ (top : Nat) (below : List Nat) (t : St), StEsc E t → StEsc E (match Parser.nextEvent t.parser with
        | (.panic p, p') => (.panic p, { t with parser := p' })
        | (.err e, p') => (.err (.parser e), { t with parser := p' })
        | (.ok (.startNode name _), p') =>
          match addNode Z top name { t with parser := p' } with
          | (.ok id, s') => loop Z n { s' with stack := id :: s'.stack }
          | (.err e, s') => (.err e, s')
          | (.panic p, s') => (.panic p, s')
        | (.ok .endNode, p') => loop Z n { t with parser := p', stack := below }
        | (.ok (.endFbx footer), p') =>
          if below = [] then (.ok footer, { t with parser := p', stack := below })
          else (.panic .loaderStack, { t with parser := p', stack := below }) : Res LoadError (Except PErr Footer) × St).2 := by
      intro top below t h
      have hn := (Parser.nextEvent_loc H).2 t.parser h
      generalize Parser.nextEvent t.parser = y at hn
      obtain ⟨y, q⟩ := y
      cases y with
      | panic z => exact hn
      | err z => exact hn
      | ok ev =>
        cases ev with
        | startNode name c =>
          have ha := (addNode_loc (Z := Z) H top name).2 { t with parser := q } hn
          simp only []
          generalize addNode Z top name { t with parser := q } = w at ha
          obtain ⟨w, t'⟩ := w
          cases w with
          | ok id => exact ih.2 _ ha
          | err e => exact ha
          | panic e => exact ha
        | endNode => exact ih.2 _ hn
        | endFbx f => by_cases hb : below = [] <;> simp only [hb, if_true, if_false] <;> exact hn
    constructor
    · rintro ⟨sp, tree, ss⟩ ⟨tp, tt, ts⟩ ⟨h1, h2, h3⟩
      simp only at h1 h2 h3
      subst h2 h3
      simp only [loop]
      cases ts with
      | nil => exact .inl ⟨rfl, h1, rfl, rfl⟩
      | cons top below =>
        have hn := (Parser.nextEvent_loc H).1 h1
        simp only []
        rcases hn with hn | ⟨e1, _⟩
        · generalize Parser.nextEvent sp = x at hn
          generalize Parser.nextEvent tp = y at hn
          obtain ⟨x, p⟩ := x
          obtain ⟨y, q⟩ := y
          obtain ⟨e1, e2⟩ := hn
          simp only at e1 e2
          subst e1
          cases x with
          | panic z => exact .inl ⟨rfl, e2, rfl, rfl⟩
          | err z => exact .inl ⟨rfl, e2, rfl, rfl⟩
          | ok ev =>
            cases ev with
            | startNode name c =>
              have ha := (addNode_loc (Z := Z) H top name).1 (s := ⟨p, tt, top :: below⟩) (t := ⟨q, tt, top :: below⟩) ⟨e2, rfl, rfl⟩
              simp only []
              generalize addNode Z top name ⟨p, tt, top :: below⟩ = v at ha
              generalize addNode Z top name ⟨q, tt, top :: below⟩ = w at ha
              obtain ⟨v, s'⟩ := v
              obtain ⟨w, t'⟩ := w
              rcases ha with ⟨e3, e4⟩ | ⟨e3, _⟩
              · simp only at e3 e4
                subst e3
                cases v with
                | ok id => exact ih.1 ⟨e4.1, e4.2.1, by simp only [e4.2.2]⟩
                | err e => exact .inl ⟨rfl, e4⟩
                | panic e => exact .inl ⟨rfl, e4⟩
              · refine .inr ⟨?_, fun h => nomatch h⟩
                cases w with
                | ok id => exact ih.2 _ e3
                | err e => exact e3
                | panic e => exact e3
            | endNode => exact ih.1 ⟨e2, rfl, rfl⟩
            | endFbx f =>
              simp only []
              split <;> exact .inl ⟨rfl, e2, rfl, rfl⟩
        · refine .inr ⟨?_, fun h => nomatch h⟩
          generalize Parser.nextEvent tp = y at e1
          obtain ⟨y, q⟩ := y
          cases y with
          | panic z => exact e1
          | err z => exact e1
          | ok ev =>
            cases ev with
            | startNode name c =>
              have ha := (addNode_loc (Z := Z) H top name).2 ⟨q, tt, top :: below⟩ e1
              simp only []
              generalize addNode Z top name ⟨q, tt, top :: below⟩ = w at ha
              obtain ⟨w, t'⟩ := w
              cases w with
              | ok id => exact ih.2 _ ha
              | err e => exact ha
              | panic e => exact ha
            | endNode => exact ih.2 _ e1
            | endFbx f => by_cases hb : below = [] <;> simp only [hb, if_true, if_false] <;> exact e1
    · rintro ⟨tp, tt, ts⟩ h
      simp only [loop]
      cases ts with
      | nil => exact h
      | cons top below => exact hk top below ⟨tp, tt, top :: below⟩ h

/-- More fuel changes nothing once it suffices. -/
theorem loop_fuel : ∀ (n : Nat) (s : St), (loop Z n s).1 ≠ .panic .fuel → ∀ k, loop Z (n + k) s = loop Z n s := by
  intro n
  induction n with
  | zero => intro s h; exact absurd rfl h
  | succ n ih =>
    rintro ⟨sp, st, ss⟩ h k
    rw [show n + 1 + k = (n + k) + 1 by omega]
    simp only [loop] at h ⊢
    cases ss with
    | nil => rfl
    | cons top below =>
      simp only [] at h ⊢
      generalize Parser.nextEvent sp = y at h
      obtain ⟨y, q⟩ := y
      cases y with
      | panic z => rfl
      | err z => rfl
      | ok ev =>
        cases ev with
        | startNode name c =>
          simp only [] at h ⊢
          generalize addNode Z top name ⟨q, st, top :: below⟩ = w at h
          obtain ⟨w, t'⟩ := w
          cases w with
          | ok id => exact ih _ h k
          | err e => rfl
          | panic e => rfl
        | endNode => exact ih _ h k
        | endFbx f => rfl

theorem loop_enough {L : Nat} (hL : L + 2 ^ 32 ≤ 2 ^ 64) {p : Parser} (hi : CInv L ⟨p, none⟩) (hd : p.started = []) (n : Nat)
    (hn : 2 * p.reader.rest.length < n) : (loop Z n ⟨p, Tree.empty, [0]⟩).1 ≠ .panic .fuel := by
  have := loop_drive (Z := Z) hL n 0 ⟨p, Tree.empty, [0]⟩ [⟨"", [], .nil⟩] p hi empty_wf
    ⟨Nat.zero_lt_one, rfl, rfl, ⟨[], rfl, .nil⟩, rfl⟩ (by simp [Parser.depth, hd]) rfl (by simp [Parser.depth, hd]; omega) ⟨rfl, rfl⟩
  generalize drive Z false everything n 0 (trail [⟨"", [], .nil⟩]) p = d at this
  obtain ⟨_ | _ | _, q⟩ := d
  · obtain ⟨F, f, t, h1, h2, -⟩ := this
    rw [h2]; intro h; cases h
  · obtain ⟨s', h1, h2⟩ := this
    rw [h1]; intro h; cases h
  · obtain ⟨s', h1, h2, h3, -⟩ := this
    rw [h1, h3]; intro h; cases h

/-- The loader on sources that differ in what it leaves unread. -/
theorem load_unread {L M : Nat} (hL : L + 2 ^ 32 ≤ 2 ^ 64) (hM : M + 2 ^ 32 ≤ 2 ^ 64) {x y pre : Bytes} {e : Option IoErr} (hx : x ≠ []) {p q : Parser}
    (hi : CInv L ⟨p, none⟩) (hj : CInv M ⟨q, none⟩) (hu : p.last = none) (hd : p.started = [])
    (hp : p.reader.rest = pre ++ x) (hf : p.reader.position + p.reader.rest.length < u64Size)
    (hq : q = { p with reader := { p.reader with rest := pre ++ y, ending := e } })
    {r : Res LoadError (Tree × Except PErr Footer)} {p' : Parser} (hl : load Z p = (r, p')) (hr : p'.reader.rest = x) :
    ∃ q', load Z q = (r, q') ∧ q' = { p' with reader := { p'.reader with rest := y, ending := e } } := by
  have hus : p.isUsed = false := by simp [Parser.isUsed, hu]
  have hus' : q.isUsed = false := by rw [hq]; exact hus
  have hdq : q.started = [] := by rw [hq]; exact hd
  have hA := loop_enough (Z := Z) hL hi hd (2 * p.reader.rest.length + 2) (by omega)
  have hB := loop_enough (Z := Z) hM hj hdq (2 * q.reader.rest.length + 2) (by omega)
  have hA := loop_fuel _ _ hA (2 * q.reader.rest.length + 2)
  have hB := loop_fuel _ _ hB (2 * p.reader.rest.length + 2)
  rw [show 2 * q.reader.rest.length + 2 + (2 * p.reader.rest.length + 2) = 2 * p.reader.rest.length + 2 + (2 * q.reader.rest.length + 2) by omega] at hB
  have h0 : StRel (Beyond x y e) ⟨q, Tree.empty, [0]⟩ ⟨p, Tree.empty, [0]⟩ := by
    refine ⟨⟨by subst hq; rfl, ?_⟩, rfl, rfl⟩
    subst hq
    exact ⟨pre, hp, rfl, hf⟩
  have hs := (loop_loc (Z := Z) (beyond_src hx) (2 * p.reader.rest.length + 2 + (2 * q.reader.rest.length + 2))).1 h0
  rw [hA, hB] at hs
  simp only [load, hus, hus', Bool.false_eq_true, if_false] at hl ⊢
  generalize loop Z (2 * p.reader.rest.length + 2) ⟨p, Tree.empty, [0]⟩ = a at hs hl
  generalize loop Z (2 * q.reader.rest.length + 2) ⟨q, Tree.empty, [0]⟩ = b at hs
  obtain ⟨a, s⟩ := a
  obtain ⟨b, t⟩ := b
  have hsp : s.parser = p' := by cases a <;> (cases hl; rfl)
  rcases hs with ⟨e1, ⟨e2, c, e3, e4, _⟩, e5, e6⟩ | ⟨e1, _⟩
  · simp only at e1 e2 e3 e4 e5 e6
    subst e1
    rw [hsp, hr] at e3
    have hc : c = [] := List.append_cancel_right (bs := x) (e3.symm.trans (List.nil_append x).symm)
    have hq' : t.parser = { p' with reader := { p'.reader with rest := y, ending := e } } := by
      rw [← hsp, e2]
      rw [show t.parser = { t.parser with reader := t.parser.reader } from rfl, e4, hc]
      rfl
    refine ⟨t.parser, ?_, hq'⟩
    cases b with
    | ok f =>
      simp only [Prod.mk.injEq] at hl ⊢
      rw [← hl.1, e5]
      exact ⟨rfl, trivial⟩
    | err f =>
      simp only [Prod.mk.injEq] at hl ⊢
      exact ⟨hl.1, trivial⟩
    | panic f =>
      simp only [Prod.mk.injEq] at hl ⊢
      exact ⟨hl.1, trivial⟩
  · exfalso
    simp only [StEsc, Into, hsp, hr, Nat.lt_irrefl] at e1

theorem load_esc (H : LocSrc R E) {p : Parser} (h : E p.reader) : E (load Z p).2.reader := by
  simp only [load]
  split
  · exact h
  · have := (loop_loc (Z := Z) H (2 * p.reader.rest.length + 2)).2 ⟨p, Tree.empty, [0]⟩ h
    generalize loop Z (2 * p.reader.rest.length + 2) ⟨p, Tree.empty, [0]⟩ = a at this
    obtain ⟨_ | _ | _, s⟩ := a <;> exact this

end Load

theorem anyParser_unread {checks seekable : Bool} {pre x y : Bytes} {e e' : Option IoErr} {cursor limit : Nat} {p : Parser} (hx : x ≠ [])
    (hp : anyParser checks seekable (pre ++ x) e cursor limit = .ok p) (hsz : Sized (pre ++ x)) :
    (∃ c, p.reader.rest = c ++ x ∧ p.reader.position + p.reader.rest.length < u64Size ∧
      anyParser checks seekable (pre ++ y) e' cursor limit = .ok { p with reader := { p.reader with rest := c ++ y, ending := e' } } ∧
      Opens p (c ++ x) ∧ Sized (c ++ x) ∧ c.length ≤ pre.length) ∨ Into x p.reader := by
  have hs : headerLen + (pre ++ x).length < u64Size := by
    have : (2 : Nat) ^ 32 = 4294967296 := by decide
    unfold Sized at hsz
    unfold u64Size
    omega
  have h0 : Beyond x y e' ⟨pre ++ y, e', cursor, 0, seekable, limit⟩ ⟨pre ++ x, e, cursor, 0, seekable, limit⟩ :=
    ⟨pre, rfl, rfl, by simp only [headerLen] at hs; simp only; omega⟩
  have hH := beyond_src (x := x) (y := y) (e := e') hx
  have hl := (loadHeader_loc hH).1 h0
  have hlen : ∀ r : Reader, (loadHeader r).2.rest.length ≤ r.rest.length := by
    intro r
    have := (loadHeader_loc (beyond_src (x := List.replicate (r.rest.length + 1) 0) (y := []) (e := none) (by simp))).2 r (by simp [Into])
    simp only [Into, List.length_replicate] at this
    omega
  have hlen := hlen ⟨pre ++ x, e, cursor, 0, seekable, limit⟩
  simp only [anyParser] at hp ⊢
  generalize loadHeader ⟨pre ++ x, e, cursor, 0, seekable, limit⟩ = A at hp hl hlen
  generalize loadHeader ⟨pre ++ y, e', cursor, 0, seekable, limit⟩ = B at hl
  obtain ⟨a, r⟩ := A
  obtain ⟨b, s⟩ := B
  cases a with
  | err er => cases hp
  | panic er => cases hp
  | ok v =>
    simp only at hp hlen
    cases hv : ParserVersion.fromFbxVersion v with
    | none => rw [hv] at hp; cases hp
    | some w =>
      cases w
      rw [hv] at hp
      simp only [Parser.create, hv] at hp
      rw [if_neg (by simp)] at hp
      cases hp
      rcases hl with ⟨e1, c, e2, e3, e4⟩ | ⟨e1, _⟩
      · simp only at e1 e2 e3 e4
        subst e1
        refine .inl ⟨c, e2, (show headerLen + r.rest.length < u64Size by omega), ?_, ?_, ?_, ?_⟩
        · simp only [hv, Parser.create]
          rw [if_neg (by simp)]
          subst e3
          rfl
        · refine ⟨checks, v, r.ending, r.cursor, r.seekable, r.seekLimit, ?_⟩
          simp only [Parser.create, hv]
          rw [if_neg (by simp), ← e2]
        · simp only [Sized, List.length_append] at hsz ⊢
          rw [e2] at hlen
          simp only [List.length_append] at hlen
          omega
        · rw [e2] at hlen
          simp only [List.length_append] at hlen
          omega
      · exact .inr e1

end Fbx
