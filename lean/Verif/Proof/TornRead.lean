import Verif.Proof.HistoryAt
import Verif.Proof.ReaderAt

/-! # Reading a body whose last top-level node may be unfinished -/

namespace Fbx
open Reader Parser
variable {α : Type} {Z : Zlib}

/-- Bytes that begin with a node header at every place where the top-level nodes lead to, until one of the headers
does not give the end of its node, or is not complete. -/
inductive Torn (w : Nat) : Nat → Bytes → Prop where
  | short {off : Nat} {x : Bytes} : x.length < 3 * w + 1 → Torn w off x
  | zero {off : Nat} {x : Bytes} : (headerAt w x).endOffset = 0 → headerAt w x ≠ .nodeEnd → Torn w off x
  | more {off : Nat} {x y : Bytes} : x ≠ [] → (headerAt w (x ++ y)).endOffset = off + x.length → Torn w (off + x.length) y → Torn w off (x ++ y)

/-- The parser is between top-level nodes, or the outermost open node leads to the place of the next one, or nowhere. -/
def TornAt (w : Nat) (bytes : Bytes) (p : Parser) : Prop :=
  (p.started = [] → ∃ k, p.reader.position = 27 + k ∧ Torn w (27 + k) (bytes.drop k)) ∧
  ∀ up n, p.started = up ++ [n] → n.endOff = 0 ∨ ∃ k, n.endOff = 27 + k ∧ k ≤ bytes.length ∧ Torn w (27 + k) (bytes.drop k)

theorem Torn.marker {w off : Nat} {x : Bytes} (h : Torn w off x) (hl : 3 * w + 1 ≤ x.length) : headerAt w x ≠ .nodeEnd := by
  cases h with
  | short h => omega
  | zero h1 h2 => exact h2
  | more h1 h2 h3 =>
    intro h
    rw [h] at h2
    rename_i y z
    have : y.length ≠ 0 := fun h => h1 (List.eq_nil_of_length_eq_zero h)
    simp only [NodeHeader.nodeEnd] at h2
    omega

theorem Torn.start {w k : Nat} {bytes : Bytes} (h : Torn w (27 + k) (bytes.drop k)) (hk : k ≤ bytes.length) (hl : 3 * w + 1 ≤ (bytes.drop k).length) :
    (headerAt w (bytes.drop k)).endOffset = 0 ∨
      ∃ j, (headerAt w (bytes.drop k)).endOffset = 27 + j ∧ j ≤ bytes.length ∧ Torn w (27 + j) (bytes.drop j) := by
  generalize hx : bytes.drop k = x at *
  generalize ho : 27 + k = off at h
  cases h with
  | short h => omega
  | zero h1 h2 => exact .inl h1
  | @more _ y z h1 h2 h3 =>
    have hz : bytes.drop (k + y.length) = z := by rw [← List.drop_drop, hx, List.drop_left]
    have hb : k + y.length ≤ bytes.length := by
      have := congrArg List.length hx
      simp only [List.length_drop, List.length_append] at this
      omega
    refine .inr ⟨k + y.length, by omega, hb, ?_⟩
    rw [hz, ← Nat.add_assoc, ho]
    exact h3

theorem tornAt_quiet {w : Nat} {bytes : Bytes} {p q : Parser} (h : TornAt w bytes p) (h1 : q.started = p.started) (h2 : p.started = [] → q.reader = p.reader) :
    TornAt w bytes q := by
  refine ⟨fun h0 => ?_, fun up n hn => h.2 up n (h1 ▸ hn)⟩
  rw [h1] at h0
  rw [h2 h0]
  exact h.1 h0

theorem tornAt_pop {w : Nat} {bytes : Bytes} {p q : Parser} {m : Started} {ou : List Started} (h : TornAt w bytes p) (h1 : p.started = m :: ou)
    (h2 : q.started = ou) (h3 : ou = [] → 27 ≤ q.reader.position ∧ q.reader.position = m.endOff) : TornAt w bytes q := by
  refine ⟨fun h0 => ?_, fun up n hn => ?_⟩
  · rw [h2] at h0
    subst h0
    obtain ⟨k1, k2⟩ := h3 rfl
    rcases h.2 [] m h1 with h4 | ⟨k, h4, h5, h6⟩
    · omega
    · exact ⟨k, k2.trans h4, h6⟩
  · exact h.2 (m :: up) n (by rw [h1, ← h2, hn]; rfl)

/-- The invariant holds as long as the parser runs. -/
theorem torn_runs {checks : Bool} {v : FbxVersion} {bytes : Bytes} {ending : Option IoErr} {cursor limit : Nat} {p : Parser}
    (hp : Parser.create checks v ⟨bytes, ending, cursor, headerLen, true, limit⟩ = .ok p) (hsz : Sized bytes)
    (hlim : cursor + bytes.length ≤ limit) (ht : Torn (headWidth v) 27 bytes) {h : History α} {s : Client}
    (hr : Runs Z ⟨p, none⟩ h s) (hn : h.calm) : s.parser.health = .running → TornAt (headWidth v) bytes s.parser := by
  obtain ⟨hi, hL⟩ := open_inv ⟨_, _, _, _, _, _, hp⟩ hsz
  have hp0 : p.reader = ⟨bytes, ending, cursor, headerLen, true, limit⟩ ∧ p.version = v := by
    unfold Parser.create at hp
    split at hp
    · cases hp
    · cases hp; exact ⟨rfl, rfl⟩
  have hst := Opens.state ⟨_, _, _, _, _, _, hp⟩
  have hat : ∀ {h : History α} {s : Client}, Runs Z ⟨p, none⟩ h s → h.calm →
      (∃ k, s.parser.reader = ⟨bytes.drop k, ending, cursor + k, 27 + k, true, limit⟩) ∧ s.parser.version = v := by
    intro h s hr hn
    have hm := hr.moves hL hi hn
    rw [show (Client.mk p none).parser.reader = p.reader from rfl, hp0.1] at hm
    obtain ⟨k, hk⟩ := hm.seekable rfl
    exact ⟨⟨k, hk⟩, (hr.frame hL hi hn).1.trans hp0.2⟩
  refine hr.ind hL hi (P := fun h s => h.calm → s.parser.health = .running → TornAt (headWidth v) bytes s.parser) (fun _ _ => ?_) ?_ hn
  · refine ⟨fun _ => ⟨0, hst.2.2.2.2.2.2.2, ht⟩, fun up n h0 => ?_⟩
    rw [show (Client.mk p none).parser.started = [] from hst.2.1] at h0
    simp at h0
  · intro h t u c o hr hi' ih hn hd hc hn' hrun'
    obtain ⟨k1, k2⟩ := calm_snoc hn'
    have ih := ih k1
    obtain ⟨⟨k, hk⟩, hv⟩ := hat hr k1
    obtain ⟨⟨k', hk'⟩, -⟩ := hat (Runs.snoc hr hn hc) hn'
    have hpos : 27 ≤ u.parser.reader.position := by rw [hk']; exact Nat.le_add_right _ _
    have loaded : ∀ {a : Attrs}, t.attrs = some a → t.parser.started ≠ [] := by
      intro a ha h0
      obtain ⟨-, -, m, ou, h1, -⟩ := hi'.attrs a ha
      rw [h0] at h1
      cases h1
    cases hd with
    | @event ev hrun he hi ha =>
      have ih := ih hrun
      cases ev with
      | startNode name n =>
        obtain ⟨r, hd, ae, ou, tl, h1, h2, h3, h4, h5, h6, -, h7, h8, h9, h10⟩ := he.started
        rw [hv] at h3 h6 h7
        refine ⟨fun h0 => (by rw [h8] at h0; cases h0), fun up m hm => ?_⟩
        rw [h8] at hm
        cases hts : t.parser.started with
        | nil =>
          rw [hts] at h10
          obtain ⟨rfl, -⟩ := h10
          have hup : up = [] ∧ m = ⟨r.position, hd.endOffset, n, ae, name, 0⟩ := by
            cases up with
            | nil => simp only [List.nil_append, List.cons.injEq, and_true] at hm; exact ⟨rfl, hm.symm⟩
            | cons x up => simp at hm
          obtain ⟨rfl, rfl⟩ := hup
          have hrr : r = t.parser.reader := by
            unfold Skipped at h2
            rw [hts] at h2
            exact h2
          obtain ⟨j, g1, g2⟩ := ih.1 hts
          rw [hk] at g1
          have : k = j := by simpa using g1
          subst this
          rw [hrr, hk] at h3 h6
          simp only at h3 h6
          have hle : k ≤ bytes.length := by
            simp only [List.length_drop] at h6
            omega
          have := Torn.start g2 hle (by omega)
          rw [h3] at this
          exact this
        | cons x xs =>
          rw [hts] at h10
          obtain ⟨rfl, -⟩ := h10
          cases up with
          | nil => simp at hm
          | cons y up =>
            simp only [List.cons_append, List.cons.injEq] at hm
            cases up with
            | nil =>
              simp only [List.nil_append, List.cons.injEq] at hm
              have := ih.2 [] x (by rw [hts, hm.2.2]; rfl)
              rw [← hm.2.1]
              exact this
            | cons z up =>
              simp only [List.cons_append, List.cons.injEq] at hm
              exact ih.2 (x :: up) m (by rw [hts, hm.2.2]; rfl)
      | endNode =>
        obtain ⟨m, ou, h1, h2, h3, h4⟩ := he.ended
        exact tornAt_pop ih h1 h2 (fun _ => ⟨hpos, h3⟩)
      | endFbx f => rw [he.finished.2.2.2.2.2] at hrun'; cases hrun'
    | nextRefused hp hr ha => rw [hp] at hrun' ⊢; exact ih hrun'
    | nextFailed hrun hf hi hp he ha => rw [hp] at hrun'; cases hrun'
    | nextPanic hx' => exact absurd rfl (k2 _)
    | value ha hp hrun hr ht =>
      subst ht
      have := loaded ha
      exact tornAt_quiet (ih hrun) (hr.1.started.trans (by rw [hp])) (fun h0 => absurd h0 this)
    | noValue ha hrun h0 ht => subst ht; exact ih hrun'
    | loadRefused ha ht hr => subst ht; exact ih hrun'
    | loadFailed ha hp hrun hr hpos ht he => subst ht; cases hrun'
    | skip hst hm hi hge hps hplain ht =>
      subst ht
      exact tornAt_pop (ih hrun') hst rfl (fun _ => ⟨hpos, hps (by rw [hk])⟩)
    | @skipFailed n outer r e hst hm hi hge ht =>
      have hrun : t.parser.health = .running := by rw [ht] at hrun'; exact hrun'
      refine tornAt_pop (ih hrun) hst (by rw [ht]) (fun ho => ?_)
      subst ho
      exfalso
      rcases (ih hrun).2 [] n hst with h0 | ⟨j, g1, g2, -⟩
      · rw [hk] at hge; simp only at hge; omega
      · have hsk := skipTo_ok (r := t.parser.reader) (by rw [hk]) n.endOff hge (by rw [g1]; unfold Sized headerLen at hsz; omega) (by
          rw [hk] at hge ⊢
          simp only at hge ⊢
          omega)
        simp only [Client.call, Parser.skipCurrentNode, M.get_bind, hst, M.set_bind] at hc
        simp only [Parser.io, M.mapErr_apply, M.zoom_apply, hsk] at hc
        simp at hc
    | skipPanic hx' => exact absurd rfl (k2 _)
    | handler ht => subst ht; exact tornAt_quiet (ih hrun') rfl (fun _ => rfl)

/-- No client sees the end of the document. -/
theorem torn_never {checks : Bool} {v : FbxVersion} {bytes : Bytes} {ending : Option IoErr} {cursor limit : Nat} {p : Parser}
    (hp : Parser.create checks v ⟨bytes, ending, cursor, headerLen, true, limit⟩ = .ok p) (hsz : Sized bytes)
    (hlim : cursor + bytes.length ≤ limit) (ht : Torn (headWidth v) 27 bytes) {h : History α} {s : Client}
    (hr : Runs Z ⟨p, none⟩ h s) : ∀ x ∈ h, x.2.isEndFbx = false := by
  intro x hx
  obtain ⟨a, b, rfl⟩ := List.append_of_mem hx
  obtain ⟨c, o⟩ := x
  obtain ⟨t, t', h1, h2, h3, -⟩ := hr.at
  obtain ⟨hi, hL⟩ := open_inv ⟨_, _, _, _, _, _, hp⟩ hsz
  have hp0 : p.reader = ⟨bytes, ending, cursor, headerLen, true, limit⟩ ∧ p.version = v := by
    unfold Parser.create at hp
    split at hp
    · cases hp
    · cases hp; exact ⟨rfl, rfl⟩
  have hm := h1.moves hL hi h2
  rw [show (Client.mk p none).parser.reader = p.reader from rfl, hp0.1] at hm
  obtain ⟨k, hk⟩ := hm.seekable rfl
  have hv := (h1.frame hL hi h2).1.trans hp0.2
  cases call_did hL (h1.inv hL hi h2) h3 with
  | @event ev hrun he hi ha =>
    cases ev with
    | startNode _ _ => rfl
    | endNode => rfl
    | endFbx f =>
      exfalso
      obtain ⟨e1, -, e2, e3, -⟩ := he.finished
      obtain ⟨j, g1, g2⟩ := (torn_runs hp hsz hlim ht h1 h2 hrun).1 e1
      rw [hk] at g1 e2 e3
      rw [hv] at e2 e3
      have : k = j := by simpa [Reader.consume, headerLen] using g1
      subst this
      exact g2.marker e3 e2
  | _ => rfl

end Fbx
