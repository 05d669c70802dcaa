import Verif.Spec.Reference
import Verif.Props.Attribute
import Verif.Props.Files

/-! # Clients and the reference reader -/

namespace Fbx
open Reader Parser Spec
variable {Z : Zlib}

/-! ## How far the tables move -/

theorem move_bytes (a : Ahead) (k : Nat) : (a.move k).bytes = a.bytes.drop k := rfl
theorem move_pos (a : Ahead) (k : Nat) : (a.move k).pos = a.pos + k := rfl

theorem enter_pos (a : Ahead) (n : Started) : (a.enter n).pos = a.pos := by
  unfold Ahead.enter
  split <;> rfl

/-- Nothing is read beyond the end. -/
theorem start_pos (a : Ahead) (c : Bool) (h : 3 * a.width + 1 ≤ a.bytes.length) : (a.start c).2.2.pos ≤ a.pos + a.bytes.length := by
  unfold Ahead.start
  simp only
  split
  · simp only [move_pos, move_bytes, List.length_drop]; omega
  · rename_i h1
    simp only [move_bytes, List.length_drop] at h1
    split
    · simp only [move_pos]; omega
    · split
      · simp only [move_pos]; omega
      · simp only [enter_pos, move_pos]; omega

theorem header_pos (a : Ahead) (c : Bool) : (a.header c).2.2.pos ≤ a.pos + a.bytes.length := by
  unfold Ahead.header
  split
  · simp only [move_pos]; omega
  · rename_i h
    split
    · split
      · simp only [move_pos]; omega
      · rename_i m o _
        by_cases hc : m.endOff ≠ (a.move (3 * a.width + 1)).pos
        · rw [if_pos hc]; simp only [move_pos]; omega
        · rw [if_neg hc]; simp only [move_pos]; omega
    · exact start_pos a c (by omega)

theorem next_pos (a : Ahead) (c : Bool) : (a.next c).2.2.pos ≤ a.pass.pos + a.pass.bytes.length := by
  unfold Ahead.next
  simp only
  split
  · exact header_pos _ c
  · split
    · simp
    · split
      · simp
      · exact header_pos _ c

/-- A node starts with a header. -/
theorem next_starts {a : Ahead} {c : Bool} {name : String} {n : Nat} {w : Option (Warning × SynPos)} {b : Ahead}
    (h : a.next c = (.starts name n, w, b)) : a.pass.bytes ≠ [] := by
  intro hb
  have hh : ∀ {x}, a.pass.header c = x → x ≠ (.starts name n, w, b) := by
    intro x hx he
    subst hx
    simp [Ahead.header, hb] at he
  unfold Ahead.next at h
  simp only at h
  split at h
  · exact hh rfl h
  · split at h
    · cases h
    · split at h
      · cases h
      · exact hh rfl h

/-- The bytes at an offset of a file. -/
def Here (body : Bytes) (k : Nat) (a : Ahead) : Prop := a.pos = 27 + k ∧ a.bytes = body.drop k

theorem Here.move {body : Bytes} {k : Nat} {a : Ahead} (h : Here body k a) (j : Nat) : Here body (k + j) (a.move j) := by
  refine ⟨by rw [move_pos, h.1]; omega, ?_⟩
  rw [move_bytes, h.2, List.drop_drop]

theorem attributes_pos (Z : Zlib) (e : Ending) (total : Nat) {body : Bytes} : ∀ (n next : Nat) (k : Nat) (a : Ahead), Here body k a → k ≤ body.length →
    (attributes Z e total n next a).error = none → (attributes Z e total n next a).ahead.pos ≤ 27 + body.length
  | 0, _, k, a, h, hk, _ => by simp only [attributes]; rw [h.1]; omega
  | n + 1, next, k, a, h, hk, he => by
    simp only [attributes] at he ⊢
    split at he
    · cases he
    · rename_i v hv
      have hm := h.move (next - a.pos)
      have hr := (attrInFront_read (Z := Z) e (a.move (next - a.pos)).bytes).1
      have hne : (a.move (next - a.pos)).bytes ≠ [] := by
        intro hb
        rw [hb] at hv
        cases hv
      have hlt : k + (next - a.pos) < body.length := by
        rw [hm.2] at hne
        exact Nat.lt_of_not_le (fun h => hne (List.drop_eq_nil_of_le h))
      refine attributes_pos Z e total n _ _ _ (hm.move _) ?_ he
      rw [hm.2, List.length_drop] at hr
      rw [hm.2]
      omega

theorem attributes_short (Z : Zlib) (e : Ending) (total : Nat) : ∀ (n next : Nat) (a : Ahead) (x : PErr),
    (attributes Z e total n next a).error = some x → (attributes Z e total n next a).values.length < n
  | 0, _, _, _, h => by cases h
  | n + 1, next, a, x, h => by
    simp only [attributes] at h ⊢
    split at h
    · exact Nat.succ_pos n
    · exact Nat.succ_lt_succ (attributes_short Z e total n _ _ x h)

/-! ## Loading the attributes of a node -/

/-- Loading values one by one, as calls and as a loop. -/
theorem loadEach_session (b : Bool) (l : Loader AttrValue) (n : Nat) : ∀ (vs : List AttrValue) (s : Client) (at_ : Attrs) (u : Client) (x : List PErr), s.attrs = some at_ →
    s.session Z (List.replicate (vs.length + x.length) (.load b l)) = some (vs.map .value ++ x.map .err, u) → x.length ≤ 1 →
    ∃ ap, ap.parser = u.parser ∧ match x with
      | e :: _ => loadEach Z b (List.replicate (vs.length + 1 + n) l) ⟨s.parser, at_⟩ = (.err e, ap)
      | [] => loadEach Z b (List.replicate vs.length l) ⟨s.parser, at_⟩ = (.ok (vs.map some), ap) := by
  intro vs
  induction vs with
  | nil =>
    intro s at_ u x ha h hx
    match x, hx with
    | [], _ => simp only [List.length_nil, List.replicate, Client.session] at h; cases h; exact ⟨_, rfl, rfl⟩
    | [e], _ =>
      simp only [List.length_nil, List.length_cons, Nat.zero_add, List.replicate, Client.session, List.map_nil, List.nil_append, List.map_cons] at h
      simp only [Client.call, ha] at h
      rcases hl : AP.load Z b l ⟨s.parser, at_⟩ with ⟨(_ | _) | _ | _, c⟩ <;> rw [hl] at h <;> simp at h
      obtain ⟨rfl, rfl⟩ := h
      refine ⟨c, rfl, ?_⟩
      simp only [List.length_nil, Nat.zero_add]
      rw [Nat.add_comm, List.replicate_succ, loadEach, M.bind_apply, hl]
  | cons v vs ih =>
    intro s at_ u x ha h hx
    rw [List.length_cons, show vs.length + 1 + x.length = (vs.length + x.length) + 1 by omega, List.replicate_succ] at h
    simp only [Client.session, List.map_cons, List.cons_append] at h
    simp only [Client.call, ha] at h
    rcases hl : AP.load Z b l ⟨s.parser, at_⟩ with ⟨(_ | _) | _ | _, c⟩ <;> rw [hl] at h <;> simp only at h <;> split at h <;> simp at h
    rename_i hs
    obtain ⟨⟨rfl, rfl⟩, rfl⟩ := h
    obtain ⟨ap, h1, h2⟩ := ih _ _ _ x rfl hs hx
    refine ⟨ap, h1, ?_⟩
    match x, hx with
    | [], _ =>
      simp only at h2 ⊢
      rw [List.length_cons, List.replicate_succ, loadEach, M.bind_apply, hl]
      simp only [M.bind_apply, h2]
      rfl
    | [e], _ =>
      simp only at h2 ⊢
      rw [List.length_cons, show vs.length + 1 + 1 + n = (vs.length + 1 + n) + 1 by omega, List.replicate_succ, loadEach, M.bind_apply, hl]
      simp only [M.bind_apply, h2]

/-! ## Reading a body -/

/-- Where seeks go to. -/
theorem declared_reach {v : FbxVersion} {body : Bytes} {cursor limit : Nat} (hsk : canSeek v body cursor limit) (hsz : Sized body) {n : Started}
    (h : Declared (headWidth v) body n) : cursor + (n.attrEnd - 27) ≤ limit := by
  obtain ⟨k, h1, h2, -, -, -, h3⟩ := h
  simp only [headerLen, Sized] at *
  rcases hsk with hs | ⟨hv, hs⟩
  · have : n.attrEnd < 2 ^ 64 := by rw [h3]; exact Nat.mod_lt _ (by decide)
    simp only [headerLen] at hs
    omega
  · have hw : headWidth v = 4 := by simp [headWidth, hv]
    rw [hw] at h2 h3
    have hb : (headerAt 4 (body.drop k)).bytelenAttrs < 2 ^ 32 := by
      simp only [headerAt]
      have := fromLe_lt (((body.drop k).drop (4 + 4)).take 4)
      refine Nat.lt_of_lt_of_le this ?_
      rw [show (2 : Nat) ^ 32 = 256 ^ 4 by decide]
      refine Nat.pow_le_pow_right (by decide) ?_
      simp only [List.length_take]
      omega
    rw [List.length_drop] at h2
    have := Nat.mod_le (n.startOff + (3 * 4 + 1) + (headerAt 4 (body.drop k)).nameLen + (headerAt 4 (body.drop k)).bytelenAttrs) (2 ^ 64)
    omega

theorem Spec.Sees.after {v : FbxVersion} {r : Reading} {p : Part} {ws : List (Warning × SynPos)} {seen : List (Obs AttrValue)} {log : List (Warning × SynPos)}
    {x : Res PErr (List (Obs AttrValue)) × Parser} (h : Sees v r (seen ++ [p.obs]) (ws ++ log) x) : Sees v (r.after p ws) seen log x := by
  unfold Sees at h ⊢
  simp only [Reading.after, List.map_cons]
  simp only [List.append_assoc, List.cons_append, List.nil_append] at h ⊢
  exact h

theorem nextEvent_call {p : Parser} {at_ : Option Attrs} {o : Outcome AttrValue} {u : Client} (h : (Client.mk p at_).call Z (.next : Call AttrValue) = some (o, u)) :
    match o with
    | .event ev => Parser.nextEvent p = (.ok ev, u.parser) ∧ u.attrs = (match ev with | .startNode _ _ => attrsOf u.parser | _ => none)
    | .err e => Parser.nextEvent p = (.err e, u.parser)
    | .panic x => Parser.nextEvent p = (.panic x, u.parser)
    | _ => False := by
  simp only [Client.call] at h
  rcases hx : Parser.nextEvent p with ⟨_ | _ | _, q⟩ <;> rw [hx] at h <;> simp only [Option.some.injEq, Prod.mk.injEq] at h <;> obtain ⟨rfl, rfl⟩ := h
  · rename_i ev
    exact ⟨rfl, by cases ev <;> rfl⟩
  · exact rfl
  · exact rfl

/-- The handler stays. -/
theorem Runs.handler {α : Type} {L : Nat} (hL : L + 2 ^ 32 ≤ 2 ^ 64) {s t : Client} {h : History α} (hr : Runs Z s h t) (hs : CInv L s) (hn : h.calm)
    (h0 : ∀ x ∈ h, x.1.reads = true) : t.parser.handler = s.parser.handler := by
  refine hr.ind hL hs (P := fun h t => h.calm → (∀ x ∈ h, x.1.reads = true) → t.parser.handler = s.parser.handler) (fun _ _ => rfl) ?_ hn h0
  intro h t u c o hr hi ih hn hd hc hn' h0'
  obtain ⟨k1, k2⟩ := calm_snoc hn'
  have k3 := ih k1 (fun x hx => h0' x (by simp [hx]))
  have k4 := h0' (c, o) (by simp)
  cases hd with
  | event hrun he hi' ha => rw [he.frame.2.2]; exact k3
  | nextRefused hp hr ha => rw [hp]; exact k3
  | nextFailed hrun hf hi hp he ha => rw [hp]; exact hf.frame.2.2.trans k3
  | nextPanic hx' => exact absurd rfl (k2 _)
  | value ha hp hrun hr ht => subst ht; rw [hp] at k3; exact hr.1.handler.trans k3
  | noValue ha hrun h0 ht => subst ht; exact k3
  | loadRefused ha ht hr => subst ht; exact k3
  | loadFailed ha hp hrun hr hpos ht he =>
    subst ht
    rw [hp] at k3
    rcases hr with hr | hr
    · exact hr.1.handler.trans k3
    · exact hr.1.handler.trans k3
  | skip => cases k4
  | skipFailed => cases k4
  | skipPanic => cases k4
  | handler => cases k4

theorem drive_reading {checks : Bool} {v : FbxVersion} {body : Bytes} {ending : Option IoErr} {cursor limit : Nat} {p : Parser}
    (hp : Parser.create checks v ⟨body, ending, cursor, headerLen, true, limit⟩ = .ok p) (hsz : Sized body) (hsk : canSeek v body cursor limit) (b : Bool) :
    ∀ (n k : Nat) (seen : List (Obs AttrValue)) (h : History AttrValue) (s : Client), Runs Z ⟨p, none⟩ h s → h.calm → s.parser.health = .running → tolerant s.parser →
      cursor + (s.parser.reader.position - 27) ≤ limit →
      Sees v (reading Z ending checks n (look s.parser)) seen s.parser.log (drive Z b everything n k seen s.parser) := by
  intro n
  induction n with
  | zero => intro k seen h s hr hn hrun ht hb; exact ⟨(congrArg Res.ok (List.append_nil seen).symm : _), rfl, rfl⟩
  | succ n ih =>
    intro k seen h s hr hn hrun ht hb
    obtain ⟨hi, hL⟩ := open_inv ⟨_, _, _, _, _, _, hp⟩ hsz
    obtain ⟨j, hj⟩ := C31_position hp hsz hr hn
    obtain ⟨⟨j', hj1, hj2⟩, -, -, hdecl, -⟩ := C55_ahead hp hsz hr hn
    have hpv : p.version = v := by
      unfold Parser.create at hp
      split at hp <;> cases hp
      rfl
    have hv : s.parser.version = v := (hr.frame hL hi hn).1.trans hpv
    have hpass : canPass s.parser := by
      intro nd outer hst
      have := declared_reach hsk hsz (hdecl nd (by simp [look, hst]))
      rw [hj] at hb ⊢
      simp only at hb ⊢
      omega
    obtain ⟨o, t, hc, hans⟩ := C55_next_event hp hsz hr hn hrun ht hpass
    have hne := nextEvent_call hc
    have hcalm : ∀ {o' : Outcome AttrValue}, (∀ x, o' ≠ .panic x) → (h ++ [((.next : Call AttrValue), o')]).calm := by
      intro o' ho
      refine calm_append.mpr ⟨hn, ?_⟩
      intro c x hm
      simp only [List.mem_singleton, Prod.mk.injEq] at hm
      exact ho x hm.2.symm
    have hhd : ∀ {u : Client}, u.parser.handler = s.parser.handler → tolerant u.parser := fun hu f hf => ht f (hu ▸ hf)
    have hkp : ∃ kp, Here body kp (look s.parser).pass ∧ cursor + kp ≤ limit := by
      have hh : Here body j (look s.parser) := ⟨by simp only [look, hj], by simp only [look, hj]⟩
      have hjb : cursor + j ≤ limit := by rw [hj] at hb; simp only at hb; omega
      cases hst : s.parser.started with
      | nil => exact ⟨j, by simp only [Ahead.pass, look, hst] at hh ⊢; exact hh, hjb⟩
      | cons nd outer =>
        have hpass : (look s.parser).pass = (look s.parser).move (nd.attrEnd - (look s.parser).pos) := by
          simp only [Ahead.pass, look, hst]
        refine ⟨_, hpass ▸ hh.move _, ?_⟩
        have := declared_reach hsk hsz (hdecl nd (by simp [look, hst]))
        rw [hh.1]
        omega
    have bound : ∀ {t : Client}, (look t.parser).pos ≤ (look s.parser).pass.pos + (look s.parser).pass.bytes.length →
        cursor + (t.parser.reader.position - 27) ≤ limit := by
      intro t hpos
      obtain ⟨kp, hk1, hk2⟩ := hkp
      rw [hk1.1, hk1.2, List.length_drop] at hpos
      have : (look t.parser).pos = t.parser.reader.position := rfl
      have hroom : cursor + body.length ≤ limit := by
        rcases hsk with hs | ⟨-, hs⟩
        · simp only [headerLen, Sized] at hs hsz
          omega
        · omega
      omega
    obtain ⟨⟨vd, w, bb⟩, hx⟩ : ∃ x, (look s.parser).next checks = x := ⟨_, rfl⟩
    rw [hx] at hans
    rw [drive, M.bind_apply]
    simp only [reading]
    rw [hx]
    cases vd with
    | fails kd =>
      obtain ⟨rfl, h2, h3, h4⟩ := hans
      simp only at hne
      simp only [hne]
      exact ⟨rfl, h2⟩
    | overflows =>
      cases hans
      simp only at hne
      simp only [hne]
      exact rfl
    | finishes =>
      obtain ⟨rfl, h2, footer, rfl, h4⟩ := hans
      simp only at hne
      simp only [hne.1]
      refine ⟨footer, by simp, ?_⟩
      rw [hv] at h4
      exact h4
    | ends =>
      obtain ⟨rfl, h2, h3, h4⟩ := hans
      simp only at hne
      simp only [hne.1]
      have hd := call_did hL (hr.inv hL hi hn) hc
      have hr' := Runs.snoc hr hn hc
      have hn' := hcalm (o' := .event .endNode) (by simp)
      have hht : t.parser.handler = s.parser.handler := by
        cases hd with
        | event hrun he hi' ha => exact he.frame.2.2
      have hpos : (look t.parser).pos ≤ (look s.parser).pass.pos + (look s.parser).pass.bytes.length := by
        have := next_pos (look s.parser) checks
        rw [hx] at this
        rw [h3]
        exact this
      have := ih k (seen ++ [.end]) _ t hr' hn' h4 (hhd hht) (bound hpos)
      rw [h3, h2] at this
      exact this.after
    | starts name m =>
      obtain ⟨rfl, h2, h3, h4⟩ := hans
      simp only at hne
      have hd := call_did hL (hr.inv hL hi hn) hc
      have hr' := Runs.snoc hr hn hc
      have hn' := hcalm (o' := .event (.startNode name m)) (by simp)
      have hht : t.parser.handler = s.parser.handler ∧ t.attrs = some ⟨m, m, t.parser.reader.position⟩ := by
        cases hd with
        | event hrun he hi' ha => exact ⟨he.frame.2.2, ha⟩
      have hpos : (look t.parser).pos ≤ (look s.parser).pass.pos + (look s.parser).pass.bytes.length := by
        have := next_pos (look s.parser) checks
        rw [hx] at this
        rw [h3]
        exact this
      have hin := next_starts hx
      obtain ⟨j2, hj2⟩ := C31_position hp hsz hr' hn'
      have hle : j2 ≤ body.length := by
        obtain ⟨kp, hk1, hk2⟩ := hkp
        rw [hk1.1, hk1.2, List.length_drop] at hpos
        rw [hk1.2] at hin
        have : kp < body.length := Nat.lt_of_not_le (fun h => hin (List.drop_eq_nil_of_le h))
        have : (look t.parser).pos = 27 + j2 := by simp only [look, hj2]
        omega
      have hfar : farSeeking t.parser := by
        simp only [farSeeking, hj2, List.length_drop]
        rcases hsk with hs | ⟨-, hs⟩
        · simp only [headerLen, Sized] at hs hsz
          omega
        · omega
      obtain ⟨u, g1, g2, g3, g4, g5⟩ := C57_node hp hsz hr hn hc (hhd hht.1) hfar b
      rw [h3] at g1 g2 g3 g4 g5
      simp only
      have hof : AP.ofParser t.parser = .ok ⟨t.parser, ⟨m, m, t.parser.reader.position⟩⟩ := by
        have h5 := hne.2
        rw [hht.2] at h5
        simp only [attrsOf] at h5
        unfold AP.ofParser at h5 ⊢
        split at h5
        · rename_i a ha
          split at ha
          · cases ha
          · cases ha
            cases h5
            rfl
        · cases h5
      simp only [hne.1, M.bind_apply, withAttrs, hof]
      have hlen1 := attributes_short Z ending m m bb.pos bb
      have hend := attributes_pos Z ending m (body := body) m bb.pos j2 bb ⟨by rw [← h3]; simp only [look, hj2], by rw [← h3]; simp only [look, hj2]⟩ hle
      change ∀ e, (attributesHere Z ending m bb).error = some e → (attributesHere Z ending m bb).values.length < m at hlen1
      change (attributesHere Z ending m bb).error = none → (attributesHere Z ending m bb).ahead.pos ≤ 27 + body.length at hend
      generalize attributesHere Z ending m bb = r at g1 g2 g3 g4 g5 hlen1 hend ⊢
      simp only [Attributes.outcomes] at g1
      cases he : r.error with
      | some e =>
        rw [he] at g1
        have hlt := hlen1 e he
        obtain ⟨ap, k1, k2⟩ := loadEach_session b directLoader (m - (r.values.length + 1)) r.values t _ u [e] hht.2 (by simpa using g1) (by simp)
        simp only at k2
        rw [show r.values.length + 1 + (m - (r.values.length + 1)) = m by omega] at k2
        simp only [everything, k2]
        refine ⟨rfl, ?_⟩
        simp only [k1, g3, h2, List.append_assoc]
      | none =>
        rw [he] at g1
        obtain ⟨k3, k4⟩ := g4 he
        obtain ⟨ap, k1, k2⟩ := loadEach_session b directLoader 0 r.values t _ u [] hht.2 (by simpa using g1) (by simp)
        simp only [k4] at k2
        simp only [everything, k2]
        obtain ⟨hz, hr2, hn2, hreads⟩ : ∃ hz : History AttrValue, Runs Z t hz u ∧ hz.calm ∧ ∀ x ∈ hz, x.1.reads = true := by
          simp only [Option.toList, List.map_nil, List.append_nil] at g1
          refine ⟨_, session_runs g1 ?_, ?_, ?_⟩
          · intro x hm
            have := List.dropLast_subset _ hm
            simp at this
          · intro c x hm
            have := (List.of_mem_zip hm).2
            simp at this
          · intro x hm
            have := (List.of_mem_zip (a := x.1) (b := x.2) hm).1
            rw [(List.mem_replicate.mp this).2]
            rfl
        have hhu := hr2.handler hL (hr'.inv hL hi hn') hn2 hreads
        have := ih (k + 1) (seen ++ [.start name m (r.values.map some)]) _ u (hr'.trans hn' hr2) (calm_append.mpr ⟨hn', hn2⟩) k3 (hhd (hhu.trans hht.1)) (by
          have : (look u.parser).pos = u.parser.reader.position := rfl
          rw [g2] at this
          have := hend he
          rcases hsk with hs | ⟨-, hs⟩
          · simp only [headerLen, Sized] at hs hsz
            omega
          · omega)
        rw [k1]
        rw [g2, g3, h2] at this
        refine Sees.after ?_
        rw [Part.obs, k4, List.append_assoc]
        exact this

end Fbx
