import Verif.Spec.Select
import Verif.Props.Reference

/-! # Clients that leave nodes out, and the reference reader -/

namespace Fbx
open Reader Parser Spec
variable {Z : Zlib}

/-! ## Steps of a client -/

/-- Where a client is in a file: after some calls, in good health, not beyond where the source can seek. -/
structure Placed (Z : Zlib) (p : Parser) (cursor limit : Nat) (s : Client) : Prop where
  runs : ∃ h : History AttrValue, Runs Z ⟨p, none⟩ h s ∧ h.calm
  running : s.parser.health = .running
  heeds : tolerant s.parser
  room : cursor + (s.parser.reader.position - 27) ≤ limit

variable {checks : Bool} {v : FbxVersion} {body : Bytes} {ending : Option IoErr} {cursor limit : Nat} {p : Parser}

theorem canSeek_room (hsz : Sized body) (hsk : canSeek v body cursor limit) : cursor + body.length ≤ limit := by
  rcases hsk with hs | ⟨-, hs⟩
  · simp only [headerLen, Sized] at hs hsz
    omega
  · omega

/-- Where skipping goes to. -/
theorem declared_end (hsk : canSeek v body cursor limit) {n : Started}
    (h : Declared (headWidth v) body n) : cursor + (n.endOff - 27) ≤ limit ∧ n.endOff < 2 ^ 64 := by
  obtain ⟨k, -, h2, h3, -, -, -⟩ := h
  have hb : n.endOff < 256 ^ headWidth v := by
    rw [h3]
    simp only [headerAt]
    refine Nat.lt_of_lt_of_le (fromLe_lt _) (Nat.pow_le_pow_right (by decide) ?_)
    simp only [List.length_take]
    omega
  rcases hsk with hs | ⟨hv, hs⟩
  · have : n.endOff < 2 ^ 64 := by
      refine Nat.lt_of_lt_of_le hb ?_
      unfold headWidth
      split <;> decide
    simp only [headerLen] at hs
    omega
  · have hw : headWidth v = 4 := by simp [headWidth, hv]
    rw [hw] at hb
    omega

theorem create_version (hp : Parser.create checks v ⟨body, ending, cursor, headerLen, true, limit⟩ = .ok p) : p.version = v := by
  unfold Parser.create at hp
  split at hp <;> cases hp
  rfl

/-- An event. -/
theorem Placed.next (hp : Parser.create checks v ⟨body, ending, cursor, headerLen, true, limit⟩ = .ok p) (hsz : Sized body)
    (hsk : canSeek v body cursor limit) {s : Client} (hs : Placed Z p cursor limit s) :
    s.parser.version = v ∧ ∃ t, match (look s.parser).next checks with
      | (.starts name m, w, b) => nextEvent s.parser = (.ok (.startNode name m), t) ∧ t.log = w.toList ++ s.parser.log ∧ look t = b ∧
          Placed Z p cursor limit ⟨t, attrsOf t⟩ ∧ t.reader.position ≤ 27 + body.length ∧
          ∃ h : History AttrValue, Runs Z ⟨p, none⟩ h s ∧ h.calm ∧ s.call Z (.next : Call AttrValue) = some (.event (.startNode name m), ⟨t, attrsOf t⟩) ∧
            attrsOf t = some ⟨m, m, t.reader.position⟩
      | (.ends, w, b) => nextEvent s.parser = (.ok .endNode, t) ∧ t.log = w.toList ++ s.parser.log ∧ look t = b ∧ Placed Z p cursor limit ⟨t, none⟩
      | (.finishes, _, b) => ∃ footer, nextEvent s.parser = (.ok (.endFbx footer), t) ∧ footerSays v.toNat b footer s.parser.log t.log
      | (.fails k, w, b) => nextEvent s.parser = (.err ⟨k, some b.here⟩, t) ∧ t.log = w.toList ++ s.parser.log
      | (.overflows, _, _) => nextEvent s.parser = (.panic .attrEndOverflow, t) := by
  obtain ⟨⟨h, hr, hn⟩, hrun, ht, hb⟩ := hs
  obtain ⟨hi, hL⟩ := open_inv ⟨_, _, _, _, _, _, hp⟩ hsz
  obtain ⟨j, hj⟩ := C31_position hp hsz hr hn
  obtain ⟨-, -, -, hdecl, -⟩ := C55_ahead hp hsz hr hn
  have hv : s.parser.version = v := (hr.frame hL hi hn).1.trans (create_version hp)
  refine ⟨hv, ?_⟩
  have hpass : canPass s.parser := by
    intro nd outer hst
    have := declared_reach hsk hsz (hdecl nd (by simp [look, hst]))
    rw [hj] at hb ⊢
    simp only at hb ⊢
    omega
  obtain ⟨o, t, hc, hans⟩ := C55_next_event hp hsz hr hn hrun ht hpass
  have hne := nextEvent_call hc
  have hcalm : ∀ {o' : Outcome AttrValue}, (∀ x, o' ≠ .panic x) → (h ++ [((.next : Call AttrValue), o')]).calm := by
    intro o' ho
    refine calm_append.mpr ⟨hn, ?_⟩
    intro c x hm
    simp only [List.mem_singleton, Prod.mk.injEq] at hm
    exact ho x hm.2.symm
  have hhd : ∀ {u : Client}, u.parser.handler = s.parser.handler → tolerant u.parser := fun hu f hf => ht f (hu ▸ hf)
  have hkp : ∃ kp, Here body kp (look s.parser).pass ∧ cursor + kp ≤ limit := by
    have hh : Here body j (look s.parser) := ⟨by simp only [look, hj], by simp only [look, hj]⟩
    have hjb : cursor + j ≤ limit := by rw [hj] at hb; simp only at hb; omega
    cases hst : s.parser.started with
    | nil => exact ⟨j, by simp only [Ahead.pass, look, hst] at hh ⊢; exact hh, hjb⟩
    | cons nd outer =>
      have hpass : (look s.parser).pass = (look s.parser).move (nd.attrEnd - (look s.parser).pos) := by
        simp only [Ahead.pass, look, hst]
      refine ⟨_, hpass ▸ hh.move _, ?_⟩
      have := declared_reach hsk hsz (hdecl nd (by simp [look, hst]))
      rw [hh.1]
      omega
  have bound : ∀ {t : Parser}, (look t).pos ≤ (look s.parser).pass.pos + (look s.parser).pass.bytes.length →
      cursor + (t.reader.position - 27) ≤ limit := by
    intro t hpos
    obtain ⟨kp, hk1, hk2⟩ := hkp
    rw [hk1.1, hk1.2, List.length_drop] at hpos
    have : (look t).pos = t.reader.position := rfl
    have hroom := canSeek_room hsz hsk
    omega
  obtain ⟨⟨vd, w, bb⟩, hx⟩ : ∃ x, (look s.parser).next checks = x := ⟨_, rfl⟩
  rw [hx] at hans
  refine ⟨t.parser, ?_⟩
  rw [hx]
  cases vd with
  | fails kd =>
    obtain ⟨rfl, h2, h3, h4⟩ := hans
    exact ⟨hne, h2⟩
  | overflows => cases hans; exact hne
  | finishes =>
    obtain ⟨rfl, h2, footer, rfl, h4⟩ := hans
    rw [hv] at h4
    exact ⟨footer, hne.1, h4⟩
  | ends =>
    obtain ⟨rfl, h2, h3, h4⟩ := hans
    have hd := call_did hL (hr.inv hL hi hn) hc
    have hr' := Runs.snoc hr hn hc
    have hn' := hcalm (o' := .event .endNode) (by simp)
    have hht : t.parser.handler = s.parser.handler := by
      cases hd with
      | event hrun he hi' ha => exact he.frame.2.2
    have hpos : (look t.parser).pos ≤ (look s.parser).pass.pos + (look s.parser).pass.bytes.length := by
      have := next_pos (look s.parser) checks
      rw [hx] at this
      rw [h3]
      exact this
    have hat : t.attrs = none := hne.2
    have hta : t = ⟨t.parser, none⟩ := by rw [← hat]
    rw [hta] at hr'
    exact ⟨hne.1, h2, h3, ⟨_, hr', hn'⟩, h4, hhd hht, bound hpos⟩
  | starts name m =>
    obtain ⟨rfl, h2, h3, h4⟩ := hans
    have hd := call_did hL (hr.inv hL hi hn) hc
    have hr' := Runs.snoc hr hn hc
    have hn' := hcalm (o' := .event (.startNode name m)) (by simp)
    have hht : t.parser.handler = s.parser.handler ∧ t.attrs = some ⟨m, m, t.parser.reader.position⟩ := by
      cases hd with
      | event hrun he hi' ha => exact ⟨he.frame.2.2, ha⟩
    have hpos : (look t.parser).pos ≤ (look s.parser).pass.pos + (look s.parser).pass.bytes.length := by
      have := next_pos (look s.parser) checks
      rw [hx] at this
      rw [h3]
      exact this
    have hin := next_starts hx
    have hle : t.parser.reader.position ≤ 27 + body.length := by
      obtain ⟨kp, hk1, hk2⟩ := hkp
      rw [hk1.1, hk1.2, List.length_drop] at hpos
      rw [hk1.2] at hin
      have : kp < body.length := Nat.lt_of_not_le (fun h => hin (List.drop_eq_nil_of_le h))
      have : (look t.parser).pos = t.parser.reader.position := rfl
      omega
    have hat : t.attrs = attrsOf t.parser := hne.2
    have hta : t = ⟨t.parser, attrsOf t.parser⟩ := by rw [← hat]
    have hc' := hc
    rw [hta] at hr' hc'
    exact ⟨hne.1, h2, h3, ⟨⟨_, hr', hn'⟩, h4, hhd hht.1, bound hpos⟩, hle, h, hr, hn, hc', by rw [← hat]; exact hht.2⟩

/-- The values of the attributes. -/
theorem loads_step (hp : Parser.create checks v ⟨body, ending, cursor, headerLen, true, limit⟩ = .ok p) (hsz : Sized body)
    (hsk : canSeek v body cursor limit) {s : Client} {t : Parser} {name : String} {m : Nat} (ht : Placed Z p cursor limit ⟨t, attrsOf t⟩)
    (hle : t.reader.position ≤ 27 + body.length) {h : History AttrValue} (hr : Runs Z ⟨p, none⟩ h s) (hn : h.calm)
    (hc : s.call Z (.next : Call AttrValue) = some (.event (.startNode name m), ⟨t, attrsOf t⟩)) (hat : attrsOf t = some ⟨m, m, t.reader.position⟩) (b : Bool) :
    let r := attributesHere Z ending m (look t)
    ∃ u, match r.error with
      | some x => withAttrs (loadEach Z b (List.replicate m directLoader)) t = (.err x, u) ∧ u.log = r.warnings ++ t.log
      | none => withAttrs (loadEach Z b (List.replicate m directLoader)) t = (.ok (r.values.map some), u) ∧ u.log = r.warnings ++ t.log ∧
          look u = r.ahead ∧ ∃ at_, Placed Z p cursor limit ⟨u, at_⟩ := by
  obtain ⟨hi, hL⟩ := open_inv ⟨_, _, _, _, _, _, hp⟩ hsz
  have hr' := Runs.snoc hr hn hc
  have hn' : (h ++ [((.next : Call AttrValue), (.event (.startNode name m) : Outcome AttrValue))]).calm := by
    refine calm_append.mpr ⟨hn, ?_⟩
    intro c x hm
    simp at hm
  obtain ⟨j2, hj2⟩ := C31_position hp hsz hr' hn'
  have hj2 : t.reader = ⟨body.drop j2, ending, cursor + j2, 27 + j2, true, limit⟩ := hj2
  have hroom := canSeek_room hsz hsk
  have hfar : farSeeking t := by
    rw [hj2] at hle
    simp only at hle
    simp only [farSeeking, hj2, List.length_drop]
    rcases hsk with hs | ⟨-, hs⟩
    · simp only [headerLen, Sized] at hs hsz
      omega
    · omega
  obtain ⟨u, g1, g2, g3, g4, g5⟩ := C57_node hp hsz hr hn hc ht.heeds hfar b
  have hof : AP.ofParser t = .ok ⟨t, ⟨m, m, t.reader.position⟩⟩ := by
    have h5 := hat
    simp only [attrsOf] at h5
    unfold AP.ofParser at h5 ⊢
    split at h5
    · rename_i a ha
      split at ha
      · cases ha
      · cases ha
        cases h5
        rfl
    · cases h5
  have hlen1 := attributes_short Z ending m m (look t).pos (look t)
  have hend := attributes_pos Z ending m (body := body) m (look t).pos j2 (look t) ⟨by simp only [look, hj2], by simp only [look, hj2]⟩
    (by rw [hj2] at hle; simp only at hle; omega)
  change ∀ e, (attributesHere Z ending m (look t)).error = some e → (attributesHere Z ending m (look t)).values.length < m at hlen1
  change (attributesHere Z ending m (look t)).error = none → (attributesHere Z ending m (look t)).ahead.pos ≤ 27 + body.length at hend
  simp only at g1 g2 g3 g4 g5 ⊢
  generalize attributesHere Z ending m (look t) = r at g1 g2 g3 g4 g5 hlen1 hend ⊢
  simp only [Attributes.outcomes] at g1
  simp only [withAttrs, hof]
  cases he : r.error with
  | some e =>
    rw [he] at g1
    have hlt := hlen1 e he
    obtain ⟨ap, k1, k2⟩ := loadEach_session b directLoader (m - (r.values.length + 1)) r.values ⟨t, attrsOf t⟩ _ u [e] hat (by simpa using g1) (by simp)
    simp only at k2
    rw [show r.values.length + 1 + (m - (r.values.length + 1)) = m by omega] at k2
    refine ⟨u.parser, ?_, g3⟩
    rw [k2, k1]
  | none =>
    rw [he] at g1
    obtain ⟨k3, k4⟩ := g4 he
    obtain ⟨ap, k1, k2⟩ := loadEach_session b directLoader 0 r.values ⟨t, attrsOf t⟩ _ u [] hat (by simpa using g1) (by simp)
    simp only [k4] at k2
    obtain ⟨hz, hr2, hn2, hreads⟩ : ∃ hz : History AttrValue, Runs Z ⟨t, attrsOf t⟩ hz u ∧ hz.calm ∧ ∀ x ∈ hz, x.1.reads = true := by
      simp only [Option.toList, List.map_nil, List.append_nil] at g1
      refine ⟨_, session_runs g1 ?_, ?_, ?_⟩
      · intro x hm
        have := List.dropLast_subset _ hm
        simp at this
      · intro c x hm
        have := (List.of_mem_zip hm).2
        simp at this
      · intro x hm
        have := (List.of_mem_zip (a := x.1) (b := x.2) hm).1
        rw [(List.mem_replicate.mp this).2]
        rfl
    have hhu := hr2.handler hL (hr'.inv hL hi hn') hn2 hreads
    refine ⟨u.parser, by rw [k2, k1], g3, g2, u.attrs, ⟨_, hr'.trans hn' hr2, calm_append.mpr ⟨hn', hn2⟩⟩, k3, ?_, ?_⟩
    · intro f hf
      exact ht.heeds f (by rw [← hhu]; exact hf)
    · have h1 : (look u.parser).pos = u.parser.reader.position := rfl
      rw [g2] at h1
      have := hend he
      show cursor + (u.parser.reader.position - 27) ≤ limit
      omega

/-- Leaving a node. -/
theorem leave_step (hp : Parser.create checks v ⟨body, ending, cursor, headerLen, true, limit⟩ = .ok p) (hsz : Sized body)
    (hsk : canSeek v body cursor limit) {t : Parser} {at_ : Option Attrs} (ht : Placed Z p cursor limit ⟨t, at_⟩) (ho : t.started ≠ []) :
    ∃ u, match (look t).leave with
      | none => skipCurrentNode t = (.panic .skipBackward, u)
      | some c => skipCurrentNode t = (.ok (), u) ∧ u.log = t.log ∧ look u = c ∧ Placed Z p cursor limit ⟨u, none⟩ := by
  obtain ⟨⟨h, hr, hn⟩, hrun, htol, hb⟩ := ht
  obtain ⟨-, -, -, hdecl, -⟩ := C55_ahead hp hsz hr hn
  obtain ⟨j, hj⟩ := C31_position hp hsz hr hn
  have hj : t.reader = ⟨body.drop j, ending, cursor + j, 27 + j, true, limit⟩ := hj
  cases hst : t.started with
  | nil => exact absurd hst ho
  | cons n outer =>
    obtain ⟨he1, he2⟩ := declared_end hsk (hdecl n (by simp [look, hst]))
    have hL : (look t).leave = if n.endOff < t.reader.position then none else some { (look t).move (n.endOff - t.reader.position) with opened := outer } := by
      simp only [Ahead.leave, look, hst]
    have hskip : skipCurrentNode t = Parser.io (Reader.skipTo n.endOff) { t with started := outer, last := some .endNode } := by
      rw [skipCurrentNode, M.get_bind]
      simp only [hst]
      rw [M.bind_apply]
      simp only [M.set]
    rw [hL]
    by_cases hlt : n.endOff < t.reader.position
    · rw [if_pos hlt, hskip]
      refine ⟨{ t with started := outer, last := some .endNode }, ?_⟩
      simp only [Parser.io, M.mapErr_apply, M.zoom_apply, Reader.skipTo, hlt, if_true]
    · rw [if_neg hlt]
      have hs := skipTo_ok (r := t.reader) (by rw [hj]) n.endOff (by omega) he2 (by rw [hj] at hlt ⊢; simp only at hlt ⊢; omega)
      have hk := io_exact (p := { t with started := outer, last := some .endNode }) hs
      refine ⟨_, hskip.trans hk, rfl, rfl, ?_⟩
      refine ⟨⟨h ++ [(.skip, .done)], Runs.snoc hr hn ?_, ?_⟩, hrun, htol, ?_⟩
      · simp only [Client.call, hskip, hk]
      · refine calm_append.mpr ⟨hn, ?_⟩
        intro c x hm
        simp at hm
      · show cursor + (t.reader.position + (n.endOff - t.reader.position) - 27) ≤ limit
        omega

/-! ## Selections -/

theorem Spec.Selects.warned {r : Selection} {ws log : List (Warning × SynPos)} {x : Res PErr (List Part × Option (Except PErr Footer)) × Parser}
    (h : Selects v r (ws ++ log) x) : Selects v (r.warned ws) log x := by
  unfold Selects at h ⊢
  simp only [Selection.warned, List.append_assoc]
  exact h

theorem filterMap_some (vs : List AttrValue) : (vs.map some).filterMap id = vs := by
  induction vs with
  | nil => rfl
  | cons v vs ih => simp

theorem enter_opened (a : Ahead) (n : Started) : (a.enter n).opened ≠ [] := by
  unfold Ahead.enter
  split <;> simp

theorem start_opened {a : Ahead} {c : Bool} {name : String} {n : Nat} {w : Option (Warning × SynPos)} {b : Ahead}
    (h : a.start c = (.starts name n, w, b)) : b.opened ≠ [] := by
  unfold Ahead.start at h
  simp only at h
  split at h
  · cases h
  · split at h
    · cases h
    · split at h
      · cases h
      · cases h
        exact enter_opened _ _

theorem next_opened {a : Ahead} {c : Bool} {name : String} {n : Nat} {w : Option (Warning × SynPos)} {b : Ahead}
    (h : a.next c = (.starts name n, w, b)) : b.opened ≠ [] := by
  have hh : ∀ {x : Ahead}, x.header c = (.starts name n, w, b) → b.opened ≠ [] := by
    intro x hx
    unfold Ahead.header at hx
    split at hx
    · cases hx
    · split at hx
      · split at hx
        · cases hx
        · simp only at hx
          split at hx <;> cases hx
      · exact start_opened hx
  unfold Ahead.next at h
  simp only at h
  split at h
  · exact hh h
  · split at h
    · cases h
    · split at h
      · cases h
      · exact hh h

theorem attributes_opened (Z : Zlib) (e : Ending) (total : Nat) : ∀ (n next : Nat) (a : Ahead), (attributes Z e total n next a).ahead.opened = a.opened
  | 0, _, _ => rfl
  | n + 1, next, a => by
    simp only [attributes]
    split
    · rfl
    · exact attributes_opened Z e total n _ _

theorem select_selects (hp : Parser.create checks v ⟨body, ending, cursor, headerLen, true, limit⟩ = .ok p) (hsz : Sized body)
    (hsk : canSeek v body cursor limit) (b : Bool) (policy : Policy) :
    ∀ (n : Nat) (kept : List Part) (s : Client), Placed Z p cursor limit s →
      Selects v (selecting Z ending checks policy n kept (look s.parser)) s.parser.log (select Z b policy n kept s.parser) := by
  intro n
  induction n with
  | zero => intro kept s hs; exact ⟨rfl, rfl, rfl⟩
  | succ n ih =>
    intro kept s hs
    obtain ⟨hv, t, hx⟩ := hs.next hp hsz hsk
    obtain ⟨⟨vd, w, bb⟩, hn⟩ : ∃ x, (look s.parser).next checks = x := ⟨_, rfl⟩
    rw [hn] at hx
    rw [select, M.bind_apply]
    simp only [selecting]
    rw [hn]
    cases vd with
    | fails k => simp only at hx; simp only [hx.1]; exact ⟨rfl, hx.2⟩
    | overflows => simp only at hx; simp only [hx]; exact rfl
    | finishes =>
      obtain ⟨footer, h1, h2⟩ := hx
      simp only [h1]
      exact ⟨footer, rfl, h2⟩
    | ends =>
      obtain ⟨h1, h2, h3, h4⟩ := hx
      simp only [h1]
      have := ih (kept ++ [.end]) ⟨t, none⟩ h4
      simp only [h2, h3] at this
      exact this.warned
    | starts name m =>
      obtain ⟨h1, h2, h3, h4, h5, h, h6, h7, h8, h9⟩ := hx
      simp only [h1]
      have hopen : t.started ≠ [] := by
        have := next_opened hn
        rw [← h3] at this
        exact this
      cases hpol : policy kept name m with
      | leave =>
        simp only
        obtain ⟨u, hu⟩ := leave_step hp hsz hsk h4 hopen
        rw [h3] at hu
        rw [M.bind_apply]
        cases hl : bb.leave with
        | none => rw [hl] at hu; simp only at hu; simp only [hu]; exact rfl
        | some c =>
          rw [hl] at hu
          obtain ⟨k1, k2, k3, k4⟩ := hu
          simp only [k1]
          have := ih kept ⟨u, none⟩ k4
          simp only [k3, k2, h2] at this
          exact this.warned
      | load enter =>
        simp only
        obtain ⟨u, hu⟩ := loads_step hp hsz hsk h4 h5 h6 h7 h8 h9 b
        rw [h3] at hu
        have hop := attributes_opened Z ending m m bb.pos bb
        change (attributesHere Z ending m bb).ahead.opened = bb.opened at hop
        rw [M.bind_apply]
        generalize attributesHere Z ending m bb = r at hu hop ⊢
        cases he : r.error with
        | some x =>
          rw [he] at hu
          simp only at hu
          simp only [hu.1]
          refine ⟨rfl, ?_⟩
          simp only [hu.2, h2, List.append_assoc]
        | none =>
          rw [he] at hu
          obtain ⟨k1, k2, k3, at_, k4⟩ := hu
          simp only [k1, filterMap_some]
          by_cases hen : enter r.values = true
          · rw [if_pos hen, if_pos hen]
            have := ih (kept ++ [.node name r.values]) ⟨u, at_⟩ k4
            simp only [k3, k2, h2] at this
            refine Selects.warned ?_
            rw [List.append_assoc]
            exact this
          · rw [if_neg hen, if_neg hen]
            have hopen' : u.started ≠ [] := by
              have : (look u).opened = bb.opened := by rw [k3, hop]
              rw [show u.started = bb.opened from this, ← h3]
              exact hopen
            obtain ⟨x, hu⟩ := leave_step hp hsz hsk k4 hopen'
            rw [k3] at hu
            rw [M.bind_apply]
            cases hl : r.ahead.leave with
            | none => rw [hl] at hu; simp only at hu; simp only [hu]; exact rfl
            | some c =>
              rw [hl] at hu
              obtain ⟨l1, l2, l3, l4⟩ := hu
              simp only [l1]
              have := ih kept ⟨x, none⟩ l4
              simp only [l3, l2, k2, h2] at this
              refine Selects.warned ?_
              rw [List.append_assoc]
              exact this

/-! ## Documents -/

/-- From `a` the parts lead to `b`. -/
inductive Walks (Z : Zlib) (e : Ending) (checks : Bool) : Ahead → List Part → Ahead → Prop where
  | nil (a : Ahead) : Walks Z e checks a [] a
  | node {a : Ahead} {name : String} {count : Nat} {w : Option (Warning × SynPos)} {b : Ahead} {ps : List Part} {c : Ahead} :
      a.next checks = (.starts name count, w, b) → (attributesHere Z e count b).error = none →
      Walks Z e checks (attributesHere Z e count b).ahead ps c → Walks Z e checks a (.node name (attributesHere Z e count b).values :: ps) c
  | «end» {a : Ahead} {w : Option (Warning × SynPos)} {b : Ahead} {ps : List Part} {c : Ahead} :
      a.next checks = (.ends, w, b) → Walks Z e checks b ps c → Walks Z e checks a (.end :: ps) c

theorem reading_walks {e : Ending} {at_ : Ahead} : ∀ {n : Nat} {a : Ahead}, (reading Z e checks n a).close = .footer at_ →
    (reading Z e checks n a).parts.length < n ∧
      ∃ b w, Walks Z e checks a (reading Z e checks n a).parts b ∧ b.next checks = (.finishes, w, at_)
  | 0, a, h => by cases h
  | n + 1, a, h => by
    simp only [reading] at h ⊢
    obtain ⟨⟨vd, w, bb⟩, hn⟩ : ∃ x, a.next checks = x := ⟨_, rfl⟩
    rw [hn] at h ⊢
    cases vd with
    | fails k => cases h
    | overflows => cases h
    | finishes =>
      simp only [Close.footer.injEq] at h
      subst h
      exact ⟨Nat.succ_pos n, a, w, .nil a, hn⟩
    | ends =>
      simp only [Reading.after] at h ⊢
      obtain ⟨h1, b, w', h2, h3⟩ := reading_walks h
      exact ⟨by simp only [List.length_cons]; omega, b, w', .end hn h2, h3⟩
    | starts name m =>
      simp only at h ⊢
      cases he : (attributesHere Z e m bb).error with
      | some x => rw [he] at h; cases h
      | none =>
        rw [he] at h
        simp only [Reading.after] at h ⊢
        obtain ⟨h1, b, w', h2, h3⟩ := reading_walks h
        exact ⟨by simp only [List.length_cons]; omega, b, w', .node hn he h2, h3⟩

theorem Walks.split {e : Ending} : ∀ {ps qs : List Part} {a c : Ahead}, Walks Z e checks a (ps ++ qs) c →
    ∃ b, Walks Z e checks a ps b ∧ Walks Z e checks b qs c
  | [], _, a, _, h => ⟨a, .nil a, h⟩
  | _ :: _, _, _, _, .node h1 h2 h3 => by
    obtain ⟨b, k1, k2⟩ := Walks.split h3
    exact ⟨b, .node h1 h2 k1, k2⟩
  | _ :: _, _, _, _, .end h1 h3 => by
    obtain ⟨b, k1, k2⟩ := Walks.split h3
    exact ⟨b, .end h1 k1, k2⟩

theorem pass_moves (a : Ahead) : ∃ k, a.pass = a.move k := by
  unfold Ahead.pass
  split
  · exact ⟨0, rfl⟩
  · exact ⟨_, rfl⟩

theorem moved (a : Ahead) (i j : Nat) : (a.move i).move j = a.move (i + j) := by
  simp only [Ahead.move, List.drop_drop, Nat.add_assoc]

/-- Where a node starts. -/
theorem next_starts_enter {a : Ahead} {c : Bool} {name : String} {n : Nat} {w : Option (Warning × SynPos)} {b : Ahead}
    (h : a.next c = (.starts name n, w, b)) : ∃ k nd, b = (a.move k).enter nd := by
  obtain ⟨i, hi⟩ := pass_moves a
  have hh : a.pass.header c = (.starts name n, w, b) → ∃ k nd, b = (a.move k).enter nd := by
    intro hx
    unfold Ahead.header at hx
    split at hx
    · cases hx
    · split at hx
      · split at hx
        · cases hx
        · simp only at hx
          split at hx <;> cases hx
      · unfold Ahead.start at hx
        simp only at hx
        split at hx
        · cases hx
        · split at hx
          · cases hx
          · split at hx
            · cases hx
            · cases hx
              rw [hi, moved, moved]
              exact ⟨_, _, rfl⟩
  unfold Ahead.next at h
  simp only at h
  split at h
  · exact hh h
  · split at h
    · cases h
    · split at h
      · cases h
      · exact hh h

/-- Where a node ends. -/
theorem next_ends {a : Ahead} {c : Bool} {w : Option (Warning × SynPos)} {b : Ahead} (h : a.next c = (.ends, w, b)) :
    ∃ k n outer, a.opened = n :: outer ∧ b = { a.move k with opened := outer } ∧ a.pos + k = n.endOff := by
  obtain ⟨i, hi⟩ := pass_moves a
  have ho : a.pass.opened = a.opened := by rw [hi]; rfl
  have hh : ∀ {n : Started} {outer : List Started}, a.opened = n :: outer → a.pass.header c = (.ends, w, b) →
      ∃ k n outer, a.opened = n :: outer ∧ b = { a.move k with opened := outer } ∧ a.pos + k = n.endOff := by
    intro n outer hno hx
    unfold Ahead.header at hx
    split at hx
    · cases hx
    · split at hx
      · split at hx
        · cases hx
        · rename_i m o hm
          rw [ho, hno] at hm
          cases hm
          simp only at hx
          split at hx
          · cases hx
          · rename_i he
            cases hx
            refine ⟨i + (3 * a.pass.width + 1), n, outer, hno, by rw [hi, moved], ?_⟩
            simp only [ne_eq, Decidable.not_not] at he
            rw [he, hi]
            simp only [Ahead.move]
            omega
      · unfold Ahead.start at hx
        simp only at hx
        split at hx
        · cases hx
        · split at hx
          · cases hx
          · split at hx <;> cases hx
  unfold Ahead.next at h
  simp only at h
  split at h
  · rename_i hn
    unfold Ahead.header at h
    split at h
    · cases h
    · split at h
      · rw [hn] at h; cases h
      · unfold Ahead.start at h
        simp only at h
        split at h
        · cases h
        · split at h
          · cases h
          · split at h <;> cases h
  · rename_i n outer hn
    rw [ho] at hn
    split at h
    · cases h
    · split at h
      · rename_i he
        cases h
        refine ⟨i, n, outer, hn, by rw [hi], ?_⟩
        rw [he, hi]
        rfl
      · exact hh hn h

theorem attributes_moves (Z : Zlib) (e : Ending) (total : Nat) : ∀ (n next : Nat) (a : Ahead), ∃ k, (attributes Z e total n next a).ahead = a.move k
  | 0, _, a => ⟨0, rfl⟩
  | n + 1, next, a => by
    simp only [attributes]
    split
    · exact ⟨_, moved _ _ _⟩
    · obtain ⟨k, h⟩ := attributes_moves Z e total n ((a.move (next - a.pos)).pos + (attrInFront Z e (a.move (next - a.pos)).bytes).len)
        ((a.move (next - a.pos)).move (attrInFront Z e (a.move (next - a.pos)).bytes).read)
      simp only
      rw [h, moved, moved]
      exact ⟨_, rfl⟩

/-- Moved on, with other open nodes. -/
def goTo (a : Ahead) (k : Nat) (os : List Started) : Ahead := { a.move k with opened := os }

theorem goTo_move (a : Ahead) (k j : Nat) (os : List Started) : (goTo a k os).move j = goTo a (k + j) os := by
  simp only [goTo, Ahead.move, List.drop_drop, Nat.add_assoc]

theorem goTo_goTo (a : Ahead) (k j : Nat) (os os' : List Started) : goTo (goTo a k os) j os' = goTo a (k + j) os' := by
  simp only [goTo, Ahead.move, List.drop_drop, Nat.add_assoc]

theorem goTo_self {a : Ahead} {os : List Started} (h : a.opened = os) : goTo a 0 os = a := by
  subst h
  rfl

theorem enter_goTo {a : Ahead} {n : Started} {outer : List Started} (h : a.opened = n :: outer) (k : Nat) (nd : Started) :
    (a.move k).enter nd = goTo a k (nd :: { n with kids := n.kids + 1 } :: outer) := by
  unfold Ahead.enter
  rw [show (a.move k).opened = n :: outer from h]
  rfl

/-- A node that is read is left where it ends; the nodes around it stay as they are. -/
theorem walks_stays {e : Ending} : ∀ (F : Forest AttrValue) {a b : Ahead}, Walks Z e checks a (partsOf F) b → ∀ n outer, a.opened = n :: outer →
    ∃ k j, b = goTo a k ({ n with kids := j } :: outer)
  | .nil, a, b, h, n, outer, ho => by
    cases h
    exact ⟨0, n.kids, (goTo_self ho).symm⟩
  | .cons name attrs children rest, a, d, h, n, outer, ho => by
    simp only [partsOf] at h
    cases h with
    | node hn he h =>
      obtain ⟨k0, nd, hb⟩ := next_starts_enter hn
      rw [enter_goTo ho] at hb
      obtain ⟨k1, hk⟩ := attributes_moves Z e _ _ _ _
      rw [attributesHere, hk, hb, goTo_move] at h
      obtain ⟨b1, h1, h2⟩ := h.split
      obtain ⟨k2, j2, rfl⟩ := walks_stays children h1 _ _ rfl
      rw [goTo_goTo] at h2
      cases h2 with
      | «end» hen h3 =>
        obtain ⟨k3, n', o', g1, g2, -⟩ := next_ends hen
        cases g1
        rw [show ({ (goTo a (k0 + k1 + k2) _).move k3 with opened := { n with kids := n.kids + 1 } :: outer } : Ahead) =
          goTo (goTo a (k0 + k1 + k2) ({ nd with kids := j2 } :: { n with kids := n.kids + 1 } :: outer)) k3 ({ n with kids := n.kids + 1 } :: outer) from rfl,
          goTo_goTo] at g2
        subst g2
        obtain ⟨k4, j4, rfl⟩ := walks_stays rest h3 _ _ rfl
        exact ⟨_, j4, goTo_goTo ..⟩

/-- Reading through the rest of a node leads to where skipping it leads. -/
theorem walks_leave {e : Ending} {F : Forest AttrValue} {qs : List Part} {a d : Ahead} {n : Started} {outer : List Started} (ho : a.opened = n :: outer)
    (h : Walks Z e checks a (partsOf F ++ .end :: qs) d) : ∃ k, a.pos + k = n.endOff ∧ Walks Z e checks (goTo a k outer) qs d := by
  obtain ⟨b, h1, h2⟩ := h.split
  obtain ⟨k, j, rfl⟩ := walks_stays F h1 _ _ ho
  cases h2 with
  | «end» hen h3 =>
    obtain ⟨k3, n', o', g1, g2, g3⟩ := next_ends hen
    cases g1
    refine ⟨k + k3, ?_, ?_⟩
    · rw [← g3]
      simp only [goTo, Ahead.move]
      omega
    · subst g2
      rw [← goTo_goTo a k k3 _ outer]
      exact h3

theorem leave_goTo {a : Ahead} {n : Started} {outer : List Started} (ho : a.opened = n :: outer) {i k : Nat} (h : a.pos + (i + k) = n.endOff) :
    (a.move i).leave = some (goTo a (i + k) outer) := by
  unfold Ahead.leave
  rw [show (a.move i).opened = n :: outer from ho]
  have hm : (a.move i).pos = a.pos + i := rfl
  simp only
  rw [if_neg (by omega), hm]
  simp only [goTo, Ahead.move, List.drop_drop, Option.some.injEq, Ahead.mk.injEq, true_and]
  have : i + (n.endOff - (a.pos + i)) = i + k := by omega
  rw [this]
  exact ⟨by omega, rfl, trivial⟩

theorem warned_warned (r : Selection) (a b : List (Warning × SynPos)) : (r.warned a).warned b = r.warned (a ++ b) := by
  simp only [Selection.warned, List.append_assoc]

theorem warned_nil (r : Selection) : r.warned [] = r := by
  simp only [Selection.warned, List.append_nil]

theorem partsOf_one (name : String) (attrs : List AttrValue) (F : Forest AttrValue) :
    partsOf (.cons name attrs F .nil) = .node name attrs :: (partsOf F ++ [.end]) := by
  simp only [partsOf]

theorem attributes_values (Z : Zlib) (e : Ending) (total : Nat) : ∀ (n next : Nat) (a : Ahead), (attributes Z e total n next a).error = none →
    (attributes Z e total n next a).values.length = n
  | 0, _, _, _ => rfl
  | n + 1, next, a, h => by
    simp only [attributes] at h ⊢
    split at h
    · cases h
    · exact congrArg (· + 1) (attributes_values Z e total n _ _ h)

/-- Selecting from a document. -/
theorem selecting_prune {e : Ending} (policy : Policy) : ∀ (F : Forest AttrValue) {a b : Ahead}, Walks Z e checks a (partsOf F) b →
    ∀ (kept : List Part) (n : Nat), (partsOf F).length ≤ n → ∃ m ws, n ≤ m + (partsOf F).length ∧
      selecting Z e checks policy n kept a = (selecting Z e checks policy m (kept ++ partsOf (prune policy kept F)) b).warned ws
  | .nil, a, b, h, kept, n, hn => by
    cases h
    exact ⟨n, [], Nat.le_add_right _ _, by simp only [prune, partsOf, List.append_nil, warned_nil]⟩
  | .cons name attrs children rest, a, d, h, kept, n, hlen => by
    simp only [partsOf] at h
    simp only [partsOf, List.length_cons, List.length_append] at hlen
    have h0 := h
    cases h with
    | node hn he h =>
      rename_i count w b
      obtain ⟨n, rfl⟩ : ∃ m, n = m + 1 := ⟨n - 1, by omega⟩
      have hop := next_opened hn
      obtain ⟨nd, outer, ho⟩ : ∃ nd outer, b.opened = nd :: outer := by
        cases hb : b.opened with
        | nil => exact absurd hb hop
        | cons x y => exact ⟨x, y, rfl⟩
      obtain ⟨k1, hk⟩ := attributes_moves Z e count count b.pos b
      have hk : (attributesHere Z e count b).ahead = b.move k1 := hk
      have hcount : (attributesHere Z e count b).values.length = count := attributes_values Z e count count b.pos b he
      obtain ⟨k2, g1, g2⟩ := walks_leave (show (attributesHere Z e count b).ahead.opened = nd :: outer by rw [hk]; exact ho) h
      rw [hk] at g1 g2
      have g3 : goTo (b.move k1) k2 outer = goTo b (k1 + k2) outer := by simp only [goTo, moved]
      rw [g3] at g2
      have hpos : b.pos + (k1 + k2) = nd.endOff := by rw [← g1]; simp only [Ahead.move]; omega
      have hl1 : (b.move k1).leave = some (goTo b (k1 + k2) outer) := leave_goTo ho hpos
      have hl0 : b.leave = some (goTo b (k1 + k2) outer) := by
        have := leave_goTo (i := 0) (k := k1 + k2) ho (by omega)
        rw [Nat.zero_add] at this
        exact this
      simp only [selecting, hn, prune, Policy.enters, hcount]
      cases hp : policy kept name count with
      | leave =>
        simp only [hl0]
        obtain ⟨m, ws, l1, l2⟩ := selecting_prune policy rest g2 kept n (by omega)
        refine ⟨m, ws ++ w.toList, by simp only [partsOf, List.length_cons, List.length_append]; omega, ?_⟩
        rw [l2, warned_warned]
        rfl
      | load enter =>
        simp only [he]
        by_cases hen : enter (attributesHere Z e count b).values = true
        · simp only [hen, if_true]
          obtain ⟨b1, w1, w2⟩ := h.split
          obtain ⟨m, ws, l1, l2⟩ := selecting_prune policy children w1 (kept ++ [.node name (attributesHere Z e count b).values]) n (by omega)
          cases w2 with
          | «end» x1 x2 =>
            obtain ⟨m, rfl⟩ : ∃ i, m = i + 1 := ⟨m - 1, by omega⟩
            rename_i w' c
            obtain ⟨m', ws', l3, l4⟩ := selecting_prune policy rest x2 (kept ++ [.node name (attributesHere Z e count b).values] ++
              partsOf (prune policy (kept ++ [.node name (attributesHere Z e count b).values]) children) ++ [.end]) m (by omega)
            refine ⟨m', ws' ++ (w'.toList ++ (ws ++ ((attributesHere Z e count b).warnings ++ w.toList))), by simp only [partsOf, List.length_cons, List.length_append]; omega, ?_⟩
            rw [l2]
            simp only [selecting, x1]
            rw [l4]
            simp only [warned_warned, partsOf_one]
            simp only [partsOf, List.append_assoc, List.cons_append, List.nil_append]
        · simp only [hen, hk, hl1]
          obtain ⟨m, ws, l1, l2⟩ := selecting_prune policy rest g2 kept n (by omega)
          refine ⟨m, ws ++ ((attributesHere Z e count b).warnings ++ w.toList), by simp only [partsOf, List.length_cons, List.length_append]; omega, ?_⟩
          rw [l2, warned_warned]
          rfl

/-! ## The filter -/

theorem select_extends (b : Bool) (policy : Policy) : ∀ (n : Nat) (kept : List Part) (p q : Parser) (ks : List Part) (fo : Option (Except PErr Footer)),
    select Z b policy n kept p = (.ok (ks, fo), q) → ∃ ps, ks = kept ++ ps := by
  intro n
  induction n with
  | zero =>
    intro kept p q ks fo h
    cases h
    exact ⟨[], (List.append_nil _).symm⟩
  | succ n ih =>
    intro kept p q ks fo h
    rw [select, M.bind_ok_iff] at h
    obtain ⟨ev, p1, h1, h2⟩ := h
    cases ev with
    | endFbx f => cases h2; exact ⟨[], (List.append_nil _).symm⟩
    | endNode =>
      obtain ⟨ps, rfl⟩ := ih _ _ _ _ _ h2
      exact ⟨_, List.append_assoc ..⟩
    | startNode name m =>
      simp only at h2
      cases hp : policy kept name m with
      | leave =>
        rw [hp] at h2
        simp only at h2
        rw [M.bind_ok_iff] at h2
        obtain ⟨_, p2, _, h3⟩ := h2
        exact ih _ _ _ _ _ h3
      | load enter =>
        rw [hp] at h2
        simp only at h2
        rw [M.bind_ok_iff] at h2
        obtain ⟨vs, p2, _, h3⟩ := h2
        split at h3
        · obtain ⟨ps, rfl⟩ := ih _ _ _ _ _ h3
          exact ⟨_, List.append_assoc ..⟩
        · rw [M.bind_ok_iff] at h3
          obtain ⟨_, p3, _, h4⟩ := h3
          exact ih _ _ _ _ _ h4

theorem onParser_ok {α : Type} {m : M PErr Parser α} {p q : Parser} {x : α} (h : m p = (.ok x, q)) (w : Writer) : onParser m (p, w) = (.ok x, q, w) := by
  simp only [onParser, h]

theorem filter_select (Z' : Zlib) (b : Bool) (policy : Policy) (foot : Except PErr Footer → Writer.FooterSpec) (f : Except PErr Footer) :
    ∀ (n : Nat) (kept ps : List Part) (p q : Parser) (w : Writer), select Z b policy n kept p = (.ok (kept ++ ps, some f), q) →
      (filter Z Z' b policy foot n kept (p, w)).1 = asFilter ((do Writer.run Z' (ps.flatMap Part.calls); Writer.finalize (foot f) : M WErr Writer Unit) w).1 ∧
      (filter Z Z' b policy foot n kept (p, w)).2.2 = ((do Writer.run Z' (ps.flatMap Part.calls); Writer.finalize (foot f) : M WErr Writer Unit) w).2 := by
  intro n
  induction n with
  | zero =>
    intro kept ps p q w h
    have h : (Res.ok (kept, none), p) = (Res.ok (ε := PErr) (kept ++ ps, some f), q) := h
    simp at h
  | succ n ih =>
    intro kept ps p q w h
    rw [select, M.bind_ok_iff] at h
    obtain ⟨ev, p1, h1, h2⟩ := h
    rw [filter, M.bind_apply, onParser_ok h1]
    have tail : ∀ (x : Part) (ps' : List Part) (p2 : Parser), select Z b policy n (kept ++ [x]) p2 = (.ok (kept ++ [x] ++ ps', some f), q) →
        (((do onWriter (Writer.run Z' x.calls); filter Z Z' b policy foot n (kept ++ [x]) : M FilterErr (Parser × Writer) Bool)) (p2, w)).1 =
            asFilter ((do Writer.run Z' ((x :: ps').flatMap Part.calls); Writer.finalize (foot f) : M WErr Writer Unit) w).1 ∧
          (((do onWriter (Writer.run Z' x.calls); filter Z Z' b policy foot n (kept ++ [x]) : M FilterErr (Parser × Writer) Bool)) (p2, w)).2.2 =
            ((do Writer.run Z' ((x :: ps').flatMap Part.calls); Writer.finalize (foot f) : M WErr Writer Unit) w).2 := by
      intro x ps' p2 hx
      have := fun w => ih (kept ++ [x]) ps' p2 q w hx
      simp only [List.flatMap_cons, Writer.run_append, M.bind_assoc']
      simp only [M.bind_apply, onWriter]
      simp only [M.bind_apply] at this
      rcases hr : Writer.run Z' x.calls w with ⟨_ | _ | _, w'⟩
      · exact this w'
      · exact ⟨rfl, rfl⟩
      · exact ⟨rfl, rfl⟩
    cases ev with
    | endFbx g =>
      have h2 : (Res.ok (kept, some g), p1) = (Res.ok (ε := PErr) (kept ++ ps, some f), q) := h2
      simp only [Prod.mk.injEq, Res.ok.injEq, Option.some.injEq] at h2
      obtain ⟨⟨hk, rfl⟩, rfl⟩ := h2
      have hps : ps = [] := by
        have := congrArg List.length hk
        simpa using this
      subst hps
      simp only [List.flatMap_nil, Writer.run]
      simp only [M.bind_apply, onWriter]
      rcases hr : Writer.finalize (foot g) w with ⟨_ | _ | _, w'⟩ <;> exact ⟨by simp [asFilter, Pure.pure, M.pure, hr], by simp [Pure.pure, M.pure, hr]⟩
    | endNode =>
      simp only at h2 ⊢
      obtain ⟨ps', hps⟩ := select_extends _ _ _ _ _ _ _ _ h2
      have : ps = .end :: ps' := by simpa using hps
      subst this
      exact tail .end ps' p1 (by rw [h2]; simp)
    | startNode name m =>
      simp only at h2 ⊢
      cases hp : policy kept name m with
      | leave =>
        rw [hp] at h2
        simp only at h2 ⊢
        rw [M.bind_ok_iff] at h2
        obtain ⟨_, p2, h3, h4⟩ := h2
        rw [M.bind_apply, onParser_ok h3]
        exact ih _ _ _ _ _ h4
      | load enter =>
        rw [hp] at h2
        simp only at h2 ⊢
        rw [M.bind_ok_iff] at h2
        obtain ⟨vs, p2, h3, h4⟩ := h2
        rw [M.bind_apply, onParser_ok h3]
        simp only
        by_cases hen : enter (vs.filterMap id) = true
        · rw [if_pos hen] at h4 ⊢
          obtain ⟨ps', hps⟩ := select_extends _ _ _ _ _ _ _ _ h4
          have : ps = .node name (vs.filterMap id) :: ps' := by simpa using hps
          subst this
          exact tail _ ps' p2 (by rw [h4]; simp)
        · rw [if_neg hen] at h4 ⊢
          rw [M.bind_ok_iff] at h4
          obtain ⟨_, p3, h5, h6⟩ := h4
          rw [M.bind_apply, onParser_ok h5]
          exact ih _ _ _ _ _ h6

theorem calls_parts : ∀ F : Forest AttrValue, (partsOf F).flatMap Part.calls = calls (F.map Writer.appendOf)
  | .nil => rfl
  | .cons name attrs children rest => by
    have h1 := calls_parts children
    have h2 := calls_parts rest
    simp only [partsOf, List.flatMap_cons, List.flatMap_append, Part.calls, h1, h2, Forest.map, calls, List.map_map, List.cons_append, List.nil_append]
    rfl

end Fbx
