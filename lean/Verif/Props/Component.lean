import Verif.Props.ParserHistory
import Verif.Spec.Component

/-! # C49 The component an error of `next_event` names -/

namespace Fbx
open Reader Parser
variable {α : Type} {Z : Zlib}

theorem headSize_eq (v : FbxVersion) : headSize v = 3 * headWidth v + 1 := by
  unfold headSize headWidth
  split <;> rfl

theorem utf8ByteSize_of {bs : Bytes} {s : String} (h : stringOfUtf8 bs = some s) : s.utf8ByteSize = bs.length := by
  have := strBytes_of_stringOfUtf8 h
  rw [← this, strBytes, Array.length_toList]
  rfl

/-- `Marks` lists where the open nodes start. -/
theorem Marks.opened {L : Nat} (hL : L + 2 ^ 32 ≤ 2 ^ 64) {s t : Client} {l : List Nat} (h : Marks (α := α) Z s l t) (hs : CInv L s)
    (h0 : s.parser.started = []) (hr : s.parser.health = .running) :
    CInv L t ∧ t.parser.started.map Started.startOff = l ∧ t.parser.health = .running := by
  induction h with
  | nil => exact ⟨hs, by rw [h0]; rfl, hr⟩
  | @start l t u name n h hc ih =>
    obtain ⟨i1, i2, i3⟩ := ih
    have hd := call_did hL i1 hc
    refine ⟨hd.inv i1 (fun x hx => by cases hx), ?_⟩
    cases hd with
    | event hrun he hi ha =>
      refine ⟨?_, by have := he.health; simpa [hrun] using this⟩
      generalize hev : Event.startNode name n = ev at he
      cases he with
      | endNode => cases hev
      | endFbx => cases hev
      | @start q' m outer hst hn hq =>
        injection hev with hnm hcnt
        cases hst with
        | @start r hd nm p' attrEnd hsk hh hne hlen hname hp' hrd hae hq' =>
          have hm : m = ⟨r.position, hd.endOffset, hd.numAttrs, attrEnd, nm, 0⟩ ∧ outer.map Started.startOff = t.parser.started.map Started.startOff := by
            rw [hq'] at hn
            have hp0 := hp'.started
            unfold pushNode at hn
            split at hn
            · rename_i h0
              injection hn with a b
              rw [← hp0, h0]
              exact ⟨a.symm, by rw [← b]⟩
            · rename_i par out h0
              injection hn with a b
              rw [← hp0, h0]
              exact ⟨a.symm, by rw [← b]; rfl⟩
          have hlen' : nm.utf8ByteSize = hd.nameLen := by
            rw [utf8ByteSize_of hname]
            simp only [List.length_take, List.length_drop]
            omega
          have hpos : u.parser.reader.position = r.position + (3 * headWidth t.parser.version + 1 + hd.nameLen) ∧ u.parser.version = t.parser.version := by
            rw [hq, hq']
            refine ⟨?_, ?_⟩
            · show (pushNode _ p').reader.position = _
              have : (pushNode ⟨r.position, hd.endOffset, hd.numAttrs, attrEnd, nm, 0⟩ p').reader = p'.reader := by
                unfold pushNode; split <;> rfl
              rw [this, hrd]
              rfl
            · show (pushNode _ p').version = _
              have : (pushNode ⟨r.position, hd.endOffset, hd.numAttrs, attrEnd, nm, 0⟩ p').version = p'.version := by
                unfold pushNode; split <;> rfl
              rw [this, hp'.version]
          have hst' : u.parser.started = m :: outer := by rw [hq]; exact hn
          rw [hst', List.map_cons, hm.2, i2, hpos.1, hpos.2, headSize_eq, hnm, hm.1]
          simp only [hlen']
          congr 1
          omega
  | @stop x l t u h hc ih =>
    obtain ⟨i1, i2, i3⟩ := ih
    have hd := call_did hL i1 hc
    refine ⟨hd.inv i1 (fun x hx => by cases hx), ?_⟩
    cases hd with
    | event hrun he hi ha =>
      refine ⟨?_, by have := he.health; simpa [hrun] using this⟩
      cases he with
      | endNode hst hq =>
        rw [hq]
        cases hst with
        | implicit hr hst hp' hrd hend hq => subst hq; rw [hst] at i2; injection i2
        | explicit hr hst hh hlen hp' hrd hend hq => subst hq; rw [hst] at i2; injection i2
  | @skip x l t u h hc ih =>
    obtain ⟨i1, i2, i3⟩ := ih
    have hd := call_did hL i1 hc
    refine ⟨hd.inv i1 (fun x hx => by cases hx), ?_⟩
    cases hd with
    | skip hst hm hi hge hpos hplain ht =>
      subst ht
      rw [hst] at i2
      injection i2 with _ i2
      exact ⟨i2, i3⟩
  | @value l t u b d v h hc ih =>
    obtain ⟨i1, i2, i3⟩ := ih
    have hd := call_did hL i1 hc
    refine ⟨hd.inv i1 (fun x hx => by cases hx), ?_⟩
    cases hd with
    | value ha hp hrun hr ht =>
      subst ht
      obtain ⟨g1, _⟩ := hr
      rw [← hp] at g1
      exact ⟨by rw [g1.started]; exact i2, by rw [g1.health]; exact i3⟩
  | @noValue l t u b d h hc ih =>
    obtain ⟨i1, i2, i3⟩ := ih
    have hd := call_did hL i1 hc
    refine ⟨hd.inv i1 (fun x hx => by cases hx), ?_⟩
    cases hd with
    | noValue ha hrun h0 ht => subst ht; exact ⟨i2, i3⟩
  | @setHandler l t u f h hc ih =>
    obtain ⟨i1, i2, i3⟩ := ih
    have hd := call_did hL i1 hc
    refine ⟨hd.inv i1 (fun x hx => by cases hx), ?_⟩
    cases hd with
    | handler ht => subst ht; exact ⟨i2, i3⟩

theorem synPos_compPos (p : Parser) : p.synPos.compPos = (p.started.map Started.startOff).headD 0 := by
  unfold synPos
  cases p.started <;> rfl

/-- An error of `next_event` names the component it is about: the offset at which the header of the innermost node that is
still open after the call begins, and 0 if no node is. At most the innermost node has been closed by the call. -/
theorem C49_component {p : Parser} {bytes : Bytes} (hp : Opens p bytes) (hsz : Sized bytes) {l : List Nat} {s t : Client} {e : PErr}
    (hm : Marks (α := α) Z ⟨p, none⟩ l s) (hc : s.call Z (.next : Call α) = some (.err e, t)) :
    ∃ pos left, e.pos = some pos ∧ (left = l ∨ left = l.tail) ∧ left.length = t.parser.depth ∧ pos.compPos = left.headD 0 := by
  obtain ⟨hi, hL⟩ := open_inv hp hsz
  obtain ⟨h1, h2, h3⟩ := hm.opened hL hi hp.state.2.1 hp.state.1
  cases call_did hL h1 hc with
  | nextRefused hp hr ha => rcases hr with ⟨h, _⟩ | ⟨pos, h, _⟩ <;> rw [h3] at h <;> cases h
  | @nextFailed _ q hrun hfail hi hp he hat =>
    refine ⟨_, q.started.map Started.startOff, he, ?_, ?_, synPos_compPos q⟩
    · rcases hfail with hq | ⟨p', n, outer, hq, hst, hq'⟩
      · rw [hq.started, h2]; exact .inl rfl
      · subst hq'
        rw [hst] at h2
        rw [← h2]
        exact .inr rfl
    · rw [hp, List.length_map]; rfl

/-- Node `A` at offset 27, in it `B` at offset 41: the error found at the end of `B` names `A`. -/
example := C49_component (Z := Zlib.stored) (α := Unit) (exParser_opens true true 7400 exBad (by decide)) exBad_sized
  (.start (.start .nil (call_after exBadClient .next (.event (.startNode "A" 0)) (by decide +kernel)))
    (call_after _ .next (.event (.startNode "B" 0)) (by decide +kernel)))
  (call_after _ .next (.err ⟨.data (.nodeLengthMismatch 100 (some 68)), some ⟨68, 27, [(0, "A")], none⟩⟩) (by decide +kernel))

end Fbx
