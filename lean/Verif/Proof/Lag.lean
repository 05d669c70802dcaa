import Verif.Proof.HistoryFacts
import Verif.Proof.HistoryCounts
import Verif.Proof.Handler
import Verif.Spec.Sources

/-! # How far the tracked position of a plain source lags behind -/

namespace Fbx
open Reader Parser

/-- Tracked position and remaining bytes, together. -/
def Reader.reach (r : Reader) : Nat := r.position + r.rest.length

theorem Reader.RInv.reach_le {L : Nat} {r : Reader} (h : RInv L r) (hs : r.seekable = false) : r.reach ≤ L := by
  rcases h.2 with ⟨h1, _⟩ | h2
  · rw [hs] at h1; cases h1
  · exact h2

theorem Reader.reach_inv {r : Reader} (h : r.position < 2 ^ 64) : RInv r.reach r := ⟨h, .inr (Nat.le_refl _)⟩

theorem Reader.reach_inner {r : Reader} {k : Nat} (hk : k ≤ r.rest.length) : (r.consumeInner k).reach + k = r.reach := by
  simp only [Reader.reach, consumeInner, List.length_drop]; omega

theorem Parser.PInv.lower {L K : Nat} {p : Parser} (h : PInv L p) (hr : RInv K p.reader) : PInv K p := ⟨hr, h.top, h.ends⟩

theorem CInv.lower {L K : Nat} {s : Client} (h : CInv L s) (hr : RInv K s.parser.reader) : CInv K s :=
  ⟨h.parser.lower hr, h.last, h.fin, h.attrs⟩

/-- Nothing is gained on the way. -/
theorem Runs.reach_le {α : Type} {Z : Zlib} {L : Nat} (hL : L + 2 ^ 32 ≤ 2 ^ 64) {s t : Client} (hs : CInv L s)
    (hp : s.parser.reader.seekable = false) {h : History α} (hr : Runs Z s h t) (hn : h.calm) :
    t.parser.reader.reach ≤ s.parser.reader.reach := by
  have h1 := hs.parser.reader.reach_le hp
  have hi := hr.inv (L := s.parser.reader.reach) (by omega) (hs.lower (Reader.reach_inv hs.parser.reader.1)) hn
  refine hi.parser.reader.reach_le ?_
  obtain ⟨_, _, hm⟩ := hr.moves hL hs hn
  rw [hm.seekable]; exact hp

/-- What is skipped by a load is lost. -/
theorem AP.load_lost {α : Type} {Z : Zlib} {L : Nat} (hL : L + 2 ^ 32 ≤ 2 ^ 64) {a c : AP} (h : AInv L a) (hp : a.parser.reader.seekable = false)
    (hne : a.attrs.rest ≠ 0) {b : Bool} {l : Loader α} {v : α} (hx : load Z b l a = (.ok (some v), c)) :
    c.parser.reader.reach + min (a.attrs.next - a.parser.reader.position) a.parser.reader.rest.length ≤ a.parser.reader.reach := by
  obtain ⟨k, hk⟩ : ∃ k, min (a.attrs.next - a.parser.reader.position) a.parser.reader.rest.length = k := ⟨_, rfl⟩
  have hkl : k ≤ a.parser.reader.rest.length := by omega
  have hr := h.parser.reader.reach_le hp
  have hreach : a.parser.reader.reach = a.parser.reader.position + a.parser.reader.rest.length := rfl
  have hK : (a.parser.reader.reach - k) + 2 ^ 32 ≤ 2 ^ 64 := by omega
  have key : M.wp (loadBody Z b l a.attrs.next (a.attrs.total - a.attrs.rest))
      (fun v c => v.isSome = true → Reader.RInv (a.parser.reader.reach - k) c.parser.reader ∧ Reader.Moves a.parser.reader c.parser.reader)
      (fun _ _ => True) (fun _ _ => True) a := by
    simp only [loadBody]
    have tail : ∀ (a1 : AP), AInv (a.parser.reader.reach - k) a1 → Reader.Moves a.parser.reader a1.parser.reader → ∀ (t : Option AttrType) (b1 : AP),
        (match t with | none => a1.attrs.rest = 0 ∧ b1 = a1 | some _ => Reads1 (a.parser.reader.reach - k) a1 b1) →
        M.wp (match t with
          | none => pure none
          | some t => do
            let v ← loadImpl Z b t l a.attrs.next (a.attrs.total - a.attrs.rest)
            pure (some v) : M PErr AP (Option α))
          (fun v c => v.isSome = true → Reader.RInv (a.parser.reader.reach - k) c.parser.reader ∧ Reader.Moves a.parser.reader c.parser.reader)
          (fun _ _ => True) (fun _ _ => True) b1 := by
      intro a1 h1 hm t b1 hb
      cases t with
      | none => exact fun hh => by cases hh
      | some t =>
        simp only at hb
        obtain ⟨q1, q2, q3, q4, q5⟩ := hb
        have hi : AInv (a.parser.reader.reach - k) b1 := ⟨q1.inv h1.parser q4, by have := h1.rest; omega, q5⟩
        simp only [M.wp_bind, M.wp_pure]
        refine M.wp_mono (wp_loadImpl hK hi b t l _ _) (fun v c hc => ?_) (fun _ _ _ => trivial) (fun _ _ _ => trivial)
        exact fun _ => ⟨hc.2.2.2.1, hm.trans (q1.moves.trans hc.1.moves)⟩
    simp only [readNextType, M.wp_bind, M.wp_get]
    rw [M.wp_ite]
    rw [if_neg hne]
    simp only [M.wp_ite]
    split
    · rename_i hlt
      rw [M.wp_bind]
      refine wp_apio (Reader.wp_skipTo h.parser.reader _ (Nat.le_of_lt hlt) h.next (fun r hm hi _ hpl => ?_) (fun e r hm hi => trivial))
      have hr' := hpl hp
      rw [hk] at hr'
      have hri : Reader.RInv (a.parser.reader.reach - k) r := by
        refine ⟨hi.1, .inr ?_⟩
        have := Reader.reach_inner hkl
        rw [hr']
        simp only [Reader.reach] at this ⊢
        omega
      have h1 : AInv (a.parser.reader.reach - k) { a with parser := { a.parser with reader := r } } :=
        ⟨⟨hri, h.parser.top, h.parser.ends⟩, h.rest, h.next⟩
      refine M.wp_mono (wp_readCode hK h1 _ (.refl h1) hne) (fun t b1 hb => tail _ h1 hm t b1 hb) (fun _ _ _ => trivial) (fun _ _ _ => trivial)
    · rename_i hlt
      have h0 : k = 0 := by omega
      subst h0
      have h1 : AInv (a.parser.reader.reach - 0) a := ⟨h.parser.lower (Reader.reach_inv h.parser.reader.1), h.rest, h.next⟩
      refine M.wp_mono (wp_readCode hK h1 _ (.refl h1) hne) (fun t b1 hb => tail _ h1 (.refl _) t b1 hb) (fun _ _ _ => trivial) (fun _ _ _ => trivial)
  have hb : loadBody Z b l a.attrs.next (a.attrs.total - a.attrs.rest) a = (.ok (some v), c) := by
    rw [load_eq] at hx
    cases hh : a.parser.health with
    | finished => simp only [hh] at hx; cases hx
    | aborted pos => simp only [hh] at hx; cases hx
    | running =>
      simp only [hh, h.rest, if_true] at hx
      rcases hy : loadBody Z b l a.attrs.next (a.attrs.total - a.attrs.rest) a with ⟨y, d⟩
      rw [hy] at hx
      cases y with
      | ok w => exact hx
      | panic x => cases hx
      | err e =>
        simp only at hx
        split at hx <;> cases hx
  have := M.wp_ok key hb
  obtain ⟨h1, _, _, h2⟩ := this rfl
  have := h1.reach_le (h2.seekable.trans hp)
  rw [hk]
  omega

/-- What a call skips is lost. -/
theorem call_lost {α : Type} {Z : Zlib} {L : Nat} (hL : L + 2 ^ 32 ≤ 2 ^ 64) {s t : Client} (hs : CInv L s) (hp : s.parser.reader.seekable = false)
    {c : Call α} {o : Outcome α} (hc : s.call Z c = some (o, t)) (he : o.isErr = false) (hx : ∀ x, o ≠ .panic x) :
    t.parser.reader.reach + min (s.unread c) s.parser.reader.rest.length ≤ s.parser.reader.reach := by
  have hle : t.parser.reader.reach ≤ s.parser.reader.reach := by
    have hr : Runs Z s [(c, o)] t := .snoc .nil (fun _ _ h => by cases h) hc
    exact hr.reach_le hL hs hp (fun c' x h => by
      cases h with
      | head => exact hx _ rfl
      | tail _ h => cases h)
  have skipped : ∀ r, Skipped s.parser r → r.reach + min (s.unread (.next : Call α)) s.parser.reader.rest.length ≤ s.parser.reader.reach := by
    intro r hr
    unfold Skipped at hr
    simp only [Client.unread]
    cases hst : s.parser.started with
    | nil => rw [hst] at hr; simp only at hr; subst hr; simp
    | cons n outer =>
      rw [hst] at hr
      simp only at hr ⊢
      split at hr
      · rw [hr.2.2 hp]
        exact Nat.le_of_eq (Reader.reach_inner (Nat.min_le_right _ _))
      · subst hr
        have : n.attrEnd - s.parser.reader.position = 0 := by omega
        rw [this]; simp
  have eaten : ∀ (r : Reader) k, (r.consume k).rest.length = r.rest.length - k ∧ (r.consume k).position = r.position + k := by
    intro r k; exact ⟨by simp, rfl⟩
  have consumed : ∀ (r : Reader) k, k ≤ r.rest.length → (r.consume k).reach = r.reach := by
    intro r k hk
    have := eaten r k
    simp only [Reader.reach]; omega
  have hd := call_did hL hs hc
  cases hd with
  | event hrun hem hi ha =>
    cases hem with
    | start hst' hn hq =>
      cases hst' with
      | start hr hh hne hlen hname hp' hrd hae hq' =>
        have := skipped _ hr
        rw [hq, hq']
        simp only
        rw [pushNode_reader, hrd, consumed _ _ hlen]; exact this
    | endNode hst' hq =>
      cases hst' with
      | implicit hr hst hp' hrd hend hq' =>
        have := skipped _ hr
        rw [hq, hq']
        simp only
        rw [hrd]; exact this
      | explicit hr hst hh hlen hp' hrd hend hq' =>
        have := skipped _ hr
        rw [hq, hq']
        simp only
        rw [hrd, consumed _ _ hlen]; exact this
    | endFbx hst' hq =>
      cases hst' with
      | endFbx hst hh hlen hq' =>
        simp only [Client.unread, hst]
        omega
  | nextRefused hp hr ha => cases he
  | nextFailed hrun hf hi hp he' ha => cases he
  | nextPanic hx' => exact absurd rfl (hx _)
  | @value b l v a c' ha hpa hrun hr ht =>
    obtain ⟨i1, i2, _⟩ := hs.attrs _ ha
    have hne : a.attrs.rest ≠ 0 := by have := hr.2.2.1; omega
    have hl : AP.load Z b l a = (.ok (some v), c') := by
      simp only [Client.call, ha] at hc
      rw [hpa] at hc
      rcases hy : AP.load Z b l ⟨a.parser, a.attrs⟩ with ⟨y, d⟩
      rw [hy] at hc
      rcases y with (_ | w) | e | x <;> simp only [Option.some.injEq, Prod.mk.injEq, reduceCtorEq, false_and] at hc
      obtain ⟨h1, h2⟩ := hc
      cases h1
      rw [ht] at h2
      simp only [Client.mk.injEq, Option.some.injEq] at h2
      obtain ⟨h3, h4⟩ := h2
      rw [show c' = d from by obtain ⟨_, _⟩ := c'; obtain ⟨_, _⟩ := d; cases h3; cases h4; rfl]
    have := AP.load_lost hL (a := a) ⟨by rw [← hpa]; exact hs.parser, i1, i2⟩ (by rw [← hpa]; exact hp) hne hl
    simp only [Client.unread, ha, if_neg hne]
    rw [hpa, ht]
    exact this
  | noValue ha hrun h0 ht => simp only [Client.unread, ha, h0, if_true]; omega
  | loadRefused ha ht hr => cases he
  | loadFailed ha hp hrun hr hpos ht he' => cases he
  | skip hst hm hi hge hpos hplain ht =>
    simp only [Client.unread, hst]
    rw [ht]
    simp only
    rw [hplain hp]
    exact Nat.le_of_eq (Reader.reach_inner (Nat.min_le_right _ _))
  | skipFailed hst hm hi hge ht => cases he
  | skipPanic hx' => exact absurd rfl (hx _)
  | handler ht => simp only [Client.unread]; omega

end Fbx
