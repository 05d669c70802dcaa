import Verif.Proof.Unread
import Verif.Proof.ReaderAt
import Verif.Spec.Gaps

/-! # Bytes which are passed over do not matter -/

namespace Fbx
open Spec Reader
variable {α : Type} {Z : Zlib}

/-- The reader stands in the file `bytes`, which begins at the offset `c0`, at the offset `c` or behind. -/
def StandsIn (c0 c : Nat) (e : Option IoErr) (bytes : Bytes) (r : Reader) : Prop :=
  c0 ≤ r.cursor ∧ c ≤ r.cursor ∧ r.rest = bytes.drop (r.cursor - c0) ∧ (r.rest ≠ [] → r.position + r.rest.length < u64Size) ∧ r.seekable = true ∧ r.ending = e

theorem StandsIn.consume {c0 c : Nat} {e : Option IoErr} {bytes : Bytes} {r : Reader} (h : StandsIn c0 c e bytes r) (k : Nat) : StandsIn c0 c e bytes (r.consume k) := by
  obtain ⟨h1, h2, h3, h4, h5⟩ := h
  refine ⟨?_, ?_, ?_, ?_, h5⟩
  · show c0 ≤ r.cursor + k; omega
  · show c ≤ r.cursor + k; omega
  · show r.rest.drop k = bytes.drop (r.cursor + k - c0)
    rw [h3, List.drop_drop]; congr 1; omega
  · show r.rest.drop k ≠ [] → r.position + k + (r.rest.drop k).length < u64Size
    intro hne
    have hk : k < r.rest.length := by
      by_cases hle : r.rest.length ≤ k
      · exact absurd (List.drop_of_length_le hle) hne
      · omega
    have := h4 (fun h0 => by rw [h0] at hk; simp at hk)
    rw [List.length_drop]; omega

theorem StandsIn.consumeInner {c0 c : Nat} {e : Option IoErr} {bytes : Bytes} {r : Reader} (h : StandsIn c0 c e bytes r) (k : Nat) : StandsIn c0 c e bytes (r.consumeInner k) := by
  obtain ⟨h1, h2, h3, h4, h5⟩ := h
  refine ⟨?_, ?_, ?_, ?_, h5⟩
  · show c0 ≤ r.cursor + k; omega
  · show c ≤ r.cursor + k; omega
  · show r.rest.drop k = bytes.drop (r.cursor + k - c0)
    rw [h3, List.drop_drop]; congr 1; omega
  · show r.rest.drop k ≠ [] → r.position + (r.rest.drop k).length < u64Size
    intro hne
    have := h4 (fun h0 => by rw [h0] at hne; simp at hne)
    rw [List.length_drop]; omega

theorem standsIn_loop {c0 c : Nat} {e : Option IoErr} {bytes : Bytes} : ∀ (f d : Nat), Keeps (StandsIn c0 c e bytes) (skipSeekLoop f d)
  | 0, _ => fun _ h => h
  | f + 1, d => by
    intro r h
    simp only [skipSeekLoop]
    split
    · exact h
    · split
      · split
        · exact standsIn_loop f _ _ (h.consume _)
        · exact h.consumeInner _
      · exact h

theorem standsIn_src (c0 c : Nat) (e : Option IoErr) (bytes : Bytes) : LocSrc (fun _ _ => False) (StandsIn c0 c e bytes) where
  pos := fun h => h.elim
  exact_ n := ⟨fun h => h.elim, fun r h => by
    simp only [readExact]
    split <;> split
    · exact h.consume _
    · exact h
    · exact h.consume _
    · exact h⟩
  read n := ⟨fun h => h.elim, fun r h => by
    simp only [Reader.read]
    split
    · split
      · exact h
      · split <;> exact h
    · split
      · exact h.consume _
      · exact h⟩
  skip q := ⟨fun h => h.elim, fun r h => by
    simp only [skipTo]
    split
    · exact h
    · simp only [skipDistance, h.2.2.2.2.1, if_true, skipSeek]
      exact standsIn_loop _ _ _ h⟩

/-- The client with another source. -/
def Client.reads (s : Client) (r : Reader) : Client := ⟨{ s.parser with reader := r }, s.attrs⟩

/-- A call that passes over nothing. -/
theorem call_agrees {s s' u : Client} {c : Call α} {o : Outcome α} {c0 : Nat} {e : Option IoErr} {bytes b : Bytes} (hs : StandsIn c0 c0 e bytes s.parser.reader)
    (hc : s.call Z c = some (o, u)) (hb : b.length = s.parser.reader.rest.length)
    (hag : ∀ i, s.parser.reader.cursor + i < u.parser.reader.cursor → b[i]? = s.parser.reader.rest[i]?)
    (hs' : s' = s.reads { s.parser.reader with rest := b }) :
    s'.call Z c = some (o, u.reads { u.parser.reader with rest := b.drop (u.parser.reader.cursor - s.parser.reader.cursor) }) := by
  have hu : StandsIn c0 s.parser.reader.cursor e bytes u.parser.reader :=
    call_esc (standsIn_src c0 _ e bytes) ⟨hs.1, Nat.le_refl _, hs.2.2⟩ hc
  obtain ⟨k, hk⟩ : ∃ k, u.parser.reader.cursor = s.parser.reader.cursor + k := ⟨_, (Nat.add_sub_cancel' hu.2.1).symm⟩
  have hur : u.parser.reader.rest = s.parser.reader.rest.drop k := by
    rw [hu.2.2.1, hs.2.2.1, List.drop_drop, hk]; congr 1; have := hs.1; omega
  rw [hk, Nat.add_sub_cancel_left]
  have htake : b.take k = s.parser.reader.rest.take k := by
    apply List.ext_getElem?
    intro i
    rw [List.getElem?_take, List.getElem?_take]
    split
    · exact hag i (by omega)
    · rfl
  by_cases hx : s.parser.reader.rest.drop k = []
  · have hbx : b.drop k = [] := by
      rw [List.drop_eq_nil_iff] at hx ⊢
      omega
    have hbb : b = s.parser.reader.rest := by
      rw [← List.take_append_drop k b, ← List.take_append_drop k s.parser.reader.rest, hx, hbx, htake]
    have : s' = s := by rw [hs', hbb]; rfl
    rw [this, hc, hbx]
    rw [hx] at hur
    rw [← hur]
    rfl
  · have h0 : CRel (Beyond (s.parser.reader.rest.drop k) (b.drop k) s.parser.reader.ending) s' s := by
      subst hs'
      refine ⟨⟨rfl, s.parser.reader.rest.take k, (List.take_append_drop _ _).symm, ?_, ?_⟩, rfl⟩
      · show ({ s.parser.reader with rest := b } : Reader) = _
        rw [← htake, List.take_append_drop]
      · refine hs.2.2.2.1 (fun h => ?_)
        rw [h] at hx
        simp at hx
    rcases call_loc (beyond_src hx) h0 c o u hc with h1 | ⟨u', h1, h2⟩
    · simp only [Into, hur, Nat.lt_irrefl] at h1
    · rw [h1]
      congr 2
      obtain ⟨⟨e1, d, e2, e3, _⟩, e4⟩ := h2
      rw [hur] at e2
      have hd : d = [] := List.append_cancel_right (bs := s.parser.reader.rest.drop k) (e2.symm.trans (List.nil_append _).symm)
      rw [hd, List.nil_append] at e3
      have hend : s.parser.reader.ending = u.parser.reader.ending := by rw [hs.2.2.2.2.2, hu.2.2.2.2.2]
      rw [hend] at e3
      obtain ⟨up, ua⟩ := u
      obtain ⟨up', ua'⟩ := u'
      simp only [Client.reads] at e1 e3 e4 ⊢
      subst e4
      congr 1
      rw [e1, ← e3]

theorem bind_go {ε σ β γ : Type} {m : M ε σ β} {f : β → M ε σ γ} {s t : σ} {a : β} (h : m s = (.ok a, t)) : (m >>= f) s = f a t := by
  rw [M.bind_apply, h]

theorem impl_from {p q : Parser} (h1 : Parser.skipUnreadAttributes p = (.ok (), q)) (h2 : Parser.skipUnreadAttributes q = (.ok (), q))
    (hr : p.health = .running) (hh : q.health = p.health) (hl : q.last = p.last) (hl' : p.last ≠ some .endFbx) : Parser.nextEventImpl p = Parser.nextEventImpl q := by
  rw [Parser.nextEventImpl, M.get_bind, M.get_bind, hh, hl, hr]
  have : decide (p.last ≠ some .endFbx) = true := by simpa using hl'
  rw [this]
  show M.bind Parser.skipUnreadAttributes _ p = M.bind Parser.skipUnreadAttributes _ q
  rw [M.bind, M.bind, h1, h2]

theorem event_from {p q : Parser} (h1 : Parser.skipUnreadAttributes p = (.ok (), q)) (h2 : Parser.skipUnreadAttributes q = (.ok (), q))
    (hr : p.health = .running) (hh : q.health = p.health) (hl : q.last = p.last) (hl' : p.last ≠ some .endFbx) (hd : q.depth = p.depth) : Parser.nextEvent p = Parser.nextEvent q := by
  have e : ∀ r : Parser, r.health = .running → Parser.ensureContinuable r = (.ok (), r) := fun r h => by rw [Parser.ensureContinuable, h]
  unfold Parser.nextEvent
  rw [M.get_bind, M.get_bind, hd]
  refine (bind_go (e p hr)).trans (Eq.trans ?_ (bind_go (e q (hh.trans hr))).symm)
  simp only [impl_from h1 h2 hr hh hl hl']

theorem load_from {p q : Parser} {a : Attrs} (h1 : AP.readNextType ⟨p, a⟩ = AP.readNextType ⟨q, a⟩) (hr : p.health = .running) (hh : q.health = p.health)
    (hle : a.rest ≤ a.total) (b : Bool) (l : Loader α) : AP.load Z b l ⟨p, a⟩ = AP.load Z b l ⟨q, a⟩ := by
  have e : ∀ r : Parser, r.health = .running → AP.par Parser.ensureContinuable ⟨r, a⟩ = (.ok (), ⟨r, a⟩) := fun r h => by
    simp only [AP.par, M.zoom, Parser.ensureContinuable, h]
  have hbody : ∀ x y, AP.loadBody Z b l x y ⟨p, a⟩ = AP.loadBody Z b l x y ⟨q, a⟩ := fun x y => by
    rw [AP.loadBody]
    show M.bind AP.readNextType _ _ = M.bind AP.readNextType _ _
    rw [M.bind, M.bind, h1]
  have : decide (a.rest ≤ a.total) = true := by simpa using hle
  unfold AP.load AP.withHealthCheck
  refine (bind_go (e p hr)).trans (Eq.trans ?_ (bind_go (e q (hh.trans hr))).symm)
  rw [M.get_bind, M.get_bind]
  refine (bind_go (a := ()) (t := ⟨p, a⟩) ?_).trans (Eq.trans ?_ (bind_go (a := ()) (t := ⟨q, a⟩) ?_).symm)
  · show M.assert (decide (a.rest ≤ a.total)) _ _ = _
    rw [this]; rfl
  · simp only [hbody]
  · show M.assert (decide (a.rest ≤ a.total)) _ _ = _
    rw [this]; rfl

/-- A call that first goes somewhere does the same from there. -/
theorem call_from {s : Client} {c : Call α} {q : Nat} (hs : s.parser.reader.seekable = true) (hg : goesTo s c = some q)
    (hq : q < 2 ^ 64) (hl : s.parser.reader.cursor + (q - s.parser.reader.position) ≤ s.parser.reader.seekLimit) (hp : s.parser.reader.position < q) :
    s.call Z c = (s.reads (s.parser.reader.consume (q - s.parser.reader.position))).call Z c := by
  have hk := skipTo_ok hs q (Nat.le_of_lt hp) hq hl
  have hpos : (s.parser.reader.consume (q - s.parser.reader.position)).position = q := by
    show s.parser.reader.position + (q - s.parser.reader.position) = q
    omega
  have hstay : skipTo q (s.parser.reader.consume (q - s.parser.reader.position)) = (.ok (), s.parser.reader.consume (q - s.parser.reader.position)) := by
    rw [skipTo, if_neg (by rw [hpos]; omega), hpos, Nat.sub_self]
    simp [skipDistance, skipSeek, skipSeekLoop, Reader.consume, hs]
  cases c with
  | next =>
    simp only [goesTo] at hg
    split at hg
    case isFalse => cases hg
    case isTrue hrun =>
    obtain ⟨n, hn1, rfl⟩ := Option.map_eq_some_iff.mp hg
    obtain ⟨outer, hst⟩ : ∃ outer, s.parser.started = n :: outer := by
      cases h : s.parser.started with
      | nil => rw [h] at hn1; cases hn1
      | cons a b => rw [h] at hn1; cases hn1; exact ⟨b, rfl⟩
    have h1 : Parser.skipUnreadAttributes s.parser = (.ok (), (s.reads (s.parser.reader.consume (n.attrEnd - s.parser.reader.position))).parser) := by
      rw [Parser.skipUnreadAttributes, M.get_bind]
      simp only [hst, if_pos hp, Parser.io, M.mapErr_apply, M.zoom, hk, Client.reads]
    have h2 : Parser.skipUnreadAttributes (s.reads (s.parser.reader.consume (n.attrEnd - s.parser.reader.position))).parser =
        (.ok (), (s.reads (s.parser.reader.consume (n.attrEnd - s.parser.reader.position))).parser) := by
      rw [Parser.skipUnreadAttributes, M.get_bind]
      simp only [Client.reads, hst, hpos, Nat.lt_irrefl, if_false, gt_iff_lt]
      rfl
    have h4 := event_from h1 h2 hrun.1 rfl rfl hrun.2 rfl
    simp only [Client.call, h4]
  | load b l =>
    simp only [goesTo] at hg
    split at hg
    case isFalse => cases hg
    case isTrue hrun =>
    cases ha : s.attrs with
    | none => rw [ha] at hg; cases hg
    | some a =>
      rw [ha] at hg
      simp only [Option.bind_some] at hg
      split at hg
      case isFalse => cases hg
      case isTrue hr =>
      cases hg
      have h3 : AP.readNextType ⟨s.parser, a⟩ = AP.readNextType ⟨(s.reads (s.parser.reader.consume (a.next - s.parser.reader.position))).parser, a⟩ := by
        simp only [AP.readNextType, M.get_bind, if_neg (Nat.ne_of_gt hr.1), Client.reads, hpos, Nat.lt_irrefl, if_false, if_pos hp]
        simp only [M.bind_apply, AP.io, AP.par, Parser.io, M.mapErr_apply, M.zoom, hk]
      have h4 := load_from (Z := Z) h3 hrun rfl hr.2 b l
      simp only [Client.call, Client.reads, ha]
      simp only [Client.reads] at h4
      rw [h4]
  | skip =>
    obtain ⟨n, hn1, rfl⟩ := Option.map_eq_some_iff.mp hg
    obtain ⟨outer, hst⟩ : ∃ outer, s.parser.started = n :: outer := by
      cases h : s.parser.started with
      | nil => rw [h] at hn1; cases hn1
      | cons a b => rw [h] at hn1; cases hn1; exact ⟨b, rfl⟩
    have h4 : Parser.skipCurrentNode s.parser = Parser.skipCurrentNode (s.reads (s.parser.reader.consume (n.endOff - s.parser.reader.position))).parser := by
      simp only [Parser.skipCurrentNode, M.get_bind, Client.reads, hst]
      simp only [M.bind_apply, M.set, Parser.io, M.mapErr_apply, M.zoom, hk, hstay]
    simp only [Client.call, h4]
  | setHandler h => cases hg

/-- The client on another file, at the same offset. -/
def Client.onFile (c0 : Nat) (b : Bytes) (s : Client) : Client := s.reads { s.parser.reader with rest := b.drop (s.parser.reader.cursor - c0) }

theorem onFile_agrees {c0 : Nat} {e : Option IoErr} {bytes b : Bytes} (hlen : b.length = bytes.length) {s u : Client} {c : Call α} {o : Outcome α}
    (hs : StandsIn c0 c0 e bytes s.parser.reader) (hc : s.call Z c = some (o, u))
    (hag : ∀ i, s.parser.reader.cursor ≤ c0 + i → c0 + i < u.parser.reader.cursor → b[i]? = bytes[i]?) :
    (s.onFile c0 b).call Z c = some (o, u.onFile c0 b) := by
  have hu : StandsIn c0 s.parser.reader.cursor e bytes u.parser.reader :=
    call_esc (standsIn_src c0 _ e bytes) ⟨hs.1, Nat.le_refl _, hs.2.2⟩ hc
  refine (call_agrees (s' := s.onFile c0 b) hs hc (b := b.drop (s.parser.reader.cursor - c0)) (by rw [hs.2.2.1, List.length_drop, List.length_drop, hlen]) ?_ rfl).trans ?_
  rotate_left
  · have := hs.1
    have := hu.2.1
    simp only [Client.onFile, List.drop_drop]
    congr 6
    omega
  · intro i hi
    have := hs.1
    rw [hs.2.2.1, List.getElem?_drop, List.getElem?_drop]
    exact hag _ (by omega) (by omega)

theorem goesTo_onFile (c0 : Nat) (b : Bytes) (s : Client) (c : Call α) : goesTo (s.onFile c0 b) c = goesTo s c := by
  cases c <;> rfl

/-- One call. -/
theorem step_agrees {c0 : Nat} {e : Option IoErr} {bytes b : Bytes} (hlen : b.length = bytes.length) {s u : Client} {c : Call α} {o : Outcome α}
    (hs : StandsIn c0 c0 e bytes s.parser.reader) (hc : s.call Z c = some (o, u))
    (hag : ∀ i, s.parser.reader.cursor + passes s c ≤ c0 + i → c0 + i < u.parser.reader.cursor → b[i]? = bytes[i]?) :
    (s.onFile c0 b).call Z c = some (o, u.onFile c0 b) ∧ s.parser.reader.cursor + passes s c ≤ u.parser.reader.cursor ∧
      StandsIn c0 c0 e bytes u.parser.reader := by
  by_cases h0 : passes s c = 0
  · rw [h0] at hag ⊢
    have hu : StandsIn c0 s.parser.reader.cursor e bytes u.parser.reader :=
      call_esc (standsIn_src c0 _ e bytes) ⟨hs.1, Nat.le_refl _, hs.2.2⟩ hc
    exact ⟨onFile_agrees hlen hs hc hag, hu.2.1, hu.1, hu.1, hu.2.2⟩
  · have hp := h0
    unfold passes at hp
    cases hg : goesTo s c with
    | none => rw [hg] at hp; exact absurd rfl hp
    | some q =>
      rw [hg] at hp
      simp only at hp
      split at hp
      case isFalse => exact absurd rfl hp
      case isTrue hq =>
      have hpos : passes s c = q - s.parser.reader.position := by
        unfold passes
        rw [hg]
        simp only [if_pos hq]
      have e1 := call_from (Z := Z) hs.2.2.2.2.1 hg hq.1 hq.2 (by omega)
      have e2 : (s.onFile c0 b).call Z c = _ :=
        call_from (Z := Z) (s := s.onFile c0 b) (q := q) hs.2.2.2.2.1 ((goesTo_onFile _ _ _ _).trans hg) hq.1 hq.2 (show s.parser.reader.position < q by omega)
      rw [e1] at hc
      have hs1 : StandsIn c0 c0 e bytes (s.reads (s.parser.reader.consume (q - s.parser.reader.position))).parser.reader := hs.consume _
      have hu : StandsIn c0 (s.parser.reader.cursor + passes s c) e bytes u.parser.reader :=
        call_esc (standsIn_src c0 _ e bytes) (by
          refine ⟨hs1.1, ?_, hs1.2.2⟩
          rw [hpos]
          exact Nat.le_refl _) hc
      refine ⟨?_, hu.2.1, hu.1, hu.1, hu.2.2⟩
      rw [e2, ← onFile_agrees hlen hs1 hc (fun i h1 h2 => hag i (by rw [hpos]; exact h1) h2)]
      congr 1
      simp only [Client.onFile, Client.reads, Reader.consume, List.drop_drop]
      have := hs.1
      congr 5
      omega

/-- A tour. -/
theorem tour_agrees {c0 : Nat} {e : Option IoErr} {bytes b : Bytes} (hlen : b.length = bytes.length) {s t : Client} {h : History α} {gaps : List (Nat × Nat)}
    (hs : StandsIn c0 c0 e bytes s.parser.reader) (ht : Tour Z s h gaps t)
    (hag : ∀ i, s.parser.reader.cursor ≤ c0 + i → c0 + i < t.parser.reader.cursor → ¬ inGap gaps (c0 + i) → b[i]? = bytes[i]?) :
    Runs Z (s.onFile c0 b) h (t.onFile c0 b) ∧ StandsIn c0 s.parser.reader.cursor e bytes t.parser.reader ∧ ∀ g ∈ gaps, g.2 ≤ t.parser.reader.cursor := by
  induction ht with
  | nil => exact ⟨.nil, ⟨hs.1, Nat.le_refl _, hs.2.2⟩, fun g hg => by cases hg⟩
  | @snoc h gaps t u c o ht hp hc ih =>
    have hst : StandsIn c0 s.parser.reader.cursor e bytes t.parser.reader := by
      have : ∀ {h : History α} {gaps t}, Tour Z s h gaps t → StandsIn c0 s.parser.reader.cursor e bytes t.parser.reader := by
        intro h gaps t ht
        induction ht with
        | nil => exact ⟨hs.1, Nat.le_refl _, hs.2.2⟩
        | snoc _ _ hc ih => exact call_esc (standsIn_src c0 _ e bytes) ih hc
      exact this ht
    have hmono : t.parser.reader.cursor ≤ u.parser.reader.cursor :=
      (call_esc (standsIn_src c0 t.parser.reader.cursor e bytes) ⟨hst.1, Nat.le_refl _, hst.2.2⟩ hc).2.1
    obtain ⟨i1, -, i3⟩ := ih (fun i h1 h2 h3 => hag i h1 (by omega) (by
      rintro ⟨g, hg, hg'⟩
      rcases List.mem_append.mp hg with hg | hg
      · exact h3 ⟨g, hg, hg'⟩
      · rw [List.mem_singleton.mp hg] at hg'
        simp only at hg'
        omega))
    obtain ⟨j1, j2, j3⟩ := step_agrees hlen ⟨hst.1, hst.1, hst.2.2⟩ hc (b := b) (fun i h1 h2 => hag i (by have := hst.2.1; omega) h2 (by
      rintro ⟨g, hg, hg'⟩
      rcases List.mem_append.mp hg with hg | hg
      · have := i3 g hg; omega
      · rw [List.mem_singleton.mp hg] at hg'
        simp only at hg'
        omega))
    refine ⟨.snoc i1 hp j1, ⟨j3.1, by have := hst.2.1; omega, j3.2.2⟩, fun g hg => ?_⟩
    rcases List.mem_append.mp hg with hg | hg
    · have := i3 g hg; omega
    · rw [List.mem_singleton.mp hg]
      exact j2

theorem tour_of_runs {s t : Client} {h : History α} (hr : Runs Z s h t) : ∃ gaps, Tour Z s h gaps t := by
  induction hr with
  | nil => exact ⟨[], .nil⟩
  | snoc _ hp hc ih =>
    obtain ⟨g, hg⟩ := ih
    exact ⟨_, hg.snoc hp hc⟩

theorem seekLoop_done : ∀ (fuel d : Nat) (r r' : Reader), d ≤ fuel * i64Max → skipSeekLoop fuel d r = (.ok (), r') →
    r' = r.consume d ∧ (d = 0 ∨ (r.cursor + d ≤ r.seekLimit ∧ r.position + d < u64Size))
  | 0, d, r, r', hd, h => by
    have : d = 0 := by omega
    subst this
    cases h
    exact ⟨by simp [Reader.consume], .inl rfl⟩
  | fuel + 1, d, r, r', hd, h => by
    simp only [skipSeekLoop] at h
    split at h
    · rename_i h0
      cases h
      subst h0
      exact ⟨by simp [Reader.consume], .inl rfl⟩
    · rename_i h0
      split at h
      · rename_i h1
        split at h
        · rename_i h2
          obtain ⟨g1, g2⟩ := seekLoop_done fuel _ _ _ (by
            rw [Nat.add_mul, Nat.one_mul] at hd
            omega) h
          have hm : min d i64Max ≤ d := Nat.min_le_left _ _
          generalize min d i64Max = m at h1 h2 g1 g2 hm
          refine ⟨?_, .inr ?_⟩
          · rw [g1]
            have hd : m + (d - m) = d := by omega
            simp only [Reader.consume, List.drop_drop, Nat.add_assoc, hd]
          · simp only [Reader.consume] at g2
            rcases g2 with g2 | ⟨g2, g3⟩
            · have : d = m := by omega
              exact ⟨by omega, by omega⟩
            · exact ⟨by omega, by omega⟩
        · cases h
      · cases h

theorem skipTo_done {q : Nat} {r r' : Reader} (hs : r.seekable = true) (h : skipTo q r = (.ok (), r')) :
    r' = r.consume (q - r.position) ∧ r.position ≤ q ∧ (q = r.position ∨ (q < 2 ^ 64 ∧ r.cursor + (q - r.position) ≤ r.seekLimit)) := by
  rw [skipTo] at h
  split at h
  · cases h
  · rename_i hlt
    simp only [skipDistance, hs, if_true, skipSeek] at h
    obtain ⟨h1, h2⟩ := seekLoop_done _ _ _ _ (by
      have := Nat.div_add_mod (q - r.position) i64Max
      have hm := Nat.mod_lt (q - r.position) (show 0 < i64Max by decide)
      rw [Nat.add_mul, Nat.mul_comm]
      omega) h
    refine ⟨h1, by omega, ?_⟩
    unfold u64Size at h2
    omega

/-- `skip_current_node`, if it succeeds, does nothing but pass over bytes. -/
theorem skip_passes {s u : Client} (hs : s.parser.reader.seekable = true) (h : s.call Z (.skip : Call α) = some (.done, u)) :
    s.parser.reader.cursor + passes s (.skip : Call α) = u.parser.reader.cursor := by
  simp only [Client.call, Parser.skipCurrentNode, M.get_bind] at h
  cases hst : s.parser.started with
  | nil => rw [hst] at h; cases h
  | cons n outer =>
    rw [hst] at h
    simp only [M.bind_apply, M.set, Parser.io, M.mapErr_apply, M.zoom] at h
    rcases hk : skipTo n.endOff s.parser.reader with ⟨x | x | x, r'⟩
    · rw [hk] at h
      simp only at h
      cases h
      obtain ⟨h1, h2, h3⟩ := skipTo_done hs hk
      simp only [passes, goesTo, hst, List.head?_cons, Option.map_some]
      rw [h1]
      rcases h3 with h3 | h3
      · rw [h3, Nat.sub_self]
        simp [Reader.consume]
      · rw [if_pos h3]
        rfl
    · rw [hk] at h; cases h
    · rw [hk] at h; cases h

end Fbx
