import Verif.Spec.ErrorApi
import Verif.Props.AnySource

/-! # C59: errors name their kind, their cause and their message -/

namespace Fbx
open Spec

/-! ## Kinds and casts -/

/-- The kind of a parser error tells the type of the error inside: a cast to that type gives the error that `get_ref` shows,
and a cast to any other type gives nothing. -/
theorem C59_kind (e : PErr) :
    (e.kindOf = .data ↔ ∃ d, e.getRef = .data d ∧ e.downcastRef .data = some (.data d)) ∧
    (e.kindOf = .io ↔ ∃ d, e.getRef = .io d ∧ e.downcastRef .io = some (.io d)) ∧
    (e.kindOf = .operation ↔ ∃ d, e.getRef = .op d ∧ e.downcastRef .operation = some (.operation d)) ∧
    (e.kindOf = .warning ↔ ∃ d, e.getRef = .warning d ∧ e.downcastRef .warning = some (.warning d)) ∧
    (∀ T, (e.downcastRef T).isSome → (T = .data ∧ e.kindOf = .data) ∨ (T = .io ∧ e.kindOf = .io) ∨
      (T = .operation ∧ e.kindOf = .operation) ∨ (T = .warning ∧ e.kindOf = .warning)) := by
  obtain ⟨k, pos⟩ := e
  cases k <;> simp [PErr.kindOf, PErr.getRef, PErr.downcastRef, ErrKind.tag, ErrKind.asError, DynError.downcast, DynError.type] <;>
    (intro T h; cases T <;> simp_all)

/-- The conversions into parser errors keep the error, and there is no position. A position can be set later without an
effect on the rest. -/
theorem C59_conversions (d : DataError) (i : IoErr) (o : OpError) (w : Warning) (e : PErr) (pos : SynPos) :
    ((PErr.ofData d).getRef = .data d ∧ (PErr.ofData d).position = none) ∧
    ((PErr.ofIo i).getRef = .io i ∧ (PErr.ofIo i).position = none) ∧
    ((PErr.ofOp o).getRef = .op o ∧ (PErr.ofOp o).position = none) ∧
    ((PErr.ofWarning w).getRef = .warning w ∧ (PErr.ofWarning w).position = none) ∧
    ((e.andPosition pos).getRef = e.getRef ∧ (e.andPosition pos).position = some pos) :=
  ⟨⟨rfl, rfl⟩, ⟨rfl, rfl⟩, ⟨rfl, rfl⟩, ⟨rfl, rfl⟩, ⟨rfl, rfl⟩⟩

example : (⟨.data (.nodeLengthMismatch 5 none), some ⟨1, 1, [], none⟩⟩ : PErr).downcastRef .data = some (.data (.nodeLengthMismatch 5 none)) := rfl
example : (⟨.io .unexpectedEof, none⟩ : PErr).downcastRef .data = none := rfl

/-! ## Causes -/

theorem source_parser (e : PErr) : DynError.source (.parser e) = some e.kind.asError := rfl

theorem ErrKind.last (k : ErrKind) : LastCause k.asError (ErrKind.root k) := by
  cases k with
  | data d => cases d <;> first
    | exact ⟨⟨_, .here _⟩, rfl⟩
    | exact ⟨⟨_, .more rfl (.here _)⟩, rfl⟩
  | io e => exact ⟨⟨_, .here _⟩, rfl⟩
  | op e => exact ⟨⟨_, .here _⟩, rfl⟩
  | warning e => exact ⟨⟨_, .here _⟩, rfl⟩

theorem Spec.LastCause.more {x y z : DynError} (h : x.source = some y) (k : LastCause y z) : LastCause x z :=
  ⟨k.1.imp' (· + 1) (fun _ => .more h), k.2⟩

theorem Spec.LastCause.unique {x y z : DynError} (h : LastCause x y) (k : LastCause x z) : y = z := by
  obtain ⟨⟨n, h⟩, hy⟩ := h
  obtain ⟨⟨m, k⟩, hz⟩ := k
  induction h generalizing m with
  | here x =>
    cases k with
    | here => rfl
    | more e _ => rw [e] at hy; cases hy
  | more e _ ih =>
    cases k with
    | here => rw [e] at hz; cases hz
    | more e' k => rw [e] at e'; cases e'; exact ih hy _ k

/-- Depth of an error object. -/
def DynError.depth : DynError → Nat
  | .io _ | .utf8 | .user _ | .operation _ | .warning _ | .header _ => 0
  | .data _ | .compression _ | .anyParser _ => 1
  | .container _ | .parser _ | .write _ => 2
  | .load _ => 3
  | .anyTree _ => 4

theorem source_depth {x y : DynError} (h : x.source = some y) : y.depth < x.depth := by
  cases x <;> simp only [DynError.source] at h
  case data e => cases e <;> simp at h <;> subst h <;> simp [DynError.depth]
  case container e => cases e <;> simp [ErrKind.asError] at h <;> subst h <;> simp [DynError.depth]
  case parser e =>
    obtain ⟨e, pos⟩ := e
    cases e <;> simp [DynError.source.source', ErrKind.asError] at h <;> subst h <;> simp [DynError.depth]
  case anyParser e => cases e <;> simp at h <;> subst h <;> simp [DynError.depth]
  case load e => cases e <;> simp at h <;> subst h <;> simp [DynError.depth]
  case anyTree e => cases e <;> simp at h <;> subst h <;> simp [DynError.depth]
  case compression e => simp at h; subst h; simp [DynError.depth]
  case write e => cases e <;> simp at h <;> subst h <;> simp [DynError.depth]
  all_goals cases h

/-- `source` gives the error from which the error was made, and nothing if it was made from none; only the error about the header
does not tell it. -/
theorem C59_cause (x y : DynError) : x.source = some y ↔ MadeFrom x y ∧ x.type ≠ .header := by
  constructor
  · intro h
    cases x <;> simp only [DynError.source] at h
    case data d => cases d <;> simp at h <;> subst h <;> exact ⟨by constructor, fun h => nomatch h⟩
    case container k => cases k <;> cases h <;> exact ⟨by constructor, fun h => nomatch h⟩
    case parser e =>
      obtain ⟨k, pos⟩ := e
      cases k <;> cases h <;> exact ⟨.parser _ (by constructor), fun h => nomatch h⟩
    case anyParser k => cases k <;> simp at h <;> subst h <;> exact ⟨by constructor, fun h => nomatch h⟩
    case load k => cases k <;> simp at h <;> subst h <;> exact ⟨by constructor, fun h => nomatch h⟩
    case anyTree k => cases k <;> simp at h <;> subst h <;> exact ⟨by constructor, fun h => nomatch h⟩
    case compression k => cases h; exact ⟨by constructor, fun h => nomatch h⟩
    case write k => cases k <;> simp at h <;> subst h <;> exact ⟨by constructor, fun h => nomatch h⟩
    all_goals cases h
  · rintro ⟨h, hx⟩
    cases h with
    | header e => exact absurd rfl hx
    | parser pos h => cases h <;> rfl
    | _ => rfl

example : DynError.source (.write (.userDefined 3)) = some (.user 3) := (C59_cause _ _).mpr ⟨.writeUser 3, fun h => nomatch h⟩

/-- Asking for causes comes to an end, after four steps at most, with exactly one last cause. -/
theorem C59_chain (x : DynError) : (∀ n y, Cause n x y → n ≤ 4) ∧ ∃ y, LastCause x y ∧ ∀ z, LastCause x z → z = y := by
  constructor
  · have h1 : ∀ n x y, Cause n x y → n ≤ x.depth := by
      intro n x y h
      induction h with
      | here => exact Nat.zero_le _
      | more e _ ih => have := source_depth e; omega
    intro n y h
    have := h1 n x y h
    have h2 : x.depth ≤ 4 := by cases x <;> simp [DynError.depth]
    omega
  · suffices h : ∃ y, LastCause x y by
      obtain ⟨y, hy⟩ := h
      exact ⟨y, hy, fun z hz => hz.unique hy⟩
    generalize hd : x.depth = d
    induction d using Nat.strongRecOn generalizing x with
    | _ d ih =>
      cases hs : x.source with
      | none => exact ⟨x, ⟨_, .here x⟩, hs⟩
      | some y =>
        obtain ⟨z, hz⟩ := ih y.depth (by have := source_depth hs; omega) y rfl
        exact ⟨z, hz.more hs⟩

/-- An error that tells about an I/O error, except errors about the header of the file, has the I/O error as its last cause. -/
theorem C59_io {x : DynError} {e : IoErr} (h : Blames x e) (hx : ¬ AboutHeader x) : LastCause x (.io e) := by
  induction h with
  | io e => exact ⟨⟨_, .here _⟩, rfl⟩
  | brokenCompression e => exact ⟨⟨_, .more rfl (.here _)⟩, rfl⟩
  | containerIo e => exact ⟨⟨_, .more rfl (.here _)⟩, rfl⟩
  | containerData e => exact ⟨⟨_, .more rfl (.more rfl (.here _))⟩, rfl⟩
  | @parser k e pos h ih =>
    cases h with
    | containerIo => exact ⟨⟨_, .more rfl (.here _)⟩, rfl⟩
    | containerData => exact ⟨⟨_, .more rfl (.more rfl (.here _))⟩, rfl⟩
  | header e => exact absurd trivial hx
  | anyParser h => exact absurd trivial hx
  | load h ih => exact (ih (fun h => h)).more rfl
  | anyTreeCreation h ih => cases h; exact absurd trivial hx
  | anyTreeLoad h ih => exact (ih (fun h => h)).more rfl
  | compression e => exact ⟨⟨_, .more rfl (.here _)⟩, rfl⟩
  | writeCompression e => exact ⟨⟨_, .more rfl (.more rfl (.here _))⟩, rfl⟩
  | write e => exact ⟨⟨_, .more rfl (.here _)⟩, rfl⟩

/-- Only errors that tell about the I/O error have it as a cause. -/
theorem C59_io_only {x : DynError} {e : IoErr} {n : Nat} (h : Cause n x (.io e)) : Blames x e := by
  generalize hy : DynError.io e = y at h
  induction h with
  | here => subst hy; exact .io e
  | @more n x y z hs _ ih =>
    have hb := ih hy
    cases x <;> simp only [DynError.source] at hs
    case data d =>
      cases d <;> simp at hs <;> subst hs <;> cases hb
      exact .brokenCompression _
    case container k => cases k <;> simp [ErrKind.asError] at hs <;> subst hs <;> cases hb <;> constructor
    case parser k =>
      obtain ⟨k, pos⟩ := k
      cases k <;> simp [DynError.source.source', ErrKind.asError] at hs <;> subst hs <;> cases hb <;> exact .parser _ (by constructor)
    case anyParser k => cases k <;> simp at hs; subst hs; exact .anyParser hb
    case load k => cases k <;> simp at hs; subst hs; exact .load hb
    case anyTree k => cases k <;> simp at hs <;> subst hs <;> constructor <;> assumption
    case compression k => simp at hs; subst hs; cases hb; exact .compression _
    case write k => cases k <;> simp at hs <;> subst hs <;> cases hb <;> constructor
    all_goals cases hs

/-- Errors about the header do not name their cause: they tell about the I/O error, but nothing to be found by asking for
causes is an I/O error. The message shows it (`C59_messages`). -/
theorem C59_header_hides {x : DynError} {e : IoErr} (h : Blames x e) (hx : AboutHeader x) :
    LastCause x (.header (.io e)) ∧ ∀ n e', ¬ Cause n x (.io e') := by
  suffices h : LastCause x (.header (.io e)) from
    ⟨h, fun n e' hc => by cases h.unique ⟨⟨n, hc⟩, rfl⟩⟩
  cases h with
  | header e => exact ⟨⟨_, .here _⟩, rfl⟩
  | anyParser h => cases h; exact ⟨⟨_, .more rfl (.here _)⟩, rfl⟩
  | anyTreeCreation h =>
    cases h with
    | anyParser h => cases h; exact ⟨⟨_, .more rfl (.more rfl (.here _))⟩, rfl⟩
  | _ => cases hx

-- a device error in the middle of a file is found, one in the header is not
example : LastCause (.anyTree (.load (.parser ⟨.io (.other 5), some ⟨40, 27, [], none⟩⟩))) (.io (.other 5)) :=
  C59_io (.anyTreeLoad (.load (.parser _ (.containerIo _)))) (fun h => h)
example : LastCause (.write (.compression (.other 7))) (.io (.other 7)) := C59_io (.writeCompression _) (fun h => h)
example : anyTree Zlib.stored true true (signature.take 5) (some (.other 5)) 0 100 = .err (.parserCreation (.header (.io (.other 5)))) ∧
    LastCause (.anyTree (.parserCreation (.header (.io (.other 5))))) (.header (.io (.other 5))) :=
  ⟨rfl, (C59_header_hides (.anyTreeCreation (.anyParser (.header _))) trivial).1⟩

/-! ## What `AnyTree` reports -/

/-- What can be wrong with compressed data. -/
def StreamFault (e : Ending) (x : IoErr) : Prop := x = e.error ∨ x = .unexpectedEof ∨ x = .badCompression

theorem inflateByte_fault {Z : Zlib} {e : Ending} {x : IoErr} {left : Bytes} (bs : Bytes) (s : Z.S)
    (h : inflateByte Z e s bs = (.error x, left)) : StreamFault e x := by
  induction bs generalizing s with
  | nil =>
    simp only [inflateByte] at h
    split at h <;> simp at h <;> simp [StreamFault, ← h.1]
  | cons b bs ih =>
    simp only [inflateByte] at h
    split at h
    · simp at h
    · exact ih _ h
    · simp at h; simp [StreamFault, ← h.1]
    · simp at h; simp [StreamFault, ← h.1]

theorem inflate_fault {Z : Zlib} {e : Ending} {x : IoErr} {left : Bytes} (n : Nat) (bs : Bytes) (s : Z.S)
    (h : inflate Z e n s bs = (.error x, left)) : StreamFault e x := by
  induction n generalizing bs s with
  | zero => simp [inflate] at h
  | succ n ih =>
    simp only [inflate] at h
    split at h
    · rename_i h1; cases h; exact inflateByte_fault _ _ h1
    · split at h
      · rename_i h1; cases h; exact ih _ _ h1
      · cases h

theorem payload_fault {Z : Zlib} {e : Ending} {enc : ArrEnc} {n : Nat} {bs : Bytes} {k : ErrKind} {left : Bytes}
    (h : payload Z e enc n bs = (.error k, left)) : BodyFault e k := by
  unfold payload at h
  split at h
  · split at h <;> cases h
    exact .inl rfl
  · split at h
    · split at h
      · cases h; exact .inr rfl
      · split at h
        · rename_i h1
          cases h
          rcases inflate_fault _ _ _ h1 with h | h | h
          · exact .inl h
          · exact .inr (.inl h)
          · exact .inr (.inr (.inl h))
        · cases h
    · cases h; exact .inl rfl

theorem array_fault {Z : Zlib} {e : Ending} {w : Nat} {bools : Bool} {f : List Bytes → AttrValue} {bs : Bytes} {k : ErrKind}
    (h : (array Z e w bools f bs).answer = .error k) : BodyFault e k := by
  unfold array at h
  split at h
  · cases h; exact .inl rfl
  · dsimp only at h
    split at h
    · cases h; trivial
    · split at h
      · cases h; exact .inl rfl
      · split at h
        · rename_i h1; cases h; exact payload_fault h1
        · cases h

theorem fixed_fault {e : Ending} {w : Nat} {f : Nat → AttrValue} {bs : Bytes} {k : ErrKind}
    (h : (fixed e w f bs).answer = .error k) : BodyFault e k := by
  unfold fixed at h
  split at h <;> cases h
  exact .inl rfl

theorem special_fault {e : Ending} {f : Bytes → Except ErrKind AttrValue} (hf : ∀ d k, f d = .error k → BodyFault e k) {bs : Bytes} {k : ErrKind}
    (h : (special e f bs).answer = .error k) : BodyFault e k := by
  unfold special at h
  split at h
  · cases h; exact .inl rfl
  · dsimp only at h
    split at h
    · rename_i x h1
      cases h
      split at h1
      · subst h1; exact .inl rfl
      · cases h1
    · exact hf _ _ h

theorem contents_fault {Z : Zlib} {e : Ending} {t : AttrType} {bs : Bytes} {k : ErrKind} (h : (contents Z e t bs).answer = .error k) : BodyFault e k := by
  cases t
  case bool =>
    cases bs with
    | nil => cases h; exact .inl rfl
    | cons b bs => cases h
  case binary => exact special_fault (fun _ _ h => by cases h) h
  case string =>
    refine special_fault (fun d k h => ?_) h
    split at h <;> cases h
    exact .inr (.inr (.inr rfl))
  all_goals first
    | exact fixed_fault h
    | exact array_fault h

theorem front_fault {Z : Zlib} {e : Ending} {bs : Bytes} {k : ErrKind} (h : (attrInFront Z e bs).answer = .error k) : BodyFault e k := by
  cases bs with
  | nil => cases h; exact .inl rfl
  | cons c bs =>
    simp only [attrInFront] at h
    split at h
    · cases h; trivial
    · exact contents_fault h

theorem attributes_fault {Z : Zlib} {e : Ending} {total : Nat} (n next : Nat) (a : Ahead) {x : PErr}
    (h : (attributes Z e total n next a).error = some x) : BodyFault e x.kind ∧ x.pos.isSome := by
  induction n generalizing next a with
  | zero => cases h
  | succ n ih =>
    unfold attributes at h
    dsimp only at h
    split at h
    · rename_i k h1
      cases h
      exact ⟨front_fault h1, rfl⟩
    · exact ih _ _ h

theorem attributes_eof {Z : Zlib} {e : Ending} {total : Nat} (n next : Nat) (a : Ahead) : (attributes Z e total n next a).ahead.eof = a.eof := by
  induction n generalizing next a with
  | zero => rfl
  | succ n ih =>
    unfold attributes
    dsimp only
    split
    · rfl
    · exact ih _ _

theorem enter_eof (a : Ahead) (n : Started) : (a.enter n).eof = a.eof := by
  unfold Ahead.enter
  split <;> rfl

theorem start_fault {e : Ending} {checks : Bool} {a : Ahead} (ha : a.eof = e.error) :
    (a.start checks).2.2.eof = e.error ∧ ∀ k, (a.start checks).1 = .fails k → BodyFault e k := by
  unfold Ahead.start
  dsimp only
  split
  · exact ⟨ha, fun k h => by cases h; exact .inl ha⟩
  · split
    · exact ⟨ha, fun k h => by cases h; trivial⟩
    · split
      · exact ⟨ha, fun k h => by cases h⟩
      · exact ⟨(enter_eof _ _).trans ha, fun k h => by cases h⟩

theorem header_fault {e : Ending} {checks : Bool} {a : Ahead} (ha : a.eof = e.error) :
    (a.header checks).2.2.eof = e.error ∧ ∀ k, (a.header checks).1 = .fails k → BodyFault e k := by
  unfold Ahead.header
  split
  · exact ⟨ha, fun k h => by cases h; exact .inl ha⟩
  · split
    · dsimp only
      split
      · exact ⟨ha, fun k h => by cases h⟩
      · split
        · exact ⟨ha, fun k h => by cases h; trivial⟩
        · exact ⟨ha, fun k h => by cases h⟩
    · exact start_fault ha

theorem next_fault {e : Ending} {checks : Bool} {a : Ahead} (ha : a.eof = e.error) :
    (a.next checks).2.2.eof = e.error ∧ ∀ k, (a.next checks).1 = .fails k → BodyFault e k := by
  have hp : a.pass.eof = e.error := by
    unfold Ahead.pass
    split <;> exact ha
  unfold Ahead.next
  dsimp only
  split
  · exact header_fault hp
  · split
    · exact ⟨hp, fun k h => by cases h; trivial⟩
    · split
      · exact ⟨hp, fun k h => by cases h⟩
      · exact header_fault hp

theorem reading_fault {Z : Zlib} {e : Ending} {checks : Bool} (n : Nat) {a : Ahead} (ha : a.eof = e.error) {x : PErr}
    (h : (reading Z e checks n a).close = .error x) : BodyFault e x.kind ∧ x.pos.isSome := by
  induction n generalizing a with
  | zero => cases h
  | succ n ih =>
    have hn := next_fault (checks := checks) ha
    unfold reading at h
    split at h
    · rename_i name count w b h1
      rw [h1] at hn
      dsimp only at h
      split at h
      · rename_i y h2
        cases h
        exact attributes_fault _ _ _ h2
      · exact ih ((attributes_eof _ _ _).trans hn.1) h
    · rename_i w b h1
      rw [h1] at hn
      exact ih hn.1 h
    · cases h
    · rename_i k w b h1
      rw [h1] at hn
      cases h
      exact ⟨hn.2 _ rfl, rfl⟩
    · cases h

/-- On a source that can seek, `AnyTree` reports a fault of a file with a supported header as a tree error around a parser
error which has a position; it is never an operation error, a warning or one of the errors of typed loaders. Its last
cause is the I/O error if there is one, the error about the encoding of a name, or the data error itself. -/
theorem C59_any_tree (Z : Zlib) (checks : Bool) {bytes body : Bytes} (ending : Option IoErr) {cursor limit : Nat} {a b c d : UInt8} {v : FbxVersion}
    (hlen : bytes.length + 2 ^ 32 ≤ 2 ^ 64) (hb : bytes = signature ++ [a, b, c, d] ++ body) (hv : v.toNat = le32 a b c d) (hs : supported v.toNat)
    (hsk : canSeek v body (cursor + 27) limit) {x : AnyTreeError} (hx : anyTree Z checks true bytes ending cursor limit = .err x) :
    ∃ k pos, x = .load (.parser ⟨k, some pos⟩) ∧ BodyFault ending k ∧ LastCause (.anyTree x) (ErrKind.root k) := by
  have h := C58_tree Z checks ending hlen hb hv hs hsk
  rw [hx] at h
  split at h
  · obtain ⟨_, _, _, _, h, _⟩ := h; cases h
  · rename_i e he
    cases h
    obtain ⟨h1, h2⟩ := reading_fault _ rfl he
    obtain ⟨k, pos⟩ := e
    cases pos with
    | none => cases h2
    | some pos => exact ⟨k, pos, rfl, h1, ((ErrKind.last k).more (source_parser _)).more rfl |>.more rfl⟩
  · cases h.1
  · exact h.elim

theorem move_eof (a : Ahead) (k : Nat) : (a.move k).eof = a.eof := rfl

theorem skip_fault (m : Skipping) (e : Ending) (k : Nat) (a : Ahead) :
    (a.skip m e k).2.eof = a.eof ∧ ∀ x, (a.skip m e k).1 = some x → x = e.error ∨ (x = .invalidSeek ∧ m ≠ .reads) := by
  cases m with
  | reads =>
    unfold Ahead.skip
    refine ⟨rfl, fun x h => ?_⟩
    simp only at h
    split at h
    · subst h; exact .inl rfl
    · cases h
  | seeks far =>
    rw [Ahead.skip_seeks]
    generalize (far - a.pos) / i64Max * i64Max = moved
    by_cases hk : k = 0 ∨ a.pos + k ≤ far
    · rw [if_pos hk]; exact ⟨move_eof _ _, fun x h => by cases h⟩
    · rw [if_neg hk]; exact ⟨move_eof _ _, fun x h => by cases h; exact .inr ⟨rfl, fun h => by cases h⟩⟩

theorem skipped_fault {m : Skipping} {e : Ending} {x : IoErr} (h : x = e.error ∨ (x = .invalidSeek ∧ m ≠ .reads)) :
    BodyFault e (.io x) ∨ (m ≠ .reads ∧ ErrKind.io x = .io .invalidSeek) := by
  rcases h with rfl | ⟨rfl, h⟩
  · exact .inl (.inl rfl)
  · exact .inr ⟨h, rfl⟩

theorem attributesFrom_fault {Z : Zlib} {m : Skipping} {e : Ending} {total : Nat} (n next : Nat) (a : Ahead) :
    (attributesFrom Z m e total n next a).ahead.eof = a.eof ∧ ∀ x, (attributesFrom Z m e total n next a).error = some x →
      (BodyFault e x.kind ∨ (m ≠ .reads ∧ x.kind = .io .invalidSeek)) ∧ x.pos.isSome := by
  induction n generalizing next a with
  | zero => exact ⟨rfl, fun x h => by cases h⟩
  | succ n ih =>
    have hs := skip_fault m e (next - a.pos) a
    unfold attributesFrom
    split
    · rename_i x here h1
      rw [h1] at hs
      refine ⟨hs.1, fun y h => ?_⟩
      cases h
      exact ⟨skipped_fault (hs.2 _ rfl), rfl⟩
    · rename_i here h1
      rw [h1] at hs
      dsimp only
      split
      · rename_i k h2
        refine ⟨hs.1, fun y h => ?_⟩
        cases h
        exact ⟨.inl (front_fault h2), rfl⟩
      · exact ⟨(ih _ _).1.trans hs.1, (ih _ _).2⟩

theorem nextFrom_fault {m : Skipping} {e : Ending} {checks : Bool} {a : Ahead} (ha : a.eof = e.error) :
    (a.nextFrom m e checks).2.2.eof = e.error ∧
      ∀ k, (a.nextFrom m e checks).1 = .fails k → BodyFault e k ∨ (m ≠ .reads ∧ k = .io .invalidSeek) := by
  have hs := skip_fault m e a.unread a
  unfold Ahead.nextFrom
  split
  · rename_i x b h1
    rw [h1] at hs
    exact ⟨hs.1.trans ha, fun k h => by cases h; exact skipped_fault (hs.2 _ rfl)⟩
  · rename_i b h1
    rw [h1] at hs
    have hb : b.eof = e.error := hs.1.trans ha
    have hh := header_fault (checks := checks) hb
    unfold Ahead.resume
    split
    · exact ⟨hh.1, fun k h => .inl (hh.2 k h)⟩
    · split
      · exact ⟨hb, fun k h => by cases h; exact .inl trivial⟩
      · split
        · exact ⟨hb, fun k h => by cases h⟩
        · exact ⟨hh.1, fun k h => .inl (hh.2 k h)⟩

theorem readingFrom_fault {Z : Zlib} {m : Skipping} {e : Ending} {checks : Bool} (n : Nat) {a : Ahead} (ha : a.eof = e.error) {x : PErr}
    (h : (readingFrom Z m e checks n a).close = .error x) : (BodyFault e x.kind ∨ (m ≠ .reads ∧ x.kind = .io .invalidSeek)) ∧ x.pos.isSome := by
  induction n generalizing a with
  | zero => cases h
  | succ n ih =>
    have hn := nextFrom_fault (m := m) (checks := checks) ha
    unfold readingFrom at h
    split at h
    · rename_i name count w b h1
      rw [h1] at hn
      dsimp only at h
      split at h
      · rename_i y h2
        cases h
        exact (attributesFrom_fault _ _ _).2 _ h2
      · exact ih ((attributesFrom_fault _ _ _).1.trans hn.1) h
    · rename_i w b h1
      rw [h1] at hn
      exact ih hn.1 h
    · cases h
    · rename_i k w b h1
      rw [h1] at hn
      cases h
      exact ⟨hn.2 _ rfl, rfl⟩
    · cases h

/-- The same for any source: one that cannot seek reports the same kinds of faults, one that can seek may also have to report that
it cannot seek far enough. -/
theorem C59_any_source (Z : Zlib) (checks seekable : Bool) {bytes body : Bytes} (ending : Option IoErr) (cursor limit : Nat) {a b c d : UInt8} {v : FbxVersion}
    (hlen : bytes.length + 2 ^ 32 ≤ 2 ^ 64) (hb : bytes = signature ++ [a, b, c, d] ++ body) (hv : v.toNat = le32 a b c d) (hs : supported v.toNat)
    {x : AnyTreeError} (hx : anyTree Z checks seekable bytes ending cursor limit = .err x) :
    ∃ k pos, x = .load (.parser ⟨k, some pos⟩) ∧ (BodyFault ending k ∨ (seekable = true ∧ k = .io .invalidSeek)) ∧ LastCause (.anyTree x) (ErrKind.root k) := by
  have h := C61_tree Z checks seekable ending cursor limit hlen hb hv hs
  rw [hx] at h
  dsimp only at h
  split at h
  · obtain ⟨_, _, _, _, h, _⟩ := h; cases h
  · rename_i e he
    cases h
    obtain ⟨h1, h2⟩ := readingFrom_fault _ rfl he
    obtain ⟨k, pos⟩ := e
    cases pos with
    | none => cases h2
    | some pos =>
      refine ⟨k, pos, rfl, h1.imp id (fun h => ⟨?_, h.2⟩), ((ErrKind.last k).more (source_parser _)).more rfl |>.more rfl⟩
      cases seekable with
      | true => rfl
      | false => exact absurd rfl h.1
  · cases h.1
  · exact h.elim

/-- The body `exOdd` from a source that can seek up to offset 44 only. -/
example : ∃ k pos, anyTree Zlib.stored true true (signature ++ [0xe8, 0x1c, 0, 0] ++ exOdd) none 0 44 =
    .err (.load (.parser ⟨k, some pos⟩)) ∧ LastCause (.anyTree (.load (.parser ⟨k, some pos⟩))) (ErrKind.root k) := by
  have h := C61_tree Zlib.stored true true (body := exOdd) none 0 44 (a := 0xe8) (b := 0x1c) (c := 0) (d := 0)
    (v := 7400) (by decide +kernel) rfl (by decide) (by simp [supported])
  dsimp only at h
  rw [show (readBodyFrom Zlib.stored (skippingOf true (0 + 27) 44) none true 7400 exOdd).close =
    .error ⟨.io .invalidSeek, some ⟨43, 27, [(0, "A")], none⟩⟩ by decide +kernel] at h
  refine ⟨_, _, h, ?_⟩
  obtain ⟨k, pos, h1, -, h2⟩ := C59_any_source Zlib.stored true true (body := exOdd) none 0 44 (a := 0xe8) (b := 0x1c)
    (c := 0) (d := 0) (v := 7400) (by decide +kernel) rfl (by decide) (by simp [supported]) h
  cases h1
  exact h2

-- a file cut in a node: the error of the device is the last cause
example : ∃ k pos, anyTree Zlib.stored true true (signature ++ [0xe8, 0x1c, 0, 0] ++ exOdd.take 20) (some (.other 5)) 0 (2 ^ 64) =
    .err (.load (.parser ⟨k, some pos⟩)) ∧ LastCause (.anyTree (.load (.parser ⟨k, some pos⟩))) (ErrKind.root k) := by
  have h := C58_tree Zlib.stored true (body := exOdd.take 20) (some (.other 5)) (cursor := 0) (limit := 2 ^ 64) (a := 0xe8) (b := 0x1c) (c := 0) (d := 0)
    (v := 7400) (by decide +kernel) rfl (by decide) (by simp [supported]) (.inl (by decide))
  rw [show (readBody Zlib.stored (some (.other 5)) true 7400 (exOdd.take 20)).close = .error ⟨.io (.other 5), some ⟨47, 27, [(0, "A")], none⟩⟩ by decide +kernel] at h
  refine ⟨_, _, h, ?_⟩
  obtain ⟨k, pos, h1, -, h2⟩ := C59_any_tree Zlib.stored true (body := exOdd.take 20) (some (.other 5)) (cursor := 0) (limit := 2 ^ 64) (a := 0xe8) (b := 0x1c)
    (c := 0) (d := 0) (v := 7400) (by decide +kernel) rfl (by decide) (by simp [supported]) (.inl (by decide)) h
  cases h1
  exact h2

/-! ## Messages -/

/-- The message of an error ends with the message of its cause. Data errors are the exception: they end with the
description for developers. -/
theorem C59_messages (T : Texts) :
    (∀ x y, DynError.source x = some y → x.type ≠ .data → ∃ t, T.display x = t ++ T.display y) ∧
    (∀ e, ∃ t, T.display (.data (.brokenCompression e)) = t ++ T.ioDebug e) ∧
    (∃ t, T.display (.data .invalidNodeNameEncoding) = t ++ T.utf8Debug) ∧
    (∀ x e, Blames x e → AboutHeader x → ∃ t, T.display x = t ++ T.ioDisplay e) := by
  refine ⟨?_, fun e => ⟨_, rfl⟩, ⟨_, rfl⟩, ?_⟩
  · intro x y hs hd
    cases x <;> simp only [DynError.source] at hs
    case data d => exact absurd rfl hd
    case container k => cases k <;> simp [ErrKind.asError] at hs <;> subst hs <;> exact ⟨_, rfl⟩
    case parser k =>
      obtain ⟨k, pos⟩ := k
      cases k <;> simp [DynError.source.source', ErrKind.asError] at hs <;> subst hs <;> exact ⟨_, rfl⟩
    case anyParser k => cases k <;> simp at hs; subst hs; exact ⟨_, rfl⟩
    case load k => cases k <;> simp at hs; subst hs; exact ⟨_, rfl⟩
    case anyTree k => cases k <;> simp at hs <;> subst hs <;> exact ⟨_, rfl⟩
    case compression k => simp at hs; subst hs; exact ⟨_, rfl⟩
    case write k => cases k <;> simp at hs <;> subst hs <;> exact ⟨_, rfl⟩
    all_goals cases hs
  · intro x e h hx
    cases h with
    | header e => exact ⟨"", (String.empty_append).symm⟩
    | anyParser h => cases h; exact ⟨_, rfl⟩
    | anyTreeCreation h =>
      cases h with
      | anyParser h => cases h; exact ⟨"Failed to create a parser: " ++ "FBX header error: ", (String.append_assoc ..).symm⟩
    | _ => cases hx

theorem append_ne {a b s t : String} (h : List.take 2 a.toList ≠ List.take 2 b.toList) (ha : 2 ≤ a.toList.length)
    (hb : 2 ≤ b.toList.length) : ¬ a ++ s = b ++ t := by
  intro he
  have := congrArg (fun u : String => List.take 2 u.toList) he
  simp only [String.toList_append] at this
  rw [List.take_append_of_le_length ha, List.take_append_of_le_length hb] at this
  exact h this

/-- The message of a parser error begins with its kind. -/
theorem C59_message_kind (T : Texts) (e : PErr) :
    (e.kindOf = .data ↔ ∃ t, T.display (.parser e) = "Data error: " ++ t) ∧
    (e.kindOf = .io ↔ ∃ t, T.display (.parser e) = "I/O error: " ++ t) ∧
    (e.kindOf = .operation ↔ ∃ t, T.display (.parser e) = "Invalid operation: " ++ t) ∧
    (e.kindOf = .warning ↔ ∃ t, T.display (.parser e) = "Warning considered critical: " ++ t) := by
  obtain ⟨k, pos⟩ := e
  cases k with
  | data x =>
    have h : T.display (.parser ⟨.data x, pos⟩) = "Data error: " ++ T.ofData x := rfl
    rw [h]
    refine ⟨⟨fun _ => ⟨_, rfl⟩, fun _ => rfl⟩,
      ⟨nofun, fun ⟨_, h⟩ => absurd h (append_ne (by decide +kernel) (by decide +kernel) (by decide +kernel))⟩,
      ⟨nofun, fun ⟨_, h⟩ => absurd h (append_ne (by decide +kernel) (by decide +kernel) (by decide +kernel))⟩,
      ⟨nofun, fun ⟨_, h⟩ => absurd h (append_ne (by decide +kernel) (by decide +kernel) (by decide +kernel))⟩⟩
  | io x =>
    have h : T.display (.parser ⟨.io x, pos⟩) = "I/O error: " ++ T.ioDisplay x := rfl
    rw [h]
    refine ⟨⟨nofun, fun ⟨_, h⟩ => absurd h (append_ne (by decide +kernel) (by decide +kernel) (by decide +kernel))⟩,
      ⟨fun _ => ⟨_, rfl⟩, fun _ => rfl⟩,
      ⟨nofun, fun ⟨_, h⟩ => absurd h (append_ne (by decide +kernel) (by decide +kernel) (by decide +kernel))⟩,
      ⟨nofun, fun ⟨_, h⟩ => absurd h (append_ne (by decide +kernel) (by decide +kernel) (by decide +kernel))⟩⟩
  | op x =>
    have h : T.display (.parser ⟨.op x, pos⟩) = "Invalid operation: " ++ Texts.ofOp x := rfl
    rw [h]
    refine ⟨⟨nofun, fun ⟨_, h⟩ => absurd h (append_ne (by decide +kernel) (by decide +kernel) (by decide +kernel))⟩,
      ⟨nofun, fun ⟨_, h⟩ => absurd h (append_ne (by decide +kernel) (by decide +kernel) (by decide +kernel))⟩,
      ⟨fun _ => ⟨_, rfl⟩, fun _ => rfl⟩,
      ⟨nofun, fun ⟨_, h⟩ => absurd h (append_ne (by decide +kernel) (by decide +kernel) (by decide +kernel))⟩⟩
  | warning x =>
    have h : T.display (.parser ⟨.warning x, pos⟩) = "Warning considered critical: " ++ Texts.ofWarning x := rfl
    rw [h]
    refine ⟨⟨nofun, fun ⟨_, h⟩ => absurd h (append_ne (by decide +kernel) (by decide +kernel) (by decide +kernel))⟩,
      ⟨nofun, fun ⟨_, h⟩ => absurd h (append_ne (by decide +kernel) (by decide +kernel) (by decide +kernel))⟩,
      ⟨nofun, fun ⟨_, h⟩ => absurd h (append_ne (by decide +kernel) (by decide +kernel) (by decide +kernel))⟩,
      ⟨fun _ => ⟨_, rfl⟩, fun _ => rfl⟩⟩

example : (⟨fun _ => "os error 5", fun _ => "Os { code: 5 }", "", "", fun _ => ""⟩ : Texts).display
    (.anyTree (.load (.parser ⟨.io (.other 5), none⟩))) = "Tree load error: Parser error: I/O error: os error 5" := by decide +kernel

/-- The message shows the values the error was made with; where something was expected, it comes first. -/
theorem C59_message_values (T : Texts) :
    (∀ e g, ∃ a, T.display (.data (.nodeLengthMismatch e g)) = a ++ "expected " ++ toString e ++ ", got " ++ perhaps g) ∧
    (∀ e g, ∃ a, T.display (.data (.unexpectedAttribute e g)) = a ++ "expected " ++ e ++ ", got " ++ g) ∧
    (∀ v, ∃ a, T.display (.data (.invalidArrayEncoding v)) = a ++ "got " ++ toString v) ∧
    (∀ v, ∃ a, T.display (.data (.invalidAttrTypeCode v)) = a ++ toString v.toNat) ∧
    (∀ e g, ∃ a, T.display (.warning (.invalidFooterPadding e g)) = a ++ "expected " ++ toString e ++ " bytes, got " ++ toString g ++ " bytes") ∧
    (∀ v, (∃ a, T.display (.write (.attributeTooLong v)) = a ++ toString v ++ " bytes") ∧
      (∃ a, T.display (.write (.fileTooLarge v)) = a ++ toString v ++ " bytes") ∧
      (∃ a, T.display (.write (.nodeNameTooLong v)) = a ++ toString v ++ " bytes") ∧
      (∃ a, T.display (.write (.tooManyArrayElements v)) = a ++ "count=" ++ toString v) ∧
      (∃ a, T.display (.write (.tooManyAttributes v)) = a ++ "count=" ++ toString v) ∧
      (∃ a, T.display (.write (.unclosedNode v)) = a ++ "depth=" ++ toString v)) := by
  refine ⟨fun e g => ⟨"Node ends with unexpected position: ", ?_⟩, fun e g => ⟨"Unexpected attribute value or type: ", ?_⟩,
    fun v => ⟨"Unknown array attribute encoding: ", ?_⟩, fun v => ⟨_, rfl⟩, fun e g => ⟨"Invalid footer padding length: ", ?_⟩, fun v =>
    ⟨⟨_, rfl⟩, ⟨_, rfl⟩, ⟨_, rfl⟩, ⟨"Too many array elements for a single node attribute: ", ?_⟩, ⟨"Too many attributes: ", ?_⟩,
      ⟨"There remains unclosed nodes: ", ?_⟩⟩⟩
  · cases g <;> rfl
  all_goals rfl

/-- **C59** (versions in messages). The errors about the version show it, in decimal. -/
theorem C59_message_version (T : Texts) (v : FbxVersion) :
    T.display (.operation (.unsupportedFbxVersion .v7400 v)) = "Unsupported FBX version: parser=V7400, fbx=FbxVersion(" ++ toString v.toNat ++ ")" ∧
    T.display (.anyParser (.unsupportedVersion v)) = "Unsupported FBX version: FbxVersion(" ++ toString v.toNat ++ ")" ∧
    T.display (.write (.unsupportedFbxVersion v)) = "Unsupported FBX version: FbxVersion(" ++ toString v.toNat ++ ")" := by
  refine ⟨?_, ?_, ?_⟩
  · show "Unsupported FBX version: parser=" ++ "V7400" ++ ", fbx=" ++ ("FbxVersion(" ++ toString v.toNat ++ ")") = _
    simp only [← String.append_assoc]
    rfl
  · show "Unsupported FBX version: " ++ ("FbxVersion(" ++ toString v.toNat ++ ")") = _
    simp only [← String.append_assoc]
    rfl
  · show "Unsupported FBX version: " ++ ("FbxVersion(" ++ toString v.toNat ++ ")") = _
    simp only [← String.append_assoc]
    rfl

theorem begins {text : String} (p s : String) (ht : text = p ++ s) {n : Nat} {l : List Char} (h : l = List.take n p.toList ∧ n ≤ p.toList.length) :
    some l = some (List.take n text.toList) := by
  rw [ht, String.toList_append, List.take_append_of_le_length h.2, h.1]

theorem begins_two {text : String} (p s t : String) (ht : text = p ++ s ++ t) {n : Nat} {l : List Char}
    (h : l = List.take n p.toList ∧ n ≤ p.toList.length) : some l = some (List.take n text.toList) :=
  begins p (s ++ t) (by rw [ht, String.append_assoc]) h

theorem begins_three {text : String} (p s t u : String) (ht : text = p ++ s ++ t ++ u) {n : Nat} {l : List Char}
    (h : l = List.take n p.toList ∧ n ≤ p.toList.length) : some l = some (List.take n text.toList) :=
  begins_two p s (t ++ u) (by rw [ht, String.append_assoc]) h

/-- The first letters of the messages of each type. -/
def firstLetters : ErrorType → List (List Char)
  | .data => ["FBX footer is ", "Data with brok", "Unknown array ", "Invalid node a", "Invalid node n", "Some error occ", "Node ends with", "Unexpected att"].map String.toList
  | .operation => ["Attempt to parse more data while the parsing is a", "Attempt to parse more data while the parsing is s",
      "Unsupported FBX version: parser=V7400, fbx=FbxVer"].map String.toList
  | .warning => ["Node name i", "Extra (unex", "Incorrect b", "Invalid foo", "Missing nod", "Unexpected "].map String.toList
  | .container | .parser => ["Da", "I/", "In", "Wa"].map String.toList
  | .anyParser => ["FB", "Un"].map String.toList
  | .load => ["At", "Pa"].map String.toList
  | .anyTree => ["Fa", "Tr"].map String.toList
  | .write => ["Node attrib", "Compression", "File is too", "I/O error: ", "There are n", "Node name i", "Too many ar", "Too many at", "There remai", "Unsupported",
      "User-define"].map String.toList
  | _ => [[]]

theorem firstLetters_spec (T : Texts) (x : DynError) (hx : (variant x).1 ≠ .header) :
    (firstLetters (variant x).1)[(variant x).2]? = some (List.take (((firstLetters (variant x).1).headD []).length) (T.display x).toList) := by
  cases x
  case data e =>
    cases e
    case brokenFbxFooter => exact begins "FBX footer is broken" "" (String.append_empty ..).symm (by (try simp only [variant]); decide +kernel)
    case brokenCompression => exact begins "Data with broken compression (codec=Zlib): " _ rfl (by (try simp only [variant]); decide +kernel)
    case invalidArrayEncoding => exact begins "Unknown array attribute encoding: got " _ rfl (by (try simp only [variant]); decide +kernel)
    case invalidAttrTypeCode => exact begins "Invalid node attribute type code: " _ rfl (by (try simp only [variant]); decide +kernel)
    case invalidNodeNameEncoding => exact begins "Invalid node name encoding: " _ rfl (by (try simp only [variant]); decide +kernel)
    case nodeAttributeError => exact begins "Some error occured while reading node attributes" "" (String.append_empty ..).symm (by (try simp only [variant]); decide +kernel)
    case nodeLengthMismatch => exact begins_three "Node ends with unexpected position: expected " _ _ _ rfl (by (try simp only [variant]); decide +kernel)
    case unexpectedAttribute => exact begins_three "Unexpected attribute value or type: expected " _ _ _ rfl (by (try simp only [variant]); decide +kernel)
  case operation e =>
    cases e
    case alreadyAborted => exact begins "Attempt to parse more data while the parsing is aborted" "" (String.append_empty ..).symm (by (try simp only [variant]); decide +kernel)
    case alreadyFinished => exact begins "Attempt to parse more data while the parsing is successfully finished" "" (String.append_empty ..).symm (by (try simp only [variant]); decide +kernel)
    case unsupportedFbxVersion q v =>
      cases q
      exact begins_two "Unsupported FBX version: parser=V7400, fbx=FbxVersion(" (toString v.toNat) ")" (C59_message_version T v).1 (by (try simp only [variant]); decide +kernel)
  case warning e =>
    cases e
    case emptyNodeName => exact begins "Node name is empty" "" (String.append_empty ..).symm (by (try simp only [variant]); decide +kernel)
    case extraNodeEndMarker => exact begins "Extra (unexpected) node end marker found" "" (String.append_empty ..).symm (by (try simp only [variant]); decide +kernel)
    case incorrectBool => exact begins "Incorrect boolean representation" "" (String.append_empty ..).symm (by (try simp only [variant]); decide +kernel)
    case missingNodeEndMarker => exact begins "Missing node end marker" "" (String.append_empty ..).symm (by (try simp only [variant]); decide +kernel)
    case unexpectedFooterField => exact begins "Unexpected footer field value" "" (String.append_empty ..).symm (by (try simp only [variant]); decide +kernel)
    case invalidFooterPadding a b =>
      exact begins_three "Invalid footer padding length: expected " (toString a) " bytes, got " (toString b ++ " bytes")
        String.append_assoc (by (try simp only [variant]); decide +kernel)
  case container e =>
    cases e
    case data => exact begins "Data error: " _ rfl (by (try simp only [variant]); decide +kernel)
    case io => exact begins "I/O error: " _ rfl (by (try simp only [variant]); decide +kernel)
    case op => exact begins "Invalid operation: " _ rfl (by (try simp only [variant]); decide +kernel)
    case warning => exact begins "Warning considered critical: " _ rfl (by (try simp only [variant]); decide +kernel)
  case anyParser e =>
    cases e
    case header => exact begins "FBX header error: " _ rfl (by (try simp only [variant]); decide +kernel)
    case unsupportedVersion => exact begins "Unsupported FBX version: " _ rfl (by (try simp only [variant]); decide +kernel)
  case load e =>
    cases e
    case badParser => exact begins "Attempt to use a bad parser" "" (String.append_empty ..).symm (by (try simp only [variant]); decide +kernel)
    case parser => exact begins "Parser error: " _ rfl (by (try simp only [variant]); decide +kernel)
  case anyTree e =>
    cases e
    case parserCreation => exact begins "Failed to create a parser: " _ rfl (by (try simp only [variant]); decide +kernel)
    case load => exact begins "Tree load error: " _ rfl (by (try simp only [variant]); decide +kernel)
  case write e =>
    cases e
    case attributeTooLong => exact begins_two "Node attribute is too long: " _ _ rfl (by (try simp only [variant]); decide +kernel)
    case compression => exact begins "Compression error: " _ rfl (by (try simp only [variant]); decide +kernel)
    case fileTooLarge => exact begins_two "File is too large: " _ _ rfl (by (try simp only [variant]); decide +kernel)
    case io => exact begins "I/O error: " _ rfl (by (try simp only [variant]); decide +kernel)
    case noNodesToClose => exact begins "There are no nodes to close" "" (String.append_empty ..).symm (by (try simp only [variant]); decide +kernel)
    case nodeNameTooLong => exact begins_two "Node name is too long: " _ _ rfl (by (try simp only [variant]); decide +kernel)
    case tooManyArrayElements => exact begins "Too many array elements for a single node attribute: count=" _ rfl (by (try simp only [variant]); decide +kernel)
    case tooManyAttributes => exact begins "Too many attributes: count=" _ rfl (by (try simp only [variant]); decide +kernel)
    case unclosedNode => exact begins "There remains unclosed nodes: depth=" _ rfl (by (try simp only [variant]); decide +kernel)
    case unsupportedFbxVersion => exact begins "Unsupported FBX version: " _ rfl (by (try simp only [variant]); decide +kernel)
    case userDefined => exact begins "User-defined error: " _ rfl (by (try simp only [variant]); decide +kernel)
  case parser e =>
    obtain ⟨k, pos⟩ := e
    cases k
    case data => exact begins "Data error: " _ rfl (by (try simp only [variant]); decide +kernel)
    case io => exact begins "I/O error: " _ rfl (by (try simp only [variant]); decide +kernel)
    case op => exact begins "Invalid operation: " _ rfl (by (try simp only [variant]); decide +kernel)
    case warning => exact begins "Warning considered critical: " _ rfl (by (try simp only [variant]); decide +kernel)
  case header e => cases e <;> exact absurd rfl hx
  all_goals rfl

/-- **C59** (messages tell the variant). Errors of one type with the same message are of the same variant, whatever the texts of the objects of
others are. Errors about the header are the exception: they may repeat the text of the I/O error. -/
theorem C59_message_variant (T : Texts) {x y : DynError} (hx : (variant x).1 ≠ .header) (ht : (variant x).1 = (variant y).1)
    (h : T.display x = T.display y) : variant x = variant y := by
  have h1 := firstLetters_spec T x hx
  have h2 := firstLetters_spec T y (ht ▸ hx)
  rw [← h, ← ht] at h2
  have key : ∀ t : ErrorType, ∀ i < 12, ∀ j < 12, (firstLetters t)[i]? = (firstLetters t)[j]? → (firstLetters t)[i]? ≠ none → i = j := by
    intro t; cases t <;> decide +kernel
  have bound : ∀ {t : ErrorType} {i : Nat} {l}, (firstLetters t)[i]? = some l → i < 12 := by
    intro t i l hl
    have h3 : (firstLetters t).length ≤ 12 := by cases t <;> decide +kernel
    have := (List.getElem?_eq_some_iff.mp hl).1
    omega
  exact Prod.ext ht (key _ _ (bound h1) _ (bound h2) (h1.trans h2.symm) (by rw [h1]; nofun))

/-- The exception: an I/O error whose text is that of the missing signature. -/
example : let T : Texts := ⟨fun _ => "FBX magic binary is not detected", fun _ => "", "", "", fun _ => ""⟩
    T.display (.header (.io .unexpectedEof)) = T.display (.header .magicNotDetected) := rfl

example : variant (.data (.invalidAttrTypeCode 3)) = variant (.data (.invalidAttrTypeCode 4)) ∧
    variant (.data (.invalidAttrTypeCode 3)) ≠ variant (.data .invalidNodeNameEncoding) := by decide

/-- **C59** (casts). A cast of an error succeeds for the type of the error alone, and gives the error itself. -/
theorem C59_cast (x y : DynError) (T : ErrorType) : x.downcast T = some y ↔ T = (variant x).1 ∧ y = x := by
  have h : x.type = (variant x).1 := by
    cases x
    case data e => cases e <;> rfl
    case operation e => cases e <;> rfl
    case warning e => cases e <;> rfl
    case container e => cases e <;> rfl
    case parser e => obtain ⟨k, pos⟩ := e; cases k <;> rfl
    case header e => cases e <;> rfl
    case anyParser e => cases e <;> rfl
    case load e => cases e <;> rfl
    case anyTree e => cases e <;> rfl
    case write e => cases e <;> rfl
    all_goals rfl
  unfold DynError.downcast
  rw [h]
  split
  · rename_i he
    exact ⟨fun hy => ⟨he.symm, by cases hy; rfl⟩, fun hy => by rw [hy.2]⟩
  · rename_i he
    exact ⟨nofun, fun hy => absurd hy.1.symm he⟩

/-- **C59** (messages without values). What the errors say that carry nothing; and the objects of others say what they say. -/
theorem C59_message_fixed (T : Texts) :
    T.display (.data .brokenFbxFooter) = "FBX footer is broken" ∧
    T.display (.data .nodeAttributeError) = "Some error occured while reading node attributes" ∧
    T.display (.operation .alreadyAborted) = "Attempt to parse more data while the parsing is aborted" ∧
    T.display (.operation .alreadyFinished) = "Attempt to parse more data while the parsing is successfully finished" ∧
    T.display (.warning .emptyNodeName) = "Node name is empty" ∧
    T.display (.warning .extraNodeEndMarker) = "Extra (unexpected) node end marker found" ∧
    T.display (.warning .incorrectBool) = "Incorrect boolean representation" ∧
    T.display (.warning .missingNodeEndMarker) = "Missing node end marker" ∧
    T.display (.warning .unexpectedFooterField) = "Unexpected footer field value" ∧
    T.display (.header .magicNotDetected) = "FBX magic binary is not detected" ∧
    T.display (.load .badParser) = "Attempt to use a bad parser" ∧
    T.display (.write .noNodesToClose) = "There are no nodes to close" ∧
    T.display .utf8 = T.utf8Display ∧ (∀ e, T.display (.io e) = T.ioDisplay e) ∧ (∀ e, T.display (.user e) = T.userDisplay e) :=
  ⟨rfl, rfl, rfl, rfl, rfl, rfl, rfl, rfl, rfl, rfl, rfl, rfl, rfl, fun _ => rfl, fun _ => rfl⟩


example : (⟨fun _ => "", fun _ => "", "", "", fun _ => ""⟩ : Texts).display (.data (.nodeLengthMismatch 120 (some 131))) =
    "Node ends with unexpected position: expected 120, got Some(131)" := by decide +kernel

end Fbx
