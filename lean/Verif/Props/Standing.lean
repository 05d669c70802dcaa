import Verif.Proof.Standing
import Verif.Props.Handlers
import Verif.Props.AnySource

/-! # C81 What any client sees is decided by the bytes and its calls

The machine is that of `Verif/Spec/Standing.lean`: it knows the bytes of the file, how the source skips and ends, and what the client
has done. -/

namespace Fbx
open Reader Parser Spec
variable {α : Type} {Z : Zlib}

theorem begin_stands {checks seekable : Bool} {v : FbxVersion} {bytes : Bytes} {ending : Option IoErr} {cursor limit : Nat} {p : Parser}
    (hp : Parser.create checks v ⟨bytes, ending, cursor, headerLen, seekable, limit⟩ = .ok p) :
    Stands ⟨p, none⟩ (Standing.begin ⟨v, checks, skippingOf seekable cursor limit, ending⟩ bytes) ∧
      InSetting p ⟨v, checks, skippingOf seekable cursor limit, ending⟩ := by
  rw [create_eq hp]
  exact ⟨⟨rfl, rfl, rfl, rfl, rfl, rfl, fun _ => rfl⟩, rfl, rfl, rfl, rfl⟩

/-- **C81** (the parser of a version). Any client, with any loaders and any warning handlers, on any bytes of any source. -/
theorem C81_parser (Z : Zlib) {checks seekable : Bool} {v : FbxVersion} {bytes : Bytes} {ending : Option IoErr} {cursor limit : Nat} {p : Parser}
    (hp : Parser.create checks v ⟨bytes, ending, cursor, headerLen, seekable, limit⟩ = .ok p) (hsz : Sized bytes) (r : Routine α) :
    let f : Setting := ⟨v, checks, skippingOf seekable cursor limit, ending⟩
    r.observe Z ⟨p, none⟩ = r.expect Z f (Standing.begin f bytes) := by
  obtain ⟨hi, hL⟩ := open_inv ⟨_, _, _, _, _, _, hp⟩ hsz
  obtain ⟨hs, hf⟩ := begin_stands hp
  exact observe_expect hL hi (Opens.state ⟨_, _, _, _, _, _, hp⟩).2.1 hf r [] _ _ .nil (fun _ _ h => by cases h) hs

/-- **C81** (files). A file is opened with `AnyParser`; then any client sees what the machine says. -/
theorem C81_file (Z : Zlib) (checks seekable : Bool) {bytes body : Bytes} (ending : Option IoErr) (cursor limit : Nat) {a b c d : UInt8} {v : FbxVersion}
    (hlen : bytes.length + 2 ^ 32 ≤ 2 ^ 64) (hb : bytes = signature ++ [a, b, c, d] ++ body) (hv : v.toNat = le32 a b c d) (hs : supported v.toNat)
    (r : Routine α) :
    let f : Setting := ⟨v, checks, skippingOf seekable (cursor + 27) limit, ending⟩
    ∃ p, anyParser checks seekable bytes ending cursor limit = .ok p ∧ r.observe Z ⟨p, none⟩ = r.expect Z f (Standing.begin f body) := by
  obtain ⟨p, h1, h2, h3, -⟩ := open_file (checks := checks) (seekable := seekable) (ending := ending) (cursor := cursor) (limit := limit) hlen hb hv hs
  exact ⟨p, h1, C81_parser Z h2 h3 r⟩

/-- **C81** (sources). Two sources with the same bytes, the same end and the same way to skip: every client sees the same, wherever the file
begins in them. -/
theorem C81_sources (Z : Zlib) {checks seekable : Bool} {v : FbxVersion} {bytes : Bytes} {ending : Option IoErr} {cursor limit cursor' limit' : Nat} {p p' : Parser}
    (hp : Parser.create checks v ⟨bytes, ending, cursor, headerLen, seekable, limit⟩ = .ok p)
    (hp' : Parser.create checks v ⟨bytes, ending, cursor', headerLen, seekable, limit'⟩ = .ok p') (hsz : Sized bytes)
    (hsk : skippingOf seekable cursor limit = skippingOf seekable cursor' limit') (r : Routine α) :
    r.observe Z ⟨p, none⟩ = r.observe Z ⟨p', none⟩ := by
  rw [C81_parser Z hp hsz r, C81_parser Z hp' hsz r, hsk]

/-! ## Examples -/

/-- Sets a handler, which objects to the second warning, enters the node, loads its attribute, sees the error, and tries to go on. -/
def exStandingCalls : List (Call AttrValue) := [.setHandler exPicky, .next, .load false directLoader, .load true directLoader, .skip, .next, .skip]

/-- What the machine says: the second warning is the error; the attribute was counted, and the node can still be left; then there is
no node to leave. -/
theorem exStanding_says :
    let f : Setting := ⟨7400, true, .reads, none⟩
    (Routine.ofCalls exStandingCalls).expect Zlib.stored f (Standing.begin f exWarnBody) =
      let w1 : Warning × SynPos := (.emptyNodeName, ⟨40, 27, [(0, "")], none⟩)
      let w2 : Warning × SynPos := (.incorrectBool, ⟨42, 40, [(0, "")], some 0⟩)
      [(.done, some ⟨7400, 0, none, ⟨27, 0, [], none⟩, false, [], none⟩),
       (.event (.startNode "" 1), some ⟨7400, 1, some "", ⟨40, 27, [(0, "")], none⟩, true, [w1], some (1, 1)⟩),
       (.err ⟨.warning .incorrectBool, some ⟨42, 40, [(0, "")], some 0⟩⟩, some ⟨7400, 1, some "", ⟨42, 27, [(0, "")], none⟩, true, [w2, w1], some (1, 0)⟩),
       (.err ⟨.op .alreadyAborted, some ⟨42, 40, [(0, "")], some 0⟩⟩, some ⟨7400, 1, some "", ⟨42, 27, [(0, "")], none⟩, true, [w2, w1], some (1, 0)⟩),
       (.done, some ⟨7400, 0, none, ⟨42, 0, [], none⟩, true, [w2, w1], none⟩),
       (.err ⟨.op .alreadyAborted, some ⟨42, 40, [(0, "")], some 0⟩⟩, some ⟨7400, 0, none, ⟨42, 0, [], none⟩, true, [w2, w1], none⟩),
       (.panic .skipRoot, none)] := by decide +kernel

/-- So this is what is seen of the parser. -/
example : (Routine.ofCalls exStandingCalls).observe Zlib.stored ⟨exParser true false 7400 exWarnBody, none⟩ =
    (Routine.ofCalls exStandingCalls).expect Zlib.stored ⟨7400, true, .reads, none⟩ (Standing.begin ⟨7400, true, .reads, none⟩ exWarnBody) :=
  C81_parser Zlib.stored (exParser_create true false 7400 exWarnBody (by decide)) exWarn_sized _

/-- A client which reads to the end; when something fails it accepts everything from then on and leaves the node. -/
def exLenient : Nat → Routine AttrValue
  | 0 => .stop
  | n + 1 => .call .next (fun o _ => match o with
    | .err _ => .call (.setHandler exMild) (fun _ g => if g.depth = 0 then .stop else .call .skip (fun _ _ => exLenient n))
    | .event (.endFbx _) => .stop
    | _ => exLenient n)

/-- A handler which objects to the footer: the error is inside the end event, and 160 + 3 bytes were read before it. -/
theorem exLenient_says :
    let f : Setting := ⟨7400, true, .seeks 1000, none⟩
    ((Routine.call (.setHandler exPicky3) (fun _ _ => exLenient 5)).expect Zlib.stored f (Standing.begin f exWarnBody)).map Prod.snd =
      let w1 : Warning × SynPos := (.emptyNodeName, ⟨40, 27, [(0, "")], none⟩)
      let w2 : Warning × SynPos := (.invalidFooterPadding 9 3, ⟨71, 55, [], none⟩)
      [some ⟨7400, 0, none, ⟨27, 0, [], none⟩, false, [], none⟩, some ⟨7400, 1, some "", ⟨40, 27, [(0, "")], none⟩, true, [w1], some (1, 1)⟩,
       some ⟨7400, 0, none, ⟨42, 0, [], none⟩, true, [w1], none⟩, some ⟨7400, 0, none, ⟨218, 0, [], none⟩, true, [w2, w1], none⟩] := by decide +kernel

example := C81_file Zlib.stored true true (body := exWarnBody) none 0 973 (a := 0xe8) (b := 0x1c) (c := 0) (d := 0) (v := 7400)
  (by decide +kernel) rfl (by decide) (by simp [supported]) (Routine.call (.setHandler exPicky3) (fun _ _ => exLenient 5))

example : (exLenient 9).observe Zlib.stored ⟨exParser true false 7400 exWarnBody, none⟩ =
    (exLenient 9).observe Zlib.stored ⟨{ exParser true false 7400 exWarnBody with reader := ⟨exWarnBody, none, 12345, headerLen, false, 3⟩ }, none⟩ :=
  C81_sources Zlib.stored (exParser_create true false 7400 exWarnBody (by decide)) (cursor' := 12345) (limit' := 3) rfl exWarn_sized rfl _

end Fbx
