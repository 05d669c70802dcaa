import Verif.Model.AnyRead
import Verif.Spec.ShortReads

/-!
# Sources of any type: specification vocabulary

What a type that implements `Read` and `Seek` has to do, told in terms of a tape: a sequence of bytes and an offset in it.
-/

namespace Fbx.Spec
variable {ρ α : Type}

/-- What a source stands for: the bytes of a file, the offset, what happens after the last byte (`none`: end of file, `some e`: the error `e`),
and the largest offset that one can seek to. -/
structure Tape where
  file : Bytes
  pos : Nat
  ending : Option IoErr
  limit : Nat
  deriving DecidableEq, Repr

/-- What is still to be read. -/
def Tape.rest (t : Tape) : Bytes := t.file.drop t.pos

/-- The contract of `Read` and `Seek`, for the states that satisfy `I` and stand for `tape`. -/
structure Delivers (S : Source ρ) (I : ρ → Prop) (tape : ρ → Tape) : Prop where
  /-- An interrupted read changes nothing. -/
  interrupted : ∀ n x x', I x → S.read n x = (none, x') → I x' ∧ tape x' = tape x
  /-- A read returns the next bytes, at most as many as the buffer has room for. It returns nothing only at the end of the file, or if there is
  no room. -/
  bytes : ∀ n x x' bs, I x → S.read n x = (some (.ok bs), x') → I x' ∧ tape x' = { tape x with pos := (tape x).pos + bs.length } ∧
    bs.length ≤ n ∧ bs <+: (tape x).rest ∧ (bs = [] → n = 0 ∨ ((tape x).rest = [] ∧ (tape x).ending = none))
  /-- A read fails only after the last byte, if that is how the file ends. -/
  fails : ∀ n x x' e, I x → S.read n x = (some (.error e), x') → I x' ∧ tape x' = tape x ∧ (tape x).rest = [] ∧ (tape x).ending = some e
  /-- Reads are not interrupted for ever. -/
  calm : ∀ x, I x → Acc (fun y z => ∃ n, S.read n z = (none, y)) x
  /-- A seek that succeeds leads to an offset that is not too large. -/
  seeks : ∀ d x x', I x → S.seek d x = (.ok (), x') → I x' ∧ 0 ≤ (tape x).pos + d ∧ (tape x).pos + d ≤ (tape x).limit ∧
    tape x' = { tape x with pos := ((tape x).pos + d).toNat }
  /-- A seek that fails changes nothing. It fails only if the offset is too large, or negative. -/
  refuses : ∀ d x x' e, I x → S.seek d x = (.error e, x') → I x' ∧ tape x' = tape x ∧ e = .invalidSeek ∧
    ¬ (0 ≤ (tape x).pos + d ∧ (tape x).pos + d ≤ (tape x).limit)

/-- What a file stands for. -/
def diskTape (d : Disk) : Tape := ⟨d.file, d.pos, d.ending, d.limit⟩

/-- What a `BufReader` stands for: it is behind its source by what is in the buffer. -/
def bufTape (tape : ρ → Tape) (b : ρ × Bytes) : Tape := { tape b.1 with pos := (tape b.1).pos - b.2.length }

/-- What is in the buffer are the bytes before the offset of the source. -/
def bufHolds (I : ρ → Prop) (tape : ρ → Tape) (b : ρ × Bytes) : Prop :=
  I b.1 ∧ b.2.length ≤ (tape b.1).pos ∧ b.2 <+: (tape b.1).file.drop ((tape b.1).pos - b.2.length)

/-- A call from the source. `none`: the fuel was not enough; `some none`: the call is not allowed. -/
def callFrom (D : Source ρ) (Z : Zlib) (fuel : Nat) (s : Client × ρ) : WCall α → Option (Option (Outcome α × (Client × ρ)))
  | .next => match D.nextEvent fuel (s.1.parser, s.2) with
    | none => none
    | some (.ok ev, (p, i)) => some (some (.event ev, (⟨p, match ev with | .startNode _ _ => attrsOf p | _ => none⟩, i)))
    | some (.err e, (p, i)) => some (some (.err e, (⟨p, none⟩, i)))
    | some (.panic x, (p, i)) => some (some (.panic x, (⟨p, none⟩, i)))
  | .load b l => match s.1.attrs with
    | none => some none
    | some at_ => match D.load Z b l fuel (⟨s.1.parser, at_⟩, s.2) with
      | none => none
      | some (.ok (some v), (a, i)) => some (some (.value v, (⟨a.parser, some a.attrs⟩, i)))
      | some (.ok none, (a, i)) => some (some (.noValue, (⟨a.parser, some a.attrs⟩, i)))
      | some (.err e, (a, i)) => some (some (.err e, (⟨a.parser, some a.attrs⟩, i)))
      | some (.panic x, (a, i)) => some (some (.panic x, (⟨a.parser, some a.attrs⟩, i)))
  | .skip => match D.skipCurrentNode fuel (s.1.parser, s.2) with
    | none => none
    | some (.ok _, (p, i)) => some (some (.done, (⟨p, none⟩, i)))
    | some (.err e, (p, i)) => some (some (.err e, (⟨p, none⟩, i)))
    | some (.panic x, (p, i)) => some (some (.panic x, (⟨p, none⟩, i)))
  | .setHandler h => some (some (.done, (⟨s.1.parser.setHandler h, none⟩, s.2)))

/-- What a client observes from the source, and its state in the end; `none`: the fuel was not enough. -/
def observeFrom (D : Source ρ) (Z : Zlib) (fuel : Nat) (s : Client × ρ) : List (WCall α) → Option (List (Outcome α) × Client)
  | [] => some ([], s.1)
  | c :: cs => match callFrom D Z fuel s c with
    | none => none
    | some none => some ([], s.1)
    | some (some (.panic x, t)) => some ([.panic x], t.1)
    | some (some (o, t)) => (observeFrom D Z fuel t cs).map fun y => (o :: y.1, y.2)

/-- From the source the calls end, the client sees what it sees on the whole source and, unless there was a panic, its state is the same. -/
def SameFrom (D : Source ρ) (Z : Zlib) (s : Client) (i : ρ) (cs : List (WCall α)) : Prop :=
  ∃ fuel₀ t, (∀ fuel ≥ fuel₀, observeFrom D Z fuel (s, i) cs = some ((observe Z s (cs.map WCall.call)).1, t)) ∧
    ((∀ x, .panic x ∉ (observe Z s (cs.map WCall.call)).1) → t = (observe Z s (cs.map WCall.call)).2)

/-- The result of opening a file, with the state of the source. -/
def openedAt (x : ρ) : Res AnyError Parser → Res AnyError (Parser × ρ)
  | .ok p => .ok (p, x)
  | .err e => .err e
  | .panic x => .panic x

end Fbx.Spec
