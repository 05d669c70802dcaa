import Verif.Spec.AnyRead

/-! # Sources that fail at any time: specification vocabulary -/

namespace Fbx.Spec
variable {ρ α e : Type}

/-- The contract of `Read` and `Seek` for a source of which any read and any seek may fail, with any error; later ones may succeed again. -/
structure Shaky (S : Source ρ) (I : ρ → Prop) (tape : ρ → Tape) : Prop where
  /-- An interrupted read changes nothing. -/
  interrupted : ∀ n x x', I x → S.read n x = (none, x') → I x' ∧ tape x' = tape x
  /-- A read that succeeds returns the next bytes, at most as many as the buffer has room for. It returns nothing only at the end of the file,
  or if there is no room. -/
  bytes : ∀ n x x' bs, I x → S.read n x = (some (.ok bs), x') → I x' ∧ tape x' = { tape x with pos := (tape x).pos + bs.length } ∧
    bs.length ≤ n ∧ bs <+: (tape x).rest ∧ (bs = [] → n = 0 ∨ ((tape x).rest = [] ∧ (tape x).ending = none))
  /-- Reads are not interrupted for ever. -/
  calm : ∀ x, I x → Acc (fun y z => ∃ n, S.read n z = (none, y)) x
  /-- A seek that succeeds leads to an offset that is not too large. -/
  seeks : ∀ d x x', I x → S.seek d x = (.ok (), x') → I x' ∧ 0 ≤ (tape x).pos + d ∧ (tape x).pos + d ≤ (tape x).limit ∧
    tape x' = { tape x with pos := ((tape x).pos + d).toNat }

/-- A source that works, except that some of the operations fail: operation number `i` with the error `faults i`, if there is one. -/
def Faulty.read (S : Source ρ) (faults : Nat → Option IoErr) (n : Nat) (x : ρ × Nat) : Option (Except IoErr Bytes) × (ρ × Nat) :=
  match faults x.2 with
  | some e => (some (.error e), (x.1, x.2 + 1))
  | none => ((S.read n x.1).1, ((S.read n x.1).2, x.2 + 1))

/-- Seeks also fail. -/
def Faulty.seek (S : Source ρ) (faults : Nat → Option IoErr) (d : Int) (x : ρ × Nat) : Except IoErr Unit × (ρ × Nat) :=
  match faults x.2 with
  | some e => (.error e, (x.1, x.2 + 1))
  | none => ((S.seek d x.1).1, ((S.seek d x.1).2, x.2 + 1))

/-- A source of which some operations fail. -/
def Faulty.source (S : Source ρ) (faults : Nat → Option IoErr) : Source (ρ × Nat) :=
  ⟨Faulty.read S faults, Faulty.seek S faults, fun x => S.bufs x.1, S.copyBuf⟩

/-- A consumer of elements that reports an error as soon as an element is one. -/
def Honest : SeqCons e α → Prop
  | .done _ => True
  | .pull k => (∀ x, ∃ y, k (some (.error x)) = .done (.error y)) ∧ ∀ x, Honest (k x)

/-- A loader that reports an error as soon as an element of an array is one. -/
def Truthful (l : Device.WLoader α) : Prop :=
  (∀ n, Honest (l.seqBool n)) ∧ (∀ n, Honest (l.seqI32 n)) ∧ (∀ n, Honest (l.seqI64 n)) ∧ (∀ n, Honest (l.seqF32 n)) ∧ ∀ n, Honest (l.seqF64 n)

/-- The loaders of the crate. -/
inductive Shipped : {α : Type} → Loader α → Prop
  | direct : Shipped directLoader
  | type : Shipped typeLoader
  | bool : Shipped primBool
  | i16 : Shipped primI16
  | i32 : Shipped primI32
  | i64 : Shipped primI64
  | f32 : Shipped primF32
  | f64 : Shipped primF64
  | arrBool : Shipped arrLoaderBool
  | arrI32 : Shipped arrLoaderI32
  | arrI64 : Shipped arrLoaderI64
  | arrF32 : Shipped arrLoaderF32
  | arrF64 : Shipped arrLoaderF64
  | binary : Shipped binaryLoader
  | string : Shipped stringLoader

/-- What may become of a result because the source failed: an error; or, if only reading the footer failed, the same tree without the footer. -/
inductive Spoilt : Res AnyTreeError (FbxVersion × Tree × Except PErr Footer) → Res AnyTreeError (FbxVersion × Tree × Except PErr Footer) → Prop
  | error (y : Res AnyTreeError (FbxVersion × Tree × Except PErr Footer)) (e : AnyTreeError) : Spoilt y (.err e)
  | footer (v : FbxVersion) (t : Tree) (f : Except PErr Footer) (e : PErr) : Spoilt (.ok (v, t, f)) (.ok (v, t, .error e))

/-- Is it `skip_current_node`? -/
def WCall.skips : WCall α → Bool
  | .skip => true
  | _ => false

/-- The loaders of the call report an error as soon as an element of an array is one. -/
def WCall.truthful : WCall α → Prop
  | .load _ l => Truthful l
  | _ => True

/-- What may become of the outcome of a call because the source failed: an error; or, if only reading the footer failed, the end of the document
with that error in the place of the footer. -/
inductive Struck : Outcome α → Outcome α → Prop
  | error (o : Outcome α) (e : PErr) : Struck o (.err e)
  | footer (f : Except PErr Footer) (e : PErr) : Struck (.event (.endFbx f)) (.event (.endFbx (.error e)))
  | panic (p : Panic) (e : PErr) : Struck (.panic p) (.event (.endFbx (.error e)))

/-- The parser refuses to go on (`AlreadyAborted`, `AlreadyFinished`), or a handler was set. -/
inductive Refusal : Outcome α → Prop
  | aborted (pos : SynPos) : Refusal (.err ⟨.op .alreadyAborted, some pos⟩)
  | finished : Refusal (.err (PErr.ofOp .alreadyFinished))
  | handler : Refusal .done

/-- The source fails during one of the calls: the calls before it have the outcomes they have on the whole source, and that call has an outcome
as `Struck` tells. Unless it was `skip_current_node`, all the later calls except `skip_current_node` are refused. -/
def Breaks (S : Source ρ) (Z : Zlib) (s : Client) (i : ρ) (cs : List (WCall α)) : Prop :=
  ∃ before c after os o o' t, cs = before ++ c :: after ∧ os.length = before.length ∧
    (observe Z s ((before ++ [c]).map WCall.call)).1 = os ++ [o] ∧ Struck o o' ∧
    (∃ fuel₀, ∀ fuel ≥ fuel₀, observeFrom S Z fuel (s, i) (before ++ [c]) = some (os ++ [o'], t)) ∧
    (c.skips = false → (∀ c' ∈ after, c'.skips = false) →
      ∃ fuel₀ ls u, (∀ fuel ≥ fuel₀, observeFrom S Z fuel (s, i) cs = some (os ++ o' :: ls, u)) ∧ ∀ l ∈ ls, Refusal l)

end Fbx.Spec
