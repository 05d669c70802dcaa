import Verif.Proof.AnyRead
import Verif.Props.ShortReads

/-! # C95: the parser on a source of any type, and through a `BufReader` -/

namespace Fbx
open Spec
variable {ρ α : Type} {S : Source ρ} {I : ρ → Prop} {tape : ρ → Tape}

/-- **C95** (calls). On a source that keeps the contract of `Read` and `Seek`, `AnyParser` ends and returns what it returns for the bytes for
which the source stands: a parser, or the same error. After that, any sequence of calls ends, has the same results — events, values, errors
with their positions, panics — and leaves the parser in the same state, which includes all warnings with their positions. -/
theorem C95_calls (hS : Delivers S I tape) (Z : Zlib) (checks seekable : Bool) (x : ρ) (hx : I x) :
    ∃ fuel₀ y, (∀ fuel ≥ fuel₀, S.anyParser fuel checks seekable (tape x).rest (tape x).ending (tape x).pos (tape x).limit x =
        some (openedAt y (anyParser checks seekable (tape x).rest (tape x).ending (tape x).pos (tape x).limit))) ∧
      ∀ p, anyParser checks seekable (tape x).rest (tape x).ending (tape x).pos (tape x).limit = .ok p →
        ∀ cs : List (WCall α), SameFrom S Z ⟨p, none⟩ y cs :=
  have ⟨f0, y, h1, h2⟩ := Source.anyParser_follows hS checks seekable x hx
  ⟨f0, y, h1, fun p hp cs => Source.observe_follows hS Z cs ⟨p, none⟩ y (h2 p hp)⟩

/-- **C95** (trees). `AnyTree` ends and returns the tree or the error which it returns for the bytes for which the source stands. -/
theorem C95_tree (hS : Delivers S I tape) (Z : Zlib) (checks seekable : Bool) (x : ρ) (hx : I x) (hlen : (tape x).rest.length + 2 ^ 32 ≤ 2 ^ 64) :
    ∃ fuel₀, ∀ fuel ≥ fuel₀, S.anyTree fuel Z checks seekable (tape x).rest (tape x).ending (tape x).pos (tape x).limit x =
      some (anyTree Z checks seekable (tape x).rest (tape x).ending (tape x).pos (tape x).limit) :=
  Source.anyTree_follows hS Z checks seekable x hx fun h => by
    have := C52_any_tree Z checks seekable (tape x).rest (tape x).ending (tape x).pos (tape x).limit hlen
    rw [h] at this
    cases this.1

/-- **C95** (files). A file which splits its reads in any way, and does not return `Interrupted` for ever, keeps the contract. -/
theorem C95_file {plan : Schedule} (hf : Fair plan) (bufs : Disk → Nat) (copyBuf : Nat) :
    Delivers (Disk.source bufs copyBuf) (fun d => d.plan = plan) diskTape :=
  Disk.delivers hf bufs copyBuf

/-- **C95** (`BufReader`). Any source that keeps the contract still keeps it if it is wrapped in a `BufReader`, of any capacity: also of none. -/
theorem C95_bufreader (hS : Delivers S I tape) (cap : Nat) : Delivers (S.bufReader cap) (bufHolds I tape) (bufTape tape) :=
  Source.bufReader_delivers hS cap

/-- **C95** (`BufReader` on a file). Whatever its capacity, whatever the pieces in which the file delivers its bytes, and wherever one starts:
opening and any sequence of calls through a `BufReader` give what they give for the bytes of the file from there on. -/
theorem C95_buffered {plan : Schedule} (hf : Fair plan) (bufs : Disk → Nat) (copyBuf cap : Nat) (Z : Zlib) (checks seekable : Bool)
    (file : Bytes) (pos : Nat) (ending : Option IoErr) (limit calls : Nat) :
    ∃ fuel₀ y, (∀ fuel ≥ fuel₀, ((Disk.source bufs copyBuf).bufReader cap).anyParser fuel checks seekable (file.drop pos) ending pos limit
        (⟨file, pos, ending, limit, plan, calls⟩, []) = some (openedAt y (anyParser checks seekable (file.drop pos) ending pos limit))) ∧
      ∀ p, anyParser checks seekable (file.drop pos) ending pos limit = .ok p →
        ∀ cs : List (WCall α), SameFrom ((Disk.source bufs copyBuf).bufReader cap) Z ⟨p, none⟩ y cs :=
  C95_calls (C95_bufreader (C95_file hf bufs copyBuf) cap) Z checks seekable (⟨file, pos, ending, limit, plan, calls⟩, [])
    ⟨rfl, Nat.zero_le _, List.nil_prefix⟩

/-- **C95** (trees through a `BufReader` on a file). -/
theorem C95_buffered_tree {plan : Schedule} (hf : Fair plan) (bufs : Disk → Nat) (copyBuf cap : Nat) (Z : Zlib) (checks seekable : Bool)
    (file : Bytes) (pos : Nat) (ending : Option IoErr) (limit calls : Nat) (hlen : file.length + 2 ^ 32 ≤ 2 ^ 64) :
    ∃ fuel₀, ∀ fuel ≥ fuel₀, ((Disk.source bufs copyBuf).bufReader cap).anyTree fuel Z checks seekable (file.drop pos) ending pos limit
        (⟨file, pos, ending, limit, plan, calls⟩, []) = some (anyTree Z checks seekable (file.drop pos) ending pos limit) :=
  C95_tree (C95_bufreader (C95_file hf bufs copyBuf) cap) Z checks seekable (⟨file, pos, ending, limit, plan, calls⟩, [])
    ⟨rfl, Nat.zero_le _, List.nil_prefix⟩ (by
      have : (file.drop pos).length ≤ file.length := by simp
      exact Nat.le_trans (Nat.add_le_add_right this _) hlen)

/-! ## Examples -/

/-- A file in which the document begins at offset 3; every other read is interrupted, the others deliver one, two, … bytes. -/
def exDisk (doc : Bytes) : Disk := ⟨[1, 2, 3] ++ doc, 3, none, 10 ^ 6, exSchedule, 0⟩

/-- Node `A` with a binary attribute of two bytes, and node `B`. -/
def exPair : Bytes := signature ++ leBytes 4 7400 ++ [48, 0, 0, 0, 1, 0, 0, 0, 7, 0, 0, 0, 1, 65, 82, 2, 0, 0, 0, 8, 9] ++ [62, 0, 0, 0, 0, 0, 0, 0, 0, 0, 0, 0, 1, 66]

/-- What a client sees of a document through a `BufReader`. -/
def exThrough (cap : Nat) (doc : Bytes) (cs : List (WCall AttrValue)) : Option (List (Option (String × Nat ⊕ AttrValue))) :=
  match ((Disk.source (fun d => d.calls % 3) 1).bufReader cap).anyParser 200 true true doc none 3 (10 ^ 6) (exDisk doc, []) with
  | some (.ok (p, y)) => (observeFrom ((Disk.source (fun d => d.calls % 3) 1).bufReader cap) Zlib.stored 200 (⟨p, none⟩, y) cs).map fun z => z.1.map brief
  | _ => none

/-- All loaded, through buffers of several sizes. -/
example : exThrough 5 exPair [.next, .load true Device.direct, .next, .next] =
    some [some (.inl ("A", 1)), some (.inr (.binary [8, 9])), none, some (.inl ("B", 0))] := by decide +kernel
example : exThrough 0 exPair [.next, .load true Device.direct, .next, .next] =
    some [some (.inl ("A", 1)), some (.inr (.binary [8, 9])), none, some (.inl ("B", 0))] := by decide +kernel

/-- The attribute is skipped by seeking: within the buffer, beyond it, and without one. -/
example : exThrough 50 exPair [.next, .next, .next] = some [some (.inl ("A", 1)), none, some (.inl ("B", 0))] := by decide +kernel
example : exThrough 4 exPair [.next, .next, .next] = some [some (.inl ("A", 1)), none, some (.inl ("B", 0))] := by decide +kernel
example : exThrough 0 exPair [.next, .next, .next] = some [some (.inl ("A", 1)), none, some (.inl ("B", 0))] := by decide +kernel

/-- A `BufReader` in a `BufReader`. -/
example := C95_bufreader (C95_bufreader (C95_file exSchedule_fair (fun d => d.calls % 3) 1) 5) 3
example := C95_buffered (α := AttrValue) exSchedule_fair (fun d => d.calls % 3) 1 5 Zlib.stored true true ([1, 2, 3] ++ exPair) 3 none (10 ^ 6) 0
example := C95_buffered_tree exSchedule_fair (fun d => d.calls % 3) 1 5 Zlib.stored true true ([1, 2, 3] ++ exPair) 3 none (10 ^ 6) 0 (by decide +kernel)

end Fbx
