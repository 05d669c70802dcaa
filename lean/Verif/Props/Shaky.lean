import Verif.Proof.Shaky
import Verif.Props.BufRead

/-! # C98: reading from sources of which any read and any seek may fail -/

namespace Fbx
open Spec
variable {ρ α : Type} {S : Source ρ} {I : ρ → Prop} {tape : ρ → Tape}

/-- **C98** (trees). `AnyTree` on a source of which any read and any seek may fail, and any later one succeed again, ends. It returns what it
returns for the bytes for which the source stands, or an error, or the same tree with an error in the place of the footer. -/
theorem C98_tree (hS : Shaky S I tape) (Z : Zlib) (checks seekable : Bool) (x : ρ) (hx : I x) (hlen : (tape x).rest.length + 2 ^ 32 ≤ 2 ^ 64) :
    ∃ fuel₀ y, (∀ fuel ≥ fuel₀, S.anyTree fuel Z checks seekable (tape x).rest (tape x).ending (tape x).pos (tape x).limit x = some y) ∧
      (y = anyTree Z checks seekable (tape x).rest (tape x).ending (tape x).pos (tape x).limit ∨
        Spoilt (anyTree Z checks seekable (tape x).rest (tape x).ending (tape x).pos (tape x).limit) y) :=
  Source.Shakes.anyTree_follows hS Z checks seekable x hx fun p h => by
    have := C52_any_tree Z checks seekable (tape x).rest (tape x).ending (tape x).pos (tape x).limit hlen
    rw [h] at this
    exact this.1

/-- **C98** (no wrong tree). A tree that comes from such a source is the tree of the document, complete; and a footer that comes with it is the
footer of the document. -/
theorem C98_no_wrong_tree (hS : Shaky S I tape) (Z : Zlib) (checks seekable : Bool) (x : ρ) (hx : I x)
    (hlen : (tape x).rest.length + 2 ^ 32 ≤ 2 ^ 64) (fuel : Nat) (v : FbxVersion) (t : Tree) (f : Except PErr Footer)
    (h : ∀ more ≥ fuel, S.anyTree more Z checks seekable (tape x).rest (tape x).ending (tape x).pos (tape x).limit x = some (.ok (v, t, f))) :
    ∃ f', anyTree Z checks seekable (tape x).rest (tape x).ending (tape x).pos (tape x).limit = .ok (v, t, f') ∧
      (f = f' ∨ ∃ e, f = .error e) := by
  obtain ⟨f0, y, h1, h2⟩ := C98_tree hS Z checks seekable x hx hlen
  have h3 := h1 (max f0 fuel) (Nat.le_max_left _ _)
  rw [h _ (Nat.le_max_right _ _)] at h3
  cases h3
  rcases h2 with h2 | h2
  · exact ⟨f, h2.symm, .inl rfl⟩
  · generalize anyTree Z checks seekable (tape x).rest (tape x).ending (tape x).pos (tape x).limit = w at h2
    cases h2
    exact ⟨_, rfl, .inr ⟨_, rfl⟩⟩

/-- **C98** (calls). On such a source, `AnyParser` ends with an error or with what it returns for the bytes for which the source stands. After
that, any sequence of calls, with loaders that report errors, ends. It has the outcomes it has for those bytes, or has them up to a call during
which the source fails; from then on the calls are refused, until the client uses `skip_current_node`. -/
theorem C98_calls (hS : Shaky S I tape) (Z : Zlib) (checks seekable : Bool) (x : ρ) (hx : I x) :
    ∃ fuel₀ z, (∀ fuel ≥ fuel₀, S.anyParser fuel checks seekable (tape x).rest (tape x).ending (tape x).pos (tape x).limit x = some z) ∧
      ((∃ e, z = .err e) ∨
        ∃ y, z = openedAt y (anyParser checks seekable (tape x).rest (tape x).ending (tape x).pos (tape x).limit) ∧
          ∀ p, anyParser checks seekable (tape x).rest (tape x).ending (tape x).pos (tape x).limit = .ok p →
            ∀ cs : List (WCall α), (∀ c ∈ cs, c.truthful) → SameFrom S Z ⟨p, none⟩ y cs ∨ Breaks S Z ⟨p, none⟩ y cs) :=
  have ⟨f0, z, y, h1, h2⟩ := Source.Shakes.anyParser_follows hS checks seekable x hx
  ⟨f0, z, h1, h2.symm.imp id fun h => ⟨y, h.1, fun p hp cs hc =>
    Source.Shakes.observe_follows hS Z cs ⟨p, none⟩ y hc (h.2 p hp).1 (h.2 p hp).2⟩⟩

/-- **C98** (loaders). All the loaders of the crate read strings and binaries to the end or not at all, and report errors of elements. -/
theorem C98_loaders {L : Loader α} (h : Shipped L) : ∃ l : Device.WLoader α, l.loader = L ∧ Truthful l := Source.Shakes.shipped_truthful h

/-- **C98** (`DirectLoader`). This includes the loader that loads any attribute. -/
theorem C98_direct : Device.direct.loader = directLoader ∧ Truthful Device.direct := ⟨Device.direct_loader, Source.Shakes.direct_truthful⟩

/-- **C98** (sources). A source that keeps the contract of `Read` and `Seek` and does not fail is one of those sources. -/
theorem C98_steady (hS : Delivers S I tape) : Shaky S I tape := Source.Shakes.steady_shaky hS

/-- **C98** (faults). A source is still one of them if any of its operations are made to fail. -/
theorem C98_faulty (hS : Shaky S I tape) (faults : Nat → Option IoErr) :
    Shaky (Faulty.source S faults) (fun x => I x.1) (fun x => tape x.1) :=
  Source.Shakes.faulty_shaky hS faults

/-- **C98** (`BufReader`). So is a `BufReader`, of any capacity, on a source that is one of them. -/
theorem C98_bufreader (hS : Shaky S I tape) (cap : Nat) : Shaky (S.bufReader cap) (bufHolds I tape) (bufTape tape) :=
  Source.Shakes.bufReader_shaky hS cap

/-- **C98** (a file that fails, through a `BufReader`). Whichever operations fail, at whatever point and however often: a tree that is loaded is
the tree of the file. -/
theorem C98_buffered_tree {plan : Schedule} (hf : Fair plan) (bufs : Disk → Nat) (copyBuf cap : Nat) (faults : Nat → Option IoErr) (Z : Zlib)
    (checks seekable : Bool) (file : Bytes) (pos : Nat) (ending : Option IoErr) (limit calls : Nat) (hlen : file.length + 2 ^ 32 ≤ 2 ^ 64) :
    ∃ fuel₀ y, (∀ fuel ≥ fuel₀, ((Faulty.source (Disk.source bufs copyBuf) faults).bufReader cap).anyTree fuel Z checks seekable (file.drop pos)
        ending pos limit ((⟨file, pos, ending, limit, plan, calls⟩, 0), []) = some y) ∧
      (y = anyTree Z checks seekable (file.drop pos) ending pos limit ∨ Spoilt (anyTree Z checks seekable (file.drop pos) ending pos limit) y) :=
  C98_tree (C98_bufreader (C98_faulty (C98_steady (C95_file hf bufs copyBuf)) faults) cap) Z checks seekable
    ((⟨file, pos, ending, limit, plan, calls⟩, 0), []) ⟨rfl, Nat.zero_le _, List.nil_prefix⟩ (by
      have : (file.drop pos).length ≤ file.length := by simp
      exact Nat.le_trans (Nat.add_le_add_right this _) hlen)

/-! ## Examples -/

/-- Operation `k` fails, once. -/
def exFault (k : Nat) : Nat → Option IoErr := fun i => if i = k then some (.other 7) else none

/-- A file of which operation `k` fails. -/
def exStumbling (k : Nat) : Source (Disk × Nat) := Faulty.source (Disk.source (fun d => d.calls % 3) 1) (exFault k)

/-- A whole document: node `A` with a binary attribute of two bytes, and a footer. -/
def exEntire : Bytes := signature ++ leBytes 4 7400 ++ [48, 0, 0, 0, 1, 0, 0, 0, 7, 0, 0, 0, 1, 65, 82, 2, 0, 0, 0, 8, 9] ++ zeros 13 ++
  (Parser.footerExpected1 ++ zeros 3 ++ zeros 4 ++ leBytes 4 7400 ++ zeros 120 ++ Parser.footerUnknown3)

/-- A file that delivers all it is asked for. -/
def exShelf : Disk := ⟨exEntire, 0, none, 10 ^ 6, fun _ => .upTo 1000, 0⟩

/-- The outcome of a call, briefly. -/
def gist : Outcome AttrValue → String
  | .event (.startNode n _) => n
  | .event .endNode => "end"
  | .event (.endFbx (.ok _)) => "footer"
  | .event (.endFbx (.error _)) => "no footer"
  | .value _ => "value"
  | .err e => if e.kind = .io (.other 7) then "failure" else if e.kind = .op .alreadyAborted then "aborted" else
      if e.kind = .op .alreadyFinished then "finished" else "error"
  | _ => "other"

/-- What a client sees of the document if operation `k` fails. -/
def exSeen (k : Nat) (cs : List (WCall AttrValue)) : Option (List String) :=
  match (exStumbling k).anyParser 100 true true exEntire none 0 (10 ^ 6) (exShelf, 0) with
  | some (.ok (p, y)) => (observeFrom (exStumbling k) Zlib.stored 100 (⟨p, none⟩, y) cs).map fun z => z.1.map gist
  | _ => none

/-- Calls that read the document to its end, and once more. -/
def exAllCalls : List (WCall AttrValue) := [.next, .load true Device.direct, .next, .next, .next]

/-- The document is not opened; or all calls succeed up to one that fails, and no later one; or all but the footer is read; or all. -/
example : exSeen 0 exAllCalls = none := by decide +kernel
example : exSeen 9 exAllCalls = some ["A", "failure", "aborted", "aborted", "aborted"] := by decide +kernel
example : exSeen 13 exAllCalls = some ["A", "value", "end", "failure", "aborted"] := by decide +kernel
example : exSeen 16 exAllCalls = some ["A", "value", "end", "no footer", "finished"] := by decide +kernel
example : exSeen 18 exAllCalls = some ["A", "value", "end", "footer", "finished"] := by decide +kernel

/-- Loading the tree if operation `k` fails: with the footer, without it, or an error. -/
def exTreeSeen (k : Nat) : String :=
  match (exStumbling k).anyTree 100 Zlib.stored true true exEntire none 0 (10 ^ 6) (exShelf, 0) with
  | some (.ok (_, _, .ok _)) => "tree"
  | some (.ok (_, _, .error _)) => "no footer"
  | some (.err _) => "error"
  | _ => "other"

example : (exTreeSeen 14, exTreeSeen 15, exTreeSeen 17, exTreeSeen 18) = ("error", "no footer", "no footer", "tree") := by decide +kernel

/-- That file, with any fault, is one of those sources. -/
theorem exStumbling_shaky (k : Nat) : Shaky (exStumbling k) (fun x => x.1.plan = fun _ => .upTo 1000) (fun x => diskTape x.1) :=
  C98_faulty (C98_steady (C95_file (fun _ => ⟨0, by simp⟩) _ _)) _

example (k : Nat) := C98_tree (exStumbling_shaky k) Zlib.stored true true (exShelf, 0) rfl (by decide +kernel)
example (k : Nat) := C98_calls (α := AttrValue) (exStumbling_shaky k) Zlib.stored true true (exShelf, 0) rfl
example : ∀ c ∈ exAllCalls, c.truthful := by
  intro c hc
  simp only [exAllCalls, List.mem_cons, List.not_mem_nil, or_false] at hc
  rcases hc with rfl | rfl | rfl | rfl | rfl
  · trivial
  · exact C98_direct.2
  · trivial
  · trivial
  · trivial
example (faults : Nat → Option IoErr) := C98_buffered_tree exSchedule_fair (fun d => d.calls % 3) 1 5 faults Zlib.stored true true ([1, 2, 3] ++ exPair) 3 none (10 ^ 6) 0
  (by decide +kernel)

example := C98_loaders .arrF64
example := C98_loaders .string

/-- A node `A` with a binary attribute. Some of its bytes look like a node `X`. -/
def exBait : Bytes := signature ++ leBytes 4 7400 ++ [61, 0, 0, 0, 1, 0, 0, 0, 20, 0, 0, 0, 1, 65] ++
  ([82, 15, 0, 0, 0, 0] ++ [200, 0, 0, 0, 0, 0, 0, 0, 0, 0, 0, 0, 1, 88]) ++ zeros 13

/-- What a client is told that asks for a node, skips it, and asks again, if operation `k` fails; the source cannot seek. -/
def exAstray (k : Nat) : Option (List String) :=
  match (Faulty.source (Disk.source (fun _ => 0) 5) (exFault k)).anyParser 100 true false exBait none 0 (10 ^ 6)
      (⟨exBait, 0, none, 10 ^ 6, fun _ => .upTo 1000, 0⟩, 0) with
  | some (.ok (p, y)) => (observeFrom (Faulty.source (Disk.source (fun _ => 0) 5) (exFault k)) Zlib.stored 100 (⟨p, none⟩, y) [.next, .skip, .next]).map
      fun z => z.1.map gist
  | _ => none

/-- Why `skip_current_node` is an exception: if it fails, the parser is not aborted, and does not know where the source is. The next event may be of a node
`X` that is not in the document. -/
theorem C98_skip_astray : exAstray 100 = some ["A", "other", "no footer"] ∧ exAstray 8 = some ["A", "failure", "X"] := by decide +kernel

/-- A loader that takes the elements for what they are not: it swallows errors, and is not truthful. -/
example : ¬ Honest (SeqCons.pull (fun _ : Option (Except PErr Nat) => SeqCons.done (.ok 0))) := by
  intro h
  obtain ⟨y, hy⟩ := h.1 (PErr.ofOp .alreadyFinished)
  cases hy

end Fbx
