import Verif.Proof.LocalTree
import Verif.Props.ParserHistory

/-!
# C75: what has been reported does not depend on bytes not yet consumed

A parser can be given a stream that is still being produced. What the calls made so far have returned, the warnings raised, the open
nodes and the position do not depend on what follows the consumed bytes, nor on how the stream ends, provided that the end of the
stream has not been met. `Reader.rest` is what the parser has left in the stream; everything else is `Parser.create` and `Runs` (any
calls, loaders and handlers, whatever they return).
-/

namespace Fbx
variable {Z : Zlib} {α : Type}

/-- **C75** (parser). If a history of calls leaves the bytes `x` of the source `pre ++ x` unread, and `x` is not empty, then the parser
on `pre ++ y`, for any `y` and any ending, has the same history: the same calls return the same results and lead to the same state,
up to the unread bytes, which are `y`. -/
theorem C75_parser {checks seekable : Bool} {v : FbxVersion} {pre x y : Bytes} {e e' : Option IoErr} {cursor limit : Nat} {p : Parser} (hx : x ≠ [])
    (hp : Parser.create checks v ⟨pre ++ x, e, cursor, headerLen, seekable, limit⟩ = .ok p) (hsz : Sized (pre ++ x))
    {h : History α} {t : Client} (hr : Runs Z ⟨p, none⟩ h t) (hu : t.parser.reader.rest = x) :
    ∃ q t', Parser.create checks v ⟨pre ++ y, e', cursor, headerLen, seekable, limit⟩ = .ok q ∧ Runs Z ⟨q, none⟩ h t' ∧
      t'.attrs = t.attrs ∧ t'.parser = { t.parser with reader := { t.parser.reader with rest := y, ending := e' } } := by
  have hs : headerLen + (pre ++ x).length < u64Size := by
    have : (2 : Nat) ^ 32 = 4294967296 := by decide
    unfold Sized at hsz
    unfold u64Size
    omega
  rw [Parser.create] at hp ⊢
  split at hp
  · cases hp
  · rename_i hv
    cases hp
    obtain ⟨t', h1, h2, h3⟩ := runs_unread (y := y) (e := e') (pre := pre) hx rfl hs rfl hr hu
    exact ⟨_, t', by rw [if_neg hv], h1, h2, h3⟩

/-- **C75** (file). The same for a file opened by `AnyParser`, the header of which is among the consumed bytes. -/
theorem C75_file {checks seekable : Bool} {pre x y : Bytes} {e e' : Option IoErr} {cursor limit : Nat} {p : Parser} (hx : x ≠ [])
    (hp : anyParser checks seekable (pre ++ x) e cursor limit = .ok p) (hsz : Sized (pre ++ x))
    {h : History α} {t : Client} (hr : Runs Z ⟨p, none⟩ h t) (hu : t.parser.reader.rest = x) :
    ∃ q t', anyParser checks seekable (pre ++ y) e' cursor limit = .ok q ∧ Runs Z ⟨q, none⟩ h t' ∧
      t'.attrs = t.attrs ∧ t'.parser = { t.parser with reader := { t.parser.reader with rest := y, ending := e' } } := by
  rcases anyParser_unread (y := y) (e' := e') hx hp hsz with ⟨c, h1, h2, h3, h4⟩ | h1
  · obtain ⟨t', g1, g2, g3⟩ := runs_unread (y := y) (e := e') (pre := c) hx h1 h2 rfl hr hu
    exact ⟨_, t', h3, g1, g2, g3⟩
  · have : Into x t.parser.reader := runs_esc (s := ⟨_, none⟩) (beyond_src (y := y) (e := e') hx) h1 hr
    simp only [Into, hu, Nat.lt_irrefl] at this

/-- **C75** (trees). If the loader of trees, with any warning handler, leaves `x` unread (as it does if there are bytes after the
footer), then it returns the same tree, footer or error, with the same warnings, whatever follows. -/
theorem C75_tree {checks seekable : Bool} {pre x y : Bytes} {e e' : Option IoErr} {cursor limit : Nat} {p : Parser} (hx : x ≠ [])
    (hp : anyParser checks seekable (pre ++ x) e cursor limit = .ok p) (hsz : Sized (pre ++ x)) (hsz' : Sized (pre ++ y)) (H : Handler)
    {r : Res LoadError (Tree × Except PErr Footer)} {p' : Parser} (hl : Load.load Z (p.setHandler H) = (r, p')) (hu : p'.reader.rest = x) :
    ∃ q q', anyParser checks seekable (pre ++ y) e' cursor limit = .ok q ∧ Load.load Z (q.setHandler H) = (r, q') ∧
      q' = { p' with reader := { p'.reader with rest := y, ending := e' } } := by
  rcases anyParser_unread (y := y) (e' := e') hx hp hsz with ⟨c, h1, h2, h3, h4, h5, h6⟩ | h1
  · have hst := Opens.state h4
    have hi := open_inv h4 h5
    have hj := open_inv (bytes := c ++ y) (p := { p with reader := { p.reader with rest := c ++ y, ending := e' } }) (by
      obtain ⟨a1, a2, a3, a4, a5, a6, a7⟩ := h4
      refine ⟨a1, a2, e', a4, a5, a6, ?_⟩
      rw [Parser.create] at a7 ⊢
      split at a7
      · cases a7
      · rename_i hv
        rw [if_neg hv]
        cases a7
        rfl) (by simp only [Sized, List.length_append] at hsz' ⊢; omega)
    obtain ⟨q', g1, g2⟩ := Load.load_unread (Z := Z) (y := y) (e := e') (pre := c) hi.2 hj.2 hx (set_inv hi.1 H) (set_inv hj.1 H)
      hst.2.2.2.1 hst.2.1 h1 h2 rfl hl hu
    exact ⟨_, q', h3, g1, g2⟩
  · have := Load.load_esc (Z := Z) (beyond_src (y := y) (e := e') hx) (p := p.setHandler H) h1
    rw [hl] at this
    simp only [Into, hu, Nat.lt_irrefl] at this

/-- **C75** (`AnyTree`). The same for the result of `AnyTree`. -/
theorem C75_any_tree {checks seekable : Bool} {pre x y : Bytes} {e e' : Option IoErr} {cursor limit : Nat} {p : Parser} (hx : x ≠ [])
    (hp : anyParser checks seekable (pre ++ x) e cursor limit = .ok p) (hsz : Sized (pre ++ x)) (hsz' : Sized (pre ++ y))
    (hu : (Load.load Z (p.setHandler (fun _ _ _ => none))).2.reader.rest = x) :
    anyTree Z checks seekable (pre ++ y) e' cursor limit = anyTree Z checks seekable (pre ++ x) e cursor limit := by
  rcases hl : Load.load Z (p.setHandler (fun _ _ _ => none)) with ⟨r, p'⟩
  rw [hl] at hu
  simp only at hu
  obtain ⟨q, q', h1, h2, h3⟩ := C75_tree (y := y) (e' := e') hx hp hsz hsz' _ hl hu
  have hv : q.version = p.version := by
    rcases anyParser_unread (y := y) (e' := e') hx hp hsz with ⟨c, -, -, g3, -⟩ | g1
    · rw [g3] at h1; cases h1; rfl
    · have := Load.load_esc (Z := Z) (beyond_src (y := y) (e := e') hx) (p := p.setHandler (fun _ _ _ => none)) g1
      rw [hl] at this
      simp only [Into, hu, Nat.lt_irrefl] at this
  simp only [anyTree, hp, h1, hl, h2, hv]

/-! ## Examples -/

/-- A node `A` with the attributes 7 and a string of 5 bytes of which 2 are given. -/
def exPart : Bytes := [75, 0, 0, 0, 2, 0, 0, 0, 15, 0, 0, 0, 1, 65] ++ [73, 7, 0, 0, 0] ++ [83, 5, 0, 0, 0, 97, 98]

/-- The parser on such bytes. -/
def exPartClient (more : Bytes) : Client := ⟨exParser true true 7400 (exPart ++ more), none⟩

/-- The start of the node and some attributes. -/
def exPartCalls (n : Nat) : List (Call AttrValue) := .next :: List.replicate n (.load false directLoader)

/-- After the first attribute the second one is unread. -/
example : ((exPartClient []).after Zlib.stored (exPartCalls 1)).parser.reader.rest = [83, 5, 0, 0, 0, 97, 98] := by decide +kernel

example := fun y => C75_parser (Z := Zlib.stored) (α := AttrValue) (pre := [75, 0, 0, 0, 2, 0, 0, 0, 15, 0, 0, 0, 1, 65] ++ [73, 7, 0, 0, 0])
  (x := [83, 5, 0, 0, 0, 97, 98]) (y := y) (e' := some (.other 5)) (by decide)
  (exParser_create true true 7400 exPart (by decide)) (by simp [Sized, headerLen]) (t := (exPartClient []).after Zlib.stored (exPartCalls 1))
  (runs_history (exPartClient []) (exPartCalls 1) (by decide +kernel)) (by decide +kernel)

/-- A string, if any. -/
def stringOf {α : Type} (f : α → Option String) : List (Outcome α) → List String
  | [] => []
  | .value v :: os => (f v).toList ++ stringOf f os
  | _ :: os => stringOf f os

def strOf : AttrValue → Option String
  | .string s => some s
  | _ => none

/-- **C75** (the end of the stream). The condition that something is left unread is necessary: a string which is cut by the end of the
stream is loaded without an error, as a shorter string. With more bytes the same call returns another string. -/
theorem C75_end : stringOf strOf (((exPartClient []).history Zlib.stored (exPartCalls 2)).map (·.2)) = ["ab"] ∧
    ((exPartClient []).after Zlib.stored (exPartCalls 2)).parser.reader.rest = [] ∧
    ((exPartClient []).after Zlib.stored (exPartCalls 2)).parser.health = .running ∧
    stringOf strOf (((exPartClient [99, 100, 101]).history Zlib.stored (exPartCalls 2)).map (·.2)) = ["abcde"] := by decide +kernel

/-- What the loader of trees leaves unread. -/
def leftBy (Z : Zlib) : Res AnyError Parser → Option Bytes
  | .ok p => some (Load.load Z (p.setHandler (fun _ _ _ => none))).2.reader.rest
  | _ => none

/-- After the document written for `exForest` the loader leaves what follows. -/
example : leftBy Zlib.stored (anyParser true true ((Writer.session Zlib.stored exSink 7400 (Spec.calls exForest) exFooter).2.buf ++ [1, 2, 3]) none 0 (2 ^ 64)) =
    some [1, 2, 3] := by decide +kernel

end Fbx
