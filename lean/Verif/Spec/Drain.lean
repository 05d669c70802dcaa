import Verif.Spec.Read

/-!
# Specification: clients that read everything

What is left of an attribute when its loader returns.
-/

namespace Fbx.Spec

/-- The elements a program has not pulled when it is done. -/
def restSeq {e α : Type} : SeqCons e α → List e → List e
  | .done _, xs => xs
  | .pull k, [] => restSeq (k none) []
  | .pull k, x :: xs => restSeq (k (some (.ok x))) xs

/-- The bytes a program has not read when it is done. -/
def restBytes {α : Type} : ReadCons α → List UInt8 → List UInt8
  | .done _, bs => bs
  | .read n k, bs => restBytes (k (.ok (bs.take n))) (bs.drop n)

/-- The loader reads the attribute to its end: the array is not compressed and all its elements are pulled, or the
binary or string is read completely. -/
def drains {α : Type} (buffered : Bool) (l : Loader α) (d : DAttr) : Prop :=
  match d.value with
  | .arrBool vs => d.enc = .direct ∧ restSeq (l.seqBool vs.length) vs = []
  | .arrI32 vs => d.enc = .direct ∧ restSeq (l.seqI32 vs.length) vs = []
  | .arrI64 vs => d.enc = .direct ∧ restSeq (l.seqI64 vs.length) vs = []
  | .arrF32 vs => d.enc = .direct ∧ restSeq (l.seqF32 vs.length) vs = []
  | .arrF64 vs => d.enc = .direct ∧ restSeq (l.seqF64 vs.length) vs = []
  | .binary bs => restBytes ((if buffered then l.binaryBuf else l.binary) bs.length) bs = []
  | .string s => restBytes ((if buffered then l.stringBuf else l.string) (utf8 s).length) (utf8 s) = []
  | _ => True

/-- Every attribute of the node is loaded, and read to its end. -/
def drainsAll {α : Type} (buffered : Bool) : List (Loader α) → List DAttr → Prop
  | [], ds => ds = []
  | _ :: _, [] => True
  | l :: ls, d :: ds => drains buffered l d ∧ drainsAll buffered ls ds

/-- The client loads every attribute of every node, and reads it to its end. -/
def planDrains {α : Type} (buffered : Bool) (plan : Nat → String → Nat → List (Loader α)) : Forest DAttr → (k : Nat) → Prop
  | .nil, _ => True
  | .cons name attrs children rest, k =>
    drainsAll buffered (plan k name attrs.length) attrs ∧
      planDrains buffered plan children (k + 1) ∧ planDrains buffered plan rest (k + 1 + children.count)

/-- Opens a source that can or cannot seek with `AnyParser`, sets the handler if there is one, and runs the client. -/
def parseSource {α : Type} (seekable : Bool) (Z : Zlib) (checks : Bool) (h : Option Handler) (ending : Option IoErr) (cursor seekLimit : Nat)
    (buffered : Bool) (plan : Nat → String → Nat → List (Loader α)) (calls : Nat) (bytes : List UInt8) :
    Option (Res PErr (List (Obs α)) × Parser) :=
  match anyParser checks seekable bytes ending cursor seekLimit with
  | .ok p => some (drive Z buffered plan calls 0 [] { p with handler := h })
  | _ => none

end Fbx.Spec
