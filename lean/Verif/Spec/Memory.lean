import Verif.Model.Memory

/-! # Clients which load with the loaders of the library -/

namespace Fbx.Spec
variable {α : Type}

/-- A program which reads a string or binary data: it reads all of it, with `read_to_end`, or nothing. -/
def ReadsAll (len : Nat) (c : ReadCons α) : Prop := (∃ r, c = .done r) ∨ ∃ fin, c = readToEnd len fin (len + 1) []

/-- A loader which reads strings and binary data as a whole or not at all. -/
def Thorough (l : Loader α) : Prop :=
  ∀ len, ReadsAll len (l.binary len) ∧ ReadsAll len (l.string len) ∧ ReadsAll len (l.binaryBuf len) ∧ ReadsAll len (l.stringBuf len)

/-- All loaders which the client ever uses satisfy `P`. -/
def Routine.Uses (P : Loader α → Prop) : Routine α → Prop
  | .stop => True
  | .call c k => (∀ b l, c = .load b l → P l) ∧ ∀ o g, (k o g).Uses P

/-- A client which uses nothing but `DirectLoader`. -/
def Routine.direct (r : Routine AttrValue) : Prop := r.Uses (fun l => l = directLoader)

end Fbx.Spec
