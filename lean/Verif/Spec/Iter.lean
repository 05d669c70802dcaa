import Verif.Spec.History

/-! # Attribute iterators: specification vocabulary -/

namespace Fbx
variable {α : Type}

/-- What `n` calls of `next` on an attribute iterator return, oldest first, and the state afterwards; `none` if one of them
panics. -/
def AP.pulls (Z : Zlib) (buffered : Bool) : Nat → AP × Loaders α → Option (List (Option (Except PErr α)) × (AP × Loaders α))
  | 0, s => some ([], s)
  | n + 1, s => match iterNext Z buffered s with
    | (.ok x, s') => (pulls Z buffered n s').map (fun y => (x :: y.1, y.2))
    | _ => none

/-- A successful item. -/
def itemOk : Option (Except PErr α) → Bool
  | some (.ok _) => true
  | _ => false

/-- An attribute reader some client can hold: a parser was created on some bytes, and some calls, none of which panicked,
left the client with this reader. -/
def Held (Z : Zlib) (a : AP) : Prop :=
  ∃ (β : Type) (p : Parser) (bytes : Bytes) (h : History β) (s : Client),
    Opens p bytes ∧ Sized bytes ∧ Runs Z ⟨p, none⟩ h s ∧ (∀ c x, (c, .panic x) ∉ h) ∧ s.attrs = some a.attrs ∧ s.parser = a.parser

/-- The lower bound of the loaders' `size_hint` is right: there are at least that many. -/
def AP.Loaders.LowerRight (ls : Loaders α) : Prop := ∀ j, j < (ls.hint ls.used).1 → (ls.get (ls.used + j)).isSome

/-- The upper bound of the loaders' `size_hint` is right: they end after at most that many. -/
def AP.Loaders.UpperRight (ls : Loaders α) : Prop :=
  ∀ m, (ls.hint ls.used).2 = some m → ∃ j, j ≤ m ∧ ls.get (ls.used + j) = none

/-- The loaders are a fused iterator. -/
def AP.Loaders.Fused (ls : Loaders α) : Prop := ∀ i, ls.get i = none → ls.get (i + 1) = none

/-- Two loaders have the same hooks, but possibly for `load_binary_buffered` and `load_string_buffered`. -/
def Loader.SameUnbuffered (l m : Loader α) : Prop :=
  l.bool = m.bool ∧ l.i16 = m.i16 ∧ l.i32 = m.i32 ∧ l.i64 = m.i64 ∧ l.f32 = m.f32 ∧ l.f64 = m.f64 ∧ l.seqBool = m.seqBool ∧
    l.seqI32 = m.seqI32 ∧ l.seqI64 = m.seqI64 ∧ l.seqF32 = m.seqF32 ∧ l.seqF64 = m.seqF64 ∧ l.binary = m.binary ∧ l.string = m.string

/-- The loader does not override the buffered hooks (`loader.rs:105-131`: their default implementations call the
unbuffered ones). -/
def Loader.NoBuffered (l : Loader α) : Prop := l.binaryBuf = l.binary ∧ l.stringBuf = l.string

/-- What `n` calls of `next` on an array element iterator return. -/
def ElemIter.pulls {Z : Zlib} {e : Type} (t : ElemTy e) : Nat → ElemIter Z × Reader → Option (List (Option (Except PErr e)) × (ElemIter Z × Reader))
  | 0, s => some ([], s)
  | n + 1, s => match ElemIter.next t s with
    | (.ok x, s') => (pulls t n s').map (fun y => (x :: y.1, y.2))
    | _ => none

end Fbx
