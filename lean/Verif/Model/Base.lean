/-!
# Base notions of the model

Results with an explicit panic value, the state transformer used for fallible Rust code, little-endian
byte encodings and Rust strings.
-/

namespace Fbx

/-- Bytes (`u8`). -/
abbrev Byte := UInt8

/-- Byte strings (`Vec<u8>`, `[u8]`). -/
abbrev Bytes := List UInt8

/-- Places where the modelled Rust code panics (`panic!`, `assert!`, `expect`, overflow checks). -/
inductive Panic where
  /-- `reader.rs:140` "Attempt to skip backward". -/
  | skipBackward
  /-- `reader.rs:147` "Position overflowed". -/
  | positionOverflow
  /-- `parser.rs:365` addition overflow, only in builds with overflow checks. -/
  | attrEndOverflow
  /-- `attribute.rs:74` "FBX data too large". -/
  | fbxTooLarge
  /-- `parser.rs:267,268` assertions on health and last event. -/
  | badState
  /-- `parser.rs:221-251` postcondition assertions of `next_event`. -/
  | depthAssert
  /-- `parser.rs:486` "implicit root node should have some children here". -/
  | noToplevel
  /-- `parser.rs:136,147` "Implicit top-level node has no name". -/
  | noCurrentNode
  /-- `parser.rs:459` "Attempt to skip implicit top-level node". -/
  | skipRoot
  /-- `attribute.rs:85` subtraction underflow. -/
  | attrIndexUnderflow
  /-- `fbx_footer.rs:117,118` assertions. -/
  | footerAssert
  /-- `any.rs:33` "Should never fail". -/
  | anyParser
  /-- `binary.rs:293-297` "Length of attributes can be zero iff there are no attributes". -/
  | attrLenAssert
  /-- `binary.rs:221` subtraction underflow. -/
  | bodyPosUnderflow
  /-- `binary/attributes.rs:171` "some nodes must be open if `AttributesWriter` exists". -/
  | noOpenNode
  /-- `tree/v7400.rs:219,233,266` root assertions. -/
  | rootAssert
  /-- invalid node id (`tree/v7400.rs:91`, `"Invalid node ID"`). -/
  | badNodeId
  /-- indextree's `append`/`prepend`/`insert_*` preconditions. -/
  | indextree
  /-- unresolvable node name symbol, `tree/v7400.rs:107`. -/
  | badSymbol
  /-- no symbol for a new name (`tree/v7400/node/name.rs:17-19`; only in `Verif/Model/Symbols.lean`). -/
  | tooManyNames
  /-- `tree/v7400/loader.rs:61,70,80,86,91` open node stack assertions. -/
  | loaderStack
  /-- `tree/v7400.rs:544,559` "`forward` should point before `backward`". -/
  | traverse
  /-- `binary.rs:360` "`current` must not be the root note". -/
  | writeTreeRoot
  /-- model-only: a loop ran out of fuel (proved unreachable where it matters). -/
  | fuel
  deriving DecidableEq, Repr

/-- Outcome of a Rust call returning `Result<α, ε>`: a value, an error, or a panic. -/
inductive Res (ε α : Type) where
  | ok (a : α)
  | err (e : ε)
  | panic (p : Panic)
  deriving DecidableEq, Repr

/-- Fallible code with `&mut` access to a state; the state survives errors and panics. -/
def M (ε σ α : Type) := σ → Res ε α × σ

namespace M
variable {ε ε' σ τ α β : Type}

/-- `Ok(a)`. -/
def pure (a : α) : M ε σ α := fun s => (.ok a, s)

/-- Sequencing with the `?` operator. -/
def bind (m : M ε σ α) (f : α → M ε σ β) : M ε σ β := fun s =>
  match m s with
  | (.ok a, s') => f a s'
  | (.err e, s') => (.err e, s')
  | (.panic p, s') => (.panic p, s')

instance : Monad (M ε σ) where
  pure := M.pure
  bind := M.bind

/-- `return Err(e)`. -/
def throw (e : ε) : M ε σ α := fun s => (.err e, s)

/-- A Rust panic. -/
def panic (p : Panic) : M ε σ α := fun s => (.panic p, s)

/-- Reads the state. -/
def get : M ε σ σ := fun s => (.ok s, s)

/-- Replaces the state. -/
def set (s : σ) : M ε σ Unit := fun _ => (.ok (), s)

/-- Updates the state. -/
def modify (f : σ → σ) : M ε σ Unit := fun s => (.ok (), f s)

/-- `assert!(b)`. -/
def assert (b : Bool) (p : Panic) : M ε σ Unit := if b then pure () else panic p

/-- `map_err`. -/
def mapErr (f : ε → ε') (m : M ε σ α) : M ε' σ α := fun s =>
  match m s with
  | (.ok a, s') => (.ok a, s')
  | (.err e, s') => (.err (f e), s')
  | (.panic p, s') => (.panic p, s')

/-- Runs code on a component of the state. -/
def zoom (getter : σ → τ) (setter : τ → σ → σ) (m : M ε τ α) : M ε σ α := fun s =>
  let r := m (getter s)
  (r.1, setter r.2 s)

/-- Lifts a pure `Result`. -/
def ofExcept (r : Except ε α) : M ε σ α :=
  match r with
  | .ok a => pure a
  | .error e => throw e

@[simp] theorem pure_apply (a : α) (s : σ) : (Pure.pure a : M ε σ α) s = (.ok a, s) := rfl
@[simp] theorem bind_apply (m : M ε σ α) (f : α → M ε σ β) (s : σ) :
    (m >>= f) s = match m s with
      | (.ok a, s') => f a s'
      | (.err e, s') => (.err e, s')
      | (.panic p, s') => (.panic p, s') := rfl
@[simp] theorem throw_apply (e : ε) (s : σ) : (throw e : M ε σ α) s = (.err e, s) := rfl
@[simp] theorem panic_apply (p : Panic) (s : σ) : (panic p : M ε σ α) s = (.panic p, s) := rfl
@[simp] theorem get_apply (s : σ) : (get : M ε σ σ) s = (.ok s, s) := rfl
@[simp] theorem set_apply (s t : σ) : (set t : M ε σ Unit) s = (.ok (), t) := rfl
@[simp] theorem modify_apply (f : σ → σ) (s : σ) : (modify f : M ε σ Unit) s = (.ok (), f s) := rfl
@[simp] theorem assert_apply (b : Bool) (p : Panic) (s : σ) :
    (assert b p : M ε σ Unit) s = if b then (.ok (), s) else (.panic p, s) := by
  cases b <;> rfl
@[simp] theorem ofExcept_ok (a : α) (s : σ) : (ofExcept (.ok a) : M ε σ α) s = (.ok a, s) := rfl
@[simp] theorem ofExcept_error (e : ε) (s : σ) : (ofExcept (.error e) : M ε σ α) s = (.err e, s) := rfl
@[simp] theorem ite_apply (c : Prop) [Decidable c] (m n : M ε σ α) (s : σ) :
    (if c then m else n) s = if c then m s else n s := by split <;> rfl
theorem mapErr_apply (f : ε → ε') (m : M ε σ α) (s : σ) :
    (mapErr f m) s = match m s with
      | (.ok a, s') => (.ok a, s')
      | (.err e, s') => (.err (f e), s')
      | (.panic p, s') => (.panic p, s') := rfl
theorem zoom_apply (g : σ → τ) (st : τ → σ → σ) (m : M ε τ α) (s : σ) :
    (zoom g st m) s = ((m (g s)).1, st (m (g s)).2 s) := rfl

end M

/-! ## Little-endian integers -/

/-- `to_le_bytes` of the low `k` bytes of `n` (two's complement values are given by their bit pattern). -/
def leBytes : (k : Nat) → (n : Nat) → Bytes
  | 0, _ => []
  | k + 1, n => UInt8.ofNat n :: leBytes k (n / 256)

/-- `from_le_bytes` as an unsigned number. -/
def fromLe : Bytes → Nat
  | [] => 0
  | b :: bs => b.toNat + 256 * fromLe bs

/-! ## Strings -/

/-- UTF-8 bytes of a string (`str::as_bytes`). -/
def strBytes (s : String) : Bytes := s.toByteArray.data.toList

/-- `String::from_utf8`. -/
def stringOfUtf8 (bs : Bytes) : Option String := String.fromUTF8? ⟨bs.toArray⟩

/-- `k` zero bytes. -/
def zeros (k : Nat) : Bytes := List.replicate k 0

end Fbx
