import Verif.Spec.Write

/-!
# Specification: clients that ignore the errors of `append_*` calls

What stays of a call that failed, and what a reader makes of it.
-/

namespace Fbx.Spec
open Writer

/-- The bytes `x` written over the beginning of `buf`. -/
def over (buf x : List UInt8) : List UInt8 := x ++ buf.drop x.length

/-- Four bytes for every character: its UTF-8 encoding over what the previous characters left. -/
def fourEach : (buf : List UInt8) → List Char → List UInt8
  | _, [] => []
  | buf, c :: cs => over buf (String.utf8EncodeChar c) ++ fourEach (over buf (String.utf8EncodeChar c)) cs

/-- The type code of the attribute and an empty header: the placeholder a call starts with. -/
def opening (a : Append) : List UInt8 :=
  let d := denote a
  UInt8.ofNat (typeChar d.value).toNat :: (match d.value with
    | .arrBool _ | .arrI32 _ | .arrI64 _ | .arrF32 _ | .arrF64 _ =>
      le 4 0 ++ le 4 (match d.enc with | .direct => 0 | .zlib => 1) ++ le 4 0
    | _ => le 4 0)

/-- The array elements a failing call has written: all before the first error; if they are compressed, the compressed
stream is not finished if its elements failed or were too many. -/
def elementsLeft {α : Type} (Z : Zlib) (d : DAttr) (items : List (Except WErr α)) : List UInt8 :=
  match d.enc with
  | .direct => arrayData d.value
  | .zlib =>
    if (firstError items).isSome ∨ 2 ^ 32 ≤ items.length then [Z.encHeader.1, Z.encHeader.2] ++ Z.encEarly (arrayData d.value)
    else Z.encode (arrayData d.value)

/-- What a failing call leaves: the placeholder and everything before the error. -/
def remains (Z : Zlib) (a : Append) : List UInt8 :=
  opening a ++ (match a with
    | .arrBool _ xs => elementsLeft Z (denoteBefore a) xs
    | .arrI32 _ xs => elementsLeft Z (denoteBefore a) xs
    | .arrI64 _ xs => elementsLeft Z (denoteBefore a) xs
    | .arrF32 _ xs => elementsLeft Z (denoteBefore a) xs
    | .arrF64 _ xs => elementsLeft Z (denoteBefore a) xs
    | .binary bs => bs
    | .string s => utf8 s
    | .binaryReader chunks _ => chunks.flatten
    | .binaryIter xs => before xs
    | .stringIter xs => fourEach [0, 0, 0, 0] (before xs)
    | _ => [])

/-- The call fails. -/
def fails (Z : Zlib) (a : Append) : Bool := (callError Z a).isSome

/-- What a call adds to a file, whether it fails or not. -/
def adds (Z : Zlib) (a : Append) : List UInt8 := if fails Z a then remains Z a else callBytes Z a

/-- The empty value of the same type (for arrays, strings and binaries). -/
def emptied : AttrValue → AttrValue
  | .arrBool _ => .arrBool []
  | .arrI32 _ => .arrI32 []
  | .arrI64 _ => .arrI64 []
  | .arrF32 _ => .arrF32 []
  | .arrF64 _ => .arrF64 []
  | .string _ => .string ""
  | .binary _ => .binary []
  | v => v

/-- What a reader finds instead of the attribute of a call: an empty value if the call failed. -/
def seenAs (Z : Zlib) (a : Append) : DAttr :=
  if fails Z a then { denote a with value := emptied (denote a).value } else denote a

/-- A call by a client that ignores the errors of `append_*`. -/
def attempt (Z : Zlib) : Op → M WErr Writer Unit
  | .append a => fun w => match append Z a w with
    | (.err _, w') => (.ok (), w')
    | r => r
  | .newNode name => newNode name
  | .closeNode => closeNode

/-- All calls of such a client; it gives up at the first error of `new_node` or `close_node`. -/
def careless (Z : Zlib) : List Op → M WErr Writer Unit
  | [] => pure ()
  | o :: ops => do
    attempt Z o
    careless Z ops

/-- A complete use of the writer by such a client. -/
def carelessSession (Z : Zlib) (s : Sink) (v : FbxVersion) (ops : List Op) (f : FooterSpec) : Res WErr Unit × Sink :=
  match Writer.new s v with
  | (.ok w, _) =>
    let r := (do careless Z ops; finalize f : M WErr Writer Unit) w
    (r.1, r.2.sink)
  | (.err e, s') => (.err e, s')
  | (.panic p, s') => (.panic p, s')

/-- Only the last call of every node may fail. -/
def failsLast (Z : Zlib) (F : Forest Append) : Prop := F.All (fun _ as => ∀ a ∈ as.dropLast, fails Z a = false)

/-- Nothing is near the limits of 64-bit offsets, and calls that succeed write what they stand for (see C15). -/
def modest (Z : Zlib) (a : Append) : Prop := volume Z a < 2 ^ 63 ∧ (fails Z a = false → intact a)

end Fbx.Spec
