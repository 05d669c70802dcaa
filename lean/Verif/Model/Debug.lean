import Verif.Model.Tree

/-!
# `Tree::debug_tree` (`src/tree/v7400.rs:322-394`)

Both `{:?}` (`alt = false`) and `{:#?}` (`alt = true`). The helpers of `core::fmt::builders` are modelled by the text they write; so is the
decimal format of integers. The formats of strings and of floating point numbers are parameters. Other format flags (width, precision,
`{:x?}`) and errors of the destination are not modelled.
-/

namespace Fbx

/-- Text: a list of characters. -/
abbrev Text := List Char

/-- The formats of the standard library that are not modelled: `Debug` of `str`, `f32` and `f64`. -/
structure Shows where
  str : String → Text
  f32 : BitVec 32 → Text
  f64 : BitVec 64 → Text

namespace Debug

/-- `Debug` of the integer types: decimal. -/
def int (i : Int) : Text := if i < 0 then '-' :: Nat.toDigits 10 i.natAbs else Nat.toDigits 10 i.natAbs

/-- `Debug` of `bool`. -/
def bool : Bool → Text
  | true => ['t', 'r', 'u', 'e']
  | false => ['f', 'a', 'l', 's', 'e']

/-- `core::fmt::builders::PadAdapter::write_str`: four spaces at the beginning of every line (`nl`: a line begins here). -/
def pad : (nl : Bool) → Text → Text
  | _, [] => []
  | nl, c :: cs => (if nl then [' ', ' ', ' ', ' '] else []) ++ c :: pad (c == '\n') cs

/-- `DebugStruct::field` for each field (`has`: there has been one). -/
def fields (alt : Bool) : (has : Bool) → List (Text × Text) → Text
  | _, [] => []
  | has, (name, value) :: fs =>
    (if alt then (if has then [] else [' ', '{', '\n']) ++ pad true (name ++ ([':', ' '] ++ (value ++ [',', '\n'])))
      else (if has then [',', ' '] else [' ', '{', ' ']) ++ (name ++ ([':', ' '] ++ value))) ++ fields alt true fs

/-- `Formatter::debug_struct`, the fields, `DebugStruct::finish`. -/
def struct (alt : Bool) (name : Text) (fs : List (Text × Text)) : Text :=
  name ++ (fields alt false fs ++ (if fs.isEmpty then [] else if alt then ['}'] else [' ', '}']))

/-- `Formatter::debug_tuple` with one field (derived `Debug` of a variant with one field). -/
def tuple (alt : Bool) (name value : Text) : Text :=
  name ++ ((if alt then ['(', '\n'] ++ pad true (value ++ [',', '\n']) else '(' :: value) ++ [')'])

/-- `DebugList::entry` for each entry (`has`: there has been one). -/
def entries (alt : Bool) : (has : Bool) → List Text → Text
  | _, [] => []
  | has, value :: vs =>
    (if alt then (if has then [] else ['\n']) ++ pad true (value ++ [',', '\n'])
      else (if has then [',', ' '] else []) ++ value) ++ entries alt true vs

/-- `Formatter::debug_list`, the entries, `DebugList::finish`; also `Debug` of slices and vectors. -/
def list (alt : Bool) (vs : List Text) : Text := '[' :: (entries alt false vs ++ [']'])

/-- `low/v7400/attribute/value.rs:17` the derived `Debug` of `AttributeValue`. -/
def attr (S : Shows) (alt : Bool) : AttrValue → Text
  | .bool v => tuple alt ['B', 'o', 'o', 'l'] (bool v)
  | .i16 v => tuple alt ['I', '1', '6'] (int v.toInt)
  | .i32 v => tuple alt ['I', '3', '2'] (int v.toInt)
  | .i64 v => tuple alt ['I', '6', '4'] (int v.toInt)
  | .f32 v => tuple alt ['F', '3', '2'] (S.f32 v)
  | .f64 v => tuple alt ['F', '6', '4'] (S.f64 v)
  | .arrBool v => tuple alt ['A', 'r', 'r', 'B', 'o', 'o', 'l'] (list alt (v.map bool))
  | .arrI32 v => tuple alt ['A', 'r', 'r', 'I', '3', '2'] (list alt (v.map (fun x => int x.toInt)))
  | .arrI64 v => tuple alt ['A', 'r', 'r', 'I', '6', '4'] (list alt (v.map (fun x => int x.toInt)))
  | .arrF32 v => tuple alt ['A', 'r', 'r', 'F', '3', '2'] (list alt (v.map S.f32))
  | .arrF64 v => tuple alt ['A', 'r', 'r', 'F', '6', '4'] (list alt (v.map S.f64))
  | .string v => tuple alt ['S', 't', 'r', 'i', 'n', 'g'] (S.str v)
  | .binary v => tuple alt ['B', 'i', 'n', 'a', 'r', 'y'] (list alt (v.map (fun x => int x.toNat)))

/-- A list of results, or the first failure. -/
def all : List (Option Text) → Option (List Text)
  | [] => some []
  | none :: _ => none
  | some x :: xs => (all xs).map (x :: ·)

/-- `tree/v7400.rs:368-394` `DebugNodeHandle::fmt` and `DebugNodeHandleChildren::fmt`. `none`: the panic on an unknown symbol, or a recursion
that does not end. -/
def node (S : Shows) (alt : Bool) (t : Tree) : (fuel : Nat) → Nat → Option Text
  | 0, _ => none
  | fuel + 1, i =>
    match t.name? i with
    | none => none
    | some name =>
      match all ((t.children i).map (node S alt t fuel)) with
      | none => none
      | some kids => some (struct alt ['N', 'o', 'd', 'e']
          [(['n', 'a', 'm', 'e'], S.str name),
           (['a', 't', 't', 'r', 'i', 'b', 'u', 't', 'e', 's'], list alt ((t.nodes i).attrs.map (attr S alt))),
           (['c', 'h', 'i', 'l', 'd', 'r', 'e', 'n'], list alt kids)])

/-- `tree/v7400.rs:351-359` `DebugTree::fmt`: the text of `format!("{:?}", tree.debug_tree())` and `format!("{:#?}", tree.debug_tree())`. -/
def tree (S : Shows) (alt : Bool) (t : Tree) : Option Text := node S alt t t.size t.root

end Debug
end Fbx
