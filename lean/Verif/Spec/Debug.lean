import Verif.Model.Debug
import Verif.Spec.Tree

/-! # The text of documents -/

namespace Fbx

namespace Spec

/-- Decimal numbers. -/
def decimal (i : Int) : Text := if i < 0 then '-' :: Nat.toDigits 10 i.natAbs else Nat.toDigits 10 i.natAbs

/-- `true` and `false`. -/
def truth (b : Bool) : Text := if b then ['t', 'r', 'u', 'e'] else ['f', 'a', 'l', 's', 'e']

/-- What an attribute contains: one value, or several. -/
def content (S : Shows) : AttrValue → Text ⊕ List Text
  | .bool v => .inl (truth v)
  | .i16 v => .inl (decimal v.toInt)
  | .i32 v => .inl (decimal v.toInt)
  | .i64 v => .inl (decimal v.toInt)
  | .f32 v => .inl (S.f32 v)
  | .f64 v => .inl (S.f64 v)
  | .string v => .inl (S.str v)
  | .arrBool v => .inr (v.map truth)
  | .arrI32 v => .inr (v.map (fun x => decimal x.toInt))
  | .arrI64 v => .inr (v.map (fun x => decimal x.toInt))
  | .arrF32 v => .inr (v.map S.f32)
  | .arrF64 v => .inr (v.map S.f64)
  | .binary v => .inr (v.map (fun x => decimal x.toNat))

/-- The name of the type of an attribute. -/
def kind : AttrType → Text
  | .bool => ['B', 'o', 'o', 'l']
  | .i16 => ['I', '1', '6']
  | .i32 => ['I', '3', '2']
  | .i64 => ['I', '6', '4']
  | .f32 => ['F', '3', '2']
  | .f64 => ['F', '6', '4']
  | .arrBool => ['A', 'r', 'r', 'B', 'o', 'o', 'l']
  | .arrI32 => ['A', 'r', 'r', 'I', '3', '2']
  | .arrI64 => ['A', 'r', 'r', 'I', '6', '4']
  | .arrF32 => ['A', 'r', 'r', 'F', '3', '2']
  | .arrF64 => ['A', 'r', 'r', 'F', '6', '4']
  | .string => ['S', 't', 'r', 'i', 'n', 'g']
  | .binary => ['B', 'i', 'n', 'a', 'r', 'y']

/-! ## On one line -/

/-- Texts separated by `, `. -/
def commas : List Text → Text
  | [] => []
  | [x] => x
  | x :: y :: xs => x ++ [',', ' '] ++ commas (y :: xs)

/-- `[…, …, …]`. -/
def brackets (xs : List Text) : Text := ['['] ++ commas xs ++ [']']

/-- `…` or `[…, …]`. -/
def contentText : Text ⊕ List Text → Text
  | .inl x => x
  | .inr xs => brackets xs

/-- `Kind(…)` or `Kind([…, …])`. -/
def attrText (S : Shows) (v : AttrValue) : Text := kind v.type_ ++ ['('] ++ contentText (content S v) ++ [')']

mutual
/-- `Node { name: …, attributes: […], children: […] }`. -/
def docText (S : Shows) : Rose → Text
  | .node name attrs kids =>
    ['N', 'o', 'd', 'e', ' ', '{', ' ', 'n', 'a', 'm', 'e', ':', ' '] ++ S.str name ++
    [',', ' ', 'a', 't', 't', 'r', 'i', 'b', 'u', 't', 'e', 's', ':', ' '] ++ brackets (attrs.map (attrText S)) ++
    [',', ' ', 'c', 'h', 'i', 'l', 'd', 'r', 'e', 'n', ':', ' '] ++ brackets (docTexts S kids) ++ [' ', '}']
/-- The texts of the documents of a list. -/
def docTexts (S : Shows) : List Rose → List Text
  | [] => []
  | k :: ks => docText S k :: docTexts S ks
end

/-! ## On several lines -/

/-- Lines moved to the right by four spaces, with a comma after the last one. -/
def item : List Text → List Text
  | [] => []
  | [l] => [[' ', ' ', ' ', ' '] ++ l ++ [',']]
  | l :: m :: ls => ([' ', ' ', ' ', ' '] ++ l) :: item (m :: ls)

/-- A bracket, the items and the closing bracket, all on their own lines; on one line if there are no items. -/
def block (opening closing : Text) (items : List (List Text)) : List Text :=
  if items.isEmpty then [opening ++ closing] else [opening] ++ (items.map item).flatten ++ [closing]

/-- `label: …`. -/
def labelled (label : Text) : List Text → List Text
  | [] => [label ++ [':', ' ']]
  | l :: ls => (label ++ [':', ' '] ++ l) :: ls

/-- One line, or a block with a line for each value. -/
def contentLines : Text ⊕ List Text → List Text
  | .inl x => [x]
  | .inr xs => block ['['] [']'] (xs.map (fun x => [x]))

/-- The lines of an attribute. -/
def attrLines (S : Shows) (v : AttrValue) : List Text := block (kind v.type_ ++ ['(']) [')'] [contentLines (content S v)]

mutual
/-- The lines of a document. -/
def docLines (S : Shows) : Rose → List Text
  | .node name attrs kids =>
    block ['N', 'o', 'd', 'e', ' ', '{'] ['}']
      [labelled ['n', 'a', 'm', 'e'] [S.str name],
       labelled ['a', 't', 't', 'r', 'i', 'b', 'u', 't', 'e', 's'] (block ['['] [']'] (attrs.map (attrLines S))),
       labelled ['c', 'h', 'i', 'l', 'd', 'r', 'e', 'n'] (block ['['] [']'] (docsLines S kids))]
/-- The lines of the documents of a list. -/
def docsLines (S : Shows) : List Rose → List (List Text)
  | [] => []
  | k :: ks => docLines S k :: docsLines S ks
end

/-- Lines separated by line breaks. -/
def lines : List Text → Text
  | [] => []
  | [l] => l
  | l :: m :: ls => l ++ ['\n'] ++ lines (m :: ls)

/-- The texts of strings and floating point numbers have no line breaks (Rust escapes them). -/
structure OneLine (S : Shows) : Prop where
  str : ∀ s, '\n' ∉ S.str s
  f32 : ∀ x, '\n' ∉ S.f32 x
  f64 : ∀ x, '\n' ∉ S.f64 x

/-- Where a string ends can be seen from its text (Rust puts it in quotes and escapes quotes), and it shows which string it is. The texts of
floating point numbers are not empty and have no commas or brackets. -/
structure Readable (S : Shows) : Prop where
  str : ∀ a b x y, S.str a ++ x = S.str b ++ y → a = b ∧ x = y
  f32 : ∀ x, S.f32 x ≠ [] ∧ ∀ c ∈ S.f32 x, c ≠ ',' ∧ c ≠ ')' ∧ c ≠ ']'
  f64 : ∀ x, S.f64 x ≠ [] ∧ ∀ c ∈ S.f64 x, c ≠ ',' ∧ c ≠ ')' ∧ c ≠ ']'

/-- The same attribute, where floating point numbers count as the same if they are shown alike (all NaNs are). -/
def alikeAttr (S : Shows) : AttrValue → AttrValue → Prop
  | .f32 x, .f32 y => S.f32 x = S.f32 y
  | .f64 x, .f64 y => S.f64 x = S.f64 y
  | .arrF32 x, .arrF32 y => x.map S.f32 = y.map S.f32
  | .arrF64 x, .arrF64 y => x.map S.f64 = y.map S.f64
  | a, b => a = b

/-- Lists of attributes that are alike one by one. -/
inductive AlikeAttrs (S : Shows) : List AttrValue → List AttrValue → Prop where
  | nil : AlikeAttrs S [] []
  | cons {a b : AttrValue} {l r : List AttrValue} : alikeAttr S a b → AlikeAttrs S l r → AlikeAttrs S (a :: l) (b :: r)

mutual
/-- Documents with the same names and structure whose attributes are alike. -/
inductive AlikeDoc (S : Shows) : Rose → Rose → Prop where
  | mk {n : String} {l r : List AttrValue} {ks ms : List Rose} : AlikeAttrs S l r → AlikeDocs S ks ms → AlikeDoc S (.node n l ks) (.node n r ms)
/-- The same for lists. -/
inductive AlikeDocs (S : Shows) : List Rose → List Rose → Prop where
  | nil : AlikeDocs S [] []
  | cons {a b : Rose} {l r : List Rose} : AlikeDoc S a b → AlikeDocs S l r → AlikeDocs S (a :: l) (b :: r)
end

end Spec
end Fbx
