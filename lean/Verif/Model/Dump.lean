import Verif.Model.Debug
import Verif.Model.Loaders

/-!
# The program `examples/dump-pull-parser-events.rs`

What it writes to the standard output, and how it ends. Simplifications: arguments, the environment and the file system are not modelled
(the format and the contents of the file are parameters); writing to the standard output does not fail; `depth` does not overflow (it is
at most the number of open nodes) but underflow is an explicit outcome. The warnings, which the program writes to the standard error, are
those on the log of the parser. `Debug` of errors is a parameter.
-/

namespace Fbx.Dump
open Fbx

/-- `dump-pull-parser-events.rs:49-58` `AttrsDumpFormat`. -/
inductive Format where
  | type | length | full
  deriving DecidableEq, Repr

/-- How the program ends. -/
inductive End where
  /-- `main` returns. -/
  | ok
  /-- `dump-pull-parser-events.rs:22` `expect("Failed to create parser")`. -/
  | noParser (e : AnyError)
  /-- `dump-pull-parser-events.rs:30` `expect("Failed to parse FBX file")`: `dump_fbx_7400` has returned an error. -/
  | failed (e : PErr)
  /-- `dump-pull-parser-events.rs:144` `unwrap()`. -/
  | unwrapped (e : PErr)
  /-- A panic of the library. -/
  | panics (x : Panic)
  /-- `dump-pull-parser-events.rs:83` `depth -= 1` with `depth = 0`. -/
  | underflow
  /-- The program is still running (after the number of steps it was given). -/
  | stuck

/-- The formats of the standard library and of the errors that are not modelled. -/
structure Shows extends Fbx.Shows where
  /-- `Debug` of the errors of the pull parser. -/
  error : PErr → Text

/-- `dump-pull-parser-events.rs:39-41` `indent`. -/
def indent (depth : Nat) : Text := List.replicate (depth * 4) ' '

/-- `low/v7400/attribute/type_.rs:8` the derived `Debug` of `AttributeType`. -/
def typeName : AttrType → Text
  | .bool => ['B', 'o', 'o', 'l']
  | .i16 => ['I', '1', '6']
  | .i32 => ['I', '3', '2']
  | .i64 => ['I', '6', '4']
  | .f32 => ['F', '3', '2']
  | .f64 => ['F', '6', '4']
  | .arrBool => ['A', 'r', 'r', 'B', 'o', 'o', 'l']
  | .arrI32 => ['A', 'r', 'r', 'I', '3', '2']
  | .arrI64 => ['A', 'r', 'r', 'I', '6', '4']
  | .arrF32 => ['A', 'r', 'r', 'F', '3', '2']
  | .arrF64 => ['A', 'r', 'r', 'F', '6', '4']
  | .binary => ['B', 'i', 'n', 'a', 'r', 'y']
  | .string => ['S', 't', 'r', 'i', 'n', 'g']

/-- `Attribute: `. -/
def attributeLabel : Text := ['A', 't', 't', 'r', 'i', 'b', 'u', 't', 'e', ':', ' ']

/-- `Attribute: type={:?}, len={}`. -/
def typeAndLen (t : AttrType) (len : Nat) : Text :=
  attributeLabel ++ ['t', 'y', 'p', 'e', '='] ++ typeName t ++ [',', ' ', 'l', 'e', 'n', '='] ++ Debug.int len

/-- `dump-pull-parser-events.rs:115-129`. -/
def lengthText (S : Shows) (v : AttrValue) : Text := match v with
  | .bool _ => attributeLabel ++ Debug.attr S.toShows false v
  | .i16 _ => attributeLabel ++ Debug.attr S.toShows false v
  | .i32 _ => attributeLabel ++ Debug.attr S.toShows false v
  | .i64 _ => attributeLabel ++ Debug.attr S.toShows false v
  | .f32 _ => attributeLabel ++ Debug.attr S.toShows false v
  | .f64 _ => attributeLabel ++ Debug.attr S.toShows false v
  | .arrBool x => typeAndLen v.type_ x.length
  | .arrI32 x => typeAndLen v.type_ x.length
  | .arrI64 x => typeAndLen v.type_ x.length
  | .arrF32 x => typeAndLen v.type_ x.length
  | .arrF64 x => typeAndLen v.type_ x.length
  | .binary x => typeAndLen v.type_ x.length
  | .string x => typeAndLen v.type_ (strBytes x).length

/-- `, value={:?}`. -/
def valueText (t : Text) : Text := [',', ' ', 'v', 'a', 'l', 'u', 'e', '='] ++ t

/-- `dump-pull-parser-events.rs:166-215`. -/
def fullText (S : Shows) (v : AttrValue) : Text := match v with
  | .bool _ => attributeLabel ++ Debug.attr S.toShows false v
  | .i16 _ => attributeLabel ++ Debug.attr S.toShows false v
  | .i32 _ => attributeLabel ++ Debug.attr S.toShows false v
  | .i64 _ => attributeLabel ++ Debug.attr S.toShows false v
  | .f32 _ => attributeLabel ++ Debug.attr S.toShows false v
  | .f64 _ => attributeLabel ++ Debug.attr S.toShows false v
  | .arrBool x => typeAndLen v.type_ x.length ++ valueText (Debug.list false (x.map Debug.bool))
  | .arrI32 x => typeAndLen v.type_ x.length ++ valueText (Debug.list false (x.map (fun y => Debug.int y.toInt)))
  | .arrI64 x => typeAndLen v.type_ x.length ++ valueText (Debug.list false (x.map (fun y => Debug.int y.toInt)))
  | .arrF32 x => typeAndLen v.type_ x.length ++ valueText (Debug.list false (x.map S.f32))
  | .arrF64 x => typeAndLen v.type_ x.length ++ valueText (Debug.list false (x.map S.f64))
  | .binary x => typeAndLen v.type_ x.length ++ valueText (Debug.list false (x.map (fun y => Debug.int y.toNat)))
  | .string x => typeAndLen v.type_ (strBytes x).length ++ valueText (S.str x)

/-- The loops `while let Some(…) = attrs.load_next(…)` of `dump-pull-parser-events.rs:112-130,144-147,163-216`: `text` is what is printed
after the indentation, `onError` is what becomes of an error. -/
def loop {α : Type} (Z : Zlib) (l : Loader α) (text : α → Text) (onError : PErr → End) (depth : Nat) : (fuel : Nat) → AP → Text → End × AP × Text
  | 0, a, out => (.stuck, a, out)
  | fuel + 1, a, out => match AP.load Z false l a with
    | (.ok none, a') => (.ok, a', out)
    | (.ok (some v), a') => loop Z l text onError depth fuel a' (out ++ indent depth ++ text v ++ ['\n'])
    | (.err e, a') => (onError e, a', out)
    | (.panic x, a') => (.panics x, a', out)

/-- `dump-pull-parser-events.rs:76-80` and `dump_v7400_attributes_type` (lines 135-150), `dump_v7400_attributes_length` (101-133),
`dump_v7400_attributes_full` (152-219). The loops end: each turn but the last loads one of the remaining attributes. -/
def attributes (S : Shows) (Z : Zlib) (depth : Nat) (a : AP) (out : Text) : Format → End × AP × Text
  | .type => loop Z typeLoader (fun t => attributeLabel ++ typeName t) .unwrapped depth (a.attrs.rest + 1) a out
  | .length => loop Z directLoader (lengthText S) .failed depth (a.attrs.rest + 1) a out
  | .full => loop Z directLoader (fullText S) .failed depth (a.attrs.rest + 1) a out

/-- `low/v7400/fbx_footer.rs:20` and `low/version.rs:4` the derived `Debug` of `FbxFooter` and `FbxVersion`, in the form `{:#?}`. -/
def footer (f : Footer) : Text :=
  Debug.struct true ['F', 'b', 'x', 'F', 'o', 'o', 't', 'e', 'r']
    [(['u', 'n', 'k', 'n', 'o', 'w', 'n', '1'], Debug.list true (f.unknown1.map (fun y => Debug.int y.toNat))),
     (['p', 'a', 'd', 'd', 'i', 'n', 'g', '_', 'l', 'e', 'n'], Debug.int f.paddingLen),
     (['u', 'n', 'k', 'n', 'o', 'w', 'n', '2'], Debug.list true (f.unknown2.map (fun y => Debug.int y.toNat))),
     (['f', 'b', 'x', '_', 'v', 'e', 'r', 's', 'i', 'o', 'n'], Debug.tuple true ['F', 'b', 'x', 'V', 'e', 'r', 's', 'i', 'o', 'n'] (Debug.int f.version.toNat)),
     (['u', 'n', 'k', 'n', 'o', 'w', 'n', '3'], Debug.list true (f.unknown3.map (fun y => Debug.int y.toNat)))]

/-- `dump-pull-parser-events.rs:88-92`. -/
def close (S : Shows) (f : Except PErr Footer) : Text :=
  ['F', 'B', 'X', ' ', 'e', 'n', 'd', '\n'] ++ (match f with
    | .ok f => ['f', 'o', 'o', 't', 'e', 'r', ':', ' '] ++ footer f
    | .error e => ['f', 'o', 'o', 't', 'e', 'r', ' ', 'h', 'a', 's', ' ', 'a', 'n', ' ', 'e', 'r', 'r', 'o', 'r', ':', ' '] ++ S.error e) ++ ['\n']

/-- `dump-pull-parser-events.rs:43-99` `dump_fbx_7400`: at most `fuel` turns of the loop. -/
def run (S : Shows) (Z : Zlib) (fmt : Format) : (fuel depth : Nat) → Parser → Text → End × Parser × Text
  | 0, _, p, out => (.stuck, p, out)
  | fuel + 1, depth, p, out => match Parser.nextEvent p with
    | (.err e, p') => (.failed e, p', out)
    | (.panic x, p') => (.panics x, p', out)
    | (.ok (.startNode name _), p') =>
      let out := out ++ indent depth ++ ['N', 'o', 'd', 'e', ' ', 's', 't', 'a', 'r', 't', ':', ' '] ++ S.str name ++ ['\n']
      match AP.ofParser p' with
      | .ok a => match attributes S Z (depth + 1) a out fmt with
        | (.ok, a', out') => run S Z fmt fuel (depth + 1) a'.parser out'
        | (e, a', out') => (e, a'.parser, out')
      | .err e => (.failed e, p', out)
      | .panic x => (.panics x, p', out)
    | (.ok .endNode, p') =>
      if depth = 0 then (.underflow, p', out)
      else run S Z fmt fuel (depth - 1) p' (out ++ indent (depth - 1) ++ ['N', 'o', 'd', 'e', ' ', 'e', 'n', 'd', '\n'])
    | (.ok (.endFbx f), p') => (.ok, p', out ++ close S f)

/-- `dump-pull-parser-events.rs:9-37` `main` on a file with the given contents: how it ends, the warnings (newest first), and the standard
output. The number of turns of the loop is bounded by the size of the file. `BufReader<File>` is a source that can seek. -/
def main (S : Shows) (Z : Zlib) (fmt : Format) (checks : Bool) (bytes : Bytes) (ending : Option IoErr) (limit : Nat) :
    End × List (Warning × SynPos) × Text :=
  match anyParser checks true bytes ending 0 limit with
  | .err e => (.noParser e, [], [])
  | .panic x => (.panics x, [], [])
  | .ok p =>
    let out := ['F', 'B', 'X', ' ', 'v', 'e', 'r', 's', 'i', 'o', 'n', ':', ' '] ++ Debug.int p.version.major.toNat ++ ['.'] ++ Debug.int p.version.minor.toNat ++ ['\n']
    match run S Z fmt (2 * bytes.length + 2) 0 (p.setHandler (fun _ _ _ => none)) out with
    | (e, q, out) => (e, q.log, out)

end Fbx.Dump
