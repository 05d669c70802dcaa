import Verif.Model.ErrorApi
import Verif.Spec.Attribute

/-! # Causes of errors -/

namespace Fbx.Spec

/-- `y` is met by asking for the cause `n` times, starting with `x`. -/
inductive Cause : Nat → DynError → DynError → Prop where
  | here (x : DynError) : Cause 0 x x
  | more {n : Nat} {x y z : DynError} : x.source = some y → Cause n y z → Cause (n + 1) x z

/-- The cause that has no further cause. -/
def LastCause (x y : DynError) : Prop := (∃ n, Cause n x y) ∧ y.source = none

/-- The error `x` tells that the I/O error `e` happened, by the meaning of its variants. -/
inductive Blames : DynError → IoErr → Prop where
  | io (e : IoErr) : Blames (.io e) e
  | brokenCompression (e : IoErr) : Blames (.data (.brokenCompression e)) e
  | containerIo (e : IoErr) : Blames (.container (.io e)) e
  | containerData (e : IoErr) : Blames (.container (.data (.brokenCompression e))) e
  | parser {k : ErrKind} {e : IoErr} (pos : Option SynPos) : Blames (.container k) e → Blames (.parser ⟨k, pos⟩) e
  | header (e : IoErr) : Blames (.header (.io e)) e
  | anyParser {h : HeaderError} {e : IoErr} : Blames (.header h) e → Blames (.anyParser (.header h)) e
  | load {x : PErr} {e : IoErr} : Blames (.parser x) e → Blames (.load (.parser x)) e
  | anyTreeCreation {x : AnyError} {e : IoErr} : Blames (.anyParser x) e → Blames (.anyTree (.parserCreation x)) e
  | anyTreeLoad {x : LoadError} {e : IoErr} : Blames (.load x) e → Blames (.anyTree (.load x)) e
  | compression (e : IoErr) : Blames (.compression e) e
  | writeCompression (e : IoErr) : Blames (.write (.compression e)) e
  | write (e : IoErr) : Blames (.write (.io e)) e

/-- The error `x` was made because of the error `y`, by the meaning of its variants. -/
inductive MadeFrom : DynError → DynError → Prop where
  | brokenCompression (e : IoErr) : MadeFrom (.data (.brokenCompression e)) (.io e)
  | nodeName : MadeFrom (.data .invalidNodeNameEncoding) .utf8
  | containerData (e : DataError) : MadeFrom (.container (.data e)) (.data e)
  | containerIo (e : IoErr) : MadeFrom (.container (.io e)) (.io e)
  | containerOp (e : OpError) : MadeFrom (.container (.op e)) (.operation e)
  | containerWarning (e : Warning) : MadeFrom (.container (.warning e)) (.warning e)
  | parser {k : ErrKind} {y : DynError} (pos : Option SynPos) : MadeFrom (.container k) y → MadeFrom (.parser ⟨k, pos⟩) y
  | header (e : IoErr) : MadeFrom (.header (.io e)) (.io e)
  | anyParser (e : HeaderError) : MadeFrom (.anyParser (.header e)) (.header e)
  | load (e : PErr) : MadeFrom (.load (.parser e)) (.parser e)
  | anyTreeCreation (e : AnyError) : MadeFrom (.anyTree (.parserCreation e)) (.anyParser e)
  | anyTreeLoad (e : LoadError) : MadeFrom (.anyTree (.load e)) (.load e)
  | compression (e : IoErr) : MadeFrom (.compression e) (.io e)
  | writeCompression (e : IoErr) : MadeFrom (.write (.compression e)) (.compression e)
  | writeIo (e : IoErr) : MadeFrom (.write (.io e)) (.io e)
  | writeUser (e : Nat) : MadeFrom (.write (.userDefined e)) (.user e)

/-- The error is about the header of the file. -/
def AboutHeader : DynError → Prop
  | .header _ | .anyParser (.header _) | .anyTree (.parserCreation (.header _)) => True
  | _ => False

/-- What can be wrong with the nodes of a file whose source ends with `e`. -/
def BodyFault (e : Ending) : ErrKind → Prop
  | .io x => x = e.error ∨ x = .unexpectedEof ∨ x = .badCompression ∨ x = .invalidData
  | .data (.brokenCompression x) => x = e.error ∨ x = .badCompression
  | .data (.invalidArrayEncoding _) | .data (.invalidAttrTypeCode _) | .data .invalidNodeNameEncoding |
    .data (.nodeLengthMismatch _ _) => True
  | _ => False

/-- The object in the middle of an error of `AnyTree` about a fault of the nodes. -/
def ErrKind.root : ErrKind → DynError
  | .data (.brokenCompression x) => .io x
  | .data .invalidNodeNameEncoding => .utf8
  | .data e => .data e
  | .io x => .io x
  | .op e => .operation e
  | .warning e => .warning e

/-- The type of which an error is, and the number of the variant among those of this type. -/
def variant : DynError → ErrorType × Nat
  | .io _ => (.io, 0)
  | .utf8 => (.utf8, 0)
  | .user _ => (.user, 0)
  | .data .brokenFbxFooter => (.data, 0)
  | .data (.brokenCompression _) => (.data, 1)
  | .data (.invalidArrayEncoding _) => (.data, 2)
  | .data (.invalidAttrTypeCode _) => (.data, 3)
  | .data .invalidNodeNameEncoding => (.data, 4)
  | .data .nodeAttributeError => (.data, 5)
  | .data (.nodeLengthMismatch _ _) => (.data, 6)
  | .data (.unexpectedAttribute _ _) => (.data, 7)
  | .operation .alreadyAborted => (.operation, 0)
  | .operation .alreadyFinished => (.operation, 1)
  | .operation (.unsupportedFbxVersion _ _) => (.operation, 2)
  | .warning .emptyNodeName => (.warning, 0)
  | .warning .extraNodeEndMarker => (.warning, 1)
  | .warning .incorrectBool => (.warning, 2)
  | .warning (.invalidFooterPadding _ _) => (.warning, 3)
  | .warning .missingNodeEndMarker => (.warning, 4)
  | .warning .unexpectedFooterField => (.warning, 5)
  | .container (.data _) => (.container, 0)
  | .container (.io _) => (.container, 1)
  | .container (.op _) => (.container, 2)
  | .container (.warning _) => (.container, 3)
  | .parser ⟨.data _, _⟩ => (.parser, 0)
  | .parser ⟨.io _, _⟩ => (.parser, 1)
  | .parser ⟨.op _, _⟩ => (.parser, 2)
  | .parser ⟨.warning _, _⟩ => (.parser, 3)
  | .header (.io _) => (.header, 0)
  | .header .magicNotDetected => (.header, 1)
  | .anyParser (.header _) => (.anyParser, 0)
  | .anyParser (.unsupportedVersion _) => (.anyParser, 1)
  | .load .badParser => (.load, 0)
  | .load (.parser _) => (.load, 1)
  | .anyTree (.parserCreation _) => (.anyTree, 0)
  | .anyTree (.load _) => (.anyTree, 1)
  | .compression _ => (.compression, 0)
  | .write (.attributeTooLong _) => (.write, 0)
  | .write (.compression _) => (.write, 1)
  | .write (.fileTooLarge _) => (.write, 2)
  | .write (.io _) => (.write, 3)
  | .write .noNodesToClose => (.write, 4)
  | .write (.nodeNameTooLong _) => (.write, 5)
  | .write (.tooManyArrayElements _) => (.write, 6)
  | .write (.tooManyAttributes _) => (.write, 7)
  | .write (.unclosedNode _) => (.write, 8)
  | .write (.unsupportedFbxVersion _) => (.write, 9)
  | .write (.userDefined _) => (.write, 10)

/-- `Some(3)` or `None`. -/
def perhaps : Option Nat → String
  | some n => "Some(" ++ toString n ++ ")"
  | none => "None"

end Fbx.Spec
