import Verif.Model.TreeIO
import Verif.Model.Writer

/-!
# Error objects: kinds, casts, causes and messages

`&dyn std::error::Error` is modelled by its concrete type and value. Objects of types this crate does not define
(`std::io::Error`, `FromUtf8Error`, the user's errors) are opaque: their texts are parameters and the causes *they*
name are not followed.
-/

namespace Fbx

/-- A `&(dyn std::error::Error + 'static)` that can be met from an error of this crate. -/
inductive DynError where
  /-- `std::io::Error` -/
  | io (e : IoErr)
  /-- `std::string::FromUtf8Error` -/
  | utf8
  /-- the error of a user's iterator (`writer/v7400/binary/error.rs:34`) -/
  | user (e : Nat)
  /-- `pull_parser/error/data.rs:8` -/
  | data (e : DataError)
  /-- `pull_parser/error/operation.rs:9` -/
  | operation (e : OpError)
  /-- `pull_parser/error/warning.rs:8` -/
  | warning (e : Warning)
  /-- `pull_parser/error.rs:165` `ErrorContainer` -/
  | container (e : ErrKind)
  /-- `pull_parser/error.rs:24` -/
  | parser (e : PErr)
  /-- `low/fbx_header.rs:17` -/
  | header (e : HeaderError)
  /-- `pull_parser/any/error.rs:13` -/
  | anyParser (e : AnyError)
  /-- `tree/v7400/error.rs:10` -/
  | load (e : LoadError)
  /-- `tree/any/error.rs:13` -/
  | anyTree (e : AnyTreeError)
  /-- `writer/v7400/binary/error.rs:86` `CompressionError::Zlib` -/
  | compression (e : IoErr)
  /-- `writer/v7400/binary/error.rs:12` -/
  | write (e : WErr)
  deriving DecidableEq, Repr

/-- The concrete types, as far as `downcast_ref` tells them apart (`std::any::TypeId`). -/
inductive ErrorType where
  | io | utf8 | user | data | operation | warning | container | parser | header | anyParser | load | anyTree
  | compression | write
  deriving DecidableEq, Repr

/-- `std::any::TypeId::of_val`. -/
def DynError.type : DynError → ErrorType
  | .io _ => .io
  | .utf8 => .utf8
  | .user _ => .user
  | .data _ => .data
  | .operation _ => .operation
  | .warning _ => .warning
  | .container _ => .container
  | .parser _ => .parser
  | .header _ => .header
  | .anyParser _ => .anyParser
  | .load _ => .load
  | .anyTree _ => .anyTree
  | .compression _ => .compression
  | .write _ => .write

/-- `<dyn Error>::downcast_ref` of the standard library. -/
def DynError.downcast (x : DynError) (T : ErrorType) : Option DynError :=
  if x.type = T then some x else none

/-- `pull_parser/error.rs:131-160` `ErrorKind`. -/
inductive ErrorKind where
  | data | io | operation | warning
  deriving DecidableEq, Repr

/-- `pull_parser/error.rs:179-186` `ErrorContainer::kind`. -/
def ErrKind.tag : ErrKind → ErrorKind
  | .data _ => .data
  | .io _ => .io
  | .op _ => .operation
  | .warning _ => .warning

/-- `pull_parser/error.rs:190-197` `ErrorContainer::as_error`. -/
def ErrKind.asError : ErrKind → DynError
  | .data e => .data e
  | .io e => .io e
  | .op e => .operation e
  | .warning e => .warning e

namespace PErr

/-- `pull_parser/error.rs:33-35` `Error::kind`. -/
def kindOf (e : PErr) : ErrorKind := e.kind.tag
/-- `pull_parser/error.rs:40-42` `Error::get_ref`. -/
def getRef (e : PErr) : ErrKind := e.kind
/-- `pull_parser/error.rs:47-49` `Error::downcast_ref`. -/
def downcastRef (e : PErr) (T : ErrorType) : Option DynError := e.kind.asError.downcast T
/-- `pull_parser/error.rs:54-56` `Error::position`. -/
def position (e : PErr) : Option SynPos := e.pos

end PErr

namespace DynError

/-- The implementations of `std::error::Error::source`. Operation errors, warnings and header errors use the default
(`operation.rs:21`, `warning.rs:32`, `fbx_header.rs:24`); the foreign objects are not followed. The `Parser` variant
of `tree/any/error.rs` is never built and not in the model; `Tree` holds a `LoadError`. -/
def source : DynError → Option DynError
  -- `data.rs:49-57`
  | .data (.brokenCompression e) => some (.io e)
  | .data .invalidNodeNameEncoding => some .utf8
  | .data _ => none
  -- `error.rs:200-206`
  | .container e => some e.asError
  -- `error.rs:83-88`: the source of the container
  | .parser e => source' e.kind
  -- `any/error.rs:20-28`
  | .anyParser (.header e) => some (.header e)
  | .anyParser (.unsupportedVersion _) => none
  -- `tree/v7400/error.rs:27-35`
  | .load (.parser e) => some (.parser e)
  | .load .badParser => none
  -- `tree/any/error.rs:22-30`
  | .anyTree (.parserCreation e) => some (.anyParser e)
  | .anyTree (.load e) => some (.load e)
  -- `writer/v7400/binary/error.rs:93-99`
  | .compression e => some (.io e)
  -- `writer/v7400/binary/error.rs:37-46`
  | .write (.compression e) => some (.compression e)
  | .write (.io e) => some (.io e)
  | .write (.userDefined e) => some (.user e)
  | .write _ => none
  | .operation _ => none
  | .warning _ => none
  | .header _ => none
  | .io _ => none
  | .utf8 => none
  | .user _ => none
where
  /-- `error.rs:200-206` `ErrorContainer::source`. -/
  source' (e : ErrKind) : Option DynError := some e.asError

end DynError

/-- The texts of the objects this crate does not define. -/
structure Texts where
  ioDisplay : IoErr → String
  ioDebug : IoErr → String
  utf8Display : String
  utf8Debug : String
  userDisplay : Nat → String

/-- `{:?}` of an `Option<u64>`. -/
def debugOption : Option Nat → String
  | none => "None"
  | some n => "Some(" ++ toString n ++ ")"

/-- `{:?}` of `FbxVersion` (derived, `low/version.rs:4`). -/
def debugVersion (v : FbxVersion) : String := "FbxVersion(" ++ toString v.toNat ++ ")"

/-- `{:?}` of `ParserVersion` (derived, `pull_parser/version.rs:11`). -/
def debugParserVersion : ParserVersion → String
  | .v7400 => "V7400"

namespace Texts

variable (T : Texts)

/-- `data.rs:59-97`. -/
def ofData : DataError → String
  | .brokenFbxFooter => "FBX footer is broken"
  | .brokenCompression e => "Data with broken compression (codec=Zlib): " ++ T.ioDebug e
  | .invalidArrayEncoding v => "Unknown array attribute encoding: got " ++ toString v
  | .invalidAttrTypeCode v => "Invalid node attribute type code: " ++ toString v.toNat
  | .invalidNodeNameEncoding => "Invalid node name encoding: " ++ T.utf8Debug
  | .nodeAttributeError => "Some error occured while reading node attributes"
  | .nodeLengthMismatch e g =>
    "Node ends with unexpected position: expected " ++ toString e ++ ", got " ++ debugOption g
  | .unexpectedAttribute e g => "Unexpected attribute value or type: expected " ++ e ++ ", got " ++ g

/-- `pull_parser/error/operation.rs:21-38`. -/
def ofOp : OpError → String
  | .alreadyAborted => "Attempt to parse more data while the parsing is aborted"
  | .alreadyFinished => "Attempt to parse more data while the parsing is successfully finished"
  | .unsupportedFbxVersion p v =>
    "Unsupported FBX version: parser=" ++ debugParserVersion p ++ ", fbx=" ++ debugVersion v

/-- `pull_parser/error/warning.rs:31-48`. -/
def ofWarning : Warning → String
  | .emptyNodeName => "Node name is empty"
  | .extraNodeEndMarker => "Extra (unexpected) node end marker found"
  | .incorrectBool => "Incorrect boolean representation"
  | .invalidFooterPadding e g =>
    "Invalid footer padding length: expected " ++ toString e ++ " bytes, got " ++ toString g ++ " bytes"
  | .missingNodeEndMarker => "Missing node end marker"
  | .unexpectedFooterField => "Unexpected footer field value"

/-- `error.rs:208-217`. -/
def ofContainer : ErrKind → String
  | .data e => "Data error: " ++ T.ofData e
  | .io e => "I/O error: " ++ T.ioDisplay e
  | .op e => "Invalid operation: " ++ ofOp e
  | .warning e => "Warning considered critical: " ++ ofWarning e

/-- `fbx_header.rs:26-33`. -/
def ofHeader : HeaderError → String
  | .io e => T.ioDisplay e
  | .magicNotDetected => "FBX magic binary is not detected"

/-- `any/error.rs:30-37`. -/
def ofAnyParser : AnyError → String
  | .header e => "FBX header error: " ++ T.ofHeader e
  | .unsupportedVersion v => "Unsupported FBX version: " ++ debugVersion v

/-- `tree/v7400/error.rs:18-25`; a parser error prints as its container (`error.rs:76-81`). -/
def ofLoad : LoadError → String
  | .badParser => "Attempt to use a bad parser"
  | .parser e => "Parser error: " ++ T.ofContainer e.kind

/-- `tree/any/error.rs:32-40`. -/
def ofAnyTree : AnyTreeError → String
  | .parserCreation e => "Failed to create a parser: " ++ T.ofAnyParser e
  | .load e => "Tree load error: " ++ T.ofLoad e

/-- `writer/v7400/binary/error.rs:100-107`. -/
def ofCompression (e : IoErr) : String := "Zlib compression error: " ++ T.ioDisplay e

/-- `writer/v7400/binary/error.rs:48-68`. -/
def ofWrite : WErr → String
  | .attributeTooLong v => "Node attribute is too long: " ++ toString v ++ " bytes"
  | .compression e => "Compression error: " ++ T.ofCompression e
  | .fileTooLarge v => "File is too large: " ++ toString v ++ " bytes"
  | .io e => "I/O error: " ++ T.ioDisplay e
  | .noNodesToClose => "There are no nodes to close"
  | .nodeNameTooLong v => "Node name is too long: " ++ toString v ++ " bytes"
  | .tooManyArrayElements v => "Too many array elements for a single node attribute: count=" ++ toString v
  | .tooManyAttributes v => "Too many attributes: count=" ++ toString v
  | .unclosedNode v => "There remains unclosed nodes: depth=" ++ toString v
  | .unsupportedFbxVersion v => "Unsupported FBX version: " ++ debugVersion v
  | .userDefined e => "User-defined error: " ++ T.userDisplay e

/-- `Display` of any error object. -/
def display : DynError → String
  | .io e => T.ioDisplay e
  | .utf8 => T.utf8Display
  | .user e => T.userDisplay e
  | .data e => T.ofData e
  | .operation e => ofOp e
  | .warning e => ofWarning e
  | .container e => T.ofContainer e
  | .parser e => T.ofContainer e.kind
  | .header e => T.ofHeader e
  | .anyParser e => T.ofAnyParser e
  | .load e => T.ofLoad e
  | .anyTree e => T.ofAnyTree e
  | .compression e => T.ofCompression e
  | .write e => T.ofWrite e

end Texts

end Fbx
