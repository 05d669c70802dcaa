import Verif.Model.Low

/-!
# Parser errors, warnings and positions
-/

namespace Fbx

/-- `std::io::Error` kinds the code distinguishes or produces. -/
inductive IoErr where
  /-- `read_exact` on an exhausted source. -/
  | unexpectedEof
  /-- `read_to_string` on invalid UTF-8. -/
  | invalidData
  /-- decoder failure. -/
  | badCompression
  /-- seek out of range. -/
  | invalidSeek
  /-- any other device error. -/
  | other (code : Nat)
  deriving DecidableEq, Repr

/-- `pull_parser/position.rs:11-23`. -/
structure SynPos where
  bytePos : Nat
  compPos : Nat
  path : List (Nat × String)
  attrIdx : Option Nat
  deriving DecidableEq, Repr

/-- `pull_parser/error/warning.rs`. -/
inductive Warning where
  | emptyNodeName
  | extraNodeEndMarker
  | incorrectBool
  | invalidFooterPadding (expected got : Nat)
  | missingNodeEndMarker
  | unexpectedFooterField
  deriving DecidableEq, Repr

/-- `pull_parser/error/data.rs` (the `FromUtf8Error` payload is dropped). -/
inductive DataError where
  | brokenCompression (e : IoErr)
  | brokenFbxFooter
  | invalidArrayEncoding (v : Nat)
  | invalidAttrTypeCode (v : Byte)
  | invalidNodeNameEncoding
  | nodeAttributeError
  | nodeLengthMismatch (expected : Nat) (got : Option Nat)
  | unexpectedAttribute (expected got : String)
  deriving DecidableEq, Repr

/-- `pull_parser/error/operation.rs`. -/
inductive OpError where
  | alreadyAborted
  | alreadyFinished
  | unsupportedFbxVersion (pv : ParserVersion) (v : FbxVersion)
  deriving DecidableEq, Repr

/-- `pull_parser/error.rs:165-174` `ErrorContainer`. -/
inductive ErrKind where
  | data (e : DataError)
  | io (e : IoErr)
  | op (e : OpError)
  | warning (w : Warning)
  deriving DecidableEq, Repr

/-- `pull_parser/error.rs:24-27,104-109`: an error with an optional position. -/
structure PErr where
  kind : ErrKind
  pos : Option SynPos
  deriving DecidableEq, Repr

/-- `pull_parser/error.rs:70-73` `and_position`: overwrites the position. -/
def PErr.andPosition (e : PErr) (p : SynPos) : PErr := { e with pos := some p }

/-- `pull_parser/error.rs:90-100`: conversions into `Error` carry no position. -/
def PErr.ofData (e : DataError) : PErr := ⟨.data e, none⟩
/-- `pull_parser/error.rs:90-100`. -/
def PErr.ofIo (e : IoErr) : PErr := ⟨.io e, none⟩
/-- `pull_parser/error.rs:90-100`. -/
def PErr.ofOp (e : OpError) : PErr := ⟨.op e, none⟩
/-- `pull_parser/error.rs:90-100`. -/
def PErr.ofWarning (w : Warning) : PErr := ⟨.warning w, none⟩

end Fbx
