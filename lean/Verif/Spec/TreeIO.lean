import Verif.Spec.Tree
import Verif.Spec.Read
import Verif.Model.TreeIO

/-! # Trees as documents, and sessions that write a tree -/

namespace Fbx

/-- The documents of a forest of values. -/
def Spec.Forest.roses : Spec.Forest AttrValue → List Rose
  | .nil => []
  | .cons name attrs children rest => .node name attrs children.roses :: rest.roses

/-- A forest of values as a document (its arrays stored as they are). -/
def Spec.Forest.plain (F : Spec.Forest AttrValue) : Spec.Forest Spec.DAttr := F.map (fun v => { value := v })

namespace Writer

/-- A complete use of the writer for a tree: `Writer::new`, `write_tree`, `finalize`, each followed by `?`. -/
def treeSession (Z : Zlib) (s : Sink) (v : FbxVersion) (t : Tree) (f : FooterSpec) : Res WErr Unit × Sink :=
  match new s v with
  | (.ok w, _) =>
    let r := (do writeTree Z t; finalize f : M WErr Writer Unit) w
    (r.1, r.2.sink)
  | (.err e, s') => (.err e, s')
  | (.panic p, s') => (.panic p, s')

end Writer

/-- Opens a seekable source with `AnyParser`, sets the handler if there is one, and loads a tree. `none` if the source
cannot be opened. -/
def loadFile (Z : Zlib) (checks : Bool) (h : Option Handler) (ending : Option IoErr) (cursor seekLimit : Nat) (bytes : List UInt8) :
    Option (Res LoadError (Tree × Except PErr Footer) × Parser) :=
  match anyParser checks true bytes ending cursor seekLimit with
  | .ok p => some (Load.load Z { p with handler := h })
  | _ => none

end Fbx
