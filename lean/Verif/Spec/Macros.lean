import Verif.Model.Macros
import Verif.Spec.TreeIO

/-! # What the literals of the macros stand for -/

namespace Fbx

/-- The document a literal describes: its nodes in order, with their attributes and their children. -/
def Lit.forest : Lit → Spec.Forest AttrValue
  | .nil => .nil
  | .comma rest => rest.forest
  | .bare name sub rest => .cons name [] sub.forest rest.forest
  | .list name attrs sub rest => .cons name (attrs.map RustVal.into) sub.forest rest.forest
  | .iter name attrs sub rest => .cons name attrs sub.forest rest.forest

/-- A complete use of the writer with the macro: `Writer::new`, `write_v7400_binary!`, `finalize`, each followed by `?`. -/
def Writer.macroSession (Z : Zlib) (s : Sink) (v : FbxVersion) (l : Lit) (f : FooterSpec) : Res WErr Unit × Sink :=
  match new s v with
  | (.ok w, _) =>
    let r := (do writeMacro Z l; finalize f : M WErr Writer Unit) w
    (r.1, r.2.sink)
  | (.err e, s') => (.err e, s')
  | (.panic p, s') => (.panic p, s')

end Fbx
