import Verif.Model.TreeIO

/-! # A source which is used again after a tree has been loaded from it -/

namespace Fbx

/-- A source, which the caller keeps and lends (`&mut reader`): the bytes still to come, how it ends, where it stands, and the greatest
place it can seek to. -/
structure Stream where
  rest : Bytes
  ending : Option IoErr
  cursor : Nat
  limit : Nat

/-- The source below a parser (`reader.rs:67-74`: nothing is read ahead). -/
def Parser.stream (p : Parser) : Stream := ⟨p.reader.rest, p.reader.ending, p.reader.cursor, p.reader.seekLimit⟩

/-- `tree/any.rs:33-64` `AnyTree::from_reader` / `from_seekable_reader`, as `anyTree`, with the source as it is left (`none`: no parser
was made; the model does not say how much of the header was read). -/
def takeTree (Z : Zlib) (checks seekable : Bool) (s : Stream) : Res AnyTreeError (FbxVersion × Tree × Except PErr Footer) × Option Stream :=
  match anyParser checks seekable s.rest s.ending s.cursor s.limit with
  | .err e => (.err (.parserCreation e), none)
  | .panic p => (.panic p, none)
  | .ok p =>
    match Load.load Z (p.setHandler (fun _ _ _ => none)) with
    | (.ok (t, f), q) => (.ok (p.version, t, f), some q.stream)
    | (.err e, q) => (.err (.load e), some q.stream)
    | (.panic x, q) => (.panic x, some q.stream)

end Fbx
