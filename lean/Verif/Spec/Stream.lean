import Verif.Model.Stream
import Verif.Spec.TreeIO
import Verif.Spec.Read
import Verif.Spec.Header

/-! # Documents one behind the other in one source -/

namespace Fbx
namespace Spec

/-- The parser `p` was made for a source with the given bytes; in the state `t`, the source stands behind the end marker and the footer `f`,
and everything behind them is still to come. -/
def behindFooter (p : Parser) (bytes : Bytes) (f : Footer) (t : Parser) : Prop :=
  ∃ before : Bytes,
    bytes = before ++ List.replicate (3 * headWidth p.version + 1) 0 ++
      (f.unknown1 ++ List.replicate f.paddingLen 0 ++ [0, 0, 0, 0] ++ le 4 p.version.toNat ++ List.replicate 120 0 ++
        [0xf8, 0x5a, 0x8c, 0x6a, 0xde, 0xf5, 0xd9, 0x7e, 0xec, 0xe9, 0x0c, 0xe3, 0x75, 0x8f, 0x29, 0x0b]) ++ t.reader.rest ∧
    f.unknown1.length = 16 ∧ f.paddingLen ≤ 15 ∧
    t.reader.cursor + t.reader.rest.length = p.reader.cursor + bytes.length

/-- A tree is loaded from the source, then another from what is left, and so on, `n` times: the trees, and what is left at the end;
`none` if this fails somewhere. -/
def takeTrees (Z : Zlib) (checks seekable : Bool) : (n : Nat) → Stream → Option (List (FbxVersion × Tree × Except PErr Footer) × Stream)
  | 0, s => some ([], s)
  | n + 1, s => match takeTree Z checks seekable s with
    | (.ok x, some s') => (takeTrees Z checks seekable n s').map (fun r => (x :: r.1, r.2))
    | _ => none

/-- A document: a tree, the version and the footer with which it is written, and the bytes of the file. -/
structure Doc where
  tree : Tree
  version : FbxVersion
  footer : Writer.FooterSpec
  file : Bytes

/-- The file is what `Writer::new`, `write_tree` and `finalize` leave on an empty device; the tree is one which the API can build,
without attributes on the root. -/
def Doc.Finished (Z : Zlib) (d : Doc) : Prop :=
  Tree.Reachable d.tree ∧ (d.tree.nodes d.tree.root).attrs = [] ∧
  ∃ s s' : Sink, s.buf = [] ∧ Writer.treeSession Z s d.version d.tree d.footer = (.ok (), s') ∧ d.file = s'.buf

/-- The footer is one which the parser accepts: the first field (16 bytes) may be anything, the padding at most 15 bytes, and the others
are the default ones. -/
def Doc.Accepted (d : Doc) : Prop :=
  (∀ u, d.footer.unknown1 = some u → u.length = 16) ∧ (∀ n, d.footer.padding = .forced n → n.toNat ≤ 15) ∧
  d.footer.unknown2 = none ∧ d.footer.unknown3 = none

/-- What was loaded is the document: the version, a strictly equal tree, and a footer. -/
def Doc.Is (d : Doc) (x : FbxVersion × Tree × Except PErr Footer) : Prop :=
  x.1 = d.version ∧ Tree.strictEq d.tree x.2.1 = .ok true ∧ ∃ f, x.2.2 = .ok f

/-- One by one. -/
def Doc.Are : List Doc → List (FbxVersion × Tree × Except PErr Footer) → Prop
  | [], [] => True
  | d :: ds, x :: xs => d.Is x ∧ Doc.Are ds xs
  | _, _ => False

end Spec
end Fbx
