import Verif.Model.Writer

/-!
# `Writer::finalize_and_flush`
-/

namespace Fbx

/-- `Write::flush` as a device operation; like the others it may fail. The content is not concerned: it is what the device holds together
with its buffers. -/
def Sink.flush : M IoErr Sink Unit := fun s =>
  match s.fault 0 with
  | some f => (.err f.error, { s with fault := s.later })
  | none => (.ok (), { s with fault := s.later })

namespace Writer

/-- `writer/v7400/binary.rs:381-386` `finalize_and_flush`. -/
def finalizeAndFlush (f : FooterSpec) : M WErr Writer Unit := do
  finalize f
  io Sink.flush

/-- A complete use of the writer: `Writer::new`, the calls, `finalize_and_flush`, each followed by `?`. -/
def flushedSession (Z : Zlib) (s : Sink) (v : FbxVersion) (ops : List Op) (f : FooterSpec) : Res WErr Unit × Sink :=
  match new s v with
  | (.ok w, _) =>
    let r := (do run Z ops; finalizeAndFlush f : M WErr Writer Unit) w
    (r.1, r.2.sink)
  | (.err e, s') => (.err e, s')
  | (.panic p, s') => (.panic p, s')

end Writer
end Fbx
