import Verif.Zip
import Verif.Spec.Tar
/-!
# Specification: which member of the archive a sink call or a checkpoint is about
-/

namespace Savior

/-- What an event is about: the entry, and the kind it must be of. A checkpoint is about the entry it was taken in. -/
def Ev.about : Ev → Option (Kind × Entry)
  | .prealloc e _ => some (.file, e)
  | .mkdir e _ => some (.dir, e)
  | .symlink e _ _ => some (.symlink, e)
  | .openW e _ => some (.file, e)
  | .save c _ => c.entry.map fun e => (.file, e)
  | _ => none

/-- `e` is the entry of the zip member `zf`, with some write offset. -/
structure ZipMemberEntry (zf : ZFile) (e : Entry) : Prop where
  path : e.path = zf.name
  kind : e.kind = if zf.mode.testBit 31 then .dir else if zf.mode.testBit 27 then .symlink else .file
  mode : e.mode = zf.mode
  csize : e.csize = zf.csize
  usize : e.usize = zf.usize
  link : e.link = []

/-- `e` is the entry of the tar member with header `h`, with some write offset. -/
structure TarMemberEntry (h : THdr) (e : Entry) : Prop where
  typ : h.typ ≠ .other
  path : e.path = h.name
  kind : e.kind = if h.typ = .dir then .dir else if h.typ = .symlink then .symlink else .file
  mode : e.mode = h.mode
  usize : e.usize = h.size
  link : e.link = if h.typ = .symlink then h.link else []

end Savior
