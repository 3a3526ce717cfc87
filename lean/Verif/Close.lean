import Verif.History
import Verif.Wrap
/-!
# Closing a gzip source (gzipsource/gzipsource.go)

Of the decompressing sources only gzipSource has a `Close`.
-/

namespace Savior

/-- `gzipSource.Close` (gzipsource.go:188-190): the decompressor's `Close`, an arbitrary function `ext` here (kompress/gzip, external). Before there is a
decompressor, the call is made on a nil interface. Nothing in /repo changes; the underlying source is not closed. -/
def gzipClose {D : Decomp} {I : SourceM} (ext : SR D → Option Err) (s : WrapSt D I) : Option Err :=
  match s.sr with
  | none => some .panic
  | some r => ext r

end Savior
