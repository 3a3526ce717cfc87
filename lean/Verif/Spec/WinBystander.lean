import Verif.Spec.Win
import Verif.Spec.Bystander
/-!
# Specification: what else is in the destination, on Windows
-/

namespace Savior

/-- Something on a Windows disk that is no concern of an archive's members: none leads to it (whatever the case of the letters), only folders lead above it,
and if a member leads below it, it is a folder; it is not a hard link of a file that a member leads to. (Members FolderSink ignores or refuses do not count.) -/
structure BystanderW (w : WCfg) (plan : List (Str × Kind)) (fs : FS) (L : Path) : Prop where
  ord : AllOrd L
  there : fs.nodes L ≠ none
  apart : ∀ x ∈ plan, shouldIgnore x.1 = false → ∀ Q, w.placeOf x.1 = some Q → L ≠ Q ∧ (Q <+: L → x.2 = .dir) ∧ (L <+: Q → fs.nodes L = some .dir)
  nohard : ∀ x ∈ plan, shouldIgnore x.1 = false → ∀ Q, w.placeOf x.1 = some Q → ∀ i, fs.nodes Q = some (.file i) → fs.nodes L ≠ some (.file i)
  inode : ∀ i, fs.nodes L = some (.file i) → i < fs.next

end Savior
