import Verif.Spec.Disk
import Verif.Spec.Modes
/-!
# Specification: what else is in the destination
-/

namespace Savior

/-- Something on the disk that is no concern of an archive's members: none leads to it, only folders lead above it, and if a member leads
below it, it is a folder; it is not a hard link of a file that a member leads to. (Members FolderSink ignores or refuses do not count.) -/
structure Bystander (B : Path) (plan : List (Str × Kind)) (fs : FS) (L : Path) : Prop where
  ord : AllOrd L
  there : fs.nodes L ≠ none
  apart : ∀ x ∈ plan, shouldIgnore x.1 = false → B <+: namePlace B x.1 →
    L ≠ namePlace B x.1 ∧ (namePlace B x.1 <+: L → x.2 = .dir) ∧ (L <+: namePlace B x.1 → fs.nodes L = some .dir)
  nohard : ∀ x ∈ plan, shouldIgnore x.1 = false → B <+: namePlace B x.1 → ∀ i, fs.nodes (namePlace B x.1) = some (.file i) → fs.nodes L ≠ some (.file i)
  inode : ∀ i, fs.nodes L = some (.file i) → i < fs.next

/-- What is at `L` — a folder, a link with its target, or a file with its bytes and permissions — is the same on both disks. -/
def Untouched (L : Path) (fs fs' : FS) : Prop := fs'.holds L = fs.holds L ∧ fs'.permAt L = fs.permAt L

end Savior
