import Verif.Spec.Exact
import Verif.Spec.Bystander
/-!
# Specification: an archive laid over what was there
-/

namespace Savior

/-- Members of the same name are of the same kind. -/
def OneKind (plan : List (Str × Kind)) : Prop := ∀ x ∈ plan, ∀ y ∈ plan, x.1 = y.1 → x.2 = y.2

/-- A place that the members leave alone: none is at it or below it, and those above it are folders. (Members FolderSink ignores do not count.) -/
def Spares (B : Path) (plan : List (Str × Kind)) (L : Path) : Prop :=
  ∀ x ∈ plan, shouldIgnore x.1 = false → ¬ L <+: namePlace B x.1 ∧ (namePlace B x.1 <+: L → x.2 = .dir)

/-- The archive laid over what was there: what the archive describes, and elsewhere, where the members leave things alone, what was there. -/
def Overlaid (node : Str → Option PNode) (B : Path) (plan : List (Str × Kind)) (fs0 : FS) (L : Path) (n : PNode) : Prop :=
  TreeOf node B L n ∨ (Spares B plan L ∧ fs0.holds L = some n)

/-- Files at members' places have no other names, and inodes to be given to new files are free. -/
structure OneName (B : Path) (plan : List (Str × Kind)) (fs : FS) : Prop where
  single : ∀ x ∈ plan, shouldIgnore x.1 = false → B <+: namePlace B x.1 → ∀ L i, fs.nodes (namePlace B x.1) = some (.file i) → fs.nodes L = some (.file i) → L = namePlace B x.1
  inode : ∀ L i, fs.nodes L = some (.file i) → i < fs.next

end Savior
