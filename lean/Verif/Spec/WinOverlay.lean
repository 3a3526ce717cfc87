import Verif.Spec.WinMakes
import Verif.Spec.WinBystander
import Verif.Spec.Overlay
/-!
# Specification: an archive laid over what was there, on Windows
-/

namespace Savior

/-- A place that the members leave alone: none is at it or below it, and those above it are folders. (Members FolderSink ignores do not count.) -/
def SparesW (w : WCfg) (plan : List (Str × Kind)) (L : Path) : Prop :=
  ∀ x ∈ plan, shouldIgnore x.1 = false → ∀ Q, w.placeOf x.1 = some Q → ¬ L <+: Q ∧ (Q <+: L → x.2 = .dir)

/-- The archive laid over what was there: what the archive describes, and elsewhere, where the members leave things alone, what was there. -/
def OverlaidW (node : Str → Option PNode) (w : WCfg) (plan : List (Str × Kind)) (fs0 : FS) (L : Path) (n : PNode) : Prop :=
  TreeOfW w node L n ∨ (SparesW w plan L ∧ fs0.holds L = some n)

/-- Files at members' places have no other names, and inodes to be given to new files are free. -/
structure OneNameW (w : WCfg) (plan : List (Str × Kind)) (fs : FS) : Prop where
  single : ∀ x ∈ plan, shouldIgnore x.1 = false → ∀ Q, w.placeOf x.1 = some Q → ∀ L i, fs.nodes Q = some (.file i) → fs.nodes L = some (.file i) → L = Q
  inode : ∀ L i, fs.nodes L = some (.file i) → i < fs.next

end Savior
