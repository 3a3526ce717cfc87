import Verif.Spec.Folder
import Verif.Spec.PathSink
import Verif.FSLemmas
/-!
# Specification: what is at a place on disk; sets of places that do not get in each other's way
-/

namespace Savior

/-- What is at a place: a folder, a link, or a file with its bytes. -/
def FS.holds (fs : FS) (L : Path) : Option PNode :=
  match fs.nodes L with
  | none => none
  | some .dir => some .dir
  | some (.link t) => some (.link t)
  | some (.file i) => some (.file (fs.data i))

/-- Where an entry name leads, lexically, in a sink whose directory is `B`. -/
def namePlace (B : Path) (name : Str) : Path := lexWalk B (splitSlash name)

/-- Different names lead to different places, and only folders have other places below them. (Names FolderSink ignores do
not count, nor do names leading out of its directory, which it refuses.) -/
def Independent (cfg : FCfg) (B : Path) (plan : List (Str × Kind)) : Prop :=
  ∀ x ∈ plan, ∀ y ∈ plan, shouldIgnore x.1 = false → shouldIgnore y.1 = false → B <+: namePlace B x.1 → B <+: namePlace B y.1 → x.1 ≠ y.1 →
    namePlace B x.1 ≠ namePlace B y.1 ∧ (namePlace B x.1 <+: namePlace B y.1 → x.2 = .dir)

/-- A disk on which the places of the plan are not reached through links, nor are files there hard links of each other. (Again, names FolderSink
ignores or refuses do not count.) -/
structure DiskFit (B : Path) (plan : List (Str × Kind)) (fs : FS) : Prop where
  tree : fs.Tree
  nolink : ∀ x ∈ plan, shouldIgnore x.1 = false → B <+: namePlace B x.1 → ∀ r t, r <+: namePlace B x.1 → r ≠ namePlace B x.1 → fs.nodes r ≠ some (.link t)
  nohard : ∀ x ∈ plan, ∀ y ∈ plan, shouldIgnore x.1 = false → B <+: namePlace B x.1 → shouldIgnore y.1 = false → B <+: namePlace B y.1 → ∀ i, fs.nodes (namePlace B x.1) = some (.file i) → fs.nodes (namePlace B y.1) = some (.file i) →
    namePlace B x.1 = namePlace B y.1
  inodes : ∀ x ∈ plan, shouldIgnore x.1 = false → B <+: namePlace B x.1 → ∀ i, fs.nodes (namePlace B x.1) = some (.file i) → i < fs.next

/-- The names and kinds of an archive's members. -/
def Archive.plan (A : Archive) : List (Str × Kind) := A.files.map fun z => (z.name, (zipFileEntry z).kind)

end Savior
