import Verif.Spec.Disk
import Verif.Spec.TarPath
/-!
# Specification: archives that fit, and disks with room for them
-/

namespace Savior

/-- An archive that can be extracted into a folder `B`: names (other than those ignored) do not lead out of it; they do not get
in each other's way; and no name is both a file and a folder. -/
structure Sensible (cfg : FCfg) (B : Path) (plan : List (Str × Kind)) : Prop where
  inside : ∀ x ∈ plan, shouldIgnore x.1 = false → B <+: namePlace B x.1
  apart : Independent cfg B plan
  kinds : ∀ p, (p, Kind.file) ∈ plan → (p, Kind.dir) ∈ plan → shouldIgnore p = true

/-- A disk with room for it: apart from links and hard links (`DiskFit`), nothing but folders on the way to where entries go, and no
folders where files go. -/
structure Room (B : Path) (plan : List (Str × Kind)) (fs : FS) : Prop extends DiskFit B plan fs where
  above : ∀ x ∈ plan, shouldIgnore x.1 = false → ∀ r, r <+: namePlace B x.1 → r ≠ namePlace B x.1 → fs.nodes r = none ∨ fs.nodes r = some .dir
  free : ∀ x ∈ plan, shouldIgnore x.1 = false → x.2 = .file → fs.nodes (namePlace B x.1) ≠ some .dir

/-- A link that FolderSink accepts at the place of this name: its target is neither empty nor rooted and does not lead, lexically,
out of the folder. -/
def LinkFine (B : Path) (name target : Str) : Prop :=
  isAbs target = false ∧ target ≠ [] ∧ B <+: lexWalk (namePlace B name).dropLast (splitSlash target)

/-- No system call fails from now on. -/
def OS.Calm (flt : Faults) (s : OS) : Prop := ∀ t, s.tick ≤ t → flt t = none

end Savior
