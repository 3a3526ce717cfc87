import Verif.Spec.Dest
/-!
# Specification of what FolderSink's operations should do to the filesystem
-/

namespace Savior

/-- The bytes of the regular file a path names (a link as last element is not followed), if it is one. -/
def FS.content (fs : FS) (p : Path) : Option (List Byte) :=
  match fs.lstat p with
  | .found _ (.file i) => some (fs.data i)
  | _ => none

/-- The permission bits of the regular file a path names. -/
def FS.modeOf (fs : FS) (p : Path) : Option Nat :=
  match fs.lstat p with
  | .found _ (.file i) => some (fs.mode i)
  | _ => none

/-- Nothing is there. -/
def FS.Missing (fs : FS) (p : Path) : Prop := ∀ q n, fs.lstat p ≠ .found q n

/-- Where the entry goes: the sink's directory `B`, then the entry's path read left to right. -/
def entryPlace (B : Path) (e : Entry) : Path := lexWalk B (splitSlash e.path)

/-- Writing these chunks, whatever happens: the bytes reported written, and by how much `WriteOffset` advanced. -/
def writeMany (cfg : FCfg) (k : Nat) : List (List Byte) → FSink → (List Byte × Int) × FSink
  | [], s => (([], 0), s)
  | c :: cs, s =>
    let w := s.writeAt cfg k c
    let r := writeMany cfg k cs w.2
    ((c.take w.1.1 ++ r.1.1, w.1.2.1 + r.1.2), r.2)

/-- Only missing places changed, apart from `q`, and they became directories. -/
def OnlyAt (q : Path) (fs fs' : FS) : Prop :=
  ∀ p, p ≠ q → fs'.nodes p = fs.nodes p ∨ (fs.nodes p = none ∧ fs'.nodes p = some .dir)

end Savior
