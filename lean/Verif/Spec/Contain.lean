import Verif.Spec.Folder
/-!
# Specification: staying inside the sink's directory
-/

namespace Savior

/-- The target's ".." elements all come first. -/
def UpsFirst : List Str → Prop
  | [] => True
  | c :: t => if c = [] ∨ c = dot1 ∨ c = dot2 then UpsFirst t else dot2 ∉ t

/-- A harmless link at `q`: relative, ".." only at the start, and leading (from the folder the link is in) to `B` or below. -/
def LinkOK (B q : Path) (t : Str) : Prop := isAbs t = false ∧ UpsFirst (splitSlash t) ∧ B <+: lexWalk q.dropLast (splitSlash t)

/-- The sink's directory `B` is not reached through links, and all links in it are harmless. -/
def Harmless (B : Path) (fs : FS) : Prop :=
  ∀ q t, fs.nodes q = some (.link t) → (q <+: B → q = B) ∧ (B <+: q → LinkOK B q t)

/-- A file that is (also) outside `B`. -/
def FS.Outside (fs : FS) (B : Path) (j : Nat) : Prop := ∃ p, ¬ B <+: p ∧ fs.nodes p = some (.file j)

/-- Inode numbers in use are below `next`; no file inside `B` is a hard link to one outside. -/
def Separate (B : Path) (fs : FS) : Prop :=
  (∀ p j, fs.nodes p = some (.file j) → j < fs.next) ∧ ∀ p j, B <+: p → fs.nodes p = some (.file j) → ¬ fs.Outside B j

/-- Operations that cannot be used to climb out, in the given state: a link's target has ".." only at its start, and if it
has any, no folder on the way to the link is itself a link (unless the link's own name leads out of `B`: it is refused). `Nuke` uses `Directory` as it is: no ".." in it. -/
def FOp.Tame (cfg : FCfg) (B : Path) (fs : FS) : FOp → Prop
  | .symlink e t => B <+: entryPlace B e → UpsFirst (splitSlash t) ∧
      (dot2 ∈ splitSlash t → ∀ p u, p <+: entryPlace B e → p ≠ entryPlace B e → fs.nodes p ≠ some (.link u))
  | .nuke => dot2 ∉ splitSlash cfg.dir ∧ ∀ w, cfg.cwd = .ok w → dot2 ∉ splitSlash w
  | _ => True

/-- A sequence of such operations. -/
def TameRun (cfg : FCfg) (B : Path) : List FOp → FSink → Prop
  | [], _ => True
  | op :: ops, s => op.Tame cfg B s.os.fs ∧ TameRun cfg B ops (op.run cfg s).2

/-- Places none of which is below another. -/
def Apart (L : Path → Prop) : Prop := ∀ p q, L p → L q → p <+: q → p = q

/-- All links at or below `B` are at places of `L`. -/
def LinksAt (B : Path) (L : Path → Prop) (fs : FS) : Prop := ∀ q t, fs.nodes q = some (.link t) → B <+: q → L q

/-- Nothing outside `B` has changed: no node (but missing folders above `B` may have been created), no file's bytes or
permissions. -/
structure NothingOutside (B : Path) (fs fs' : FS) : Prop where
  nodes : ∀ p, ¬ B <+: p → fs'.nodes p = fs.nodes p ∨ (fs.nodes p = none ∧ fs'.nodes p = some .dir ∧ p <+: B)
  files : ∀ j, fs.Outside B j → fs'.data j = fs.data j ∧ fs'.mode j = fs.mode j

end Savior
