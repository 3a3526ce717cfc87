import Verif.Spec.Disk
/-!
# Specification: what an extraction may make
-/

namespace Savior

/-- What kind of thing a node is. -/
def Node.kind : Node → Kind
  | .dir => .dir
  | .link _ => .symlink
  | .file _ => .file

/-- What a member may account for: itself, as what it is; and folders above it. (Not members `FolderSink` ignores or refuses.) -/
def MadeFor (B : Path) (x : Str × Kind) (L : Path) (n : Node) : Prop :=
  shouldIgnore x.1 = false ∧ B <+: namePlace B x.1 ∧
    ((L = namePlace B x.1 ∧ n.kind = x.2) ∨ (L <+: namePlace B x.1 ∧ L ≠ namePlace B x.1 ∧ n = .dir))

/-- Everything on the second disk was on the first, or a member accounts for it. -/
def MadeOnlyFor (B : Path) (plan : List (Str × Kind)) (fs fs' : FS) : Prop :=
  ∀ L n, fs'.nodes L = some n → fs.nodes L = some n ∨ ∃ x ∈ plan, MadeFor B x L n

end Savior
