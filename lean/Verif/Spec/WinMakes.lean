import Verif.Spec.Win
import Verif.Spec.Exact
/-!
# Specification: what an extraction makes on Windows
-/

namespace Savior

/-- What is made for a member of a kind: for links, regular files. -/
def winMade : Kind → Kind
  | .symlink => .file
  | k => k

/-- What a member may account for on Windows: itself, as what it is there; and folders above it, the volume included. -/
def MadeForW (w : WCfg) (x : Str × Kind) (L : Path) (n : Node) : Prop :=
  shouldIgnore x.1 = false ∧ ∃ Q, w.placeOf x.1 = some Q ∧ ((L = Q ∧ n.kind = winMade x.2) ∨ (L <+: Q ∧ L ≠ Q ∧ n = .dir))

/-- Everything on the second disk was on the first, or a member accounts for it. -/
def MadeOnlyForW (w : WCfg) (plan : List (Str × Kind)) (fs fs' : FS) : Prop :=
  ∀ L n, fs'.nodes L = some n → fs.nodes L = some n ∨ ∃ x ∈ plan, MadeForW w x L n

/-- What an archive puts at the place `L` on Windows: the member whose name leads there, a link being a file with the target's text; or a folder, if there are
members below. -/
def TreeOfW (w : WCfg) (node : Str → Option PNode) (L : Path) (n : PNode) : Prop :=
  (∃ p m, shouldIgnore p = false ∧ node p = some m ∧ w.placeOf p = some L ∧ n = winNode m) ∨
  (n = .dir ∧ ∃ p m Q, shouldIgnore p = false ∧ node p = some m ∧ w.placeOf p = some Q ∧ L <+: Q ∧ L ≠ Q)

end Savior
