import Verif.Spec.Makes
import Verif.Spec.PathSink
/-!
# Specification: the tree an archive describes
-/

namespace Savior

/-- What an archive puts at the place `L`, given what each member name holds (`node`): the member whose name leads there; or a folder, if there are members
below. Members FolderSink ignores ("Icon\\r") do not count. -/
def TreeOf (node : Str → Option PNode) (B L : Path) (n : PNode) : Prop :=
  (∃ p, shouldIgnore p = false ∧ node p = some n ∧ L = namePlace B p) ∨
  (n = .dir ∧ ∃ p m, shouldIgnore p = false ∧ node p = some m ∧ L <+: namePlace B p ∧ L ≠ namePlace B p)

/-- There is nothing in the folder `B`. -/
def NothingIn (B : Path) (fs : FS) : Prop := ∀ L, B <+: L → L ≠ B → fs.nodes L = none

end Savior
