import Verif.Spec.Disk
import Verif.Spec.Members
/-!
# Specification: the permissions of extracted files
-/

namespace Savior

/-- The permission bits of the regular file at a place, if there is one. -/
def FS.permAt (fs : FS) (L : Path) : Option Nat :=
  match fs.nodes L with
  | some (.file i) => some (fs.mode i)
  | _ => none

/-- The special bits (set-uid 0o4000, set-gid 0o2000, sticky 0o1000) a Go `os.FileMode` asks for: its bits 23, 22 and 20. -/
def wantSpecial (mode : Nat) : Nat :=
  (if mode.testBit 23 then 0o4000 else 0) + (if mode.testBit 22 then 0o2000 else 0) + (if mode.testBit 20 then 0o1000 else 0)

/-- The mode bits a Go `os.FileMode` asks for: nine permission bits, with read and write for everybody added, and the special bits. -/
def wantPerm (mode : Nat) : Nat := ((mode ||| 0o666) &&& 0o777) + wantSpecial mode

/-- `m` without the bits of `mask`. -/
def without (m mask : Nat) : Nat := m ^^^ (m &&& mask)

theorem without_bit (m mask b : Nat) : (without m mask).testBit b = (m.testBit b && !mask.testBit b) := by
  unfold without
  rw [Nat.testBit_xor, Nat.testBit_and]
  cases m.testBit b <;> cases mask.testBit b <;> rfl

end Savior
