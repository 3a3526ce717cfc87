import Verif.Spec.Progress
/-!
# Specification: float64 (C28, C41, C88)

`Progress()` and the progress callbacks carry float64 values: `float64(a) / float64(b)` (seeksource.go:178-185, zipextractor.go:276-279). Elsewhere in
the model a progress value is the pair `(a, b)`.
-/

namespace Savior

/-- The finite float64 values: `m * 2^(e - 1074)` with a significand of 53 bits. -/
def IsF64 (x : Rat) : Prop := ∃ (m : Int) (e : Nat), m.natAbs < 2 ^ 53 ∧ e ≤ 2045 ∧ x * 2 ^ 1074 = m * 2 ^ e

/-- `y` is a float64 value nearest to `x`. -/
def Nearest (x y : Rat) : Prop := IsF64 y ∧ ∀ z, IsF64 z → (x - y).abs ≤ (x - z).abs

/-- `rnd` rounds to nearest, whatever it does with ties, as conversion from int64 and division do. -/
def Rounds (rnd : Rat → Rat) : Prop := ∀ x : Rat, x.abs ≤ 2 ^ 63 → Nearest x (rnd x)

/-- `float64(a) / float64(b)`. -/
def toF64 (rnd : Rat → Rat) (p : Int × Int) : Rat := rnd (rnd p.1 / rnd p.2)

end Savior
