import Verif.Spec.Zip
import Verif.Stack
/-!
# Specification: progress of a tar extraction (C88)
-/

namespace Savior

/-- The progress values passed to the progress consumer during a run, in order. -/
def reported : List Ev → List (Int × Int)
  | [] => []
  | .progress p :: t => p :: reported t
  | _ :: t => reported t

/-- A fraction between 0 and 1. -/
def Fraction (p : Int × Int) : Prop := 0 ≤ p.1 ∧ p.1 ≤ p.2 ∧ 0 < p.2

/-- Of the same total, and not less. -/
def NotBack (p q : Int × Int) : Prop := p.2 = q.2 ∧ p.1 ≤ q.1

/-- Not back, and still a fraction if it was one. -/
def Ahead (p q : Int × Int) : Prop := NotBack p q ∧ (Fraction p → Fraction q)

/-- The size of the file below a stack of sources. -/
def stackSize (F : Nat) : (ls : List Layer) → (stackM F ls).St → Int
  | [], s => SeekSt.size s
  | _ :: ls, s => stackSize F ls (WrapSt.src s)

/-- The innermost checkpoint, the one of the file, is not beyond `size`. -/
def CkWithin (size : Int) : List Layer → Option Ckpt → Prop
  | _, none => True
  | [], some ck => ck.offset ≤ size
  | _ :: ls, some (.dec _ _ sck _ _) => CkWithin size ls sck
  | _ :: _, some (.plain _) => True

end Savior
