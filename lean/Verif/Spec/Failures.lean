import Verif.Extract
/-!
# Specification: failing calls, and sources that hand callback errors to the reader
-/

namespace Savior

/-- The error of a failing call. -/
def Ev.failed : Ev → Option Err
  | .prealloc _ r => r
  | .mkdir _ r => r
  | .symlink _ _ r => r
  | .openW _ r => r
  | .write _ _ r => r
  | .sync r => r
  | .save _ (.error x) => some x
  | .save _ (.ok _) => none
  | .progress _ => none

/-- The error of a failing sink call. -/
def Ev.sinkError : Ev → Option Err
  | .save _ _ => none
  | ev => ev.failed

/-- Calls made while saving a checkpoint: `Sync` and the consumer's `Save`. -/
def Ev.saving : Ev → Bool
  | .sync _ => true
  | .save _ _ => true
  | _ => false

/-- Reading runs the save callback at most once. -/
def SourceM.Conduit (S : SourceM) : Prop := ∀ (C : Type) (cb : Callback C) (n : Nat) (s : S.St) (c : C),
  (S.read cb n s c).2.2 = c ∨ ∃ ck, (S.read cb n s c).2.2 = (cb ck c).1

/-- Reading runs the save callback at most once, and reports what it returned. -/
def SourceM.Reports (S : SourceM) : Prop := ∀ (C : Type) (cb : Callback C) (n : Nat) (s : S.St) (c : C),
  (S.read cb n s c).2.2 = c ∨ ∃ ck, (S.read cb n s c).2.2 = (cb ck c).1 ∧ (S.read cb n s c).1.2 = (cb ck c).2

end Savior
