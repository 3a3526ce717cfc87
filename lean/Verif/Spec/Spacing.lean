import Verif.Extract
import Verif.Decomp
/-!
# Specification: how much can be lost

What a save consumer asks for, and how many bytes have been handed to writers since the last checkpoint it got.
-/

namespace Savior

/-- The states a save consumer can get into, from `u`. -/
inductive ConsReach (V : SaveCons) (u : V.St) : V.St → Prop
  | start : ConsReach V u u
  | ask {v} (n : Nat) : ConsReach V u v → ConsReach V u (V.shouldSave n v).2
  | save {v} (ck : ECkpt) : ConsReach V u v → ConsReach V u (V.save ck v).2

/-- Asked about the amounts `ns`, one after the other, the consumer says no every time. -/
inductive SaysNo (V : SaveCons) : V.St → List Nat → V.St → Prop
  | nil {v} : SaysNo V v [] v
  | snoc {v ns w} (n : Nat) : SaysNo V v ns w → (V.shouldSave n w).1 = false → SaysNo V v (ns ++ [n]) (V.shouldSave n w).2

/-- The consumer, starting at `u`, never lets more than `T` bytes go by without asking for a checkpoint. -/
def AsksWithin (V : SaveCons) (u : V.St) (T : Nat) : Prop :=
  ∀ v ns w, ConsReach V u v → SaysNo V v ns w → ns.sum ≤ T

/-- How many bytes have been handed to writers since the last checkpoint (or the beginning). -/
def unsaved (log : List Ev) : Nat :=
  log.foldl (fun n ev => match ev with | .write bs _ _ => n + bs.length | .save _ _ => 0 | _ => n) 0

/-- The same, for the file being written only: since the last checkpoint, or since the file was opened. -/
def unsavedHere (log : List Ev) : Nat :=
  log.foldl (fun n ev => match ev with | .write bs _ _ => n + bs.length | .save _ _ => 0 | .openW _ _ => 0 | _ => n) 0

/-- How many files have been opened since the last checkpoint (or the beginning). -/
def opensSince (log : List Ev) : Nat :=
  log.foldl (fun n ev => match ev with | .openW _ _ => n + 1 | .save _ _ => 0 | _ => n) 0

/-- No `Sync` has failed. -/
def SyncsFine (log : List Ev) : Prop := ∀ e, Ev.sync (some e) ∉ log

/-- How many bytes a decompressor in state `st`, about to read `z`, puts out until it next gets to a place where it can be saved (or
to the end). -/
def stride (D : Decomp) (st : D.St) : List Byte → Nat
  | [] => 0
  | b :: z =>
    if D.fin st then 0
    else match D.feed st b with
      | none => 0
      | some (st', out) => out.length + if D.canSave st' then 0 else stride D st' z

/-- From anywhere in `z` it is at most `G` bytes to the next such place. -/
def Strides (D : Decomp) (G : Nat) (st : D.St) : List Byte → Prop
  | [] => True
  | b :: z => stride D st (b :: z) ≤ G ∧ ∀ st' out, D.feed st b = some (st', out) → Strides D G st' z

end Savior
