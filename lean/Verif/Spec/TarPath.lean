import Verif.Spec.Tar
import Verif.Spec.PathSink
/-!
# Specification: tar extraction into sinks that may fail at any time
-/

namespace Savior

/-- What a member should be once extracted. -/
def tarNodeOf (m : THdr × List Byte) : PNode :=
  match m.1.typ with
  | .dir => .dir
  | .symlink => .link m.1.link
  | _ => .file m.2

/-- What a path should hold after extracting these members: what the last supported one of that name says. -/
def tarNode (ms : List (THdr × List Byte)) (p : Str) : Option PNode :=
  ((ms.filter fun m => m.1.name = p ∧ m.1.typ ≠ .other).getLast?).map tarNodeOf

/-- The members are all of the sort the law covers. -/
def PathLaw.FitsMembers {K : SinkM} (P : PathLaw K) (ms : List (THdr × List Byte)) : Prop :=
  ∀ m ∈ ms, m.1.typ ≠ .other → P.Fits m.1.name (tarEntryOf m.1).kind

/-- Any number of runs over the stream `Y`, each ending in whatever way (failure, stop, success), each resumed from some
checkpoint handed to a save consumer before (not necessarily the last), or from nothing — or, after a run that was stopped,
from the checkpoint object that run worked with. The next run works on the same sink object or, in a new process, on a new
one over the same storage. Sources over the same stream (with their read schedules and faults), consumers and sinks may
misbehave within their contracts. The list has the checkpoints that may be resumed from. -/
inductive TarAttempts (Y : List Byte) (clean : Bool) (Ck : Ckpt → Nat → Prop) (F : Nat) (T : TarFmt) (K : SinkM) (k : K.St) : List ECkpt → K.St → Prop
  | refl : TarAttempts Y clean Ck F T K k [] k
  | step {hist ck before k1 k2} (X : TarSrc Y clean Ck F) (pr : Ckpt → Int × Int) (V : SaveCons) (u : V.St) :
      TarAttempts Y clean Ck F T K k hist k1 → ChooseCk hist ck before →
      K.Next (tarRun X T pr K V ck k1 u).2.2.sink k2 →
      TarAttempts Y clean Ck F T K k (before ++ savedCks (tarRun X T pr K V ck k1 u).2.2.log) k2
  | kept {hist ck before k1 k2} (X : TarSrc Y clean Ck F) (pr : Ckpt → Int × Int) (V : SaveCons) (u : V.St) :
      TarAttempts Y clean Ck F T K k hist k1 → ChooseCk hist ck before →
      (tarRun X T pr K V ck k1 u).1 = .error .stop →
      K.Next (tarRun X T pr K V ck k1 u).2.2.sink k2 →
      TarAttempts Y clean Ck F T K k [(tarRun X T pr K V ck k1 u).2.2.ck] k2

/-- The result of extracting these members: the regular files in order, with as many bytes as were kept of them. -/
def tarFiles {K : SinkM} (P : PathLaw K) (ms : List (THdr × List Byte)) : List Entry :=
  (ms.filter fun m => m.1.typ = .reg).map fun m => { tarEntryOf m.1 with woff := if P.shown m.1.name then (m.2.length : Int) else 0 }

/-- The names and kinds of a tar stream's supported members. -/
def tarPlan (ms : List (THdr × List Byte)) : List (Str × Kind) := (ms.filter fun m => m.1.typ ≠ .other).map fun m => (m.1.name, (tarEntryOf m.1).kind)

end Savior
