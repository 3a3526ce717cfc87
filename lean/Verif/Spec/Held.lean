import Verif.Spec.Zip
import Verif.Spec.Spacing
import Verif.Tar
import Verif.SeekSource
/-!
# Specification: the checkpoints a user can hold

None, and every checkpoint that a run resumed from such a checkpoint has handed to its save consumer. Sinks, consumers, environments (read schedules, faults), step budgets
and the moment of the crash differ from run to run.
-/

namespace Savior

/-- For the zip archive `A`. -/
inductive ZipHeld (A : Archive) (D : Decomp) : Option ECkpt → Prop
  | start : ZipHeld A D none
  | save {ck ck'} (env : ZEnv) (F : Nat) (K : SinkM) (V : SaveCons) (k : K.St) (u : V.St) (T : Nat) : ZipHeld A D ck → AsksWithin V u T →
      ck' ∈ savedCks (zipResume A env D F K V ck k u).2.log → ZipHeld A D (some ck')

/-- For a tar archive that is the decompressed content of a file with the bytes `z`. A new source is made for every run. -/
inductive TarHeld (cfg : WrapCfg) (D : Decomp) (Z : TarFmt) (z : List Byte) : Option ECkpt → Prop
  | start : TarHeld cfg D Z z none
  | save {ck ck'} (sched : Nat → RsAct) (F : Nat) (pr : Ckpt → Int × Int) (K : SinkM) (V : SaveCons) (k : K.St) (u : V.St) (T : Nat) :
      TarHeld cfg D Z z ck → AsksWithin V u T →
      ck' ∈ savedCks (tarResume (wrapM cfg D seekM F) Z pr F K V ck (Wrap.new D seekM (Seek.newWithSize ⟨z, 0, sched, 0⟩ z.length)) k u).2.2.log →
      TarHeld cfg D Z z (some ck')

end Savior
