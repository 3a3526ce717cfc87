import Verif.Spec.PathSink
import Verif.Spec.TarPath
/-!
# Specification: retrying with the same checkpoint object

`Resume` works on the `*ExtractorCheckpoint` it is given, and hands that same object to the save consumer. A caller that
keeps it in memory, instead of decoding a stored copy, finds it changed when `Resume` returns.
-/

namespace Savior

/-- What a caller has in hand: a checkpoint (or none) and a sink. At first one chosen after any history of runs as in
`ZipAttempts`; then, any number of times, it is passed to `Resume`, which may end in any way (failure, stop, success), and the
caller goes on with the checkpoint object as that run left it (`again`), with a stored copy of one handed to the save
consumer by that run (`saved`), or from nothing (`anew`). -/
inductive ZipRetries (A : Archive) (D : Decomp) (F : Nat) (K : SinkM) (k : K.St) : Option ECkpt → K.St → Prop
  | start {hist ck before k1} : ZipAttempts A D F K k hist k1 → ChooseCk hist ck before → ZipRetries A D F K k ck k1
  | again {ck k1 k2} (env : ZEnv) (V : SaveCons) (u : V.St) : env.Honest A → ZipRetries A D F K k ck k1 →
      K.Next (zipResume A env D F K V ck k1 u).2.sink k2 → ZipRetries A D F K k (some (zipResume A env D F K V ck k1 u).2.ck) k2
  | saved {ck c k1 k2} (env : ZEnv) (V : SaveCons) (u : V.St) : env.Honest A → ZipRetries A D F K k ck k1 →
      K.Next (zipResume A env D F K V ck k1 u).2.sink k2 → c ∈ savedCks (zipResume A env D F K V ck k1 u).2.log →
      ZipRetries A D F K k (some c) k2
  | anew {ck k1 k2} (env : ZEnv) (V : SaveCons) (u : V.St) : env.Honest A → ZipRetries A D F K k ck k1 →
      K.Next (zipResume A env D F K V ck k1 u).2.sink k2 → ZipRetries A D F K k none k2

/-- The same for tar streams. -/
inductive TarRetries (Y : List Byte) (clean : Bool) (Ck : Ckpt → Nat → Prop) (F : Nat) (T : TarFmt) (K : SinkM) (k : K.St) : Option ECkpt → K.St → Prop
  | start {hist ck before k1} : TarAttempts Y clean Ck F T K k hist k1 → ChooseCk hist ck before → TarRetries Y clean Ck F T K k ck k1
  | again {ck k1 k2} (X : TarSrc Y clean Ck F) (pr : Ckpt → Int × Int) (V : SaveCons) (u : V.St) : TarRetries Y clean Ck F T K k ck k1 →
      K.Next (tarRun X T pr K V ck k1 u).2.2.sink k2 → TarRetries Y clean Ck F T K k (some (tarRun X T pr K V ck k1 u).2.2.ck) k2

end Savior
