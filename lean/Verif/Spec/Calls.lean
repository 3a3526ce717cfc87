import Verif.Zip
import Verif.Tar
import Verif.Spec.Failures
/-!
# Specification: the calls an extraction makes on a sink

The log of an extraction is a ghost field of the model. `Calls` says that it is the truth: which calls were made on the
sink, in which order, with which results, and that the sink's state is what these calls leave.
-/

namespace Savior

/-- Events that are no calls on the sink. -/
def Ev.noted : Ev → Bool
  | .save _ _ => true
  | .progress _ => true
  | _ => false

/-- The sink got from `k` to its present state by the logged calls, whose logged results are what the sink answered, and
by closing writers. The Boolean says whether a writer was returned and not closed yet: only then is there a `Write`,
`Sync` or `Close`. With `tidy`, no writer is asked for while the previous one has not been closed. -/
inductive Calls (K : SinkM) (tidy : Bool) (k : K.St) : Bool → List Ev → K.St → Prop
  | start : Calls K tidy k false [] k
  | note {b l s} (ev : Ev) : Calls K tidy k b l s → ev.noted = true → Calls K tidy k b (l ++ [ev]) s
  | prealloc {b l s} (e : Entry) : Calls K tidy k b l s → Calls K tidy k b (l ++ [.prealloc e (K.preallocate e s).1]) (K.preallocate e s).2
  | mkdir {b l s} (e : Entry) : Calls K tidy k b l s → Calls K tidy k b (l ++ [.mkdir e (K.mkdir e s).1]) (K.mkdir e s).2
  | symlink {b l s} (e : Entry) (t : Str) : Calls K tidy k b l s → Calls K tidy k b (l ++ [.symlink e t (K.symlink e t s).1]) (K.symlink e t s).2
  | opened {b l s} (e : Entry) : Calls K tidy k b l s → (tidy = true → b = false) → (K.getWriter e s).1 = none →
      Calls K tidy k true (l ++ [.openW e none]) (K.getWriter e s).2
  | refused {b l s} (e : Entry) (x : Err) : Calls K tidy k b l s → (tidy = true → b = false) → (K.getWriter e s).1 = some x →
      Calls K tidy k b (l ++ [.openW e (some x)]) (K.getWriter e s).2
  | write {l s} (bs : List Byte) : Calls K tidy k true l s →
      Calls K tidy k true (l ++ [.write bs (K.write bs s).1.1 (K.write bs s).1.2.2]) (K.write bs s).2
  | sync {l s} : Calls K tidy k true l s → Calls K tidy k true (l ++ [.sync (K.sync s).1]) (K.sync s).2
  | close {l s} : Calls K tidy k true l s → Calls K tidy k false l (K.closeWriter s)

/-- Any number of zip and tar extractions into the same sink, of whatever archives, from whatever checkpoints (saved, made
up, or none), each ending in whatever way; the next one uses the same sink object or, in a new process, a new one over
the same storage. Every `Symlink` call they made is `ok`. -/
inductive Extractions (K : SinkM) (ok : Entry → Str → Prop) (k : K.St) : K.St → Prop
  | refl : Extractions K ok k k
  | zip {k1 k2} (A : Archive) (env : ZEnv) (D : Decomp) (F : Nat) (V : SaveCons) (u : V.St) (ck : Option ECkpt) :
      Extractions K ok k k1 →
      (∀ e t r, Ev.symlink e t r ∈ (zipResume A env D F K V ck k1 u).2.log → ok e t) →
      K.Next (zipResume A env D F K V ck k1 u).2.sink k2 → Extractions K ok k k2
  | tar {k1 k2} (S : SourceM) (hS : S.Conduit) (src : S.St) (T : TarFmt) (pr : Ckpt → Int × Int) (F : Nat) (V : SaveCons) (u : V.St)
      (ck : Option ECkpt) : Extractions K ok k k1 →
      (∀ e t r, Ev.symlink e t r ∈ (tarResume S T pr F K V ck src k1 u).2.2.log → ok e t) →
      K.Next (tarResume S T pr F K V ck src k1 u).2.2.sink k2 → Extractions K ok k k2

end Savior
