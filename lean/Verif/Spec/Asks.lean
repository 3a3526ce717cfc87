import Verif.Zip
import Verif.Tar
/-!
# Specification: what an extraction asks its save consumer

Like `Calls` for sinks: the log's saves are the truth.
-/

namespace Savior

/-- The save consumer got from state `u` to its present state by the logged `Save` calls, whose logged answers are those it gave,
with any number of `ShouldSave` calls in between. -/
inductive Asks (V : SaveCons) (u : V.St) : List (ECkpt × Except Err Action) → V.St → Prop
  | start : Asks V u [] u
  | should {l s} (n : Nat) : Asks V u l s → Asks V u l (V.shouldSave n s).2
  | save {l s} (c : ECkpt) : Asks V u l s → Asks V u (l ++ [(c, (V.save c s).1)]) (V.save c s).2

end Savior
