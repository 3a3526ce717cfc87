import Verif.Spec.Failures
import Verif.Zip
import Verif.Stack
/-!
# Sources and the save callback
-/

namespace Savior

theorem seek_conduit : seekM.Conduit := by
  intro C cb n s c
  show (Seek.read cb n s c).2.2 = c ∨ ∃ ck, (Seek.read cb n s c).2.2 = (cb ck c).1
  have hs : (Seek.handleSave cb s c).2 = c ∨ ∃ ck, (Seek.handleSave cb s c).2 = (cb ck c).1 := by
    unfold Seek.handleSave
    split
    · split
      · exact Or.inr ⟨_, rfl⟩
      · exact Or.inl rfl
    · exact Or.inl rfl
  unfold Seek.read
  split
  · exact Or.inl rfl
  · split
    · exact Or.inl rfl
    · simp only []
      split
      · exact Or.inl rfl
      · split
        · exact Or.inl rfl
        · split <;> exact hs

theorem wrap_reports (cfg : WrapCfg) (D : Decomp) (I : SourceM) (F : Nat) : (wrapM cfg D I F).Reports := by
  intro C cb n s c
  show (Wrap.read cfg D I F cb n s c).2.2 = c ∨
    ∃ ck, (Wrap.read cfg D I F cb n s c).2.2 = (cb ck c).1 ∧ (Wrap.read cfg D I F cb n s c).1.2 = (cb ck c).2
  unfold Wrap.read
  split
  · exact Or.inl rfl
  · simp only []
    split
    · split
      · exact Or.inl rfl
      · split
        · exact Or.inl rfl
        · split
          · exact Or.inl rfl
          · exact Or.inr ⟨_, rfl, rfl⟩
    · exact Or.inl rfl

theorem SourceM.Reports.conduit {S : SourceM} (h : S.Reports) : S.Conduit := by
  intro C cb n s c
  rcases h C cb n s c with a | ⟨ck, a, _⟩
  · exact Or.inl a
  · exact Or.inr ⟨ck, a⟩

theorem stack_conduit (F : Nat) (ls : List Layer) : (stackM F ls).Conduit := by
  cases ls with
  | nil => exact seek_conduit
  | cons l ls => exact (wrap_reports l.cfg l.D (stackM F ls) F).conduit

end Savior
