import Verif.Semirandom
/-!
# Generated test data: C53
-/

namespace Savior

/-- **C53**. Whatever numbers the random source produces, an output honouring the `io.Writer` contract is never handed more
than `length` bytes in all (none if `length` is negative), even if it fails, and when `Write` returns without an error it
has been handed exactly that many. (Lengths within 48 KiB of the largest int64 are excluded: the sum overflows.) -/
theorem C53_length (O : OutM) (hO : O.Contract) (rng : Nat → Nat) (length : Int) (hl : length + 49152 ≤ 9223372036854775808) (fuel : Nat) (out : O.St) :
    ((semiWrite O rng length fuel out).2.log.flatten.length : Int) ≤ max length 0 ∧
    ((semiWrite O rng length fuel out).1 = none → ((semiWrite O rng length fuel out).2.log.flatten.length : Int) = max length 0) := by
  obtain ⟨a, b⟩ := semiLoop_inv hO hl rng fuel (⟨out, 0, 0, [], []⟩ : SemiSt O) ⟨by simp; omega, by simp, by simp, by simp⟩ rfl
  exact ⟨a.le, b⟩

/-- The buffer of a finished run holds what was handed over. -/
theorem semi_buf_log (rng : Nat → Nat) (length : Int) (fuel : Nat) (s : SemiSt bufOut) (h : s.out = s.log.flatten) :
    (semiLoop rng length fuel s).2.out = (semiLoop rng length fuel s).2.log.flatten := by
  have lw : ∀ (seq : List Byte) (s : SemiSt bufOut), s.out = s.log.flatten → (lwWrite length seq s).2.out = (lwWrite length seq s).2.log.flatten := by
    intro seq s h
    unfold lwWrite
    split
    · exact h
    · simp [bufOut, h]
  have rp : ∀ (n : Nat) (seq : List Byte) (s : SemiSt bufOut), s.out = s.log.flatten → (semiReps length seq n s).2.out = (semiReps length seq n s).2.log.flatten := by
    intro n
    induction n with
    | zero => intro seq s h; exact h
    | succ n ih =>
      intro seq s h
      unfold semiReps
      simp only
      split
      · exact lw seq s h
      · exact ih seq _ (lw seq s h)
  have sq : ∀ (n : Nat) (s : SemiSt bufOut), (semiSeq rng n s).2.out = s.out := by
    intro n
    induction n with
    | zero => intro s; rfl
    | succ n ih => intro s; simp only [semiSeq]; rw [ih]; rfl
  have pk : ∀ (s : SemiSt bufOut), s.out = s.log.flatten → (semiPick rng s).2.out = (semiPick rng s).2.log.flatten := by
    intro s h
    unfold semiPick
    simp only
    split
    · exact h
    · simp only
      rw [sq, (semiSeq_spec rng _ _).2.2.2.2]
      exact h
  induction fuel generalizing s with
  | zero => exact h
  | succ n ih =>
    unfold semiLoop
    split
    · simp only
      have := rp (intn rng 24 (semiPick rng s).2).1 (semiPick rng s).1 (intn rng 24 (semiPick rng s).2).2 (pk s h)
      split
      · exact this
      · exact ih _ this
    · exact h

/-- **C53** (`Bytes`). When it finishes, `Bytes(length)` is `length` bytes long; none of them is 0xff. -/
theorem C53_bytes (rng : Nat → Nat) (length : Int) (h0 : 0 ≤ length) (hl : length + 49152 ≤ 9223372036854775808) (fuel : Nat)
    (hf : (semiBytes rng length fuel).1 = none) :
    ((semiBytes rng length fuel).2.length : Int) = length ∧ ∀ b ∈ (semiBytes rng length fuel).2, b ≠ 255 := by
  have hO : bufOut.Contract := fun bs s => ⟨Nat.le_refl _, fun _ => rfl⟩
  obtain ⟨a, b⟩ := semiLoop_inv hO hl rng fuel (⟨[], 0, 0, [], []⟩ : SemiSt bufOut) ⟨by simp; omega, by simp, by simp, by simp⟩ rfl
  have hlog := semi_buf_log rng length fuel ⟨[], 0, 0, [], []⟩ rfl
  have hs : (semiBytes rng length fuel).2 = (semiLoop rng length fuel (⟨[], 0, 0, [], []⟩ : SemiSt bufOut)).2.out := rfl
  rw [hs, hlog]
  refine ⟨?_, a.log⟩
  have := b hf
  omega

/-- **Termination is not guaranteed** for every random source: because each new sequence is put into a variable that shadows
the one written out (semirandom.go:28), only *re-used* sequences are ever written, and a source that never chooses to
re-use never gets anywhere, after however many rounds. -/
theorem C53_false_termination (length : Int) (h : 0 < length) : ∃ rng : Nat → Nat, ∀ fuel, (semiBytes rng length fuel).1 = some .diverge :=
  ⟨fun _ => 0, fun fuel => semiLoop_starve length h fuel _ rfl (fun _ _ => rfl)⟩

/-- A run that finishes: draw, make a sequence of 3 bytes, 0 repetitions; re-use it twice. -/
def semiToy : Nat → Nat := fun i => [0, 3, 7, 8, 9, 0, 99, 0, 2].getD i 0

example : semiBytes semiToy 5 2 = (none, [7, 8, 9, 7, 8]) := by decide +kernel

end Savior
