import Verif.WrapLemmas
/-!
# A small decompressor for examples

Used only to show that hypotheses can be met and to exhibit counterexamples; no theorem about /repo rests on it.

Format: blocks, each a length byte `k` followed by `k` bytes (delivered plus one); a zero length byte ends the stream.
With `empties` there are also empty blocks (length byte 255); with `eager` it reads its input in chunks of four and
hands out its last bytes together with EOF.
-/

namespace Savior

/-- Bytes left in the current block; end of stream seen. -/
structure ToySt where
  rem : Nat
  fin : Bool
  deriving DecidableEq, Repr

/-- The format of the file comment. -/
def toyFeed (empties : Bool) (s : ToySt) (b : Byte) : Option (ToySt × List Byte) :=
  match s.rem with
  | 0 => if b = 0 then some (⟨0, true⟩, []) else if empties && b = 255 then some (⟨0, false⟩, []) else some (⟨b.toNat, false⟩, [])
  | k + 1 => some (⟨k, false⟩, [b + 1])

/-- The toy decompressor. -/
def toy (empties eager : Bool) : Decomp where
  St := ToySt
  start := ⟨0, false⟩
  inHeader _ := false
  ask _ := if eager then 4 else 0
  feed := toyFeed empties
  fin s := s.fin
  eofOK _ := false
  canSave s := s.rem == 0 && !s.fin
  saveOK _ := true
  eager := eager
  enc s := [s.rem]
  dec l := match l with | [r] => some ⟨r, false⟩ | _ => none

theorem toy_law (em eg : Bool) : (toy em eg).Law where
  start_fin := rfl
  header_fin := by intro st h; cases h
  header_out := by intro st b st' out h; cases h
  header_back := by intro st b st' out _ h; cases h
  save_fin := by
    intro st h
    simp [toy] at h ⊢
    exact h.2
  dec_enc := by
    intro st h
    left
    simp [toy] at h ⊢
    cases st; simp_all

theorem toy_noBoundary (k : Nat) : NoBoundary (toy false false) ⟨k + 1, false⟩ := by
  intro bs st' h
  cases bs with
  | nil =>
    have h2 : (⟨k + 1, false⟩ : ToySt) = st' := congrArg (fun p => p.2.1) h
    rw [← h2]
    rfl
  | cons b bs =>
    simp [Decomp.feedAll, toy, toyFeed] at h

theorem toy_byteLaw : (toy false false).ByteLaw where
  notEager := rfl
  askByte := fun _ _ => rfl
  noSilent := by
    rintro ⟨rem, f⟩ b st' hs h
    cases rem with
    | zero =>
      simp only [toy, toyFeed] at h
      split at h
      · have h2 : (⟨0, true⟩ : ToySt) = st' := congrArg Prod.fst (Option.some.inj h)
        rw [← h2]
        intro bs st'' hfa
        have h3 : (⟨0, true⟩ : ToySt) = st'' :=
          congrArg (fun p => p.2.1) ((feedAll_fin (toy false false) ⟨0, true⟩ bs rfl).symm.trans hfa)
        rw [← h3]; rfl
      · rename_i hb
        simp only [Bool.false_and] at h
        have h2 : (⟨b.toNat, false⟩ : ToySt) = st' := congrArg Prod.fst (Option.some.inj h)
        obtain ⟨k, hk⟩ : ∃ k, b.toNat = k + 1 := by
          refine ⟨b.toNat - 1, ?_⟩
          have : b.toNat ≠ 0 := fun hc => hb (UInt8.toNat_inj.mp (by simpa using hc))
          omega
        rw [← h2, hk]
        exact toy_noBoundary k
    | succ k => simp [toy] at hs

end Savior
