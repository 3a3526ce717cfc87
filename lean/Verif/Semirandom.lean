import Verif.SeekSource
/-!
# semirandom (semirandom/semirandom.go)

The generator of the repository's test data.
-/

namespace Savior

/-- An `io.Writer`: the bytes, the count and error it returns. -/
structure OutM where
  St : Type
  write : List Byte → St → (Nat × Option Err) × St

/-- The contract of `io.Writer`: never more than it was given, and an error if less. -/
def OutM.Contract (O : OutM) : Prop :=
  ∀ bs s, (O.write bs s).1.1 ≤ bs.length ∧ ((O.write bs s).1.2 = none → (O.write bs s).1.1 = bs.length)

/-- The state of a run: the output, the random source's position, `limitedWriter.c` (semirandom.go:54-59), the old sequences
and (ghost) everything handed to the output, oldest first. -/
structure SemiSt (O : OutM) where
  out : O.St
  tick : Nat
  c : Int
  old : List (List Byte)
  log : List (List Byte)

section
variable {O : OutM}

/-- `rng.Intn(n)` for `n > 0`, with an arbitrary sequence of raw numbers (math/rand: some number in `[0,n)`). -/
def intn (rng : Nat → Nat) (n : Nat) (s : SemiSt O) : Nat × SemiSt O := (rng s.tick % n, { s with tick := s.tick + 1 })

/-- `limitedWriter.Write` (semirandom.go:63-78), int64 arithmetic. -/
def lwWrite (max : Int) (buf : List Byte) (s : SemiSt O) : (Nat × Option Err) × SemiSt O :=
  if s.c ≥ max then ((buf.length, none), s)
  else
    let nextEnd := wrap64 (s.c + buf.length)
    let toWrite : Int := if nextEnd > max then max - s.c else buf.length
    let bs := buf.take toWrite.toNat
    let q := O.write bs s.out
    (q.1, { s with out := q.2, c := wrap64 (s.c + q.1.1), log := s.log ++ [bs] })

/-- `make([]byte, seqLength)` filled (semirandom.go:28-32). -/
def semiSeq (rng : Nat → Nat) : Nat → SemiSt O → List Byte × SemiSt O
  | 0, s => ([], s)
  | n + 1, s =>
    let q := intn rng 255 s
    let r := semiSeq rng n q.2
    (UInt8.ofNat q.1 :: r.1, r.2)

/-- The repetitions (semirandom.go:36-42). -/
def semiReps (max : Int) (seq : List Byte) : Nat → SemiSt O → Option Err × SemiSt O
  | 0, s => (none, s)
  | n + 1, s =>
    let q := lwWrite max seq s
    match q.1.2 with
    | some e => (some e, q.2)
    | none => semiReps max seq n q.2

/-- One round of the loop up to the repetitions: `seq` (semirandom.go:22-34). The `seq` made in the else branch is another
variable, so the outer one stays nil. The condition calls `rng.Intn(100)` before looking at `oldSeqs`. -/
def semiPick (rng : Nat → Nat) (s : SemiSt O) : List Byte × SemiSt O :=
  let q := intn rng 100 s
  if q.1 ≥ 80 ∧ q.2.old.length > 0 then
    let i := intn rng q.2.old.length q.2
    (i.2.old.getD i.1 [], i.2)
  else
    let l := intn rng (48 * 1024) q.2
    let r := semiSeq rng l.1 l.2
    ([], { r.2 with old := r.2.old ++ [r.1] })

/-- The loop (semirandom.go:21-43). -/
def semiLoop (rng : Nat → Nat) (max : Int) : Nat → SemiSt O → Option Err × SemiSt O
  | 0, s => (if s.c < max then some .diverge else none, s)
  | fuel + 1, s =>
    if s.c < max then
      let p := semiPick rng s
      let k := intn rng 24 p.2
      let r := semiReps max p.1 k.1 k.2
      match r.1 with
      | some e => (some e, r.2)
      | none => semiLoop rng max fuel r.2
    else (none, s)

/-- `semirandom.Write` (semirandom.go:12-46). The result is `diverge` if it is not done after `fuel` rounds. -/
def semiWrite (O : OutM) (rng : Nat → Nat) (length : Int) (fuel : Nat) (out : O.St) : Option Err × SemiSt O :=
  semiLoop rng length fuel ⟨out, 0, 0, [], []⟩

/-- `bytes.Buffer` as an output. -/
def bufOut : OutM where
  St := List Byte
  write bs s := ((bs.length, none), s ++ bs)

/-- `semirandom.Bytes` (semirandom.go:48-52). -/
def semiBytes (rng : Nat → Nat) (length : Int) (fuel : Nat) : Option Err × List Byte :=
  let q := semiWrite bufOut rng length fuel []
  (q.1, q.2.out)

/-! ## Invariant -/

/-- Long as the limit is, one more sequence does not overflow. -/
def SemiMax (max : Int) : Prop := max + 49152 ≤ 9223372036854775808

/-- What holds throughout: the count is what was handed over, within the limit, and the sequences are short. `exact` says
that every write so far was accepted. -/
structure SemiInv (max : Int) (s : SemiSt O) : Prop where
  le : (s.log.flatten.length : Int) ≤ Max.max max 0
  old : ∀ q ∈ s.old, q.length < 49152
  bytes : ∀ q ∈ s.old, ∀ b ∈ q, b ≠ 255
  log : ∀ b ∈ s.log.flatten, b ≠ 255

theorem lwWrite_inv (hO : O.Contract) {max : Int} (hm : SemiMax max) (seq : List Byte) (hs : seq.length < 49152) (hb : ∀ b ∈ seq, b ≠ 255)
    (s : SemiSt O) (h : SemiInv max s) (hc : s.c = s.log.flatten.length) :
    SemiInv max (lwWrite max seq s).2 ∧ ((lwWrite max seq s).1.2 = none → (lwWrite max seq s).2.c = (lwWrite max seq s).2.log.flatten.length) := by
  unfold lwWrite
  split
  · exact ⟨h, fun _ => hc⟩
  · rename_i hlt
    simp only
    have h0 : 0 ≤ s.c := by omega
    have hw : wrap64 (s.c + seq.length) = s.c + seq.length := by
      unfold SemiMax at hm
      simp only [wrap64]; omega
    rw [hw]
    generalize htw : (if s.c + (seq.length : Int) > max then max - s.c else (seq.length : Int)) = tw
    have htw' : 0 ≤ tw ∧ s.c + tw ≤ max ∧ tw ≤ seq.length := by
      rw [← htw]; split <;> omega
    have hlen : (seq.take tw.toNat).length = tw.toNat := by rw [List.length_take]; omega
    have hfl : (s.log ++ [seq.take tw.toNat]).flatten = s.log.flatten ++ seq.take tw.toNat := by simp
    refine ⟨⟨?_, h.old, h.bytes, ?_⟩, ?_⟩
    · simp only
      rw [hfl, List.length_append, hlen]; omega
    · simp only
      rw [hfl]
      intro b hb'
      rcases List.mem_append.1 hb' with hb' | hb'
      · exact h.log b hb'
      · exact hb b (List.mem_of_mem_take hb')
    · intro hn
      have := (hO (seq.take tw.toNat) s.out).2 hn
      rw [hfl, List.length_append, this, hlen]
      unfold SemiMax at hm
      simp only [wrap64]; omega

theorem semiReps_inv (hO : O.Contract) {max : Int} (hm : SemiMax max) (seq : List Byte) (hs : seq.length < 49152) (hb : ∀ b ∈ seq, b ≠ 255)
    (n : Nat) (s : SemiSt O) (h : SemiInv max s) (hc : s.c = s.log.flatten.length) :
    SemiInv max (semiReps max seq n s).2 ∧ ((semiReps max seq n s).1 = none → (semiReps max seq n s).2.c = (semiReps max seq n s).2.log.flatten.length) := by
  induction n generalizing s with
  | zero => exact ⟨h, fun _ => hc⟩
  | succ n ih =>
    unfold semiReps
    simp only
    obtain ⟨a, b⟩ := lwWrite_inv hO hm seq hs hb s h hc
    split
    · exact ⟨a, fun h => by cases h⟩
    · rename_i hn
      exact ih _ a (b hn)

theorem semiSeq_spec (rng : Nat → Nat) (n : Nat) (s : SemiSt O) : (semiSeq rng n s).1.length = n ∧ (∀ b ∈ (semiSeq rng n s).1, b ≠ 255) ∧
    (semiSeq rng n s).2.c = s.c ∧ (semiSeq rng n s).2.old = s.old ∧ (semiSeq rng n s).2.log = s.log := by
  induction n generalizing s with
  | zero => simp [semiSeq]
  | succ n ih =>
    obtain ⟨a, b, c, d, e⟩ := ih (intn rng 255 s).2
    refine ⟨by simp [semiSeq, a], ?_, c, d, e⟩
    intro x hx
    simp only [semiSeq, List.mem_cons] at hx
    rcases hx with rfl | hx
    · intro h
      have h2 : (UInt8.ofNat (intn rng 255 s).1).toNat = 255 := by rw [h]; rfl
      have h3 : (intn rng 255 s).1 < 255 := Nat.mod_lt _ (by decide)
      rw [UInt8.toNat_ofNat'] at h2
      omega
    · exact b x hx

theorem semiPick_inv {max : Int} (rng : Nat → Nat) (s : SemiSt O) (h : SemiInv max s) :
    SemiInv max (semiPick rng s).2 ∧ (semiPick rng s).1.length < 49152 ∧ (∀ b ∈ (semiPick rng s).1, b ≠ 255) ∧
    (semiPick rng s).2.c = s.c ∧ (semiPick rng s).2.log = s.log := by
  unfold semiPick
  simp only
  split
  · rename_i hc
    have hlt : (intn rng (intn rng 100 s).2.old.length (intn rng 100 s).2).1 < s.old.length := Nat.mod_lt _ hc.2
    have hmem : (s.old.getD (intn rng (intn rng 100 s).2.old.length (intn rng 100 s).2).1 []) ∈ s.old := by
      rw [List.getD_eq_getElem?_getD, List.getElem?_eq_getElem hlt]
      exact List.getElem_mem hlt
    exact ⟨⟨h.le, h.old, h.bytes, h.log⟩, h.old _ hmem, h.bytes _ hmem, rfl, rfl⟩
  · obtain ⟨a, b, c, d, e⟩ := semiSeq_spec rng (intn rng (48 * 1024) (intn rng 100 s).2).1 (intn rng (48 * 1024) (intn rng 100 s).2).2
    refine ⟨⟨?_, ?_, ?_, ?_⟩, by simp, by simp, c, e⟩
    · simp only; rw [e]; exact h.le
    · simp only; rw [d]
      intro q hq
      rcases List.mem_append.1 hq with hq | hq
      · exact h.old q hq
      · rw [List.mem_singleton] at hq
        rw [hq, a]
        exact Nat.mod_lt _ (by decide)
    · simp only; rw [d]
      intro q hq
      rcases List.mem_append.1 hq with hq | hq
      · exact h.bytes q hq
      · rw [List.mem_singleton] at hq
        rw [hq]
        exact b
    · simp only; rw [e]; exact h.log

theorem semiLoop_inv (hO : O.Contract) {max : Int} (hm : SemiMax max) (rng : Nat → Nat) (fuel : Nat) (s : SemiSt O) (h : SemiInv max s)
    (hc : s.c = s.log.flatten.length) :
    SemiInv max (semiLoop rng max fuel s).2 ∧ ((semiLoop rng max fuel s).1 = none →
      ((semiLoop rng max fuel s).2.log.flatten.length : Int) = Max.max max 0) := by
  induction fuel generalizing s with
  | zero =>
    unfold semiLoop
    refine ⟨h, ?_⟩
    have := h.le
    split
    · intro h; cases h
    · intro _; simp only; omega
  | succ n ih =>
    unfold semiLoop
    split
    · simp only
      obtain ⟨a, b, c, d, e⟩ := semiPick_inv (max := max) rng s h
      have a' : SemiInv max (intn rng 24 (semiPick rng s).2).2 := ⟨a.le, a.old, a.bytes, a.log⟩
      obtain ⟨f, g⟩ := semiReps_inv hO hm (semiPick rng s).1 b c (intn rng 24 (semiPick rng s).2).1 _ a'
        (by show (semiPick rng s).2.c = (semiPick rng s).2.log.flatten.length; rw [d, e]; exact hc)
      split
      · exact ⟨f, fun h => by cases h⟩
      · rename_i hn
        exact ih _ f (g hn)
    · refine ⟨h, fun _ => ?_⟩
      have := h.le
      simp only; omega

/-- A random source that never draws 80 or more in the first place starves the loop: nothing is ever written. -/
theorem semiLoop_starve (max : Int) (hmax : 0 < max) (fuel : Nat) (s : SemiSt O) (hc : s.c = 0)
    (hO : ∀ bs s, (O.write bs s).1 = (bs.length, none)) :
    (semiLoop (fun _ => 0) max fuel s).1 = some .diverge := by
  induction fuel generalizing s with
  | zero => unfold semiLoop; rw [hc, if_pos hmax]
  | succ n ih =>
    unfold semiLoop
    rw [if_pos (by omega)]
    have hp : semiPick (fun _ => 0) s = ([], (semiPick (fun _ => 0) s).2) := by simp [semiPick, intn]
    have hk : (intn (fun _ => 0) 24 (semiPick (fun _ => 0) s).2).1 = 0 := by simp [intn]
    simp only
    rw [hk]
    unfold semiReps
    simp only
    apply ih
    have := (semiSeq_spec (O := O) (fun _ => 0) (intn (fun _ => 0) (48 * 1024) (intn (fun _ => 0) 100 s).2).1 (intn (fun _ => 0) (48 * 1024) (intn (fun _ => 0) 100 s).2).2).2.2.1
    simp only [semiPick, intn] at this ⊢
    simp only [show ¬ (0 % 100 ≥ 80 ∧ s.old.length > 0) from by simp, if_false]
    rw [this]; exact hc

end
end Savior
