import Verif.Float
import Verif.Props.Seek
import Verif.Props.Decompress
import Verif.Props.ZipRuns
import Verif.Props.Progress
/-!
# Progress values as they are: float64 (C28, C41, C88)

`rnd` is any function that rounds to a nearest float64 value (`Rounds` in `Spec/Float.lean`).
-/

namespace Savior
open Savior.Seek

theorem rounded_fractions {rnd : Rat → Rat} (h : Rounds rnd) {l : List (Int × Int)} (h1 : ∀ p ∈ l, 0 ≤ p.1 ∧ p.1 ≤ p.2 ∧ 0 < p.2)
    (h2 : l.Pairwise fun p q => p.2 = q.2 ∧ p.1 ≤ q.1) (hb : ∀ p ∈ l, p.2 ≤ 2 ^ 63) :
    (∀ x ∈ l.map (toF64 rnd), 0 ≤ x ∧ x ≤ 1) ∧ (l.map (toF64 rnd)).Pairwise (· ≤ ·) := by
  refine ⟨?_, ?_⟩
  · intro x hx
    obtain ⟨p, hp, rfl⟩ := List.mem_map.1 hx
    exact toF64_range h (h1 p hp) (hb p hp)
  · rw [List.pairwise_map]
    refine h2.imp_of_mem ?_
    intro p q hp hq hpq
    exact toF64_mono h (h1 p hp) (h1 q hq) (hb p hp) hpq

/-- **C28**, float64, any lawful source: what `Progress` returns is between 0 and 1. -/
theorem C28_float_range {rnd : Rat → Rat} (h : Rounds rnd) {S : SourceM} {Y : List Byte} {clean : Bool} (L : Lawful S Y clean) {C : Type} (cb : Callback C)
    (n : Nat) (hn : 0 < n) (reads : Nat) (s : S.St) (o : Nat) (c : C) (ha : L.At s o) (hb : (S.progress (drain S cb n reads s c).2.1).2 ≤ 2 ^ 63) :
    0 ≤ toF64 rnd (S.progress (drain S cb n reads s c).2.1) ∧ toF64 rnd (S.progress (drain S cb n reads s c).2.1) ≤ 1 :=
  toF64_range h (C28_progress_range L cb n hn reads s o c ha) hb

/-- **C28**, float64, seek sources: reading never takes `Progress` back; it is 0 at the start; up to 2^53 bytes it is 1 at the end only. -/
theorem C28_float_seek {rnd : Rat → Rat} (h : Rounds rnd) (g : Geo) (s : SeekSt) (o : Nat) (hs : AtS g s o) (hg : (g.size : Int) ≤ 2 ^ 63) :
    (∀ {C : Type} (cb : Callback C) (n : Nat) (c : C), toF64 rnd (seekM.progress s) ≤ toF64 rnd (seekM.progress (seekM.read cb (n + 1) s c).2.1)) ∧
    (o = 0 → toF64 rnd (seekM.progress s) = 0) ∧
    (0 < g.size → o = g.size → toF64 rnd (seekM.progress s) = 1) ∧
    ((g.size : Int) ≤ 2 ^ 53 → toF64 rnd (seekM.progress s) = 1 → o = g.size) := by
  obtain ⟨hp, r1, r2, r3, hend⟩ := C28_seek_progress g s o hs
  refine ⟨?_, ?_, ?_, ?_⟩
  · intro C cb n c
    obtain ⟨bs, e, s', em, h1, _, _, _, _, _, h7, _⟩ := read_spec g cb s o (n + 1) c hs (by omega)
    have hr : (seekM.read cb (n + 1) s c).2.1 = s' := by
      show (Seek.read cb (n + 1) s c).2.1 = s'
      rw [h1]
    rw [hr]
    obtain ⟨hp', q1, q2, q3, _⟩ := C28_seek_progress g s' _ h7
    refine toF64_mono h ⟨r1, r2, r3⟩ ⟨q1, q2, q3⟩ ?_ ?_
    · rw [hp]; split
      · decide
      · exact hg
    · rw [hp, hp']
      split
      · exact ⟨rfl, Int.le_refl _⟩
      · exact ⟨rfl, by dsimp only; omega⟩
  · intro ho
    rw [hp]
    split
    · exact (toF64_ends h (by decide) (by decide)).1
    · rw [ho]
      exact (toF64_ends h (by omega) hg).1
  · intro h0 ho
    rw [hp, if_neg (by omega), ho]
    exact (toF64_ends h (by omega) hg).2
  · intro hs53 h1
    rw [hp] at h1 r1 r2 r3
    split at h1
    · rw [(toF64_ends h (by decide) (by decide)).1] at h1
      exact absurd h1 (by decide)
    · rename_i hz
      rw [if_neg hz] at r2
      by_cases ho : o = g.size
      · exact ho
      · have r2 : (o : Int) ≤ g.size := r2
        have := toF64_one h (a := o) (b := g.size) (by omega) (by omega) hs53
        rw [h1] at this
        exact absurd this (by decide)

/-- **C28**, the bound 2^53 is needed: with a byte missing of 2^60, `Progress` returns 1. -/
theorem C28_float_large {rnd : Rat → Rat} (h : Rounds rnd) (rs : Rs) :
    (seekM.progress (Seek.resume (some (.plain (2 ^ 60 - 1))) (Seek.newWithSize rs (2 ^ 60))).2) = (2 ^ 60 - 1, 2 ^ 60) ∧
    toF64 rnd (2 ^ 60 - 1, 2 ^ 60) = 1 := by
  refine ⟨?_, ?_⟩
  · show Seek.progress (Seek.resume _ _).2 = _
    unfold Seek.resume
    dsimp only
    rw [if_neg (by simp only [Ckpt.offset]; decide)]
    unfold Seek.resume.go
    dsimp only
    split <;> rfl
  · show rnd (rnd ((2 ^ 60 - 1 : Int) : Rat) / rnd ((2 ^ 60 : Int) : Rat)) = 1
    rw [h.two60]
    have hf : IsF64 ((2 ^ 60 : Int) : Rat) := ⟨2 ^ 52, 1082, by decide, by decide, by decide +kernel⟩
    rw [h.exact (abs_int (by decide) (by decide)) hf, rat_div_self (by decide +kernel), h.one]

/-- **C41**, float64: the progress values of a zip run are between 0 and 1 and never go back. -/
theorem C41_float {rnd : Rat → Rat} (h : Rounds rnd) {A : Archive} {D : Decomp} {F : Nat} (hwf : ZipWF A D F) (ht : ZipTruthful A D)
    (hpos : 0 < (A.files.map (·.usize)).sum) (env : ZEnv) (K : SinkM) (hK : K.Counting) (V : SaveCons)
    (ck : Option ECkpt) (hck : ZipStart A D F SinkM.Counting ck) (k : K.St) (u : V.St) :
    (∀ x ∈ (progresses (zipResume A env D F K V ck k u).2.log).map (toF64 rnd), 0 ≤ x ∧ x ≤ 1) ∧
    ((progresses (zipResume A env D F K V ck k u).2.log).map (toF64 rnd)).Pairwise (· ≤ ·) := by
  obtain ⟨a, b⟩ := C41_progress hwf ht hpos env K hK V ck hck k u
  refine rounded_fractions h a b ?_
  obtain ⟨top, hr⟩ := zipResume_progress (V := V) hwf ht env hK ck (by
    intro c hc
    obtain ⟨n, hn⟩ := hck c hc
    exact zipSaved_sane hwf ht hn) k u
  intro p hp
  have := (hr.range p hp).2.2.2.1
  have := ht.total
  omega

/-- **C88**, float64: the same of what a tar run over a stack of sources passes to the progress consumer. -/
theorem C88_float {rnd : Rat → Rat} (h : Rounds rnd) (T : TarFmt) (F F' : Nat) (ls : List Layer) (pr : Ckpt → Int × Int) (K : SinkM) (V : SaveCons) (ck : Option ECkpt)
    (src : (stackM F ls).St) (k : K.St) (u : V.St) (hck : ∀ c, ck = some c → CkWithin (stackSize F ls src) ls c.srcCk)
    (hb : stackSize F ls src ≤ 2 ^ 63) :
    (∀ x ∈ (reported (tarResume (stackM F ls) T pr F' K V ck src k u).2.2.log).map (toF64 rnd), 0 ≤ x ∧ x ≤ 1) ∧
    ((reported (tarResume (stackM F ls) T pr F' K V ck src k u).2.2.log).map (toF64 rnd)).Pairwise (· ≤ ·) := by
  obtain ⟨a, b⟩ := C88_tar_reports T F F' ls pr K V ck src k u
  refine rounded_fractions h (b hck) a fun p hp => ?_
  obtain ⟨_, _, hlo, _⟩ := tarResume_going (T := T) (K := K) (V := V) (stack_forward F pr ls) F' ck src trivial k u
  obtain ⟨o, s', h4, h5⟩ := hlo p hp
  rw [← h5.1.1, show s' = ((stackM F ls).resume (tarStart ck) src).2 by rw [h4], stack_resume_total, stack_total]
  split
  · exact hb
  · decide

/-- There is rounding to nearest. -/
example : ∃ rnd, Rounds rnd := rounds_exists

/-- With any: the toy zip archive. -/
example : ∃ rnd, Rounds rnd ∧ ((progresses (toyRun noFaults (some toyCk1) toySink1 []).2.log).map (toF64 rnd)).Pairwise (· ≤ ·) := by
  obtain ⟨rnd, h⟩ := rounds_exists
  exact ⟨rnd, h, (C41_float h toy_wf toy_truthful (by decide) toyEnv _ memCounting listCons (some toyCk1) (by
    intro c h; cases h; exact ⟨1, toy_saved1⟩) toySink1 []).2⟩

/-- Half of two bytes is reported as 1/2. -/
example {rnd : Rat → Rat} (h : Rounds rnd) : toF64 rnd (1, 2) = 1 / 2 := by
  show rnd (rnd ((1 : Int) : Rat) / rnd ((2 : Int) : Rat)) = _
  rw [h.exact (abs_int (by decide) (by decide)) (isF64_int (by decide)), h.exact (abs_int (by decide) (by decide)) (isF64_int (by decide))]
  exact h.exact (by decide +kernel) ⟨1, 1073, by decide, by decide, by decide +kernel⟩

end Savior
