import Verif.FileSource
import Verif.Props.Seek
/-!
# File sources (C81)
-/

namespace Savior
open Seek

/-- The bytes a file source stands for: as much of the file as `Stat` said; nothing if it failed. -/
def fileBytes (rs : Rs) (stat : Except Err Nat) : List Byte := rs.content.take (match stat with | .ok n => n | .error _ => 0)

theorem fromFile_corr (rs : Rs) (stat : Except Err Nat) :
    ShCorr ⟨rs.content, rs.sched, 0, match stat with | .ok n => n | .error _ => 0⟩ (fromFile rs stat) [] ⟨.fresh, false, false, []⟩ := by
  refine ⟨⟨rfl, rfl, rfl, ?_⟩, rfl, rfl, rfl, by intro i x o h; simp at h, rfl⟩
  unfold fromFile newWithSize
  cases stat <;> rfl

theorem file_stream (rs : Rs) (stat : Except Err Nat) :
    (⟨rs.content, rs.sched, 0, match stat with | .ok n => n | .error _ => 0⟩ : Geo).stream = fileBytes rs stat := by
  unfold Geo.stream window fileBytes; rfl

/-- **C81.** `OpenPaused` gives a source that must be resumed first, `Open` one that stands at the first byte; from then on, whatever is called,
`Close` included, the caller sees a cursor over the file's bytes. After `Close` reads deliver only right bytes (those already read from
the file) or an error, `Resume` is refused, and so is another `Close`. -/
theorem C81_file (env : FileEnv) (rs : Rs) (ho : env.opened = .ok rs) (answer : Nat → Option Err) (ops : List FileOp) (n : Int) (size : Nat)
    (hsz : size = match env.stat with | .ok n => n | .error _ => 0) :
    (∀ f, (openPaused env).1 = .ok f →
      FileSpec ⟨fileBytes rs env.stat, size, NoFault rs.sched⟩ false ⟨.fresh, false, false, []⟩ (fileRun answer ops f [] n).1) ∧
    (∀ f, (openFile env).1 = .ok f →
      FileSpec ⟨fileBytes rs env.stat, size, NoFault rs.sched⟩ false ⟨.at 0, false, false, []⟩ (fileRun answer ops f [] n).1) := by
  have hp : openPaused env = (.ok ⟨fromFile rs env.stat, false⟩, 1) := by unfold openPaused; rw [ho]
  have hc := fromFile_corr rs env.stat
  subst hsz
  constructor
  · intro f hf
    rw [hp] at hf
    injection hf with hf
    subst hf
    rw [← file_stream]
    exact file_run _ answer _ ops ⟨fromFile rs env.stat, false⟩ [] n ⟨.fresh, false, false, []⟩ hc (fun _ h => h) nofun
  · intro f hf
    unfold openFile at hf
    rw [hp] at hf
    simp only at hf
    rcases resume_nil_spec _ (fromFile rs env.stat) hc.1 with ⟨s', h1, h2, h3, h4⟩ | ⟨e, s', h1, _⟩
    · rw [h1] at hf
      simp only [Except.ok.injEq] at hf
      subst hf
      rw [← file_stream]
      exact file_run _ answer _ ops ⟨s', false⟩ [] n ⟨.at 0, false, false, []⟩ ⟨h2.1, h4, h3, rfl, by intro i x o h; simp at h, h2⟩ (fun _ h => h) nofun
    · rw [h1] at hf; cases hf

theorem files_count (answer : Nat → Option Err) (ops : List FileOp) : ∀ (f : FileSt) (log : ConsumerLog) (n : Int), n = (if f.closed then 0 else 1) →
    (fileRun answer ops f log n).2.2 = (if (fileRun answer ops f log n).2.1.closed then 0 else 1) ∧
    ((fileRun answer ops f log n).2.1.closed = true ↔ f.closed = true ∨ ∃ e, .close e ∈ ops) := by
  induction ops with
  | nil => intro f log n h; exact ⟨h, by simp [fileRun]⟩
  | cons op ops ih =>
    intro f log n h
    cases op with
    | call op =>
      have := ih { f with src := (srcStep seekM answer op f.src log).2.1 } (srcStep seekM answer op f.src log).2.2 n h
      refine ⟨this.1, this.2.trans ?_⟩
      simp
    | close e =>
      have h2 : n + (f.close e).2.2 = (if (f.close e).2.1.closed then 0 else 1) ∧ (f.close e).2.1.closed = true := by
        unfold FileSt.close
        cases hc : f.closed with
        | true => rw [hc] at h; simp [hc, h]
        | false => rw [hc] at h; simp [h]
      have := ih (f.close e).2.1 log (n + (f.close e).2.2) h2.1
      refine ⟨this.1, this.2.trans ?_⟩
      constructor
      · intro _; exact Or.inr ⟨e, by simp⟩
      · intro _; exact Or.inl h2.2

/-- **C81 (open files).** A source that was opened keeps exactly one file open until it is closed, and none afterwards; a failing `OpenPaused`
leaves none open, nor does a failing `Open` unless the file was opened and `Seek` failed. -/
theorem C81_files (env : FileEnv) :
    (∀ f, ((openFile env).1 = .ok f ∨ (openPaused env).1 = .ok f) → f.closed = false ∧ (openPaused env).2 = 1 ∧ (openFile env).2 = 1 ∧
      ∀ answer ops, ((∃ e, .close e ∈ ops) → (fileRun answer ops f [] 1).2.2 = 0) ∧ ((∀ e, .close e ∉ ops) → (fileRun answer ops f [] 1).2.2 = 1)) ∧
    (∀ e, (openPaused env).1 = .error e → (openPaused env).2 = 0) ∧
    (∀ e, (openFile env).1 = .error e → (∀ rs, env.opened = .ok rs → NoFault rs.sched) → (openFile env).2 = 0) := by
  have hcase : (∃ e, env.opened = .error e) ∨ ∃ rs, env.opened = .ok rs := by cases env.opened with | error e => exact Or.inl ⟨e, rfl⟩ | ok rs => exact Or.inr ⟨rs, rfl⟩
  rcases hcase with ⟨e, ho⟩ | ⟨rs, ho⟩
  · have hp : openPaused env = (.error e, 0) := by unfold openPaused; rw [ho]
    have hq : openFile env = (.error e, 0) := by unfold openFile; rw [hp]
    rw [hp, hq]
    exact ⟨fun f h => (by rcases h with h | h <;> cases h), fun _ _ => rfl, fun _ _ _ => rfl⟩
  · have hp : openPaused env = (.ok ⟨fromFile rs env.stat, false⟩, 1) := by unfold openPaused; rw [ho]
    have hcnt : ∀ f : FileSt, f.closed = false → ∀ answer ops,
        ((∃ e, .close e ∈ ops) → (fileRun answer ops f [] 1).2.2 = 0) ∧ ((∀ e, .close e ∉ ops) → (fileRun answer ops f [] 1).2.2 = 1) := by
      intro f hf answer ops
      have := files_count answer ops f [] 1 (by rw [hf]; rfl)
      rw [this.1]
      constructor
      · intro hx
        rw [this.2.2 (Or.inr hx)]; rfl
      · intro hx
        cases hc : (fileRun answer ops f [] 1).2.1.closed with
        | false => rfl
        | true =>
          rcases this.2.1 hc with h | ⟨e, h⟩
          · rw [hf] at h; cases h
          · exact absurd h (hx e)
    rcases resume_nil_spec _ (fromFile rs env.stat) (fromFile_corr rs env.stat).1 with ⟨s', h1, h2, h3, h4⟩ | ⟨e, s', h1, h2, _⟩
    · have hq : openFile env = (.ok ⟨s', false⟩, 1) := by unfold openFile; rw [hp]; simp only [h1]
      rw [hp, hq]
      refine ⟨?_, nofun, nofun⟩
      intro f h
      have hcl : f.closed = false := by
        rcases h with h | h <;> injection h with h <;> subst h <;> rfl
      exact ⟨hcl, rfl, rfl, hcnt f hcl⟩
    · have hq : openFile env = (.error e, 1) := by unfold openFile; rw [hp]; simp only [h1]
      rw [hp, hq]
      refine ⟨?_, nofun, fun _ _ hn => absurd (hn rs ho) h2⟩
      intro f h
      have hcl : f.closed = false := by
        rcases h with h | h
        · cases h
        · injection h with h; subst h; rfl
      exact ⟨hcl, rfl, rfl, hcnt f hcl⟩

/-- **C81: in general a failing `Open` leaks.** If `Seek` fails, `Open` returns an error and the file stays open. -/
theorem C81_false_leak : ∃ env e, (openFile env).1 = .error e ∧ (openFile env).2 = 1 :=
  ⟨⟨.ok ⟨[1, 2], 0, fun _ => ⟨0, false, some 5⟩, 0⟩, .ok 2⟩, _, rfl, rfl⟩

/-- A file of three bytes, read in part, closed, and read on. -/
example : ∃ f, (openFile ⟨.ok ⟨[1, 2, 3], 0, fun _ => .full, 0⟩, .ok 3⟩).1 = .ok f ∧
    ((fileRun (fun _ => none) [.call (.read 0), .close none, .call (.read 0), .call .resumeNil, .close none] f [] 1).1.map fun x =>
      match x.2 with | .call (.data bs e _) => (bs, e) | .call (.resumed (.error e)) => ([], some e) | .closed r => ([], r) | _ => ([9], none)) =
    [([1], none), ([], none), ([2], none), ([], some (.wrapped (.fault 9))), ([], some .closed)] ∧
    (fileRun (fun _ => none) [.call (.read 0), .close none, .call (.read 0), .call .resumeNil, .close none] f [] 1).2.2 = 0 := ⟨_, rfl, by rfl, by rfl⟩

end Savior
