import Verif.DiskSink
import Verif.Props.FolderExtract
/-!
# Extraction of a zip archive to disk with failures and restarts (C60: C34 for `FolderSink`)
-/

namespace Savior
open FSink

theorem plan_fits {cfg : FCfg} {B : Path} (hB : cfg.Base B) (A : Archive) (hind : Independent cfg B A.plan) : (folderPath cfg hB A.plan hind).FitsAll A :=
  fun zf hz => List.mem_map.2 ⟨zf, hz, rfl⟩

/-- **C60.** After any number of extractions to the same directory that ended in whatever way — system
calls failing in any pattern (`cfg.flt`), writes stored in part, read faults, consumer errors, stops, the process killed at
any system call and restarted —, each resumed from a checkpoint handed to a save consumer (the last, or an earlier one; or
nothing), a run that succeeds leaves every member at its place on disk as the archive says. Assumed of the archive: its
members' names lead to different places, and no file or link has another member below it; of the disk: none of the places
was reached through a link when the first extraction started, nor were files there hard links of each other. (Without the
former it is false, see `C60_false_links`.) -/
theorem C60_folder_partial {A : Archive} {D : Decomp} {F : Nat} (hwf : ZipWF A D F) {cfg : FCfg} {B : Path} (hB : cfg.Base B) (hind : Independent cfg B A.plan)
    (fs0 : FS) (hfit : DiskFit B A.plan fs0)
    (hist : List ECkpt) (k : FSink) (hchain : ZipAttempts A D F (folderSink cfg) (onFS fs0) hist k) (ck : Option ECkpt) (before : List ECkpt)
    (hck : ChooseCk hist ck before) (env : ZEnv) (hh : env.Honest A) (V : SaveCons) (u : V.St)
    (res : List Entry) (hok : (zipResume A env D F (folderSink cfg) V ck k u).1 = .ok res)
    (p : Str) (hp : shouldIgnore p = false) (n : PNode) (hn : zipNode A D p = some n) :
    (zipResume A env D F (folderSink cfg) V ck k u).2.sink.os.fs.holds (namePlace B p) = some n := by
  have h := C34_failures_harmless hwf (folderPath cfg hB A.plan hind) (plan_fits hB A hind) (onFS fs0) (diskOK_of_fit hfit) hist k hchain ck before hck
    env hh V u res hok p (by show (!shouldIgnore p) = true; rw [hp]; rfl) n hn
  obtain ⟨_, _, _, h2⟩ := nodeOf_some h
  exact h2

/-! ## Non-vacuity -/

theorem toyPlan_independent (flt : Faults) : Independent (exCfg.withFaults flt) [[100]] toyArchive.plan := by
  have : ∀ x ∈ toyArchive.plan, ∀ y ∈ toyArchive.plan, x.1 ≠ y.1 →
    namePlace [[100]] x.1 ≠ namePlace [[100]] y.1 ∧ (namePlace [[100]] x.1 <+: namePlace [[100]] y.1 → x.2 = .dir) := by decide +kernel
  exact fun x hx y hy _ _ _ _ h => this x hx y hy h

theorem diskEmpty_fit (plan : List (Str × Kind)) (hp : ∀ x ∈ plan, namePlace [[100]] x.1 ≠ []) : DiskFit [[100]] plan diskEmpty := by
  have h0 : ∀ L, diskEmpty.nodes L = some .dir ∨ diskEmpty.nodes L = none := by
    intro L; show (if L = [] then some Node.dir else none) = _ ∨ (if L = [] then some Node.dir else none) = _
    by_cases h : L = [] <;> simp [h]
  refine ⟨⟨rfl, ?_⟩, ?_, ?_, ?_⟩
  · intro p c h
    exact absurd (show diskEmpty.nodes (p ++ [c]) = none from if_neg (by simp)) h
  · intro x hx _ _ r t _ _ h
    rcases h0 r with g | g <;> rw [g] at h <;> cases h
  · intro x hx y hy _ _ _ _ i h
    rcases h0 (namePlace [[100]] x.1) with g | g <;> rw [g] at h <;> cases h
  · intro x hx _ _ i h
    rcases h0 (namePlace [[100]] x.1) with g | g <;> rw [g] at h <;> cases h

/-- System calls `t` to `t + n - 1` fail (writes after storing one byte): the process is killed before the `t`th. -/
def killedAt (t n : Nat) : Faults := fun c => if t ≤ c ∧ c < t + n then some ⟨5, 1, fun _ => false⟩ else none

/-- Killed while writing "b", after a checkpoint in "a". -/
def diskKill := diskRun (killedAt 29 3) none (onFS diskEmpty) []

/-- The disk as found by the new process. -/
def diskKill2 : FSink := (folderSink (exCfg.withFaults (killedAt 29 3))).reborn diskKill.2.sink

theorem diskKill_dead : (∀ res, diskKill.1 ≠ .ok res) ∧ diskKill.2.sink.os.tick = 31 ∧ ∃ c, savedCks diskKill.2.log = [toyCk1, c] := by
  refine ⟨?_, by rfl, _, by rfl⟩
  have : ∃ e, diskKill.1 = .error e := ⟨_, by rfl⟩
  obtain ⟨e, he⟩ := this
  intro res h; rw [he] at h; cases h

theorem diskKill_attempts : ZipAttempts toyArchive (toy false false) 100 (folderSink (exCfg.withFaults (killedAt 29 3))) (onFS diskEmpty)
    (savedCks diskKill.2.log) diskKill2 :=
  ZipAttempts.step (before := []) toyEnv listCons [] toy_honest ZipAttempts.refl .fresh (Or.inr rfl)

/-- The first run after that is killed as well, at once (call 31 fails). -/
def diskKill3 := diskRun (killedAt 29 3) (some toyCk1) diskKill2 []

theorem diskKill3_dead : ∃ e, diskKill3.1 = .error e := ⟨_, by rfl⟩

theorem diskKill3_attempts : ∃ hist, ZipAttempts toyArchive (toy false false) 100 (folderSink (exCfg.withFaults (killedAt 29 3))) (onFS diskEmpty)
    hist diskKill3.2.sink ∧ hist = [toyCk1] := by
  obtain ⟨_, _, c, hc⟩ := diskKill_dead
  have h := ZipAttempts.step (before := [toyCk1]) toyEnv listCons [] toy_honest diskKill_attempts (.pick (a := []) (b := [c]) hc) (Or.inl rfl)
  exact ⟨_, h, by rfl⟩

/-- The second one succeeds, and everything is in place. -/
theorem diskKill4_ok : (diskRun (killedAt 29 3) (some toyCk1) diskKill3.2.sink []).1 = .ok (toyArchive.files.map zipFileEntry) := by rfl

example : (diskRun (killedAt 29 3) (some toyCk1) diskKill3.2.sink []).2.sink.os.fs.holds [[100], cs ['b']] = some (.file [11, 21, 31]) := by
  obtain ⟨hist, h, rfl⟩ := diskKill3_attempts
  exact C60_folder_partial toy_wf (base_faults exCfg_base _) (toyPlan_independent _) diskEmpty (diskEmpty_fit _ (by decide +kernel)) _ _ h
    _ _ (.pick (a := []) (b := []) rfl) toyEnv toy_honest listCons [] _ diskKill4_ok (cs ['b']) (by rfl) _ (by rfl)

/-! ## Without independent names -/

/-- The folder "d" of the second member is replaced by a link to the folder "a" of the first. -/
def linkArchive : Archive where
  bytes := [9, 9, 9, 1, 2, 3, 5]
  files := [
    ⟨cs ['a', '/', 'x'], .store, false, 3, 3, 0o644, 0, ([], true)⟩,
    ⟨cs ['d', '/', 'x'], .store, false, 3, 3, 0o644, 3, ([], true)⟩,
    ⟨cs ['d'], .store, false, 0, 0, modeLink + 0o777, 0, (cs ['a'], true)⟩,
    ⟨cs ['z'], .store, false, 1, 1, 0o644, 6, ([], true)⟩]

def linkRun (ck : Option ECkpt) (k : FSink) : Except Err (List Entry) × XW (folderSink (exCfg.withFaults (killedAt 38 1))) listCons :=
  zipResume linkArchive toyEnv (toy false false) 100 (folderSink (exCfg.withFaults (killedAt 38 1))) listCons ck k []

/-- The first run: fails writing "z". -/
def link1 := linkRun none (onFS diskEmpty)

/-- **C60 is false** in general: the run is resumed from its last checkpoint, within "d/x", which now is "a/x". It succeeds,
and "a/x" has the last byte of the other member. -/
theorem C60_false_links : ∃ ck, lastSave link1.2.log = some ck ∧ (∃ e, link1.1 = .error e) ∧
    (linkRun (some ck) ((folderSink (exCfg.withFaults (killedAt 38 1))).reborn link1.2.sink)).1 = .ok (linkArchive.files.map zipFileEntry) ∧
    zipNode linkArchive (toy false false) (cs ['a', '/', 'x']) = some (.file [9, 9, 9]) ∧
    (linkRun (some ck) ((folderSink (exCfg.withFaults (killedAt 38 1))).reborn link1.2.sink)).2.sink.os.fs.holds [[100], cs ['a'], cs ['x']] =
      some (.file [9, 9, 3]) := by
  refine ⟨⟨some (.plain 2), 1, some ⟨cs ['d', '/', 'x'], .file, 0o644, 3, 3, 2, []⟩, (5, 7), none⟩, ?_, ⟨_, by rfl⟩, by rfl, by rfl, by rfl⟩
  rfl

end Savior
