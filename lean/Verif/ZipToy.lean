import Verif.ZipPlain
import Verif.MemSink
import Verif.Toy
/-!
# A concrete archive, consumers and environments, for examples
-/

namespace Savior

/-- `os.ModeDir`, `os.ModeSymlink`. -/
def modeDir : Nat := 2 ^ 31
def modeLink : Nat := 2 ^ 27

/-- A directory, a stored file, a link, a deflated file (two blocks) and a file with another method. -/
def toyArchive : Archive where
  bytes := [1, 2, 3, 1, 10, 2, 20, 30, 0]
  files := [
    ⟨cs ['d', '/'], .store, false, 0, 0, modeDir + 0o755, 0, ([], true)⟩,
    ⟨cs ['a'], .store, false, 3, 3, 0o644, 0, ([], true)⟩,
    ⟨cs ['l'], .store, false, 1, 1, modeLink + 0o777, 0, (cs ['a'], true)⟩,
    ⟨cs ['b'], .deflate, false, 6, 3, 0o644, 3, ([], true)⟩,
    ⟨cs ['c'], .other, false, 1, 2, 0o644, 0, ([7, 8], true)⟩]

/-- Reads deliver one byte at a time. -/
def toyEnv : ZEnv where
  sched _ _ := ⟨0, false, none⟩
  dataOff _ := none
  opens i := match i with
    | 2 => .ok ([cs ['a']], none)
    | 4 => .ok ([[7], [], [8]], none)
    | _ => .ok ([], none)

/-- Asks for a save after every chunk; answers each save as told by the list, then continues. -/
def listCons : SaveCons where
  St := List (Except Err Action)
  shouldSave _ u := (true, u)
  save _ u := match u with
    | [] => (.ok .cont, [])
    | a :: t => (a, t)

/-- An empty in-memory sink. -/
def memEmpty : MemSt := ⟨fun _ => none, none, 0⟩

/-- A run of the toy archive. -/
def toyRun (faults : Nat → Option Nat) (ck : Option ECkpt) (k : MemSt) (u : List (Except Err Action)) :
    Except Err (List Entry) × XW (memSink faults) listCons :=
  zipResume toyArchive toyEnv (toy false false) 100 (memSink faults) listCons ck k u

theorem toy_wf : ZipWF toyArchive (toy false false) 100 where
  law := toy_law _ _
  csize := by decide
  budget := by decide

theorem toy_exact : (toy false false).Exact := by
  rintro ⟨rem, fin⟩ h
  simp [toy] at h ⊢
  simp [h]

theorem toy_honest : toyEnv.Honest toyArchive := by
  intro i zf h chunks hc
  match i with
  | 0 | 1 | 2 | 3 | 4 =>
    simp [toyArchive] at h
    simp [toyEnv] at hc
    subst h
    subst hc
    rfl
  | n + 5 => simp [toyArchive] at h

/-- No faults. -/
def noFaults : Nat → Option Nat := fun _ => none

/-- Sink and checkpoint after the first run is stopped at its first save, within `a`, and the process restarted. -/
def toyCk1 : ECkpt := ⟨some (.plain 1), 1, some ⟨cs ['a'], .file, 0o644, 3, 3, 1, []⟩, (1, 9), none⟩
def toySink1 : MemSt := (memSink noFaults).reborn (toyRun noFaults none memEmpty [.ok .stop]).2.sink

/-- Sink and checkpoint after the second run is stopped at its second save, within `b`. -/
def toyCk2 : ECkpt :=
  ⟨some (.dec .flate 3 (some (.plain 4)) 0 ⟨5, 3, [0]⟩), 3, some ⟨cs ['b'], .file, 0o644, 6, 3, 3, []⟩, (7, 9), none⟩
def toySink2 : MemSt := (toyRun noFaults (some toyCk1) toySink1 [.ok .cont, .ok .stop]).2.sink

theorem toy_run1 : (toyRun noFaults none memEmpty [.ok .stop]).1 = .error .stop := by rfl
theorem toy_save1 : lastSave (toyRun noFaults none memEmpty [.ok .stop]).2.log = some toyCk1 := by rfl
theorem toy_run2 : (toyRun noFaults (some toyCk1) toySink1 [.ok .cont, .ok .stop]).1 = .error .stop := by rfl
theorem toy_save2 : lastSave (toyRun noFaults (some toyCk1) toySink1 [.ok .cont, .ok .stop]).2.log = some toyCk2 := by rfl

theorem toy_stop1 : ZipStops toyArchive (toy false false) 100 (memSink noFaults) none memEmpty (some toyCk1) toySink1 := by
  refine ZipStops.step toyEnv listCons [.ok .stop] toy_honest ZipStops.refl ?_ ?_ ?_
  · exact toy_run1
  · exact toy_save1
  · unfold toySink1 toyRun; exact Or.inr rfl

theorem toy_stops : ZipStops toyArchive (toy false false) 100 (memSink noFaults) none memEmpty (some toyCk2) toySink2 := by
  refine ZipStops.step toyEnv listCons [.ok .cont, .ok .stop] toy_honest toy_stop1 ?_ ?_ ?_
  · exact toy_run2
  · exact toy_save2
  · unfold toySink2 toyRun; exact Or.inl rfl

theorem toy_success : (toyRun noFaults (some toyCk2) toySink2 []).1 = .ok (toyArchive.files.map zipFileEntry) := by rfl

end Savior
