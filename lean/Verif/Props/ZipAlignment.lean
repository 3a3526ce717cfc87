import Verif.ZipAlign
import Verif.Props.ZipFaults
/-!
# Alignment of source and writer in zip checkpoints (C49)
-/

namespace Savior

/-- **C49**, what holds: in every checkpoint that a (chain of resumed) zip extraction(s) hands to a save consumer, the
offset of the source checkpoint is the write offset of the entry, whatever the read schedules, the decompressor and the
consumer, as long as writers count what they write. Not covered: checkpoints that did not come from such a run; there the
code checks nothing, see `C49_false_zip`. -/
theorem C49_aligned_partial {A : Archive} {D : Decomp} {F : Nat} (hwf : ZipWF A D F) {n : Nat} {c : ECkpt}
    (h : ZipSaved A D F SinkM.Precise n c) : ∃ e sc, c.entry = some e ∧ c.srcCk = some sc ∧ e.woff = sc.offset := by
  obtain ⟨i, zf, o, x, hs, hk, he, hx⟩ :=
    zipSaved_align (ct := fun _ => true) hwf (zipSaved_imp (fun K hK => ⟨countsAll hK⟩) h)
  obtain ⟨sc, h1, h2⟩ := hs.src
  exact ⟨_, sc, he, h1, by rw [fileCk_off h2]; simpa [countedOff] using hx⟩

theorem memPrecise (faults : Nat → Option Nat) : (memSink faults).Precise := by
  intro bs s h
  simp only [memSink] at h ⊢
  split at h
  · simp at h
  · split at h
    · simp at h
    · simp_all

example : ∃ e sc, toyCk1.entry = some e ∧ toyCk1.srcCk = some sc ∧ e.woff = sc.offset := by
  have h : (toyCk1, .ok .stop) ∈ saves (toyRun noFaults none memEmpty [.ok .stop]).2.log := by
    rw [toy_saves1]; exact List.mem_singleton.mpr rfl
  unfold toyRun at h
  exact C49_aligned_partial toy_wf (ZipSaved.first toyEnv (memSink noFaults) listCons memEmpty [.ok .stop] (memPrecise _) h)

/-- A checkpoint whose source is two bytes into the member while nothing has been written yet. -/
def aheadCk : ECkpt := ⟨some (.plain 2), 0, some ⟨cs ['a'], .file, 0o644, 3, 3, 0, []⟩, (0, 3), none⟩

/-- **C49 is false**: resuming from it succeeds, and the first two bytes are silently missing. -/
theorem C49_false_zip :
    (zipResume (lyingArchive 3) toyEnv (toy false false) 100 (memSink noFaults) listCons (some aheadCk) memEmpty []).1 =
      .ok ((lyingArchive 3).files.map zipFileEntry) ∧
    zipNode (lyingArchive 3) (toy false false) (cs ['a']) = some (.file [1, 2, 3]) ∧
    (zipResume (lyingArchive 3) toyEnv (toy false false) 100 (memSink noFaults) listCons (some aheadCk) memEmpty []).2.sink.nodes (cs ['a'])
      = some (.file [3]) := ⟨by rfl, by rfl, by rfl⟩

end Savior
