import Verif.ZipPath
import Verif.Props.ZipRuns
/-!
# Properties of the zip extractor: failures, retained checkpoints, lying sizes (C34, C41, C42, C54)
-/

namespace Savior

theorem next_ok {A : Archive} {D : Decomp} {K : SinkM} (P : PathLaw K) {hist : List ECkpt} {s s' : K.St} (h : K.Next s s') (hok : PathOK A D P hist s) :
    PathOK A D P hist s' := by
  rcases h with h | h
  · rw [h]; exact hok
  · obtain ⟨h1, i, o, h2, h3⟩ := hok
    obtain ⟨r1, r2⟩ := P.reborn_spec s h1
    rw [h]
    exact ⟨r1, i, o, h2, by rw [r2]; exact h3⟩

theorem zipAttempts_ok {A : Archive} {D : Decomp} {F : Nat} (hwf : ZipWF A D F) {K : SinkM} (P : PathLaw K) (hfit : P.FitsAll A) {k0 : K.St} (hk0 : P.Inv k0)
    {hist : List ECkpt} {k : K.St} (h : ZipAttempts A D F K k0 hist k) : PathOK A D P hist k := by
  induction h with
  | refl => exact ⟨hk0, 0, 0, UpTo.nil .., HoldsFrom.nothing ..⟩
  | step env V u hh _ hc hn ih =>
    have := (zipResume_path hwf env hh P hfit _ _ _ _ u ih hc).1
    exact next_ok P hn ⟨this.1, this.2.1⟩
  | kept env V u hh _ hc hs hn ih =>
    have := zipResume_path hwf env hh P hfit _ _ _ _ u ih hc
    have he := zipResume_stop_ck A env D F _ _ u hs (this.2.2 hs)
    obtain ⟨h1, _, i, h2, h3⟩ := this.1.2.2 (this.2.2 hs) he
    exact next_ok P hn ⟨this.1.1, i, 0, UpTo.snoc (UpTo.nil ..) (Or.inr ⟨h2, he, h1, rfl⟩), h3⟩

/-- **C34** (and **C54**). After any number of extractions that ended in whatever way — read faults, failing or partial
sink calls, consumer errors, stops, the process dying between two calls —, each resumed from a checkpoint that was handed to
a save consumer (the last one, or an earlier one if that was not stored in time; or nothing; or the checkpoint object kept
after a stop), a run that succeeds leaves every member's path as the archive says. -/
theorem C34_failures_harmless {A : Archive} {D : Decomp} {F : Nat} (hwf : ZipWF A D F) {K : SinkM} (P : PathLaw K) (hfit : P.FitsAll A) (k0 : K.St) (hk0 : P.Inv k0)
    (hist : List ECkpt) (k : K.St) (hchain : ZipAttempts A D F K k0 hist k) (ck : Option ECkpt) (before : List ECkpt) (hck : ChooseCk hist ck before)
    (env : ZEnv) (hh : env.Honest A) (V : SaveCons) (u : V.St)
    (res : List Entry) (hok : (zipResume A env D F K V ck k u).1 = .ok res) (p : Str) (hp : P.shown p = true) (n : PNode) (hn : zipNode A D p = some n) :
    P.node (zipResume A env D F K V ck k u).2.sink p = some n :=
  holdsTo_zipNode ((zipResume_path hwf env hh P hfit hist before ck k u (zipAttempts_ok hwf P hfit hk0 hchain) hck).2.1 res hok) p n hp hn

/-- **C54.** After a stopped run the checkpoint object has been reset to the start of the member the last saved checkpoint
is in: no source checkpoint, no entry. (Resuming from it is covered by C34: `ZipAttempts.kept`.) -/
theorem C54_retained {A : Archive} {D : Decomp} {F : Nat} (hwf : ZipWF A D F) {K : SinkM} (P : PathLaw K) (hfit : P.FitsAll A) (k0 : K.St) (hk0 : P.Inv k0)
    (hist : List ECkpt) (k : K.St) (hchain : ZipAttempts A D F K k0 hist k) (ck : Option ECkpt) (before : List ECkpt) (hck : ChooseCk hist ck before)
    (env : ZEnv) (hh : env.Honest A) (V : SaveCons) (u : V.St)
    (hs : (zipResume A env D F K V ck k u).1 = .error .stop) :
    (zipResume A env D F K V ck k u).2.ck.entry = none ∧ (zipResume A env D F K V ck k u).2.ck.srcCk = none ∧
    ∃ c, lastSave (zipResume A env D F K V ck k u).2.log = some c ∧ (zipResume A env D F K V ck k u).2.ck.entryIndex = c.entryIndex := by
  have h := zipResume_path hwf env hh P hfit hist before ck k u (zipAttempts_ok hwf P hfit hk0 hchain) hck
  have he := zipResume_stop_ck A env D F ck k u hs (h.2.2 hs)
  obtain ⟨a, ⟨c, b, d⟩, _⟩ := h.1.2.2 (h.2.2 hs) he
  exact ⟨he, a, c, b, d.symm⟩

/-! ## Non-vacuity: a run that fails while writing, one that is stopped, then success -/

/-- The eighth sink call, a write, fails after storing one byte. -/
def oneFault : Nat → Option Nat := fun t => if t = 7 then some 1 else none

/-- The first run: the first save succeeds, then a write fails. -/
def toyF1 := toyRun oneFault none memEmpty []

theorem toyF1_fails : ∃ e, toyF1.1 = .error e ∧ e ≠ .stop ∧ lastSave toyF1.2.log = some toyCk1 := ⟨.wrapped (.wrapped (.wrapped (.os 1))), by rfl, by decide, by rfl⟩

/-- The second run: resumed from the checkpoint saved before the failure, stopped at the next save. -/
def toyF2 := toyRun oneFault (some toyCk1) toyF1.2.sink [.ok .stop]

theorem toyF2_stops : toyF2.1 = .error .stop := by rfl

theorem toyF2_attempts : ZipAttempts toyArchive (toy false false) 100 (memSink oneFault) memEmpty [toyF2.2.ck] toyF2.2.sink := by
  have h1 : ZipAttempts toyArchive (toy false false) 100 (memSink oneFault) memEmpty ([] ++ savedCks toyF1.2.log) toyF1.2.sink :=
    ZipAttempts.step toyEnv listCons [] toy_honest ZipAttempts.refl .fresh (Or.inl rfl)
  have h2 : [] ++ savedCks toyF1.2.log = [toyCk1] := by rfl
  rw [h2] at h1
  exact ZipAttempts.kept toyEnv listCons [.ok .stop] toy_honest h1 (.pick (a := []) (b := []) rfl) toyF2_stops (Or.inl rfl)

theorem toyF3_ok : (toyRun oneFault (some toyF2.2.ck) toyF2.2.sink []).1 = .ok (toyArchive.files.map zipFileEntry) := by rfl

example : (memPath oneFault).node (toyRun oneFault (some toyF2.2.ck) toyF2.2.sink []).2.sink (cs ['b']) = some (.file [11, 21, 31]) :=
  C34_failures_harmless toy_wf (memPath oneFault) (memPath_fits oneFault toyArchive) memEmpty trivial _ _ toyF2_attempts _ _ (.pick (a := []) (b := []) rfl)
    toyEnv toy_honest listCons [] _ toyF3_ok _ rfl _ (by rfl)

/-! A run that fails after two checkpoints; the second was not stored in time. -/

def laterFault : Nat → Option Nat := fun t => if t = 12 then some 0 else none

def toyG1 := toyRun laterFault none memEmpty []

theorem toyG1_fails : toyG1.1 ≠ .ok (toyArchive.files.map zipFileEntry) ∧ (savedCks toyG1.2.log).length = 2 ∧
    ∃ c, savedCks toyG1.2.log = [toyCk1, c] := ⟨(by intro h; cases h), by rfl, _, by rfl⟩

theorem toyG1_attempts : ZipAttempts toyArchive (toy false false) 100 (memSink laterFault) memEmpty (savedCks toyG1.2.log) ((memSink laterFault).reborn toyG1.2.sink) :=
  ZipAttempts.step (before := []) toyEnv listCons [] toy_honest ZipAttempts.refl .fresh (Or.inr rfl)

theorem toyG2_ok : (toyRun laterFault (some toyCk1) ((memSink laterFault).reborn toyG1.2.sink) []).1 = .ok (toyArchive.files.map zipFileEntry) := by rfl

example : (memPath laterFault).node (toyRun laterFault (some toyCk1) ((memSink laterFault).reborn toyG1.2.sink) []).2.sink (cs ['a']) = some (.file [1, 2, 3]) := by
  obtain ⟨c, hc⟩ := toyG1_fails.2.2
  exact C34_failures_harmless toy_wf (memPath laterFault) (memPath_fits laterFault toyArchive) memEmpty trivial _ _ toyG1_attempts _ _ (.pick (a := []) (b := [c]) hc)
    toyEnv toy_honest listCons [] _ toyG2_ok _ rfl _ (by rfl)

/-! ## Lying sizes -/

/-- One stored file of three bytes whose recorded size is `n`. -/
def lyingArchive (n : Int) : Archive where
  bytes := [1, 2, 3]
  files := [⟨cs ['a'], .store, false, 3, n, 0o644, 0, ([], true)⟩]

/-- One stored file said to have five bytes, in an archive that is cut off after three. -/
def cutArchive : Archive where
  bytes := [1, 2, 3]
  files := [⟨cs ['a'], .store, false, 5, 5, 0o644, 0, ([], true)⟩]

def lyingRun (A : Archive) := zipResume A toyEnv (toy false false) 100 (memSink noFaults) listCons none memEmpty []

/-- **C41 is false** when sizes lie: progress 2 out of 1. -/
theorem C41_false_lying : (lyingRun (lyingArchive 1)).1 = .ok ((lyingArchive 1).files.map zipFileEntry) ∧
    (2, 1) ∈ progresses (lyingRun (lyingArchive 1)).2.log := by
  refine ⟨by rfl, ?_⟩
  have h : progresses (lyingRun (lyingArchive 1)).2.log = [(1, 1), (2, 1)] := by rfl
  rw [h]; simp

/-- **C41 is false** when all sizes are recorded as zero: the total, by which is divided, is zero. -/
theorem C41_false_zero : (1, 0) ∈ progresses (lyingRun (lyingArchive 0)).2.log := by
  have h : progresses (lyingRun (lyingArchive 0)).2.log = [(1, 0), (2, 0)] := by rfl
  rw [h]; simp

/-- **C42 is false**: a member recorded with size 1 is extracted, successfully, with three bytes. -/
theorem C42_false_size : ∃ zf ∈ (lyingArchive 1).files, zf.usize = 1 ∧
    (lyingRun (lyingArchive 1)).1 = .ok ((lyingArchive 1).files.map zipFileEntry) ∧
    (lyingRun (lyingArchive 1)).2.sink.nodes zf.name = some (.file [1, 2, 3]) :=
  ⟨_, List.mem_cons_self, rfl, by rfl, by rfl⟩

/-- **C42 is false**: a stored member of five bytes whose data is cut off after three is extracted successfully. -/
theorem C42_false_truncated : ∃ zf ∈ cutArchive.files, zf.usize = 5 ∧ zf.csize = 5 ∧
    (lyingRun cutArchive).1 = .ok (cutArchive.files.map zipFileEntry) ∧ (lyingRun cutArchive).2.sink.nodes zf.name = some (.file [1, 2, 3]) :=
  ⟨_, List.mem_cons_self, rfl, rfl, by rfl, by rfl⟩

/-- **C42**, what holds: a member that is neither stored nor deflated ends up as what the zip package delivered for it up
to EOF, which that package compares with the recorded size and checksum. (Stored and deflated members: false, see above.) -/
theorem C42_verified_partial {A : Archive} {D : Decomp} {F : Nat} (hwf : ZipWF A D F) {K : SinkM} (P : PathLaw K) (hfit : P.FitsAll A) (k0 : K.St)
    (hk0 : P.Inv k0) (hist : List ECkpt) (k : K.St) (hchain : ZipAttempts A D F K k0 hist k) (ck : Option ECkpt) (before : List ECkpt)
    (hck : ChooseCk hist ck before) (env : ZEnv) (hh : env.Honest A) (V : SaveCons) (u : V.St)
    (res : List Entry) (hok : (zipResume A env D F K V ck k u).1 = .ok res) (zf : ZFile) (hk : (zipFileEntry zf).kind = .file) (hp : P.shown zf.name = true)
    (hm : zf.method ≠ .store ∧ zf.method ≠ .deflate) (hlast : (A.files.filter fun z => z.name = zf.name).getLast? = some zf) :
    P.node (zipResume A env D F K V ck k u).2.sink zf.name = some (.file zf.opened.1) := by
  refine C34_failures_harmless hwf P hfit k0 hk0 hist k hchain ck before hck env hh V u res hok zf.name hp _ ?_
  unfold zipNode
  rw [hlast]
  simp only [Option.map_some, zipNodeOf, hk, zipContent]
  obtain ⟨h1, h2⟩ := hm
  cases hmm : zf.method <;> simp [hmm] at h1 h2 ⊢

/-- C42 and C54 apply after the failed run and the stopped one: the file `c`, of another method, holds what the zip package
delivered; and a run stopped once more would keep its last checkpoint's position. -/
example : (memPath oneFault).node (toyRun oneFault (some toyF2.2.ck) toyF2.2.sink []).2.sink (cs ['c']) = some (.file [7, 8]) :=
  C42_verified_partial toy_wf (memPath oneFault) (memPath_fits oneFault toyArchive) memEmpty trivial _ _ toyF2_attempts _ _ (.pick (a := []) (b := []) rfl)
    toyEnv toy_honest listCons [] _ toyF3_ok toyArchive.files[4] (by decide) rfl (by decide) (by rfl)

example : toyF2.2.ck.entry = none ∧ toyF2.2.ck.srcCk = none ∧ ∃ c, lastSave toyF2.2.log = some c ∧ toyF2.2.ck.entryIndex = c.entryIndex :=
  C54_retained toy_wf (memPath oneFault) (memPath_fits oneFault toyArchive) memEmpty trivial _ _
    (ZipAttempts.step toyEnv listCons [] toy_honest ZipAttempts.refl .fresh (Or.inl rfl)) (some toyCk1) _ (.pick (a := []) (b := []) (by rfl))
    toyEnv toy_honest listCons [.ok .stop] toyF2_stops

end Savior
