import Verif.ZipHeld
import Verif.Props.ZipFaults
import Verif.Props.FolderFaults
/-!
# Retrying with the checkpoint object of the run before (C83)
-/

namespace Savior
open FSink

theorem held_next {A : Archive} {D : Decomp} {K : SinkM} (P : PathLaw K) {ck : Option ECkpt} {k k2 : K.St} (hn : K.Next k k2) (h : HeldOK A D P ck k) :
    HeldOK A D P ck k2 := by
  rcases hn with rfl | rfl
  · exact h
  · obtain ⟨h1, h2⟩ := h
    obtain ⟨r1, r2⟩ := P.reborn_spec _ h1
    refine ⟨r1, fun c hc => ?_⟩
    rw [r2]
    exact h2 c hc

theorem zipRetries_ok {A : Archive} {D : Decomp} {F : Nat} (hwf : ZipWF A D F) {K : SinkM} (P : PathLaw K) (hfit : P.FitsAll A) {k0 : K.St} (hk0 : P.Inv k0)
    {ck : Option ECkpt} {k : K.St} (h : ZipRetries A D F K k0 ck k) : HeldOK A D P ck k := by
  induction h with
  | start h hc =>
    obtain ⟨h1, i, o, h2, h3⟩ := zipAttempts_ok hwf P hfit hk0 h
    refine ⟨h1, fun c hcc => ?_⟩
    subst hcc
    obtain ⟨i', o', hp, hle, _⟩ := h2.choose hc
    exact ⟨i', o', pathCk_held hp, h3.mono (pathCk_le hp) hle (Nat.zero_le _)⟩
  | again env V u hh _ hn ih =>
    have h := (zipResume_held hwf env hh P hfit _ _ u ih).1
    exact held_next P hn ⟨h.1, fun c hc => by cases hc; exact h.2.1⟩
  | saved env V u hh _ hn hc ih =>
    obtain ⟨h1, _, i, o, h2, h3⟩ := (zipResume_held hwf env hh P hfit _ _ u ih).1
    refine held_next P hn ⟨h1, fun c hcc => ?_⟩
    cases hcc
    obtain ⟨i', o', hp, hle⟩ := h2 _ hc
    exact ⟨i', o', hp, h3.mono (heldCk_le hp) hle (Nat.zero_le _)⟩
  | anew env V u hh _ hn ih =>
    exact held_next P hn ⟨(zipResume_held hwf env hh P hfit _ _ u ih).1.1, fun c hc => by cases hc⟩

/-- **C83.** `Resume` of the zip extractor works on the checkpoint object it is given. However a run ended — also in a
failure in the middle of a file, where the object then has a write offset ahead of its source checkpoint —, that object can
be passed to `Resume` again: when, after any number of such retries, a run succeeds, every member is in place. -/
theorem C83_zip_retry {A : Archive} {D : Decomp} {F : Nat} (hwf : ZipWF A D F) {K : SinkM} (P : PathLaw K) (hfit : P.FitsAll A) (k0 : K.St) (hk0 : P.Inv k0)
    (ck : Option ECkpt) (k : K.St) (hchain : ZipRetries A D F K k0 ck k) (env : ZEnv) (hh : env.Honest A) (V : SaveCons) (u : V.St)
    (res : List Entry) (hok : (zipResume A env D F K V ck k u).1 = .ok res) (p : Str) (hp : P.shown p = true) (n : PNode) (hn : zipNode A D p = some n) :
    P.node (zipResume A env D F K V ck k u).2.sink p = some n :=
  holdsTo_zipNode ((zipResume_held hwf env hh P hfit ck k u (zipRetries_ok hwf P hfit hk0 hchain)).2 res hok) p n hp hn

/-- **C83** for `FolderSink`. -/
theorem C83_zip_folder {A : Archive} {D : Decomp} {F : Nat} (hwf : ZipWF A D F) {cfg : FCfg} {B : Path} (hB : cfg.Base B) (hind : Independent cfg B A.plan)
    (fs0 : FS) (hfit : DiskFit B A.plan fs0)
    (ck : Option ECkpt) (k : FSink) (hchain : ZipRetries A D F (folderSink cfg) (onFS fs0) ck k) (env : ZEnv) (hh : env.Honest A) (V : SaveCons) (u : V.St)
    (res : List Entry) (hok : (zipResume A env D F (folderSink cfg) V ck k u).1 = .ok res)
    (p : Str) (hp : shouldIgnore p = false) (n : PNode) (hn : zipNode A D p = some n) :
    (zipResume A env D F (folderSink cfg) V ck k u).2.sink.os.fs.holds (namePlace B p) = some n := by
  have h := C83_zip_retry hwf (folderPath cfg hB A.plan hind) (plan_fits hB A hind) (onFS fs0) (diskOK_of_fit hfit) ck k hchain
    env hh V u res hok p (by show (!shouldIgnore p) = true; rw [hp]; rfl) n hn
  obtain ⟨_, _, _, h2⟩ := nodeOf_some h
  exact h2

/-! ## Non-vacuity -/

/-- The run that fails while writing "a": its object says two bytes are written, its source checkpoint is for the first. -/
theorem toyF1_object : toyF1.2.ck = ⟨some (.plain 1), 1, some ⟨cs ['a'], .file, 0o644, 3, 3, 2, []⟩, (1, 9), none⟩ ∧
    (∀ res, toyF1.1 ≠ .ok res) ∧ toyF1.2.sink.nodes (cs ['a']) = some (.file [1, 2]) := by
  refine ⟨by rfl, ?_, by rfl⟩
  have : ∃ e, toyF1.1 = .error e := ⟨_, by rfl⟩
  obtain ⟨e, he⟩ := this
  intro res h; rw [he] at h; cases h

theorem toyF1_retry : ZipRetries toyArchive (toy false false) 100 (memSink oneFault) memEmpty (some toyF1.2.ck) toyF1.2.sink :=
  .again toyEnv listCons [] toy_honest (.start .refl .fresh) (Or.inl rfl)

theorem toyF1_retry_ok : (toyRun oneFault (some toyF1.2.ck) toyF1.2.sink []).1 = .ok (toyArchive.files.map zipFileEntry) := by rfl

example : (memPath oneFault).node (toyRun oneFault (some toyF1.2.ck) toyF1.2.sink []).2.sink (cs ['a']) = some (.file [1, 2, 3]) :=
  C83_zip_retry toy_wf (memPath oneFault) (memPath_fits oneFault toyArchive) memEmpty trivial _ _ toyF1_retry toyEnv toy_honest listCons [] _ toyF1_retry_ok
    (cs ['a']) rfl _ (by rfl)

/-- To disk, the retries also failing for a while. -/
def diskAgain := diskRun (killedAt 29 3) (some diskKill.2.ck) diskKill2 []

theorem diskAgain_dead : ∃ e, diskAgain.1 = .error e := ⟨_, by rfl⟩

theorem diskAgain_retry : ZipRetries toyArchive (toy false false) 100 (folderSink (exCfg.withFaults (killedAt 29 3))) (onFS diskEmpty)
    (some diskAgain.2.ck) diskAgain.2.sink :=
  .again toyEnv listCons [] toy_honest (.again toyEnv listCons [] toy_honest (.start .refl .fresh) (Or.inr rfl)) (Or.inl rfl)

theorem diskAgain_ok : (diskRun (killedAt 29 3) (some diskAgain.2.ck) diskAgain.2.sink []).1 = .ok (toyArchive.files.map zipFileEntry) := by rfl

example : (diskRun (killedAt 29 3) (some diskAgain.2.ck) diskAgain.2.sink []).2.sink.os.fs.holds [[100], cs ['b']] = some (.file [11, 21, 31]) :=
  C83_zip_folder toy_wf (base_faults exCfg_base _) (toyPlan_independent _) diskEmpty (diskEmpty_fit _ (by decide +kernel)) _ _ diskAgain_retry
    toyEnv toy_honest listCons [] _ diskAgain_ok (cs ['b']) (by rfl) _ (by rfl)

end Savior
