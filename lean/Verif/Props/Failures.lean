import Verif.Surface
import Verif.Props.ZipFaults
import Verif.Props.TarCases
/-!
# Failures are reported (C58)
-/

namespace Savior

/-- **C58** (zip, sink calls). If `Preallocate`, `Mkdir`, `Symlink`, `GetWriter` or a `Write` fails during a run, the run
ends with an error — not success, and not `ErrStop` — whose cause is the cause of a failing call. -/
theorem C58_zip_calls (A : Archive) (env : ZEnv) (D : Decomp) (F : Nat) (K : SinkM) (V : SaveCons) (ck : Option ECkpt) (k : K.St) (u : V.St)
    (ev : Ev) (hev : ev ∈ (zipResume A env D F K V ck k u).2.log) (x : Err) (hx : ev.failed = some x) (hs : ev.saving = false) :
    ∃ e, (zipResume A env D F K V ck k u).1 = .error e ∧ e ≠ .stop ∧
      ∃ ev' ∈ (zipResume A env D F K V ck k u).2.log, ∃ y, ev'.failed = some y ∧ e.cause = y.cause := by
  rcases zipResume_tells (strict := false) A env D F K V ck k u (by simp) (by simp) with h | ⟨e, a, b, ev', c, d, y, f, g⟩
  · exact absurd ⟨by rw [hx]; simp, Or.inr hs⟩ (h ev hev)
  · exact ⟨e, a, b, ev', c, y, f, g⟩

/-- **C58** (zip, saving). Likewise for a failing `Sync` or consumer `Save`, if no regular file of the archive is merely
stored. (A checkpoint to resume from must not be within a stored file either.) For stored files it is false, see below. -/
theorem C58_zip_saves_partial (A : Archive) (env : ZEnv) (D : Decomp) (F : Nat) (K : SinkM) (V : SaveCons) (ck : Option ECkpt) (k : K.St) (u : V.St)
    (hst : ∀ zf ∈ A.files, zf.method = .store → (zipFileEntry zf).kind ≠ .file)
    (hck : ∀ c, ck = some c → c.entry ≠ none → ∀ zf, A.files[c.entryIndex.toNat]? = some zf → zf.method ≠ .store)
    (ev : Ev) (hev : ev ∈ (zipResume A env D F K V ck k u).2.log) (x : Err) (hx : ev.failed = some x) :
    ∃ e, (zipResume A env D F K V ck k u).1 = .error e ∧ e ≠ .stop ∧
      ∃ ev' ∈ (zipResume A env D F K V ck k u).2.log, ∃ y, ev'.failed = some y ∧ e.cause = y.cause := by
  rcases zipResume_tells (strict := true) A env D F K V ck k u (fun zf h _ => hst zf h) (fun c h1 h2 zf h3 _ => hck c h1 h2 zf h3) with
    h | ⟨e, a, b, ev', c, d, y, f, g⟩
  · exact absurd ⟨by rw [hx]; simp, Or.inl rfl⟩ (h ev hev)
  · exact ⟨e, a, b, ev', c, y, f, g⟩

/-- **C58** (tar, sink calls). -/
theorem C58_tar_calls {S : SourceM} (hS : S.Conduit) (T : TarFmt) (pr : Ckpt → Int × Int) (F : Nat) (K : SinkM) (V : SaveCons)
    (ck : Option ECkpt) (src : S.St) (k : K.St) (u : V.St)
    (ev : Ev) (hev : ev ∈ (tarResume S T pr F K V ck src k u).2.2.log) (x : Err) (hx : ev.failed = some x) (hs : ev.saving = false) :
    ∃ e, (tarResume S T pr F K V ck src k u).1 = .error e ∧ e ≠ .stop ∧
      ∃ ev' ∈ (tarResume S T pr F K V ck src k u).2.2.log, ∃ y, ev'.failed = some y ∧ e.cause = y.cause := by
  rcases tarResume_tells (strict := false) (T := T) hS (by simp) pr F K V ck src k u with h | ⟨e, a, b, ev', c, d, y, f, g⟩
  · exact absurd ⟨by rw [hx]; simp, Or.inr hs⟩ (h ev hev)
  · exact ⟨e, a, b, ev', c, y, f, g⟩

/-- **C58** (tar, saving). Over a decompressing source (`C58_sources`), also a failing consumer `Save` is reported. -/
theorem C58_tar_saves_partial {S : SourceM} (hR : S.Reports) (T : TarFmt) (pr : Ckpt → Int × Int) (F : Nat) (K : SinkM) (V : SaveCons)
    (ck : Option ECkpt) (src : S.St) (k : K.St) (u : V.St)
    (ev : Ev) (hev : ev ∈ (tarResume S T pr F K V ck src k u).2.2.log) (x : Err) (hx : ev.failed = some x) :
    ∃ e, (tarResume S T pr F K V ck src k u).1 = .error e ∧ e ≠ .stop ∧
      ∃ ev' ∈ (tarResume S T pr F K V ck src k u).2.2.log, ∃ y, ev'.failed = some y ∧ e.cause = y.cause := by
  rcases tarResume_tells (strict := true) (T := T) hR.conduit (fun _ => hR) pr F K V ck src k u with h | ⟨e, a, b, ev', c, d, y, f, g⟩
  · exact absurd ⟨by rw [hx]; simp, Or.inl rfl⟩ (h ev hev)
  · exact ⟨e, a, b, ev', c, y, f, g⟩

/-- The sources the previous theorems are about: seek sources run the save callback at most once per read; decompressing
sources, over any source, also report its error. -/
theorem C58_sources (cfg : WrapCfg) (D : Decomp) (I : SourceM) (F : Nat) : seekM.Conduit ∧ (wrapM cfg D I F).Reports :=
  ⟨seek_conduit, wrap_reports cfg D I F⟩

/-! ## Non-vacuity and counterexamples -/

/-- The last write of `a` fails: the run reports it. -/
example : ∃ e, (toyRun oneFault none memEmpty []).1 = .error e ∧ e ≠ .stop ∧
    ∃ ev' ∈ (toyRun oneFault none memEmpty []).2.log, ∃ y, ev'.failed = some y ∧ e.cause = y.cause := by
  have h : ∃ ev, (toyRun oneFault none memEmpty []).2.log.getLast? = some ev ∧ ev.failed = some (.os 1) ∧ ev.saving = false := ⟨_, by rfl, by rfl, by rfl⟩
  obtain ⟨ev, h1, h2, h3⟩ := h
  exact C58_zip_calls toyArchive toyEnv (toy false false) 100 (memSink oneFault) listCons none memEmpty [] ev (List.mem_of_getLast? h1) _ h2 h3

/-- The toy archive without its stored file. -/
def toyPacked : Archive := { toyArchive with files := toyArchive.files.eraseIdx 1 }

/-- A consumer whose `Save` fails while the deflated file is copied: the run reports it. -/
example : ∃ e, (zipResume toyPacked toyEnv (toy false false) 100 (memSink noFaults) listCons (some ⟨none, 2, none, (0, 1), none⟩) memEmpty [.error (.consumer 7)]).1 = .error e ∧ e ≠ .stop ∧
    ∃ ev' ∈ (zipResume toyPacked toyEnv (toy false false) 100 (memSink noFaults) listCons (some ⟨none, 2, none, (0, 1), none⟩) memEmpty [.error (.consumer 7)]).2.log,
      ∃ y, ev'.failed = some y ∧ e.cause = y.cause := by
  have h : ∃ ev, (zipResume toyPacked toyEnv (toy false false) 100 (memSink noFaults) listCons (some ⟨none, 2, none, (0, 1), none⟩) memEmpty [.error (.consumer 7)]).2.log.find?
      (fun ev => ev.failed.isSome) = some ev ∧ ev.failed = some (.consumer 7) := ⟨_, by rfl, by rfl⟩
  obtain ⟨ev, h1, h2⟩ := h
  exact C58_zip_saves_partial toyPacked toyEnv (toy false false) 100 (memSink noFaults) listCons (some ⟨none, 2, none, (0, 1), none⟩) memEmpty [.error (.consumer 7)]
    (by decide) (by intro c h1 h2; cases h1; exact absurd rfl h2) ev (List.mem_of_find?_eq_some h1) _ h2

/-- **C58 is false** for stored files: the consumer's `Save` fails, and the run reports success. -/
theorem C58_false_stored : ∃ ev ∈ (toyRun noFaults none memEmpty [.error (.consumer 7)]).2.log, ev.failed = some (.consumer 7) ∧
    (toyRun noFaults none memEmpty [.error (.consumer 7)]).1 = .ok (toyArchive.files.map zipFileEntry) := by
  have h : ∃ ev, (toyRun noFaults none memEmpty [.error (.consumer 7)]).2.log.find? (fun ev => ev.failed.isSome) = some ev ∧ ev.failed = some (.consumer 7) :=
    ⟨_, by rfl, by rfl⟩
  obtain ⟨ev, h1, h2⟩ := h
  exact ⟨ev, List.mem_of_find?_eq_some h1, h2, by rfl⟩

/-- **C58 is false** for a tar over a plain source, likewise. -/
theorem C58_false_tar_plain : ∃ ev ∈ (toyTarRun none memEmpty [.error (.consumer 7)]).2.2.log, ev.failed = some (.consumer 7) ∧
    ∃ res, (toyTarRun none memEmpty [.error (.consumer 7)]).1 = .ok res := by
  have h : ∃ ev, (toyTarRun none memEmpty [.error (.consumer 7)]).2.2.log.find? (fun ev => ev.failed.isSome) = some ev ∧ ev.failed = some (.consumer 7) :=
    ⟨_, by rfl, by rfl⟩
  obtain ⟨ev, h1, h2⟩ := h
  exact ⟨ev, List.mem_of_find?_eq_some h1, h2, _, by rfl⟩

/-- A write of the tar extraction fails: the run reports it. -/
example : ∃ e, (tarResume seekM (toyTar true) (fun _ => (0, 1)) 100 (memSink fun t => if t = 2 then some 5 else none) listCons none
      (plainSrc toyStream 100 (by decide)).src memEmpty []).1 = .error e ∧ e ≠ .stop := by
  have h : ∃ ev, (tarResume seekM (toyTar true) (fun _ => (0, 1)) 100 (memSink fun t => if t = 2 then some 5 else none) listCons none
      (plainSrc toyStream 100 (by decide)).src memEmpty []).2.2.log.find? (fun ev => ev.failed.isSome) = some ev ∧ ev.failed = some (.os 5) ∧ ev.saving = false :=
    ⟨_, by rfl, by rfl, by rfl⟩
  obtain ⟨ev, h1, h2, h3⟩ := h
  obtain ⟨e, a, b, _⟩ := C58_tar_calls seek_conduit (toyTar true) (fun _ => (0, 1)) 100 (memSink fun t => if t = 2 then some 5 else none) listCons none
    (plainSrc toyStream 100 (by decide)).src memEmpty [] ev (List.mem_of_find?_eq_some h1) _ h2 h3
  exact ⟨e, a, b⟩

end Savior
