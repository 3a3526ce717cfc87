import Verif.FolderLaw
import Verif.Props.ZipFaults
import Verif.Props.TarCases
import Verif.Props.Dest
/-!
# Extraction to disk: the stop/resume theorems for FolderSink (C33, C43)
-/

namespace Savior
open FSink

/-- The same sink with other system call failures. -/
abbrev FCfg.withFaults (cfg : FCfg) (flt : Faults) : FCfg := { cfg with flt := flt }

theorem base_faults {cfg : FCfg} {B : Path} (hB : cfg.Base B) (flt : Faults) : (cfg.withFaults flt).Base B := by
  cases hB with
  | rooted h => exact .rooted (cfg := cfg.withFaults flt) h
  | relative h1 h2 h3 => exact .relative (cfg := cfg.withFaults flt) h1 h2 h3

theorem bare_inj {a b : FS} (h : a.bare = b.bare) : a.Same b := (bare_same a).symm.trans (h ▸ bare_same b)

/-- **C33** for `FolderSink`. Two extractions of the same archive into the same (initially equal) filesystems — each stopped
and resumed, in the same process or a new one, any number of times, with any pattern of system call failures — that
finally succeed leave equal filesystems (permission bits aside): same tree, same bytes. In particular (second chain empty,
no failures) the outcome is that of an uninterrupted extraction. -/
theorem C33_folder {A : Archive} {D : Decomp} {F : Nat} (hwf : ZipWF A D F) {cfg : FCfg} {B : Path} (hB : cfg.Base B) (flt1 flt2 : Faults)
    (fs1 fs2 : FS) (hfs : fs1.Same fs2)
    (ck1 ck2 : Option ECkpt) (k1 k2 : FSink)
    (hc1 : ZipStops A D F (folderSink (cfg.withFaults flt1)) none (onFS fs1) ck1 k1)
    (hc2 : ZipStops A D F (folderSink (cfg.withFaults flt2)) none (onFS fs2) ck2 k2)
    (env1 env2 : ZEnv) (hh1 : env1.Honest A) (hh2 : env2.Honest A) (V1 V2 : SaveCons) (u1 : V1.St) (u2 : V2.St) (res1 res2 : List Entry)
    (hok1 : (zipResume A env1 D F (folderSink (cfg.withFaults flt1)) V1 ck1 k1 u1).1 = .ok res1)
    (hok2 : (zipResume A env2 D F (folderSink (cfg.withFaults flt2)) V2 ck2 k2 u2).1 = .ok res2) :
    (zipResume A env1 D F (folderSink (cfg.withFaults flt1)) V1 ck1 k1 u1).2.sink.os.fs.Same
      (zipResume A env2 D F (folderSink (cfg.withFaults flt2)) V2 ck2 k2 u2).2.sink.os.fs := by
  have e1 := C33_zip_stop_resume hwf (folderLaw _ (base_faults hB flt1)) (onFS fs1) ck1 k1 hc1 env1 hh1 V1 u1 res1 hok1
  have e2 := C33_zip_stop_resume hwf (folderLaw _ (base_faults hB flt2)) (onFS fs2) ck2 k2 hc2 env2 hh2 V2 u2 res2 hok2
  have h0 : (folderLaw _ (base_faults hB flt1)).view (onFS fs1) = (folderLaw _ (base_faults hB flt2)).view (onFS fs2) :=
    Prod.ext (bare_eq hfs) rfl
  have h1 : ∀ v, zipIdeal (folderLaw _ (base_faults hB flt1)) A D v = zipIdeal (folderLaw _ (base_faults hB flt2)) A D v := fun _ => rfl
  rw [h1, h0, ← e2] at e1
  exact bare_inj (congrArg Prod.fst e1)

variable {Y : List Byte} {clean : Bool} {Ck : Ckpt → Nat → Prop} {F : Nat} {T : TarFmt}

/-- **C43** for `FolderSink`, likewise. -/
theorem C43_folder (hT : T.Law) {cfg : FCfg} {B : Path} (hB : cfg.Base B) (flt1 flt2 : Faults) (fs1 fs2 : FS) (hfs : fs1.Same fs2)
    (ck1 ck2 : Option ECkpt) (k1 k2 : FSink)
    (hc1 : TarStops Y clean Ck F T (folderSink (cfg.withFaults flt1)) none (onFS fs1) ck1 k1)
    (hc2 : TarStops Y clean Ck F T (folderSink (cfg.withFaults flt2)) none (onFS fs2) ck2 k2)
    (X1 X2 : TarSrc Y clean Ck F) (pr1 pr2 : Ckpt → Int × Int) (V1 V2 : SaveCons) (u1 : V1.St) (u2 : V2.St) (res1 res2 : List Entry)
    (hok1 : (tarRun X1 T pr1 (folderSink (cfg.withFaults flt1)) V1 ck1 k1 u1).1 = .ok res1)
    (hok2 : (tarRun X2 T pr2 (folderSink (cfg.withFaults flt2)) V2 ck2 k2 u2).1 = .ok res2) :
    (tarRun X1 T pr1 (folderSink (cfg.withFaults flt1)) V1 ck1 k1 u1).2.2.sink.os.fs.Same
      (tarRun X2 T pr2 (folderSink (cfg.withFaults flt2)) V2 ck2 k2 u2).2.2.sink.os.fs ∧ res1 = res2 := by
  obtain ⟨a1, b1⟩ := tarStops_ok hT (folderLaw _ (base_faults hB flt1)) hc1
  obtain ⟨a2, b2⟩ := tarStops_ok hT (folderLaw _ (base_faults hB flt2)) hc2
  obtain ⟨ms1, h11, h12, h13⟩ := (tarRun_ok (K := folderSink (cfg.withFaults flt1)) hT _ _ X1 pr1 ck1 k1 u1 a1 b1).1 res1 hok1
  obtain ⟨ms2, h21, h22, h23⟩ := (tarRun_ok (K := folderSink (cfg.withFaults flt2)) hT _ _ X2 pr2 ck2 k2 u2 a2 b2).1 res2 hok2
  have := tarHas_det h11 h21
  subst this
  have h0 : (folderLaw _ (base_faults hB flt1)).view (onFS fs1) = (folderLaw _ (base_faults hB flt2)).view (onFS fs2) :=
    Prod.ext (bare_eq hfs) rfl
  have h1 : ∀ v, tarIdeal (folderLaw _ (base_faults hB flt1)) ms1 v = tarIdeal (folderLaw _ (base_faults hB flt2)) ms1 v := fun _ => rfl
  rw [h1, h0, ← h22] at h12
  refine ⟨bare_inj (congrArg Prod.fst h12), ?_⟩
  rw [h13, h23]
  rfl

/-! ## Non-vacuity -/

/-- A disk with nothing but its root. -/
def diskEmpty : FS := ⟨fun p => if p = [] then some .dir else none, fun _ => [], fun _ => 0, 0⟩

/-- A run of the toy archive into "/d". -/
def diskRun (flt : Faults) (ck : Option ECkpt) (k : FSink) (u : List (Except Err Action)) :
    Except Err (List Entry) × XW (folderSink (exCfg.withFaults flt)) listCons :=
  zipResume toyArchive toyEnv (toy false false) 100 (folderSink (exCfg.withFaults flt)) listCons ck k u

/-- Stopped within `a`, then the process is restarted. -/
def diskSink1 : FSink := (folderSink exCfg).reborn (diskRun noFlt none (onFS diskEmpty) [.ok .stop]).2.sink

theorem disk_run1 : (diskRun noFlt none (onFS diskEmpty) [.ok .stop]).1 = .error .stop := by rfl
theorem disk_save1 : lastSave (diskRun noFlt none (onFS diskEmpty) [.ok .stop]).2.log = some toyCk1 := by rfl
theorem disk_stop1 : ZipStops toyArchive (toy false false) 100 (folderSink (exCfg.withFaults noFlt)) none (onFS diskEmpty) (some toyCk1) diskSink1 :=
  ZipStops.step toyEnv listCons [.ok .stop] toy_honest ZipStops.refl disk_run1 disk_save1 (Or.inr rfl)

theorem disk_success : (diskRun noFlt (some toyCk1) diskSink1 []).1 = .ok (toyArchive.files.map zipFileEntry) := by rfl
theorem disk_whole : (diskRun noFlt none (onFS diskEmpty) []).1 = .ok (toyArchive.files.map zipFileEntry) := by rfl

/-- Stopped and resumed after a restart, or in one go: same disk. -/
example : (diskRun noFlt (some toyCk1) diskSink1 []).2.sink.os.fs.Same (diskRun noFlt none (onFS diskEmpty) []).2.sink.os.fs :=
  C33_folder toy_wf exCfg_base noFlt noFlt diskEmpty diskEmpty (FS.Same.rfl' _) _ _ _ _ disk_stop1 ZipStops.refl toyEnv toyEnv toy_honest toy_honest
    listCons listCons [] [] _ _ disk_success disk_whole

example : (diskRun noFlt (some toyCk1) diskSink1 []).2.sink.os.fs.content [[100], cs ['b']] = some [11, 21, 31] := by rfl

/-- A run of the toy tar stream into "/d". -/
def diskTar (ck : Option ECkpt) (k : FSink) (u : List (Except Err Action)) :
    Except Err (List Entry) × seekM.St × XW (folderSink (exCfg.withFaults noFlt)) listCons :=
  tarRun (plainSrc toyStream 100 (by decide)) (toyTar true) (fun _ => (0, 1)) (folderSink (exCfg.withFaults noFlt)) listCons ck k u

def diskTarSink1 : FSink := (folderSink exCfg).reborn (diskTar none (onFS diskEmpty) [.ok .stop]).2.2.sink

theorem diskTar_stop1 : TarStops (plainGeo toyStream).stream true (Seek.CkS (plainGeo toyStream)) 100 (toyTar true) (folderSink (exCfg.withFaults noFlt))
    none (onFS diskEmpty) (some tarCk1) diskTarSink1 := by
  have h1 : (diskTar none (onFS diskEmpty) [.ok .stop]).1 = .error .stop := by rfl
  have h2 : lastSave (diskTar none (onFS diskEmpty) [.ok .stop]).2.2.log = some tarCk1 := by rfl
  exact TarStops.step (plainSrc toyStream 100 (by decide)) (fun _ => (0, 1)) listCons [.ok .stop] TarStops.refl h1 h2 (Or.inr rfl)

example : (diskTar (some tarCk1) diskTarSink1 []).2.2.sink.os.fs.Same (diskTar none (onFS diskEmpty) []).2.2.sink.os.fs := by
  have h1 : (diskTar (some tarCk1) diskTarSink1 []).1 = .ok [⟨[97], .file, 0o644, 0, 3, 3, []⟩, ⟨[98], .file, 0o644, 0, 2, 2, []⟩] := by rfl
  have h2 : (diskTar none (onFS diskEmpty) []).1 = .ok [⟨[97], .file, 0o644, 0, 3, 3, []⟩, ⟨[98], .file, 0o644, 0, 2, 2, []⟩] := by rfl
  exact (C43_folder (toyTar_law true) exCfg_base noFlt noFlt diskEmpty diskEmpty (FS.Same.rfl' _) _ _ _ _ diskTar_stop1 TarStops.refl
    (plainSrc toyStream 100 (by decide)) (plainSrc toyStream 100 (by decide)) (fun _ => (0, 1)) (fun _ => (0, 1)) listCons listCons [] [] _ _ h1 h2).1

end Savior
