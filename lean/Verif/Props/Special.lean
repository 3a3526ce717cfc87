import Verif.Props.Modes
import Verif.Ustar
/-!
# Set-uid, set-gid and sticky files (C90)

A property that would be good to have and that the code does not have for zip archives: extracting makes no set-uid, set-gid or sticky files.
-/

namespace Savior
open FSink

/-- A Go `os.FileMode` without `os.ModeSetuid` (bit 23), `os.ModeSetgid` (bit 22) and `os.ModeSticky` (bit 20). -/
def NoSpecial (mode : Nat) : Prop := mode.testBit 23 = false ∧ mode.testBit 22 = false ∧ mode.testBit 20 = false

instance (mode : Nat) : Decidable (NoSpecial mode) := inferInstanceAs (Decidable (_ ∧ _))

theorem wantPerm_plain {mode : Nat} (h : NoSpecial mode) : wantPerm mode < 0o1000 := by
  have : wantSpecial mode = 0 := by
    unfold wantSpecial
    rw [h.1, h.2.1, h.2.2]
    rfl
  unfold wantPerm
  rw [this]
  exact Nat.and_lt_two_pow _ (by decide : 0o777 < 2 ^ 9)

theorem without_le (m mask : Nat) {n : Nat} (h : m < 2 ^ n) : without m mask < 2 ^ n := by
  unfold without
  exact Nat.xor_lt_two_pow h (Nat.lt_of_le_of_lt Nat.and_le_left h)

theorem small_noSpecial {mode : Nat} (h : mode < 2 ^ 20) : NoSpecial mode :=
  ⟨Nat.testBit_lt_two_pow (Nat.lt_of_lt_of_le h (by decide)), Nat.testBit_lt_two_pow (Nat.lt_of_lt_of_le h (by decide)), Nat.testBit_lt_two_pow h⟩

theorem asked_plain {mode umask m : Nat} (h : NoSpecial mode) (hm : m = wantPerm mode ∨ m = without (wantPerm mode) umask) : m < 0o1000 := by
  rcases hm with rfl | rfl
  · exact wantPerm_plain h
  · exact without_le _ _ (n := 9) (wantPerm_plain h)

/-- **C90**, for any calls to a `FolderSink`, on any disk, whatever fails, if no entry's mode has the bits: every file, anywhere on the disk,
has the permissions it had before, or none of the special bits (0o4000, 0o2000, 0o1000). -/
theorem C90_calls_partial (cfg : FCfg) (ops : List FOp) (s : FSink) (hno : ∀ e, FOp.prealloc e ∈ ops ∨ FOp.getWriter e ∈ ops → NoSpecial e.mode)
    (L : Path) (m : Nat) (h : (runOps cfg ops s).os.fs.permAt L = some m) : s.os.fs.permAt L = some m ∨ m < 0o1000 := by
  rcases C74_origin cfg ops s L m h with g | ⟨e, he, g⟩
  · exact Or.inl g
  · exact Or.inr (asked_plain (hno e he) g)

/-- **C90**, for tar streams whose headers have modes below 2^20 — the set-uid, set-gid and sticky bits of Unix are 0o4000, 0o2000 and 0o1000,
so headers may well have these: at any point after any chain of extractions, the file at the place of a member has the permissions it had before
the first, or none of the special bits. -/
theorem C90_tar_partial {T : TarFmt} {Y : List Byte} {clean : Bool} {Ck : Ckpt → Nat → Prop} {F : Nat} {cfg : FCfg} {B : Path} {all : List (THdr × List Byte)}
    (hT : T.Law) (hall : TarHas T clean Y all) (hB : cfg.Base B) (hind : Independent cfg B (tarPlan all)) (fs0 : FS) (hfit : DiskFit B (tarPlan all) fs0)
    (hist : List ECkpt) (k : FSink) (hchain : TarAttempts Y clean Ck F T (folderSink cfg) (onFS fs0) hist k)
    (hno : ∀ y ∈ all, y.1.mode < 2 ^ 20)
    (x : THdr × List Byte) (hx : x ∈ all) (hr : x.1.typ = .reg) (hi : shouldIgnore x.1.name = false) (hb : B <+: namePlace B x.1.name)
    (m : Nat) (hm : k.os.fs.permAt (namePlace B x.1.name) = some m) :
    fs0.permAt (namePlace B x.1.name) = some m ∨ m < 0o1000 := by
  rcases C74_tar hT hall hB hind fs0 hfit hist k hchain x hx hr hi hb m hm with g | ⟨y, hy, _, _, g⟩
  · exact Or.inl g
  · exact Or.inr (asked_plain (small_noSpecial (hno y hy)) g)

/-- **C90**, for zip archives, if no member's mode has the bits. -/
theorem C90_zip_partial {A : Archive} {D : Decomp} {F : Nat} {cfg : FCfg} {B : Path} (hB : cfg.Base B) (hind : Independent cfg B A.plan) (fs0 : FS) (hfit : DiskFit B A.plan fs0)
    (hist : List ECkpt) (k : FSink) (hchain : ZipAttempts A D F (folderSink cfg) (onFS fs0) hist k) (hno : ∀ zf ∈ A.files, NoSpecial zf.mode)
    (zf : ZFile) (hz : zf ∈ A.files) (hk : (zipFileEntry zf).kind = .file) (hi : shouldIgnore zf.name = false) (hb : B <+: namePlace B zf.name)
    (m : Nat) (hm : k.os.fs.permAt (namePlace B zf.name) = some m) :
    fs0.permAt (namePlace B zf.name) = some m ∨ m < 0o1000 := by
  rcases C74_zip hB hind fs0 hfit hist k hchain zf hz hk hi hb m hm with g | ⟨zf', hz', _, _, g⟩
  · exact Or.inl g
  · exact Or.inr (asked_plain (hno zf' hz') g)

/-- What `zip.FileHeader.Mode()` makes of the `st_mode` that archivers on Unix put in the upper half of the external attributes (package
archive/zip, `unixModeToFileMode`): permissions, the type, and the special bits. -/
def unixFileMode (u : Nat) : Nat :=
  (u &&& 0o777) +
  (match (u >>> 12) % 16 with | 6 => 2 ^ 26 | 4 => 2 ^ 31 | 2 => 2 ^ 26 + 2 ^ 21 | 1 => 2 ^ 25 | 10 => 2 ^ 27 | 12 => 2 ^ 24 | _ => 0) +
  (if u.testBit 10 then 2 ^ 22 else 0) + (if u.testBit 11 then 2 ^ 23 else 0) + (if u.testBit 9 then 2 ^ 20 else 0)

/-- A zip archive with one member, an empty file that is `-rwsr-xr-x` (0104755). -/
def suidZip : Archive := ⟨[], [⟨cs ['s'], .store, false, 0, 0, unixFileMode 0o104755, 0, ([], true)⟩]⟩

/-- **C90 is false** for zip archives: extracting such an archive to an empty folder makes a file that is set-uid and
writable by everybody (04777). -/
theorem C90_false_zip :
    (∃ res, (zipResume suidZip toyEnv (toy false false) 100 (folderSink exCfg) listCons none (onFS diskEmpty) []).1 = .ok res) ∧
    (zipResume suidZip toyEnv (toy false false) 100 (folderSink exCfg) listCons none (onFS diskEmpty) []).2.sink.os.fs.permAt [[100], cs ['s']] = some 0o4777 :=
  ⟨⟨_, by rfl⟩, by rfl⟩

/-- The header block of an empty file with the eight octal digits `mode` as its mode. -/
def oddHeader (name : Byte) (mode : List Byte) : List Byte :=
  let fs := fun sum => (ustarFields ⟨[name], 0, 0, .reg, []⟩ sum).set 1 mode
  (fs (octDigits 6 (ustarSum (fs [])) ++ [0, 32])).flatten

/-- A tar file with one member, whose mode field has the digits 40000644. -/
def oddTar : List Byte := oddHeader 115 [52, 48, 48, 48, 48, 54, 52, 52] ++ List.replicate 1024 0

/-- Extracting it (the file is read by `seekM` in as few reads as possible). -/
def oddRun : Except Err (List Entry) × seekM.St × XW (folderSink exCfg) listCons :=
  tarResume seekM (ustar true) (fun _ => (0, 1)) 10 (folderSink exCfg) listCons none (Seek.fromBytes oddTar) (onFS diskEmpty) []

theorem oddRun_eq : (match oddRun.1 with | .ok _ => true | .error _ => false) = true ∧ oddRun.2.2.sink.os.fs.permAt [[100], [115]] = some 0o4644 := by decide +kernel

/-- **C90 is false** for tar streams whose header has a mode of more than 20 bits: likewise (04666 but for the umask 022). -/
theorem C90_false_tar : (∃ res, oddRun.1 = .ok res) ∧ oddRun.2.2.sink.os.fs.permAt [[100], [115]] = some 0o4644 := by
  refine ⟨?_, oddRun_eq.2⟩
  have h := oddRun_eq.1
  generalize oddRun.1 = r at h ⊢
  cases r with
  | ok res => exact ⟨res, rfl⟩
  | error e => cases h

/-! ## Non-vacuity -/

/-- What `ls` shows as `-rwsr-sr-t` is `NoSpecial` as a number in a tar header, not as a Go mode. -/
example : NoSpecial 0o7755 ∧ ¬ NoSpecial (unixFileMode 0o107755) ∧ unixFileMode 0o120777 = modeLink + 0o777 ∧ unixFileMode 0o40755 = modeDir + 0o755 := by decide

example : (runOps exCfg [.prealloc ⟨cs ['x'], .file, 0o7711, 0, 9, 0, []⟩, .getWriter ⟨cs ['x'], .file, 0o7711, 0, 9, 0, []⟩] (onFS diskEmpty)).os.fs.permAt [[100], cs ['x']] = some 0o777 := by rfl

example : diskKill2.os.fs.permAt [[100], cs ['c']] = some 0o644 ∧ ∀ zf ∈ toyArchive.files, NoSpecial zf.mode := ⟨by rfl, by decide⟩

example : diskEmpty.permAt [[100], [97]] = some 0o644 ∨ 0o644 < 0o1000 :=
  C90_tar_partial (toyTar_law true) toy_has (base_faults exCfg_base (killedAt 11 2)) (toyTarPlan_independent _) diskEmpty (diskEmpty_fit _ (by decide +kernel))
    _ _ diskTarK2_attempts (by decide) (ttHdr 1 97 3, [10, 20, 30]) (by decide) (by rfl) (by rfl) (by decide) 0o644 (by rfl)

end Savior
