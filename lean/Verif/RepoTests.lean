import Verif.Props.Dest
import Verif.Props.Shared
import Verif.Props.Counting
import Verif.Props.Zip
import Verif.Drain
import Verif.Props.Ready
/-!
# The repository's own tests, carried out on the model

A check of the model, not of the code: whatever /repo's tests assert of the program should be so of the model. Where a test uses random
data, the assertion is shown for all data; a few large buffers are made smaller. The tests of the decompressing sources, of the extractors and
of the checker itself run checker/sourcetester.go and checker/extractortester.go: for these see C70 and C71. For the last part of Test_Section
(a consumer that resumes the source it is called by) see C18_reentrant, for countingsource_test.go C27.
-/

namespace Savior
namespace RepoTests
open Seek FSink

/-- A consumer that is never called, or does nothing. -/
def noCb : Callback Unit := fun _ u => (u, none)

/-! ## seeksource/seeksource_test.go -/

/-- Test_Uninitialized (lines 17-28). -/
example (n : Nat) : (Seek.read noCb n (fromBytes []) ()).1 = ([], some (.wrapped .uninit)) ∧ (Seek.readByte noCb (fromBytes []) ()).1.2 = some (.wrapped .uninit) :=
  ⟨rfl, rfl⟩

/-- Test_FromBytes and Test_FromReadSeeker (30-43, 61-74), for any data and any buffer size of `io.ReadAll`. -/
example (ref : List Byte) (n : Nat) (hn : 0 < n) : (fromBytes ref).size = ref.length ∧
    ∃ s s' u, Seek.resume none (fromBytes ref) = (.ok 0, s) ∧ drain seekM noCb n (2 * ref.length + 3) s () = ((ref, some .eof), s', u) := by
  refine ⟨rfl, ?_⟩
  obtain ⟨g, hg⟩ : ∃ g : Geo, g = ⟨ref, fun _ => .full, 0, ref.length⟩ := ⟨_, rfl⟩
  have hst : g.stream = ref := by simp [hg, Geo.stream, window]
  have hnice : (seekLawful g).nice := by subst hg; exact fun _ => rfl
  have hgood : (seekLawful g).Good (fromBytes ref) := by subst hg; exact ⟨rfl, rfl, rfl, rfl⟩
  have hmax : (seekLawful g).rankMax = ref.length := by subst hg; rfl
  rcases (seekLawful g).resume_nil hgood with ⟨s, h1, h2, _⟩ | ⟨e, s, h1, h2, _⟩
  · have hr := (seekLawful g).rank_le h2
    obtain ⟨bs, e, s', c', g1, _, _, _, _, g6⟩ := drain_spec (seekLawful g) noCb (fun _ _ => rfl) n hn (2 * ref.length + 3) s 0 () h2 (by omega)
    obtain ⟨a, b⟩ := g6 hnice
    rw [hst, List.drop_zero] at a
    have he : e = .eof := b.2 rfl
    rw [a, he] at g1
    exact ⟨s, s', c', h1, g1⟩
  · exact absurd (h2 hnice).1 (by simp)

/-- 1024 bytes of test data. -/
def ref1 : List Byte := (List.range 1024).map fun i => UInt8.ofNat (i * 7 + i / 256)

/-- The bytes `ReadByte` returns when called `n` times, up to an error. -/
def bytesOf (s : SeekSt) : Nat → List Byte
  | 0 => []
  | n + 1 => let r := Seek.readByte noCb s (); if r.1.2 = none then r.1.1 :: bytesOf r.2.1 n else []

/-- Test_ReadByte (45-59), on 256 bytes. -/
example : bytesOf (Seek.resume none (fromBytes (ref1.take 256))).2 256 = ref1.take 256 := by decide +kernel

/-- Test_FromFile (76-94), on 1024 bytes. -/
example : (fromFile ⟨ref1, 0, fun _ => .full, 0⟩ (.ok 1024)).size = 1024 ∧
    (drain seekM noCb 512 10 (Seek.resume none (fromFile ⟨ref1, 0, fun _ => .full, 0⟩ (.ok 1024))).2 ()).1 = (ref1, some .eof) := by decide +kernel

/-- Keeps the last checkpoint. -/
def keepCb : Callback (Option Ckpt) := fun c _ => (some c, none)

/-- The loop of Test_SaveResume (113-128): read with buffers of `n` bytes; ask for a save once more than `half` bytes were copied. -/
def saveLoop (n half : Nat) : Nat → Nat → Bool → SeekSt → Option Ckpt → SeekSt × Option Ckpt
  | 0, _, _, s, c => (s, c)
  | f + 1, copied, asked, s, c =>
    let r := Seek.read keepCb n s c
    if r.1.2 ≠ none then r.2
    else
      let k := copied + r.1.1.length
      if !asked && half < k then saveLoop n half f k true (seekM.wantSave r.2.1) r.2.2
      else saveLoop n half f k asked r.2.1 r.2.2

/-- What `Resume` returned, or -1. -/
def offOf : Except Err Int → Int
  | .ok x => x
  | .error _ => -1

/-- After the loop of Test_SaveResume: the source and the checkpoint. -/
def saved1 : SeekSt × Option Ckpt := saveLoop 60 512 100 0 false (seekM.setSSC true (Seek.resume none (fromBytes ref1)).2) none

/-- The number of bytes left to read. -/
def left (s : SeekSt) : Nat := (drain seekM noCb 60 100 s ()).1.1.length

/-- Test_SaveResume (96-153), with 1024 bytes of data and buffers of 60; resuming another source, and the same. -/
example : saved1.2.isSome = true ∧ offOf (Seek.resume saved1.2 (fromBytes ref1)).1 = 540 ∧ Seek.tell (Seek.resume saved1.2 (fromBytes ref1)).2 = 540 ∧
    Seek.progress (Seek.resume saved1.2 (fromBytes ref1)).2 = (540, 1024) ∧ left (Seek.resume saved1.2 (fromBytes ref1)).2 = 1024 - 540 ∧
    offOf (Seek.resume saved1.2 saved1.1).1 = 540 ∧ Seek.tell (Seek.resume saved1.2 saved1.1).2 = 540 ∧ left (Seek.resume saved1.2 saved1.1).2 = 1024 - 540 := by
  decide +kernel

/-- Everything a new section delivers; `none` if it is refused. -/
def sectionBytes (a z : Int) (s : SeekSt) : Option (List Byte) :=
  match section_ a z s with
  | .error _ => none
  | .ok t => some (drain seekM noCb 512 10 (Seek.resume none t).2 ()).1.1

/-- Test_Section (155-206). -/
example : (sectionBytes 0 512 (fromBytes ref1)).isSome = true ∧ (sectionBytes 512 512 (fromBytes ref1)).isSome = true ∧
    sectionBytes (-1) 512 (fromBytes ref1) = none ∧ sectionBytes 0 (-29) (fromBytes ref1) = none ∧ sectionBytes 0 1025 (fromBytes ref1) = none ∧
    sectionBytes 512 513 (fromBytes ref1) = none ∧ sectionBytes 0 512 (fromBytes ref1) = some (ref1.take 512) ∧
    sectionBytes 256 512 (fromBytes ref1) = some ((ref1.drop 256).take 512) := by decide +kernel

/-- Test_InvalidCheckpoint (248-292). -/
example (s : SeekSt) : ∃ e, (Seek.resume (some (.plain (-1))) s).1 = .error e := ⟨_, rfl⟩

example : offOf (Seek.resume (some (.plain 1025)) (fromBytes ref1)).1 = 1025 ∧
    (Seek.readByte noCb (Seek.resume (some (.plain 1025)) (fromBytes ref1)).2 ()).1.2 = some .eof ∧
    ((section_ 512 512 (fromBytes ref1)).toOption.map fun t =>
      (offOf (Seek.resume (some (.plain 512)) t).1, offOf (Seek.resume (some (.plain 513)) t).1)) = some (512, 513) := by decide +kernel

/-! ## folder_sink_test.go -/

/-- An entry of kind file. -/
def fileEntry (p : List Char) (o : Int) : Entry := ⟨cs p, .file, 0o644, 0, 0, o, []⟩

/-- A disk with the folder "/d". -/
def disk0 : FS := ⟨fun p => if p = [] ∨ p = [[100]] then some .dir else none, fun _ => [], fun _ => 0, 0⟩

/-- Test_FolderSink (16-54): "foobar", then "ee" from offset 1, leaves "fee". -/
example : (runOps exCfg [.getWriter (fileEntry ['s', 'e', 'c', 'r', 'e', 't'] 0), .write 0 (cs ['f', 'o', 'o', 'b', 'a', 'r']), .closeWriter 0,
    .getWriter (fileEntry ['s', 'e', 'c', 'r', 'e', 't'] 1), .write 1 (cs ['e', 'e']), .closeWriter 1] (onFS disk0)).os.fs.holds
      [[100], cs ['s', 'e', 'c', 'r', 'e', 't']] = some (.file (cs ['f', 'e', 'e'])) := by decide +kernel

/-- Test_FolderSinkIgnorePaths (56-97). -/
example :
    let k := runOps exCfg [.getWriter (fileEntry ['I', 'c', 'o', 'n', '\r'] 0), .write 0 (cs ['f', 'o', 'o', 'b', 'a', 'r']), .closeWriter 0,
      .getWriter (fileEntry ['F', 'o', 'o', 'b', 'a', 'r'] 0), .write 1 (cs ['f', 'o', 'o', 'b', 'a', 'r']), .closeWriter 1] (onFS disk0)
    k.os.fs.nodes [[100], cs ['I', 'c', 'o', 'n', '\r']] = none ∧ (k.os.fs.nodes [[100], cs ['F', 'o', 'o', 'b', 'a', 'r']]).isSome = true := by decide +kernel

/-- `errors.Is(err, ErrPathTraversal)`: the error, or what it wraps. -/
def isTraversal : Option Err → Bool
  | some .traversal => true
  | some (.wrapped .traversal) => true
  | _ => false

/-- Test_FolderSinkPathTraversal (99-143). -/
example : ([("subdir/file.txt", false), ("../outside.txt", true), ("../../../etc/passwd", true), ("foo/../../outside.txt", true), ("./inside.txt", false),
    ("foo..bar/file.txt", false)].all fun t =>
      let r := ((onFS disk0).getWriter exCfg (fileEntry t.1.toList 0)).1
      if t.2 then isTraversal r else r.isNone) = true := by decide +kernel

/-- Test_FolderSinkMkdirPathTraversal (145-170). -/
example : isTraversal ((onFS disk0).mkdir exCfg ⟨cs "../escaped-dir".toList, .dir, 0o755, 0, 0, 0, []⟩).1 = true ∧
    ((onFS disk0).mkdir exCfg ⟨cs "../escaped-dir".toList, .dir, 0o755, 0, 0, 0, []⟩).2.os.fs.nodes [cs "escaped-dir".toList] = none := by decide +kernel

/-- Test_FolderSinkSymlinkPathTraversal (172-213). -/
example : ([("link.txt", "target.txt", false), ("subdir/link.txt", "../other.txt", false), ("link.txt", "/etc/passwd", true),
    ("link.txt", "../../../etc/passwd", true), ("subdir/link.txt", "../../outside.txt", true)].all fun t =>
      let r := ((onFS disk0).symlink exCfg ⟨cs t.1.toList, .symlink, 0o777, 0, 0, 0, []⟩ (cs t.2.1.toList)).1
      if t.2.2 then isTraversal r else r.isNone) = true := by decide +kernel

/-! ## zipextractor/zipextractor_backslash_test.go -/

/-- TestZipNormalizeBackslashes and TestZipNormalizeBackslashesStillRejectsTraversal, as to names. -/
example : (∃ e, zipOpenNames false [cs "dir\\sub\\".toList, cs "dir\\sub\\file.txt".toList] = .error (.wrapped e) ∧ e = .insecurePath) ∧
    zipOpenNames true [cs "dir\\sub\\".toList, cs "dir\\sub\\file.txt".toList] = .ok [cs "dir/sub/".toList, cs "dir/sub/file.txt".toList] ∧
    (∃ e, zipOpenNames true [cs "..\\evil.txt".toList] = .error e ∧ (e = .insecurePath ∨ e = .wrapped .insecurePath)) :=
  ⟨⟨_, rfl, rfl⟩, rfl, ⟨_, rfl, by decide⟩⟩

end RepoTests
end Savior
