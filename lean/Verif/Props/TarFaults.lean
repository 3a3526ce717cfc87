import Verif.CheckTar
import Verif.Props.FolderFaults
/-!
# Tar extraction with failures and restarts (C61, and C60 for tar)
-/

namespace Savior
open FSink

section
variable {Y : List Byte} {clean : Bool} {Ck : Ckpt → Nat → Prop} {F : Nat} {T : TarFmt}

theorem tarAttempts_ok (hT : T.Law) {all : List (THdr × List Byte)} (hall : TarHas T clean Y all) {K : SinkM} (P : PathLaw K) (hfit : P.FitsMembers all)
    {k0 : K.St} (hk0 : P.Inv k0) {hist : List ECkpt} {k : K.St} (h : TarAttempts Y clean Ck F T K k0 hist k) : TarOK all Ck T clean Y P hist k :=
  tarAttempts_okX hT hall P hfit (.nothing all P) (fun _ _ _ _ h => h) hk0 trivial h

/-- **C61.** After any number of extractions of the same tar stream that ended in whatever way — sink calls failing in any
pattern, writes stored in part, read faults, consumer errors, stops, restarts —, each resumed from a checkpoint handed to a
save consumer before (the last, or an earlier one; or nothing), a run that succeeds leaves every path as the stream says:
the last supported member of that name, complete; and the result lists the regular files, in order, with their sizes. -/
theorem C61_tar_failures_harmless (hT : T.Law) {all : List (THdr × List Byte)} (hall : TarHas T clean Y all) {K : SinkM} (P : PathLaw K)
    (hfit : P.FitsMembers all) (k0 : K.St) (hk0 : P.Inv k0) (hist : List ECkpt) (k : K.St) (hchain : TarAttempts Y clean Ck F T K k0 hist k)
    (ck : Option ECkpt) (before : List ECkpt) (hck : ChooseCk hist ck before) (X : TarSrc Y clean Ck F) (pr : Ckpt → Int × Int) (V : SaveCons) (u : V.St)
    (res : List Entry) (hok : (tarRun X T pr K V ck k u).1 = .ok res) :
    (∀ p n, P.shown p = true → tarNode all p = some n → P.node (tarRun X T pr K V ck k u).2.2.sink p = some n) ∧
    res = (all.filter fun m => m.1.typ = .reg).map fun m =>
      { path := m.1.name, kind := .file, mode := m.1.mode, csize := 0, usize := m.1.size,
        woff := if P.shown m.1.name then (m.2.length : Int) else 0, link := [] } := by
  obtain ⟨_, g2, _⟩ := tarRun_path (V := V) hT hall P hfit X pr _ _ _ _ u (tarAttempts_ok hT hall P hfit hk0 hchain) hck
  obtain ⟨h1, h2⟩ := g2 res hok
  refine ⟨fun p n hs hn => tHolds_node h1 p n hs hn, ?_⟩
  rw [h2]
  unfold tarFiles
  apply List.map_congr_left
  intro m hm
  have : m.1.typ = .reg := by simpa using (List.mem_filter.mp hm).2
  simp [tarEntryOf, this]

theorem tarPlan_fits {cfg : FCfg} {B : Path} (hB : cfg.Base B) (ms : List (THdr × List Byte)) (hind : Independent cfg B (tarPlan ms)) :
    (folderPath cfg hB (tarPlan ms) hind).FitsMembers ms :=
  fun m hm ht => List.mem_map.2 ⟨m, List.mem_filter.2 ⟨hm, by simpa using ht⟩, rfl⟩

/-- **C60** for tar: under the same assumptions, every supported member ends at its place on disk. -/
theorem C60_tar_folder_partial (hT : T.Law) {all : List (THdr × List Byte)} (hall : TarHas T clean Y all) {cfg : FCfg} {B : Path} (hB : cfg.Base B)
    (hind : Independent cfg B (tarPlan all)) (fs0 : FS) (hfit : DiskFit B (tarPlan all) fs0)
    (hist : List ECkpt) (k : FSink) (hchain : TarAttempts Y clean Ck F T (folderSink cfg) (onFS fs0) hist k)
    (ck : Option ECkpt) (before : List ECkpt) (hck : ChooseCk hist ck before) (X : TarSrc Y clean Ck F) (pr : Ckpt → Int × Int) (V : SaveCons) (u : V.St)
    (res : List Entry) (hok : (tarRun X T pr (folderSink cfg) V ck k u).1 = .ok res)
    (p : Str) (hp : shouldIgnore p = false) (n : PNode) (hn : tarNode all p = some n) :
    (tarRun X T pr (folderSink cfg) V ck k u).2.2.sink.os.fs.holds (namePlace B p) = some n := by
  have h := (C61_tar_failures_harmless hT hall (folderPath cfg hB (tarPlan all) hind) (tarPlan_fits hB all hind) (onFS fs0) (diskOK_of_fit hfit) hist k hchain
    ck before hck X pr V u res hok).1 p n (by show (!shouldIgnore p) = true; rw [hp]; rfl) hn
  obtain ⟨_, _, _, h2⟩ := nodeOf_some h
  exact h2

end

/-! ## Non-vacuity -/

/-- The toy stream. -/
def toyTarSrc := plainSrc toyStream 100 (by decide)

/-- A run of the toy tar stream into memory, sink calls failing. -/
def memTar (faults : Nat → Option Nat) (ck : Option ECkpt) (k : MemSt) (u : List (Except Err Action)) :=
  tarRun toyTarSrc (toyTar true) (fun _ => (0, 1)) (memSink faults) listCons ck k u

/-- The fifth sink call, the last write of "a", fails with nothing stored. -/
def tarFault : Nat → Option Nat := fun t => if t = 4 then some 0 else none

def tarF1 := memTar tarFault none memEmpty []

theorem tarF1_fails : (∃ e, tarF1.1 = .error e) ∧ tarF1.2.2.sink.nodes [97] = some (.file [10, 20]) ∧ tarF1.2.2.sink.nodes [98] = none ∧
    ∃ c, savedCks tarF1.2.2.log = [tarCk1, c] := ⟨⟨_, by rfl⟩, by rfl, by rfl, _, by rfl⟩

theorem tarF1_attempts : TarAttempts (plainGeo toyStream).stream true (Seek.CkS (plainGeo toyStream)) 100 (toyTar true) (memSink tarFault) memEmpty
    (savedCks tarF1.2.2.log) ((memSink tarFault).reborn tarF1.2.2.sink) := by
  have h0 : TarAttempts (plainGeo toyStream).stream true (Seek.CkS (plainGeo toyStream)) 100 (toyTar true) (memSink tarFault) memEmpty [] memEmpty := .refl
  have h1 := TarAttempts.step toyTarSrc (fun _ => (0, 1)) listCons [] h0 .fresh (Or.inr (Eq.refl _))
  rw [List.nil_append] at h1
  unfold tarF1 memTar
  exact h1

theorem tarF2_ok : (memTar tarFault (some tarCk1) ((memSink tarFault).reborn tarF1.2.2.sink) []).1 =
    .ok [⟨[97], .file, 0o644, 0, 3, 3, []⟩, ⟨[98], .file, 0o644, 0, 2, 2, []⟩] := by rfl

/-- Resumed from the checkpoint before the last. -/
example : (memPath tarFault).node (memTar tarFault (some tarCk1) ((memSink tarFault).reborn tarF1.2.2.sink) []).2.2.sink [97] = some (.file [10, 20, 30]) := by
  obtain ⟨c, hc⟩ := tarF1_fails.2.2.2
  have h := C61_tar_failures_harmless (toyTar_law true) toy_has (memPath tarFault) (fun _ _ _ => trivial) memEmpty trivial _ _ tarF1_attempts (some tarCk1) _
    (.pick (a := []) (b := [c]) hc) toyTarSrc (fun _ => (0, 1)) listCons [] _ tarF2_ok
  exact h.1 _ _ rfl (by rfl)

/-- The same to disk; the process is killed. -/
def diskTarK (flt : Faults) (ck : Option ECkpt) (k : FSink) (u : List (Except Err Action)) :=
  tarRun toyTarSrc (toyTar true) (fun _ => (0, 1)) (folderSink (exCfg.withFaults flt)) listCons ck k u

/-- Killed opening "b", after two checkpoints in "a". -/
def diskTarK1 := diskTarK (killedAt 11 2) none (onFS diskEmpty) []

theorem diskTarK1_dead : (∃ e, diskTarK1.1 = .error e) ∧ ∃ c, savedCks diskTarK1.2.2.log = [tarCk1, c] := ⟨⟨_, by rfl⟩, _, by rfl⟩

theorem diskTarK1_attempts : TarAttempts (plainGeo toyStream).stream true (Seek.CkS (plainGeo toyStream)) 100 (toyTar true)
    (folderSink (exCfg.withFaults (killedAt 11 2))) (onFS diskEmpty) (savedCks diskTarK1.2.2.log) ((folderSink (exCfg.withFaults (killedAt 11 2))).reborn diskTarK1.2.2.sink) := by
  have h0 : TarAttempts (plainGeo toyStream).stream true (Seek.CkS (plainGeo toyStream)) 100 (toyTar true) (folderSink (exCfg.withFaults (killedAt 11 2)))
    (onFS diskEmpty) [] (onFS diskEmpty) := .refl
  have h1 := TarAttempts.step toyTarSrc (fun _ => (0, 1)) listCons [] h0 .fresh (Or.inr (Eq.refl _))
  rw [List.nil_append] at h1
  unfold diskTarK1 diskTarK
  exact h1

/-- The next run dies at once. -/
def diskTarK2 := diskTarK (killedAt 11 2) (some tarCk1) ((folderSink (exCfg.withFaults (killedAt 11 2))).reborn diskTarK1.2.2.sink) []

theorem diskTarK2_dead : (∃ e, diskTarK2.1 = .error e) ∧ savedCks diskTarK2.2.2.log = [] := ⟨⟨_, by rfl⟩, by rfl⟩

theorem diskTarK2_attempts : TarAttempts (plainGeo toyStream).stream true (Seek.CkS (plainGeo toyStream)) 100 (toyTar true)
    (folderSink (exCfg.withFaults (killedAt 11 2))) (onFS diskEmpty) ([tarCk1] ++ savedCks diskTarK2.2.2.log) diskTarK2.2.2.sink := by
  obtain ⟨c, hc⟩ := diskTarK1_dead.2
  have h := diskTarK1_attempts
  unfold diskTarK2
  exact TarAttempts.step (before := [tarCk1]) toyTarSrc (fun _ => (0, 1)) listCons [] h (.pick (a := []) (b := [c]) hc) (Or.inl rfl)

theorem diskTarK3_ok : (diskTarK (killedAt 11 2) (some tarCk1) diskTarK2.2.2.sink []).1 =
    .ok [⟨[97], .file, 0o644, 0, 3, 3, []⟩, ⟨[98], .file, 0o644, 0, 2, 2, []⟩] := by rfl

theorem toyTarPlan_independent (flt : Faults) : Independent (exCfg.withFaults flt) [[100]] (tarPlan toyMembers) := by
  have : ∀ x ∈ tarPlan toyMembers, ∀ y ∈ tarPlan toyMembers, x.1 ≠ y.1 →
    namePlace [[100]] x.1 ≠ namePlace [[100]] y.1 ∧ (namePlace [[100]] x.1 <+: namePlace [[100]] y.1 → x.2 = .dir) := by decide +kernel
  exact fun x hx y hy _ _ _ _ h => this x hx y hy h

example : (diskTarK (killedAt 11 2) (some tarCk1) diskTarK2.2.2.sink []).2.2.sink.os.fs.holds [[100], [97]] = some (.file [10, 20, 30]) := by
  have h := diskTarK2_attempts
  exact C60_tar_folder_partial (toyTar_law true) toy_has (base_faults exCfg_base _) (toyTarPlan_independent _) diskEmpty (diskEmpty_fit _ (by decide +kernel)) _ _ h
    _ _ (.pick (a := []) (b := []) (by rw [diskTarK2_dead.2]; rfl)) toyTarSrc (fun _ => (0, 1)) listCons [] _ diskTarK3_ok [97] (by rfl) _ (by rfl)

end Savior
