import Verif.Props.Exact
/-!
# Extracting again, or elsewhere, or after other interruptions, gives the same tree (C97)
-/

namespace Savior
open FSink

/-- Two disks on which the same places are the same things: folders, links with their targets, files with their contents. -/
theorem same_of {B : Path} {node : Str → Option PNode} {fs1 fs2 : FS}
    (h1 : ∀ L, B <+: L → L ≠ B → ∀ n, fs1.holds L = some n ↔ TreeOf node B L n) (h2 : ∀ L, B <+: L → L ≠ B → ∀ n, fs2.holds L = some n ↔ TreeOf node B L n)
    (L : Path) (hL : B <+: L) (hne : L ≠ B) : fs1.holds L = fs2.holds L := by
  apply Option.ext
  intro n
  rw [h1 L hL hne n, h2 L hL hne n]

/-- **C97**, for zip archives: any two chains of runs of the same archive into the same empty folder that end in runs that succeed — on different disks,
with different interruptions, consumers, checkpoints, umasks and failures — leave the same tree there. -/
theorem C97_zip {A : Archive} {D : Decomp} {F : Nat} (hwf : ZipWF A D F) {cfg1 cfg2 : FCfg} {B : Path} (hB1 : cfg1.Base B) (hB2 : cfg2.Base B)
    (hind1 : Independent cfg1 B A.plan) (hind2 : Independent cfg2 B A.plan)
    (fs1 fs2 : FS) (hfit1 : DiskFit B A.plan fs1) (hfit2 : DiskFit B A.plan fs2) (hnone1 : NothingIn B fs1) (hnone2 : NothingIn B fs2)
    (hist1 hist2 : List ECkpt) (k1 k2 : FSink) (hchain1 : ZipAttempts A D F (folderSink cfg1) (onFS fs1) hist1 k1)
    (hchain2 : ZipAttempts A D F (folderSink cfg2) (onFS fs2) hist2 k2) (ck1 ck2 : Option ECkpt) (before1 before2 : List ECkpt)
    (hck1 : ChooseCk hist1 ck1 before1) (hck2 : ChooseCk hist2 ck2 before2) (env1 env2 : ZEnv) (hh1 : env1.Honest A) (hh2 : env2.Honest A)
    (V1 V2 : SaveCons) (u1 : V1.St) (u2 : V2.St) (res1 res2 : List Entry)
    (hok1 : (zipResume A env1 D F (folderSink cfg1) V1 ck1 k1 u1).1 = .ok res1) (hok2 : (zipResume A env2 D F (folderSink cfg2) V2 ck2 k2 u2).1 = .ok res2)
    (L : Path) (hL : B <+: L) (hne : L ≠ B) :
    (zipResume A env1 D F (folderSink cfg1) V1 ck1 k1 u1).2.sink.os.fs.holds L = (zipResume A env2 D F (folderSink cfg2) V2 ck2 k2 u2).2.sink.os.fs.holds L :=
  same_of (fun L hL hne n => C96_zip hwf hB1 hind1 fs1 hfit1 hnone1 hist1 k1 hchain1 ck1 before1 hck1 env1 hh1 V1 u1 res1 hok1 L hL hne n)
    (fun L hL hne n => C96_zip hwf hB2 hind2 fs2 hfit2 hnone2 hist2 k2 hchain2 ck2 before2 hck2 env2 hh2 V2 u2 res2 hok2 L hL hne n) L hL hne

/-- **C97**, for tar streams: likewise, for a complete, well-formed stream. -/
theorem C97_tar {T : TarFmt} {Y : List Byte} {clean : Bool} {Ck : Ckpt → Nat → Prop} {F : Nat} {cfg1 cfg2 : FCfg} {B : Path} {all : List (THdr × List Byte)}
    (hT : T.Law) (hall : TarHas T clean Y all) (hB1 : cfg1.Base B) (hB2 : cfg2.Base B) (hind1 : Independent cfg1 B (tarPlan all)) (hind2 : Independent cfg2 B (tarPlan all))
    (fs1 fs2 : FS) (hfit1 : DiskFit B (tarPlan all) fs1) (hfit2 : DiskFit B (tarPlan all) fs2) (hnone1 : NothingIn B fs1) (hnone2 : NothingIn B fs2)
    (hist1 hist2 : List ECkpt) (k1 k2 : FSink) (hchain1 : TarAttempts Y clean Ck F T (folderSink cfg1) (onFS fs1) hist1 k1)
    (hchain2 : TarAttempts Y clean Ck F T (folderSink cfg2) (onFS fs2) hist2 k2) (ck1 ck2 : Option ECkpt) (before1 before2 : List ECkpt)
    (hck1 : ChooseCk hist1 ck1 before1) (hck2 : ChooseCk hist2 ck2 before2) (X1 X2 : TarSrc Y clean Ck F) (pr1 pr2 : Ckpt → Int × Int)
    (V1 V2 : SaveCons) (u1 : V1.St) (u2 : V2.St) (res1 res2 : List Entry)
    (hok1 : (tarRun X1 T pr1 (folderSink cfg1) V1 ck1 k1 u1).1 = .ok res1) (hok2 : (tarRun X2 T pr2 (folderSink cfg2) V2 ck2 k2 u2).1 = .ok res2)
    (L : Path) (hL : B <+: L) (hne : L ≠ B) :
    (tarRun X1 T pr1 (folderSink cfg1) V1 ck1 k1 u1).2.2.sink.os.fs.holds L = (tarRun X2 T pr2 (folderSink cfg2) V2 ck2 k2 u2).2.2.sink.os.fs.holds L :=
  same_of (fun L hL hne n => C96_tar hT hall hB1 hind1 fs1 hfit1 hnone1 hist1 k1 hchain1 ck1 before1 hck1 X1 pr1 V1 u1 res1 hok1 L hL hne n)
    (fun L hL hne n => C96_tar hT hall hB2 hind2 fs2 hfit2 hnone2 hist2 k2 hchain2 ck2 before2 hck2 X2 pr2 V2 u2 res2 hok2 L hL hne n) L hL hne

/-! ## Extracting again into the same folder -/

/-- The first run of a chain starts from nothing, so what could be chosen before it makes no difference. -/
theorem choose_after {h2 h3 before : List ECkpt} {ck : Option ECkpt} (hh : h2 = [] ∨ h3 = h2) (h : ChooseCk h2 ck before) : ChooseCk h3 ck before := by
  rcases hh with rfl | rfl
  · cases h with
    | fresh => exact .fresh
    | @pick a b _ he => simp at he
  · exact h

/-- Runs after other runs are runs. -/
theorem zipAttempts_after {A : Archive} {D : Decomp} {F : Nat} {K : SinkM} {a b c : K.St} {h1 h2 : List ECkpt} (x : ZipAttempts A D F K a h1 b)
    (y : ZipAttempts A D F K b h2 c) : ∃ h3, ZipAttempts A D F K a h3 c ∧ (h2 = [] ∨ h3 = h2) := by
  induction y with
  | refl => exact ⟨h1, x, Or.inl rfl⟩
  | @step hist ck before k1 k2 env V u he hz hc hn ih =>
    obtain ⟨h3, z, hh⟩ := ih
    exact ⟨_, .step env V u he z (choose_after hh hc) hn, Or.inr rfl⟩
  | @kept hist ck before k1 k2 env V u he hz hc hs hn ih =>
    obtain ⟨h3, z, hh⟩ := ih
    exact ⟨_, .kept env V u he z (choose_after hh hc) hs hn, Or.inr rfl⟩

theorem tarAttempts_after {T : TarFmt} {Y : List Byte} {clean : Bool} {Ck : Ckpt → Nat → Prop} {F : Nat} {K : SinkM} {a b c : K.St} {h1 h2 : List ECkpt}
    (x : TarAttempts Y clean Ck F T K a h1 b) (y : TarAttempts Y clean Ck F T K b h2 c) : ∃ h3, TarAttempts Y clean Ck F T K a h3 c ∧ (h2 = [] ∨ h3 = h2) := by
  induction y with
  | refl => exact ⟨h1, x, Or.inl rfl⟩
  | @step hist ck before k1 k2 X pr V u hz hc hn ih =>
    obtain ⟨h3, z, hh⟩ := ih
    exact ⟨_, .step X pr V u z (choose_after hh hc) hn, Or.inr rfl⟩
  | @kept hist ck before k1 k2 X pr V u hz hc hs hn ih =>
    obtain ⟨h3, z, hh⟩ := ih
    exact ⟨_, .kept X pr V u z (choose_after hh hc) hs hn, Or.inr rfl⟩

/-- **C97**, again, for zip archives: after a chain of runs from an empty folder (`hist`, `k`) and a run that succeeded, extracting the archive again into the same folder —
in any number of runs, interrupted however often, on the same sink or a new one —, once it succeeds, has changed nothing there. -/
theorem C97_zip_again {A : Archive} {D : Decomp} {F : Nat} (hwf : ZipWF A D F) {cfg : FCfg} {B : Path} (hB : cfg.Base B) (hind : Independent cfg B A.plan)
    (fs0 : FS) (hfit : DiskFit B A.plan fs0) (hnone : NothingIn B fs0)
    (hist : List ECkpt) (k : FSink) (hchain : ZipAttempts A D F (folderSink cfg) (onFS fs0) hist k) (ck : Option ECkpt) (before : List ECkpt)
    (hck : ChooseCk hist ck before) (env : ZEnv) (hh : env.Honest A) (V : SaveCons) (u : V.St) (res : List Entry)
    (hok : (zipResume A env D F (folderSink cfg) V ck k u).1 = .ok res)
    (kn : FSink) (hkn : (folderSink cfg).Next (zipResume A env D F (folderSink cfg) V ck k u).2.sink kn)
    (hist2 : List ECkpt) (k2 : FSink) (hchain2 : ZipAttempts A D F (folderSink cfg) kn hist2 k2) (ck2 : Option ECkpt) (before2 : List ECkpt)
    (hck2 : ChooseCk hist2 ck2 before2) (env2 : ZEnv) (hh2 : env2.Honest A) (V2 : SaveCons) (u2 : V2.St) (res2 : List Entry)
    (hok2 : (zipResume A env2 D F (folderSink cfg) V2 ck2 k2 u2).1 = .ok res2) (L : Path) (hL : B <+: L) (hne : L ≠ B) :
    (zipResume A env2 D F (folderSink cfg) V2 ck2 k2 u2).2.sink.os.fs.holds L = (zipResume A env D F (folderSink cfg) V ck k u).2.sink.os.fs.holds L := by
  obtain ⟨h3, z, hc⟩ := zipAttempts_after (ZipAttempts.step (K := folderSink cfg) env V u hh hchain hck hkn) hchain2
  exact C97_zip hwf hB hB hind hind fs0 fs0 hfit hfit hnone hnone h3 hist k2 k z hchain ck2 ck before2 before (choose_after hc hck2) hck env2 env hh2 hh V2 V u2 u
    res2 res hok2 hok L hL hne

/-- **C97**, again, for tar streams. -/
theorem C97_tar_again {T : TarFmt} {Y : List Byte} {clean : Bool} {Ck : Ckpt → Nat → Prop} {F : Nat} {cfg : FCfg} {B : Path} {all : List (THdr × List Byte)}
    (hT : T.Law) (hall : TarHas T clean Y all) (hB : cfg.Base B) (hind : Independent cfg B (tarPlan all)) (fs0 : FS) (hfit : DiskFit B (tarPlan all) fs0) (hnone : NothingIn B fs0)
    (hist : List ECkpt) (k : FSink) (hchain : TarAttempts Y clean Ck F T (folderSink cfg) (onFS fs0) hist k)
    (ck : Option ECkpt) (before : List ECkpt) (hck : ChooseCk hist ck before) (X : TarSrc Y clean Ck F) (pr : Ckpt → Int × Int) (V : SaveCons) (u : V.St)
    (res : List Entry) (hok : (tarRun X T pr (folderSink cfg) V ck k u).1 = .ok res)
    (kn : FSink) (hkn : (folderSink cfg).Next (tarRun X T pr (folderSink cfg) V ck k u).2.2.sink kn)
    (hist2 : List ECkpt) (k2 : FSink) (hchain2 : TarAttempts Y clean Ck F T (folderSink cfg) kn hist2 k2) (ck2 : Option ECkpt) (before2 : List ECkpt)
    (hck2 : ChooseCk hist2 ck2 before2) (X2 : TarSrc Y clean Ck F) (pr2 : Ckpt → Int × Int) (V2 : SaveCons) (u2 : V2.St) (res2 : List Entry)
    (hok2 : (tarRun X2 T pr2 (folderSink cfg) V2 ck2 k2 u2).1 = .ok res2) (L : Path) (hL : B <+: L) (hne : L ≠ B) :
    (tarRun X2 T pr2 (folderSink cfg) V2 ck2 k2 u2).2.2.sink.os.fs.holds L = (tarRun X T pr (folderSink cfg) V ck k u).2.2.sink.os.fs.holds L := by
  obtain ⟨h3, z, hc⟩ := tarAttempts_after (TarAttempts.step (K := folderSink cfg) X pr V u hchain hck hkn) hchain2
  exact C97_tar hT hall hB hB hind hind fs0 fs0 hfit hfit hnone hnone h3 hist k2 k z hchain ck2 ck before2 before (choose_after hc hck2) hck X2 X pr2 pr V2 V u2 u
    res2 res hok2 hok L hL hne

/-! ## Non-vacuity -/

/-- Extracted, then again from the start on a new sink: nothing has changed, … -/
example (L : Path) (hL : [[100]] <+: L) (hne : L ≠ [[100]]) :
    (diskRun noFlt none ((folderSink exCfg).reborn (diskRun noFlt none (onFS diskEmpty) []).2.sink) []).2.sink.os.fs.holds L = (diskRun noFlt none (onFS diskEmpty) []).2.sink.os.fs.holds L :=
  C97_zip_again toy_wf (base_faults exCfg_base _) (toyPlan_independent _) diskEmpty (diskEmpty_fit _ (by decide +kernel)) nothingIn_empty _ _ .refl
    none _ .fresh toyEnv toy_honest listCons [] _ (by rfl) _ (Or.inr rfl) _ _ .refl none _ .fresh toyEnv toy_honest listCons [] _ (by rfl) L hL hne

/-- … and if the first was killed twice and resumed, the tree is that of an extraction without interruptions. -/
example (L : Path) (hL : [[100]] <+: L) (hne : L ≠ [[100]]) :
    (diskRun (killedAt 29 3) (some toyCk1) diskKill3.2.sink []).2.sink.os.fs.holds L = (diskRun noFlt none (onFS diskEmpty) []).2.sink.os.fs.holds L := by
  obtain ⟨hist, h, rfl⟩ := diskKill3_attempts
  exact C97_zip toy_wf (base_faults exCfg_base _) (base_faults exCfg_base _) (toyPlan_independent _) (toyPlan_independent _) diskEmpty diskEmpty
    (diskEmpty_fit _ (by decide +kernel)) (diskEmpty_fit _ (by decide +kernel)) nothingIn_empty nothingIn_empty _ _ _ _ h .refl
    _ none _ _ (.pick (a := []) (b := []) rfl) .fresh toyEnv toyEnv toy_honest toy_honest listCons listCons [] [] _ _ diskKill4_ok (by rfl) L hL hne

/-- Likewise for the toy tar stream. -/
example (L : Path) (hL : [[100]] <+: L) (hne : L ≠ [[100]]) :
    (diskTarK (killedAt 11 2) (some tarCk1) diskTarK2.2.2.sink []).2.2.sink.os.fs.holds L = (diskTarK noFlt none (onFS diskEmpty) []).2.2.sink.os.fs.holds L := by
  have h := diskTarK2_attempts
  exact C97_tar (toyTar_law true) toy_has (base_faults exCfg_base _) (base_faults exCfg_base _) (toyTarPlan_independent _) (toyTarPlan_independent _) diskEmpty diskEmpty
    (diskEmpty_fit _ (by decide +kernel)) (diskEmpty_fit _ (by decide +kernel)) nothingIn_empty nothingIn_empty _ _ _ _ h .refl
    _ none _ _ (.pick (a := []) (b := []) (by rw [diskTarK2_dead.2]; rfl)) .fresh toyTarSrc toyTarSrc (fun _ => (0, 1)) (fun _ => (0, 1)) listCons listCons [] [] _ _
    diskTarK3_ok (by rfl) L hL hne

end Savior
