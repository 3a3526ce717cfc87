import Verif.Props.Overlay
/-!
# One archive extracted over another (C99)
-/

namespace Savior
open FSink

/-- After an extraction the disk is fit for further ones. -/
theorem fit_after {cfg : FCfg} {B : Path} {plan plan2 : List (Str × Kind)} {fs0 : FS} {k : FSink} (hm : Made cfg B plan fs0 k) (hone : OneName B plan fs0)
    (hsub : ∀ x ∈ plan2, x ∈ plan) : DiskFit B plan2 k.os.fs ∧ OneName B plan2 k.os.fs := by
  have pl : ∀ x ∈ plan2, shouldIgnore x.1 = false → B <+: namePlace B x.1 → PlanPlace cfg B plan (namePlace B x.1) x.2 :=
    fun x hx hi hb => ⟨x.1, hsub x hx, hi, hb, rfl⟩
  refine ⟨⟨hm.disk.tree, ?_, ?_, ?_⟩, ?_, ?_⟩
  · intro x hx hi hb r t hr hne
    exact hm.disk.straight _ _ r t (pl x hx hi hb) hr hne
  · intro x hx y hy hi hb hi' hb' i a b
    exact hm.disk.alone _ _ _ _ i (pl x hx hi hb) (pl y hy hi' hb') a b
  · intro x hx hi hb i a
    exact hm.disk.low _ _ i (pl x hx hi hb) a
  · intro x hx hi hb L i a b
    rcases hm.only L _ b with old | ⟨y, hy, hi', hb', ⟨rfl, _⟩ | ⟨_, _, h⟩⟩
    · rcases hm.newer.2 _ i a with g | g
      · exact hone.single x (hsub x hx) hi hb L i g old
      · have := hone.inode L i old
        omega
    · exact hm.disk.alone _ _ _ _ i ⟨y.1, hy, hi', hb', rfl⟩ (pl x hx hi hb) b a
    · cases h
  · intro L i a
    rcases hm.only L _ a with old | ⟨y, hy, hi', hb', ⟨rfl, _⟩ | ⟨_, _, h⟩⟩
    · have := hone.inode L i old
      have := hm.newer.1
      omega
    · exact hm.disk.low _ _ i ⟨y.1, hy, hi', hb', rfl⟩ a
    · cases h

theorem DiskFit.less {B : Path} {plan plan2 : List (Str × Kind)} {fs : FS} (h : DiskFit B plan fs) (hsub : ∀ x ∈ plan2, x ∈ plan) : DiskFit B plan2 fs :=
  ⟨h.tree, fun x hx => h.nolink x (hsub x hx), fun x hx y hy => h.nohard x (hsub x hx) y (hsub y hy), fun x hx => h.inodes x (hsub x hx)⟩

theorem OneName.less {B : Path} {plan plan2 : List (Str × Kind)} {fs : FS} (h : OneName B plan fs) (hsub : ∀ x ∈ plan2, x ∈ plan) : OneName B plan2 fs :=
  ⟨fun x hx => h.single x (hsub x hx), h.inode⟩

theorem Independent.less {cfg cfg2 : FCfg} {B : Path} {plan plan2 : List (Str × Kind)} (h : Independent cfg B plan) (hsub : ∀ x ∈ plan2, x ∈ plan) : Independent cfg2 B plan2 :=
  fun x hx y hy => h x (hsub x hx) y (hsub y hy)

/-- The first archive laid over what was there, and the second over that. -/
theorem overlay_twice {B : Path} {node1 node2 : Str → Option PNode} {plan1 plan2 : List (Str × Kind)} {fs0 fs1 : FS} {L : Path} {n : PNode}
    (h : fs1.holds L = some n ↔ Overlaid node1 B plan1 fs0 L n) :
    Overlaid node2 B plan2 fs1 L n ↔ TreeOf node2 B L n ∨ (Spares B plan2 L ∧ (TreeOf node1 B L n ∨ (Spares B plan1 L ∧ fs0.holds L = some n))) := by
  unfold Overlaid at h ⊢
  rw [h]

/-- **C99**, for zip archives: an archive extracted successfully over another — after any chain of runs each, whatever failed in them — leaves the second laid over the first,
laid over what was there before. -/
theorem C99_zip {A1 A2 : Archive} {D1 D2 : Decomp} {F1 F2 : Nat} (hwf1 : ZipWF A1 D1 F1) (hwf2 : ZipWF A2 D2 F2) {cfg1 cfg2 : FCfg} {B : Path} (hB1 : cfg1.Base B) (hB2 : cfg2.Base B)
    (hind : Independent cfg1 B (A1.plan ++ A2.plan)) (hkind1 : OneKind A1.plan) (hkind2 : OneKind A2.plan)
    (fs0 : FS) (hfit : DiskFit B (A1.plan ++ A2.plan) fs0) (hone : OneName B (A1.plan ++ A2.plan) fs0)
    (hist1 hist2 : List ECkpt) (k1 k2 : FSink) (ck1 ck2 : Option ECkpt) (before1 before2 : List ECkpt) (env1 env2 : ZEnv) (hh1 : env1.Honest A1) (hh2 : env2.Honest A2)
    (V1 V2 : SaveCons) (u1 : V1.St) (u2 : V2.St) (res1 res2 : List Entry)
    (hchain1 : ZipAttempts A1 D1 F1 (folderSink cfg1) (onFS fs0) hist1 k1) (hck1 : ChooseCk hist1 ck1 before1)
    (hok1 : (zipResume A1 env1 D1 F1 (folderSink cfg1) V1 ck1 k1 u1).1 = .ok res1)
    (hchain2 : ZipAttempts A2 D2 F2 (folderSink cfg2) (onFS (zipResume A1 env1 D1 F1 (folderSink cfg1) V1 ck1 k1 u1).2.sink.os.fs) hist2 k2) (hck2 : ChooseCk hist2 ck2 before2)
    (hok2 : (zipResume A2 env2 D2 F2 (folderSink cfg2) V2 ck2 k2 u2).1 = .ok res2) (L : Path) (hL : AllOrd L) (n : PNode) :
    (zipResume A2 env2 D2 F2 (folderSink cfg2) V2 ck2 k2 u2).2.sink.os.fs.holds L = some n ↔
      TreeOf (zipNode A2 D2) B L n ∨ (Spares B A2.plan L ∧ (TreeOf (zipNode A1 D1) B L n ∨ (Spares B A1.plan L ∧ fs0.holds L = some n))) := by
  have s1 : ∀ x ∈ A1.plan, x ∈ A1.plan ++ A2.plan := fun x h => List.mem_append_left _ h
  have s2 : ∀ x ∈ A2.plan, x ∈ A1.plan ++ A2.plan := fun x h => List.mem_append_right _ h
  have hstep := ZipAttempts.step (K := folderSink cfg1) env1 V1 u1 hh1 hchain1 hck1 (Or.inl rfl)
  obtain ⟨f2, o2⟩ := fit_after (zipChain_made s1 hB1 hind fs0 hfit _ _ hstep) hone s2
  rw [C98_zip hwf2 hB2 (hind.less s2) hkind2 _ f2 o2 hist2 k2 hchain2 ck2 before2 hck2 env2 hh2 V2 u2 res2 hok2 L hL n]
  exact overlay_twice (C98_zip hwf1 hB1 (hind.less s1) hkind1 fs0 (hfit.less s1) (hone.less s1) hist1 k1 hchain1 ck1 before1 hck1 env1 hh1 V1 u1 res1 hok1 L hL n)

/-- **C99**, for tar streams: likewise. -/
theorem C99_tar {T1 T2 : TarFmt} {Y1 Y2 : List Byte} {clean1 clean2 : Bool} {Ck1 Ck2 : Ckpt → Nat → Prop} {F1 F2 : Nat} {cfg1 cfg2 : FCfg} {B : Path}
    {all1 all2 : List (THdr × List Byte)} (hT1 : T1.Law) (hT2 : T2.Law) (hall1 : TarHas T1 clean1 Y1 all1) (hall2 : TarHas T2 clean2 Y2 all2)
    (hB1 : cfg1.Base B) (hB2 : cfg2.Base B) (hind : Independent cfg1 B (tarPlan all1 ++ tarPlan all2)) (hkind1 : OneKind (tarPlan all1)) (hkind2 : OneKind (tarPlan all2))
    (fs0 : FS) (hfit : DiskFit B (tarPlan all1 ++ tarPlan all2) fs0) (hone : OneName B (tarPlan all1 ++ tarPlan all2) fs0)
    (hist1 hist2 : List ECkpt) (k1 k2 : FSink) (ck1 ck2 : Option ECkpt) (before1 before2 : List ECkpt) (X1 : TarSrc Y1 clean1 Ck1 F1) (X2 : TarSrc Y2 clean2 Ck2 F2)
    (pr1 pr2 : Ckpt → Int × Int) (V1 V2 : SaveCons) (u1 : V1.St) (u2 : V2.St) (res1 res2 : List Entry)
    (hchain1 : TarAttempts Y1 clean1 Ck1 F1 T1 (folderSink cfg1) (onFS fs0) hist1 k1) (hck1 : ChooseCk hist1 ck1 before1)
    (hok1 : (tarRun X1 T1 pr1 (folderSink cfg1) V1 ck1 k1 u1).1 = .ok res1)
    (hchain2 : TarAttempts Y2 clean2 Ck2 F2 T2 (folderSink cfg2) (onFS (tarRun X1 T1 pr1 (folderSink cfg1) V1 ck1 k1 u1).2.2.sink.os.fs) hist2 k2) (hck2 : ChooseCk hist2 ck2 before2)
    (hok2 : (tarRun X2 T2 pr2 (folderSink cfg2) V2 ck2 k2 u2).1 = .ok res2) (L : Path) (hL : AllOrd L) (n : PNode) :
    (tarRun X2 T2 pr2 (folderSink cfg2) V2 ck2 k2 u2).2.2.sink.os.fs.holds L = some n ↔
      TreeOf (tarNode all2) B L n ∨ (Spares B (tarPlan all2) L ∧ (TreeOf (tarNode all1) B L n ∨ (Spares B (tarPlan all1) L ∧ fs0.holds L = some n))) := by
  have s1 : ∀ x ∈ tarPlan all1, x ∈ tarPlan all1 ++ tarPlan all2 := fun x h => List.mem_append_left _ h
  have s2 : ∀ x ∈ tarPlan all2, x ∈ tarPlan all1 ++ tarPlan all2 := fun x h => List.mem_append_right _ h
  have hstep := TarAttempts.step (K := folderSink cfg1) X1 pr1 V1 u1 hchain1 hck1 (Or.inl rfl)
  obtain ⟨f2, o2⟩ := fit_after (tarChain_made s1 hT1 hall1 hB1 hind fs0 hfit _ _ hstep) hone s2
  rw [C98_tar hT2 hall2 hB2 (hind.less s2) hkind2 _ f2 o2 hist2 k2 hchain2 ck2 before2 hck2 X2 pr2 V2 u2 res2 hok2 L hL n]
  exact overlay_twice (C98_tar hT1 hall1 hB1 (hind.less s1) hkind1 fs0 (hfit.less s1) (hone.less s1) hist1 k1 hchain1 ck1 before1 hck1 X1 pr1 V1 u1 res1 hok1 L hL n)

/-- **C99**, after an extraction given up: whatever became of the first — after any chain of runs, none of which need have succeeded —, the second, once it succeeds, is
complete, laid over what the first left, all of which was there before or is its members'. -/
theorem C99_zip_abandoned {A1 A2 : Archive} {D1 D2 : Decomp} {F1 F2 : Nat} (hwf2 : ZipWF A2 D2 F2) {cfg1 cfg2 : FCfg} {B : Path} (hB1 : cfg1.Base B) (hB2 : cfg2.Base B)
    (hind : Independent cfg1 B (A1.plan ++ A2.plan)) (hkind2 : OneKind A2.plan)
    (fs0 : FS) (hfit : DiskFit B (A1.plan ++ A2.plan) fs0) (hone : OneName B (A1.plan ++ A2.plan) fs0)
    (hist1 hist2 : List ECkpt) (k1 k2 : FSink) (hchain1 : ZipAttempts A1 D1 F1 (folderSink cfg1) (onFS fs0) hist1 k1)
    (hchain2 : ZipAttempts A2 D2 F2 (folderSink cfg2) (onFS k1.os.fs) hist2 k2) (ck : Option ECkpt) (before : List ECkpt) (hck : ChooseCk hist2 ck before)
    (env : ZEnv) (hh : env.Honest A2) (V : SaveCons) (u : V.St) (res : List Entry)
    (hok : (zipResume A2 env D2 F2 (folderSink cfg2) V ck k2 u).1 = .ok res) :
    MadeOnlyFor B A1.plan fs0 k1.os.fs ∧ ∀ L, AllOrd L → ∀ n,
      ((zipResume A2 env D2 F2 (folderSink cfg2) V ck k2 u).2.sink.os.fs.holds L = some n ↔ TreeOf (zipNode A2 D2) B L n ∨ (Spares B A2.plan L ∧ k1.os.fs.holds L = some n)) := by
  have s1 : ∀ x ∈ A1.plan, x ∈ A1.plan ++ A2.plan := fun x h => List.mem_append_left _ h
  have s2 : ∀ x ∈ A2.plan, x ∈ A1.plan ++ A2.plan := fun x h => List.mem_append_right _ h
  obtain ⟨f2, o2⟩ := fit_after (zipChain_made s1 hB1 hind fs0 hfit _ _ hchain1) hone s2
  exact ⟨C95_zip hB1 (hind.less s1) fs0 (hfit.less s1) _ _ hchain1,
    fun L hL n => C98_zip hwf2 hB2 (hind.less s2) hkind2 _ f2 o2 hist2 k2 hchain2 ck before hck env hh V u res hok L hL n⟩

/-- **C99**, after an extraction of a tar stream given up. -/
theorem C99_tar_abandoned {T1 T2 : TarFmt} {Y1 Y2 : List Byte} {clean1 clean2 : Bool} {Ck1 Ck2 : Ckpt → Nat → Prop} {F1 F2 : Nat} {cfg1 cfg2 : FCfg} {B : Path}
    {all1 all2 : List (THdr × List Byte)} (hT1 : T1.Law) (hT2 : T2.Law) (hall1 : TarHas T1 clean1 Y1 all1) (hall2 : TarHas T2 clean2 Y2 all2)
    (hB1 : cfg1.Base B) (hB2 : cfg2.Base B) (hind : Independent cfg1 B (tarPlan all1 ++ tarPlan all2)) (hkind2 : OneKind (tarPlan all2))
    (fs0 : FS) (hfit : DiskFit B (tarPlan all1 ++ tarPlan all2) fs0) (hone : OneName B (tarPlan all1 ++ tarPlan all2) fs0)
    (hist1 hist2 : List ECkpt) (k1 k2 : FSink) (hchain1 : TarAttempts Y1 clean1 Ck1 F1 T1 (folderSink cfg1) (onFS fs0) hist1 k1)
    (hchain2 : TarAttempts Y2 clean2 Ck2 F2 T2 (folderSink cfg2) (onFS k1.os.fs) hist2 k2) (ck : Option ECkpt) (before : List ECkpt) (hck : ChooseCk hist2 ck before)
    (X : TarSrc Y2 clean2 Ck2 F2) (pr : Ckpt → Int × Int) (V : SaveCons) (u : V.St) (res : List Entry)
    (hok : (tarRun X T2 pr (folderSink cfg2) V ck k2 u).1 = .ok res) :
    MadeOnlyFor B (tarPlan all1) fs0 k1.os.fs ∧ ∀ L, AllOrd L → ∀ n,
      ((tarRun X T2 pr (folderSink cfg2) V ck k2 u).2.2.sink.os.fs.holds L = some n ↔ TreeOf (tarNode all2) B L n ∨ (Spares B (tarPlan all2) L ∧ k1.os.fs.holds L = some n)) := by
  have s1 : ∀ x ∈ tarPlan all1, x ∈ tarPlan all1 ++ tarPlan all2 := fun x h => List.mem_append_left _ h
  have s2 : ∀ x ∈ tarPlan all2, x ∈ tarPlan all1 ++ tarPlan all2 := fun x h => List.mem_append_right _ h
  obtain ⟨f2, o2⟩ := fit_after (tarChain_made s1 hT1 hall1 hB1 hind fs0 hfit _ _ hchain1) hone s2
  exact ⟨C95_tar hT1 hall1 hB1 (hind.less s1) fs0 (hfit.less s1) _ _ hchain1,
    fun L hL n => C98_tar hT2 hall2 hB2 (hind.less s2) hkind2 _ f2 o2 hist2 k2 hchain2 ck before hck X pr V u res hok L hL n⟩

/-! ## Non-vacuity -/

/-- A newer version of the toy archive: "a" has other contents, "d/n" is new; "b", "c" and "l" are missing. -/
def toyNewer : Archive where
  bytes := [9, 9, 8]
  files := [⟨cs ['a'], .store, false, 2, 2, 0o644, 0, ([], true)⟩, ⟨cs ['d', '/', 'n'], .store, false, 1, 1, 0o644, 2, ([], true)⟩]

theorem newer_wf : ZipWF toyNewer (toy false false) 100 where
  law := toy_law _ _
  csize := by decide
  budget := by decide

theorem newer_honest : toyEnv.Honest toyNewer := by
  intro i zf h chunks hc
  match i with
  | 0 | 1 =>
    simp [toyNewer] at h
    simp [toyEnv] at hc
    subst h
    subst hc
    rfl
  | n + 2 => simp [toyNewer] at h

/-- The disk after the toy archive was extracted over `diskOld 1`, and then the newer one. -/
def diskNewer := zipResume toyNewer toyEnv (toy false false) 100 (folderSink exCfg) listCons none (onFS (diskRun noFlt none (onFS (diskOld 1)) []).2.sink.os.fs) []

theorem both_independent : Independent (exCfg.withFaults noFlt) [[100]] (toyArchive.plan ++ toyNewer.plan) := by
  have : ∀ x ∈ toyArchive.plan ++ toyNewer.plan, ∀ y ∈ toyArchive.plan ++ toyNewer.plan, x.1 ≠ y.1 →
    namePlace [[100]] x.1 ≠ namePlace [[100]] y.1 ∧ (namePlace [[100]] x.1 <+: namePlace [[100]] y.1 → x.2 = .dir) := by decide +kernel
  exact fun x hx y hy _ _ _ _ h => this x hx y hy h

example (L : Path) (hL : AllOrd L) (n : PNode) : diskNewer.2.sink.os.fs.holds L = some n ↔
    TreeOf (zipNode toyNewer (toy false false)) [[100]] L n ∨
      (Spares [[100]] toyNewer.plan L ∧ (TreeOf (zipNode toyArchive (toy false false)) [[100]] L n ∨ (Spares [[100]] toyArchive.plan L ∧ (diskOld 1).holds L = some n))) :=
  C99_zip toy_wf newer_wf (base_faults exCfg_base _) exCfg_base both_independent (by unfold OneKind; decide +kernel) (by unfold OneKind; decide +kernel)
    (diskOld 1) (diskOld_fit _ (by decide +kernel) (by decide +kernel)) (diskOld_oneName _) _ _ _ _ none none _ _ toyEnv toyEnv toy_honest newer_honest listCons listCons [] [] _ _
    .refl .fresh (by rfl) .refl .fresh (by rfl) L hL n

/-- Changed, new, only in the older one, and there before. -/
example : diskNewer.2.sink.os.fs.holds [[100], cs ['a']] = some (.file [9, 9]) ∧ diskNewer.2.sink.os.fs.holds [[100], cs ['d'], cs ['n']] = some (.file [8]) ∧
    diskNewer.2.sink.os.fs.holds [[100], cs ['l']] = some (.link (cs ['a'])) ∧ diskNewer.2.sink.os.fs.holds [[100], [100], cs ['o', 'l', 'd']] = some (.file [7, 8]) :=
  ⟨by rfl, by rfl, by rfl, by rfl⟩

/-- The toy tar stream, then once more. -/
example (L : Path) (hL : AllOrd L) (n : PNode) :
    (diskTarK noFlt none (onFS (diskTarK noFlt none (onFS (diskOld 1)) []).2.2.sink.os.fs) []).2.2.sink.os.fs.holds L = some n ↔
      TreeOf (tarNode toyMembers) [[100]] L n ∨ (Spares [[100]] (tarPlan toyMembers) L ∧
        (TreeOf (tarNode toyMembers) [[100]] L n ∨ (Spares [[100]] (tarPlan toyMembers) L ∧ (diskOld 1).holds L = some n))) := by
  have hind : Independent (exCfg.withFaults noFlt) [[100]] (tarPlan toyMembers ++ tarPlan toyMembers) := by
    have : ∀ x ∈ tarPlan toyMembers ++ tarPlan toyMembers, ∀ y ∈ tarPlan toyMembers ++ tarPlan toyMembers, x.1 ≠ y.1 →
      namePlace [[100]] x.1 ≠ namePlace [[100]] y.1 ∧ (namePlace [[100]] x.1 <+: namePlace [[100]] y.1 → x.2 = .dir) := by decide +kernel
    exact fun x hx y hy _ _ _ _ h => this x hx y hy h
  exact C99_tar (toyTar_law true) (toyTar_law true) toy_has toy_has (base_faults exCfg_base _) (base_faults exCfg_base _) hind
    (by unfold OneKind; decide +kernel) (by unfold OneKind; decide +kernel) (diskOld 1) (diskOld_fit _ (by decide +kernel) (by decide +kernel)) (diskOld_oneName _)
    _ _ _ _ none none _ _ toyTarSrc toyTarSrc (fun _ => (0, 1)) (fun _ => (0, 1)) listCons listCons [] [] _ _ .refl .fresh (by rfl) .refl .fresh (by rfl) L hL n

/-- The toy archive killed after 29 calls and given up, then the newer one. -/
def diskGivenUp := diskRun (killedAt 29 3) none (onFS (diskOld 1)) []

example : MadeOnlyFor [[100]] toyArchive.plan (diskOld 1) diskGivenUp.2.sink.os.fs ∧ ∀ L, AllOrd L → ∀ n,
    ((zipResume toyNewer toyEnv (toy false false) 100 (folderSink exCfg) listCons none (onFS diskGivenUp.2.sink.os.fs) []).2.sink.os.fs.holds L = some n ↔
      TreeOf (zipNode toyNewer (toy false false)) [[100]] L n ∨ (Spares [[100]] toyNewer.plan L ∧ diskGivenUp.2.sink.os.fs.holds L = some n)) :=
  C99_zip_abandoned newer_wf (base_faults exCfg_base (killedAt 29 3)) exCfg_base both_independent (by unfold OneKind; decide +kernel)
    (diskOld 1) (diskOld_fit _ (by decide +kernel) (by decide +kernel)) (diskOld_oneName _) _ _ _ _
    (ZipAttempts.step (A := toyArchive) (D := toy false false) (F := 100) (K := folderSink (exCfg.withFaults (killedAt 29 3))) (k := onFS (diskOld 1)) (before := [])
      toyEnv listCons [] toy_honest ZipAttempts.refl .fresh (Or.inl rfl)) .refl none _ .fresh toyEnv newer_honest listCons [] _ (by rfl)

/-- The first did not succeed. -/
example : diskGivenUp.1.toOption.isNone = true := by decide +kernel

example : MadeOnlyFor [[100]] (tarPlan toyMembers) (diskOld 1) (diskTarK (killedAt 11 2) none (onFS (diskOld 1)) []).2.2.sink.os.fs ∧ ∀ L, AllOrd L → ∀ n,
    ((diskTarK noFlt none (onFS (diskTarK (killedAt 11 2) none (onFS (diskOld 1)) []).2.2.sink.os.fs) []).2.2.sink.os.fs.holds L = some n ↔
      TreeOf (tarNode toyMembers) [[100]] L n ∨ (Spares [[100]] (tarPlan toyMembers) L ∧ (diskTarK (killedAt 11 2) none (onFS (diskOld 1)) []).2.2.sink.os.fs.holds L = some n)) := by
  have hind : Independent (exCfg.withFaults (killedAt 11 2)) [[100]] (tarPlan toyMembers ++ tarPlan toyMembers) := by
    have : ∀ x ∈ tarPlan toyMembers ++ tarPlan toyMembers, ∀ y ∈ tarPlan toyMembers ++ tarPlan toyMembers, x.1 ≠ y.1 →
      namePlace [[100]] x.1 ≠ namePlace [[100]] y.1 ∧ (namePlace [[100]] x.1 <+: namePlace [[100]] y.1 → x.2 = .dir) := by decide +kernel
    exact fun x hx y hy _ _ _ _ h => this x hx y hy h
  have h := TarAttempts.step (K := folderSink (exCfg.withFaults (killedAt 11 2))) (k := onFS (diskOld 1)) (before := [])
    toyTarSrc (fun _ => (0, 1)) listCons [] (TarAttempts.refl (T := toyTar true)) .fresh (Or.inl rfl)
  exact C99_tar_abandoned (toyTar_law true) (toyTar_law true) toy_has toy_has (base_faults exCfg_base _) (base_faults exCfg_base _) hind (by unfold OneKind; decide +kernel)
    (diskOld 1) (diskOld_fit _ (by decide +kernel) (by decide +kernel)) (diskOld_oneName _) _ _ _ _ h .refl none _ .fresh toyTarSrc (fun _ => (0, 1)) listCons [] _ (by rfl)

end Savior
