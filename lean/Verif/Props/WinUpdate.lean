import Verif.Props.WinOverlay
import Verif.Props.Update
/-!
# One archive extracted over another: on Windows, and of different formats (C99)
-/

namespace Savior
open FSink

/-- After an extraction the disk is fit for further ones, on which names lead to the same places. -/
theorem fitW_after {w w2 : WCfg} {plan plan2 : List (Str × Kind)} {fs0 : FS} {k : FSink} (hm : MadeW w plan fs0 k) (hone : OneNameW w plan fs0)
    (hpl : ∀ p, w.placeOf p = w2.placeOf p) (hsub : ∀ x ∈ plan2, x ∈ plan) : w2.DiskFit plan2 k.os.fs ∧ OneNameW w2 plan2 k.os.fs := by
  have pl : ∀ x ∈ plan2, shouldIgnore x.1 = false → ∀ Q, w2.placeOf x.1 = some Q → PlanPlaceW w plan Q (winKind x.2) :=
    fun x hx hi Q hQ => ⟨x.1, x.2, hsub x hx, hi, (hpl x.1).trans hQ, rfl⟩
  refine ⟨⟨hm.disk.tree, ?_, ?_, ?_⟩, ?_, ?_⟩
  · intro x hx hi L r t hL hr hne
    exact hm.disk.straight _ _ r t (pl x hx hi L hL) hr hne
  · intro x hx y hy hi hi' L M i hL hM a b
    exact hm.disk.alone _ _ _ _ i (pl x hx hi L hL) (pl y hy hi' M hM) a b
  · intro x hx hi L i hL a
    exact hm.disk.low _ _ i (pl x hx hi L hL) a
  · intro x hx hi Q hQ L i a b
    rcases hm.only L _ b with old | ⟨y, hy, hi', Q', hQ', ⟨rfl, _⟩ | ⟨_, _, h⟩⟩
    · rcases hm.newer.2 _ i a with g | g
      · exact hone.single x (hsub x hx) hi Q ((hpl _).trans hQ) L i g old
      · have := hone.inode L i old
        omega
    · exact hm.disk.alone _ _ _ _ i ⟨y.1, y.2, hy, hi', hQ', rfl⟩ (pl x hx hi Q hQ) b a
    · cases h
  · intro L i a
    rcases hm.only L _ a with old | ⟨y, hy, hi', Q', hQ', ⟨rfl, _⟩ | ⟨_, _, h⟩⟩
    · have := hone.inode L i old
      have := hm.newer.1
      omega
    · exact hm.disk.low _ _ i ⟨y.1, y.2, hy, hi', hQ', rfl⟩ a
    · cases h

theorem WCfg.DiskFit.less {w : WCfg} {plan plan2 : List (Str × Kind)} {fs : FS} (h : w.DiskFit plan fs) (hsub : ∀ x ∈ plan2, x ∈ plan) : w.DiskFit plan2 fs :=
  ⟨h.tree, fun x hx => h.nolink x (hsub x hx), fun x hx y hy => h.nohard x (hsub x hx) y (hsub y hy), fun x hx => h.inodes x (hsub x hx)⟩

theorem OneNameW.less {w : WCfg} {plan plan2 : List (Str × Kind)} {fs : FS} (h : OneNameW w plan fs) (hsub : ∀ x ∈ plan2, x ∈ plan) : OneNameW w plan2 fs :=
  ⟨fun x hx => h.single x (hsub x hx), h.inode⟩

theorem WCfg.Independent.less {w w2 : WCfg} {plan plan2 : List (Str × Kind)} (h : w.Independent plan) (hpl : ∀ p, w.placeOf p = w2.placeOf p) (hsub : ∀ x ∈ plan2, x ∈ plan) :
    w2.Independent plan2 :=
  fun x hx y hy hi hi' L M hL hM => h x (hsub x hx) y (hsub y hy) hi hi' L M ((hpl _).trans hL) ((hpl _).trans hM)

/-- The first archive laid over what was there, and the second over that. -/
theorem overlayW_twice {w1 w2 : WCfg} {node1 node2 : Str → Option PNode} {plan1 plan2 : List (Str × Kind)} {fs0 fs1 : FS} {L : Path} {n : PNode}
    (h : fs1.holds L = some n ↔ OverlaidW node1 w1 plan1 fs0 L n) :
    OverlaidW node2 w2 plan2 fs1 L n ↔ TreeOfW w2 node2 L n ∨ (SparesW w2 plan2 L ∧ (TreeOfW w1 node1 L n ∨ (SparesW w1 plan1 L ∧ fs0.holds L = some n))) := by
  unfold OverlaidW at h ⊢
  rw [h]

/-- **C99**, for zip archives on Windows: an archive extracted successfully over another — after any chain of runs each, whatever failed in them — leaves the second
laid over the first, laid over what was there before. -/
theorem C99_win_zip {A1 A2 : Archive} {D1 D2 : Decomp} {F1 F2 : Nat} (hwf1 : ZipWF A1 D1 F1) (hwf2 : ZipWF A2 D2 F2) {w1 w2 : WCfg} {V : Str} {B : Path}
    (hB1 : w1.Base V B) (hB2 : w2.Base V B) (hq1 : w1.Qualifies) (hq2 : w2.Qualifies) (hf1 : w1.FoldOK) (hf2 : w2.FoldOK) (hpl : ∀ p, w1.placeOf p = w2.placeOf p)
    (hind : w1.Independent (A1.plan ++ A2.plan)) (hkind1 : OneKind A1.plan) (hkind2 : OneKind A2.plan)
    (fs0 : FS) (hfit : w1.DiskFit (A1.plan ++ A2.plan) fs0) (hone : OneNameW w1 (A1.plan ++ A2.plan) fs0)
    (hist1 hist2 : List ECkpt) (k1 k2 : FSink) (ck1 ck2 : Option ECkpt) (before1 before2 : List ECkpt) (env1 env2 : ZEnv) (hh1 : env1.Honest A1) (hh2 : env2.Honest A2)
    (U1 U2 : SaveCons) (u1 : U1.St) (u2 : U2.St) (res1 res2 : List Entry)
    (hchain1 : ZipAttempts A1 D1 F1 (winSink w1) (onFS fs0) hist1 k1) (hck1 : ChooseCk hist1 ck1 before1)
    (hok1 : (zipResume A1 env1 D1 F1 (winSink w1) U1 ck1 k1 u1).1 = .ok res1)
    (hchain2 : ZipAttempts A2 D2 F2 (winSink w2) (onFS (zipResume A1 env1 D1 F1 (winSink w1) U1 ck1 k1 u1).2.sink.os.fs) hist2 k2) (hck2 : ChooseCk hist2 ck2 before2)
    (hok2 : (zipResume A2 env2 D2 F2 (winSink w2) U2 ck2 k2 u2).1 = .ok res2) (L : Path) (hL : AllOrd L) (n : PNode) :
    (zipResume A2 env2 D2 F2 (winSink w2) U2 ck2 k2 u2).2.sink.os.fs.holds L = some n ↔
      TreeOfW w2 (zipNode A2 D2) L n ∨ (SparesW w2 A2.plan L ∧ (TreeOfW w1 (zipNode A1 D1) L n ∨ (SparesW w1 A1.plan L ∧ fs0.holds L = some n))) := by
  have s1 : ∀ x ∈ A1.plan, x ∈ A1.plan ++ A2.plan := fun x h => List.mem_append_left _ h
  have s2 : ∀ x ∈ A2.plan, x ∈ A1.plan ++ A2.plan := fun x h => List.mem_append_right _ h
  have hstep := ZipAttempts.step (K := winSink w1) env1 U1 u1 hh1 hchain1 hck1 (Or.inl rfl)
  obtain ⟨f2, o2⟩ := fitW_after (zipChainW_made s1 hB1 hq1 hf1 hind fs0 hfit _ _ hstep) hone hpl s2
  rw [C98_win_zip hwf2 hB2 hq2 hf2 (hind.less hpl s2) hkind2 _ f2 o2 hist2 k2 hchain2 ck2 before2 hck2 env2 hh2 U2 u2 res2 hok2 L hL n]
  exact overlayW_twice (C98_win_zip hwf1 hB1 hq1 hf1 (hind.less (fun _ => rfl) s1) hkind1 fs0 (hfit.less s1) (hone.less s1) hist1 k1 hchain1 ck1 before1 hck1 env1 hh1 U1 u1 res1 hok1 L hL n)

/-- **C99**, for tar streams on Windows: likewise. -/
theorem C99_win_tar {T1 T2 : TarFmt} {Y1 Y2 : List Byte} {clean1 clean2 : Bool} {Ck1 Ck2 : Ckpt → Nat → Prop} {F1 F2 : Nat} {w1 w2 : WCfg} {V : Str} {B : Path}
    {all1 all2 : List (THdr × List Byte)} (hT1 : T1.Law) (hT2 : T2.Law) (hall1 : TarHas T1 clean1 Y1 all1) (hall2 : TarHas T2 clean2 Y2 all2)
    (hB1 : w1.Base V B) (hB2 : w2.Base V B) (hq1 : w1.Qualifies) (hq2 : w2.Qualifies) (hf1 : w1.FoldOK) (hf2 : w2.FoldOK) (hpl : ∀ p, w1.placeOf p = w2.placeOf p)
    (hind : w1.Independent (tarPlan all1 ++ tarPlan all2)) (hkind1 : OneKind (tarPlan all1)) (hkind2 : OneKind (tarPlan all2))
    (fs0 : FS) (hfit : w1.DiskFit (tarPlan all1 ++ tarPlan all2) fs0) (hone : OneNameW w1 (tarPlan all1 ++ tarPlan all2) fs0)
    (hist1 hist2 : List ECkpt) (k1 k2 : FSink) (ck1 ck2 : Option ECkpt) (before1 before2 : List ECkpt) (X1 : TarSrc Y1 clean1 Ck1 F1) (X2 : TarSrc Y2 clean2 Ck2 F2)
    (pr1 pr2 : Ckpt → Int × Int) (U1 U2 : SaveCons) (u1 : U1.St) (u2 : U2.St) (res1 res2 : List Entry)
    (hchain1 : TarAttempts Y1 clean1 Ck1 F1 T1 (winSink w1) (onFS fs0) hist1 k1) (hck1 : ChooseCk hist1 ck1 before1)
    (hok1 : (tarRun X1 T1 pr1 (winSink w1) U1 ck1 k1 u1).1 = .ok res1)
    (hchain2 : TarAttempts Y2 clean2 Ck2 F2 T2 (winSink w2) (onFS (tarRun X1 T1 pr1 (winSink w1) U1 ck1 k1 u1).2.2.sink.os.fs) hist2 k2) (hck2 : ChooseCk hist2 ck2 before2)
    (hok2 : (tarRun X2 T2 pr2 (winSink w2) U2 ck2 k2 u2).1 = .ok res2) (L : Path) (hL : AllOrd L) (n : PNode) :
    (tarRun X2 T2 pr2 (winSink w2) U2 ck2 k2 u2).2.2.sink.os.fs.holds L = some n ↔
      TreeOfW w2 (tarNode all2) L n ∨ (SparesW w2 (tarPlan all2) L ∧ (TreeOfW w1 (tarNode all1) L n ∨ (SparesW w1 (tarPlan all1) L ∧ fs0.holds L = some n))) := by
  have s1 : ∀ x ∈ tarPlan all1, x ∈ tarPlan all1 ++ tarPlan all2 := fun x h => List.mem_append_left _ h
  have s2 : ∀ x ∈ tarPlan all2, x ∈ tarPlan all1 ++ tarPlan all2 := fun x h => List.mem_append_right _ h
  have hstep := TarAttempts.step (K := winSink w1) X1 pr1 U1 u1 hchain1 hck1 (Or.inl rfl)
  obtain ⟨f2, o2⟩ := fitW_after (tarChainW_made s1 hT1 hall1 hB1 hq1 hf1 hind fs0 hfit _ _ hstep) hone hpl s2
  rw [C98_win_tar hT2 hall2 hB2 hq2 hf2 (hind.less hpl s2) hkind2 _ f2 o2 hist2 k2 hchain2 ck2 before2 hck2 X2 pr2 U2 u2 res2 hok2 L hL n]
  exact overlayW_twice (C98_win_tar hT1 hall1 hB1 hq1 hf1 (hind.less (fun _ => rfl) s1) hkind1 fs0 (hfit.less s1) (hone.less s1) hist1 k1 hchain1 ck1 before1 hck1 X1 pr1 U1 u1 res1 hok1 L hL n)

/-- **C99**, on Windows, after an extraction given up: whatever became of the first, the second, once it succeeds, is complete, laid over what the first left, all of
which was there before or is its members'. -/
theorem C99_win_zip_abandoned {A1 A2 : Archive} {D1 D2 : Decomp} {F1 F2 : Nat} (hwf2 : ZipWF A2 D2 F2) {w1 w2 : WCfg} {V : Str} {B : Path}
    (hB1 : w1.Base V B) (hB2 : w2.Base V B) (hq1 : w1.Qualifies) (hq2 : w2.Qualifies) (hf1 : w1.FoldOK) (hf2 : w2.FoldOK) (hpl : ∀ p, w1.placeOf p = w2.placeOf p)
    (hind : w1.Independent (A1.plan ++ A2.plan)) (hkind2 : OneKind A2.plan)
    (fs0 : FS) (hfit : w1.DiskFit (A1.plan ++ A2.plan) fs0) (hone : OneNameW w1 (A1.plan ++ A2.plan) fs0)
    (hist1 hist2 : List ECkpt) (k1 k2 : FSink) (hchain1 : ZipAttempts A1 D1 F1 (winSink w1) (onFS fs0) hist1 k1)
    (hchain2 : ZipAttempts A2 D2 F2 (winSink w2) (onFS k1.os.fs) hist2 k2) (ck : Option ECkpt) (before : List ECkpt) (hck : ChooseCk hist2 ck before)
    (env : ZEnv) (hh : env.Honest A2) (U : SaveCons) (u : U.St) (res : List Entry)
    (hok : (zipResume A2 env D2 F2 (winSink w2) U ck k2 u).1 = .ok res) :
    MadeOnlyForW w1 A1.plan fs0 k1.os.fs ∧ ∀ L, AllOrd L → ∀ n,
      ((zipResume A2 env D2 F2 (winSink w2) U ck k2 u).2.sink.os.fs.holds L = some n ↔ TreeOfW w2 (zipNode A2 D2) L n ∨ (SparesW w2 A2.plan L ∧ k1.os.fs.holds L = some n)) := by
  have s1 : ∀ x ∈ A1.plan, x ∈ A1.plan ++ A2.plan := fun x h => List.mem_append_left _ h
  have s2 : ∀ x ∈ A2.plan, x ∈ A1.plan ++ A2.plan := fun x h => List.mem_append_right _ h
  obtain ⟨f2, o2⟩ := fitW_after (zipChainW_made s1 hB1 hq1 hf1 hind fs0 hfit _ _ hchain1) hone hpl s2
  exact ⟨C95_win_zip hB1 hq1 hf1 (hind.less (fun _ => rfl) s1) fs0 (hfit.less s1) _ _ hchain1,
    fun L hL n => C98_win_zip hwf2 hB2 hq2 hf2 (hind.less hpl s2) hkind2 _ f2 o2 hist2 k2 hchain2 ck before hck env hh U u res hok L hL n⟩

/-- **C99**, on Windows, after an extraction of a tar stream given up. -/
theorem C99_win_tar_abandoned {T1 T2 : TarFmt} {Y1 Y2 : List Byte} {clean1 clean2 : Bool} {Ck1 Ck2 : Ckpt → Nat → Prop} {F1 F2 : Nat} {w1 w2 : WCfg} {V : Str} {B : Path}
    {all1 all2 : List (THdr × List Byte)} (hT1 : T1.Law) (hT2 : T2.Law) (hall1 : TarHas T1 clean1 Y1 all1) (hall2 : TarHas T2 clean2 Y2 all2)
    (hB1 : w1.Base V B) (hB2 : w2.Base V B) (hq1 : w1.Qualifies) (hq2 : w2.Qualifies) (hf1 : w1.FoldOK) (hf2 : w2.FoldOK) (hpl : ∀ p, w1.placeOf p = w2.placeOf p)
    (hind : w1.Independent (tarPlan all1 ++ tarPlan all2)) (hkind2 : OneKind (tarPlan all2))
    (fs0 : FS) (hfit : w1.DiskFit (tarPlan all1 ++ tarPlan all2) fs0) (hone : OneNameW w1 (tarPlan all1 ++ tarPlan all2) fs0)
    (hist1 hist2 : List ECkpt) (k1 k2 : FSink) (hchain1 : TarAttempts Y1 clean1 Ck1 F1 T1 (winSink w1) (onFS fs0) hist1 k1)
    (hchain2 : TarAttempts Y2 clean2 Ck2 F2 T2 (winSink w2) (onFS k1.os.fs) hist2 k2) (ck : Option ECkpt) (before : List ECkpt) (hck : ChooseCk hist2 ck before)
    (X : TarSrc Y2 clean2 Ck2 F2) (pr : Ckpt → Int × Int) (U : SaveCons) (u : U.St) (res : List Entry)
    (hok : (tarRun X T2 pr (winSink w2) U ck k2 u).1 = .ok res) :
    MadeOnlyForW w1 (tarPlan all1) fs0 k1.os.fs ∧ ∀ L, AllOrd L → ∀ n,
      ((tarRun X T2 pr (winSink w2) U ck k2 u).2.2.sink.os.fs.holds L = some n ↔ TreeOfW w2 (tarNode all2) L n ∨ (SparesW w2 (tarPlan all2) L ∧ k1.os.fs.holds L = some n)) := by
  have s1 : ∀ x ∈ tarPlan all1, x ∈ tarPlan all1 ++ tarPlan all2 := fun x h => List.mem_append_left _ h
  have s2 : ∀ x ∈ tarPlan all2, x ∈ tarPlan all1 ++ tarPlan all2 := fun x h => List.mem_append_right _ h
  obtain ⟨f2, o2⟩ := fitW_after (tarChainW_made s1 hT1 hall1 hB1 hq1 hf1 hind fs0 hfit _ _ hchain1) hone hpl s2
  exact ⟨C95_win_tar hT1 hall1 hB1 hq1 hf1 (hind.less (fun _ => rfl) s1) fs0 (hfit.less s1) _ _ hchain1,
    fun L hL n => C98_win_tar hT2 hall2 hB2 hq2 hf2 (hind.less hpl s2) hkind2 _ f2 o2 hist2 k2 hchain2 ck before hck X pr U u res hok L hL n⟩

/-! ## A tar stream over a zip archive, and the other way round -/

/-- **C99**: a tar stream extracted over a zip archive. -/
theorem C99_zip_tar {A : Archive} {D : Decomp} {F1 : Nat} (hwf : ZipWF A D F1) {T : TarFmt} {Y : List Byte} {clean : Bool} {Ck : Ckpt → Nat → Prop} {F2 : Nat}
    {all : List (THdr × List Byte)} (hT : T.Law) (hall : TarHas T clean Y all) {cfg1 cfg2 : FCfg} {B : Path} (hB1 : cfg1.Base B) (hB2 : cfg2.Base B)
    (hind : Independent cfg1 B (A.plan ++ tarPlan all)) (hkind1 : OneKind A.plan) (hkind2 : OneKind (tarPlan all))
    (fs0 : FS) (hfit : DiskFit B (A.plan ++ tarPlan all) fs0) (hone : OneName B (A.plan ++ tarPlan all) fs0)
    (hist1 hist2 : List ECkpt) (k1 k2 : FSink) (ck1 ck2 : Option ECkpt) (before1 before2 : List ECkpt) (env : ZEnv) (hh : env.Honest A) (X : TarSrc Y clean Ck F2)
    (pr : Ckpt → Int × Int) (V1 V2 : SaveCons) (u1 : V1.St) (u2 : V2.St) (res1 res2 : List Entry)
    (hchain1 : ZipAttempts A D F1 (folderSink cfg1) (onFS fs0) hist1 k1) (hck1 : ChooseCk hist1 ck1 before1)
    (hok1 : (zipResume A env D F1 (folderSink cfg1) V1 ck1 k1 u1).1 = .ok res1)
    (hchain2 : TarAttempts Y clean Ck F2 T (folderSink cfg2) (onFS (zipResume A env D F1 (folderSink cfg1) V1 ck1 k1 u1).2.sink.os.fs) hist2 k2)
    (hck2 : ChooseCk hist2 ck2 before2) (hok2 : (tarRun X T pr (folderSink cfg2) V2 ck2 k2 u2).1 = .ok res2) (L : Path) (hL : AllOrd L) (n : PNode) :
    (tarRun X T pr (folderSink cfg2) V2 ck2 k2 u2).2.2.sink.os.fs.holds L = some n ↔
      TreeOf (tarNode all) B L n ∨ (Spares B (tarPlan all) L ∧ (TreeOf (zipNode A D) B L n ∨ (Spares B A.plan L ∧ fs0.holds L = some n))) := by
  have s1 : ∀ x ∈ A.plan, x ∈ A.plan ++ tarPlan all := fun x h => List.mem_append_left _ h
  have s2 : ∀ x ∈ tarPlan all, x ∈ A.plan ++ tarPlan all := fun x h => List.mem_append_right _ h
  have hstep := ZipAttempts.step (K := folderSink cfg1) env V1 u1 hh hchain1 hck1 (Or.inl rfl)
  obtain ⟨f2, o2⟩ := fit_after (zipChain_made s1 hB1 hind fs0 hfit _ _ hstep) hone s2
  rw [C98_tar hT hall hB2 (hind.less s2) hkind2 _ f2 o2 hist2 k2 hchain2 ck2 before2 hck2 X pr V2 u2 res2 hok2 L hL n]
  exact overlay_twice (C98_zip hwf hB1 (hind.less s1) hkind1 fs0 (hfit.less s1) (hone.less s1) hist1 k1 hchain1 ck1 before1 hck1 env hh V1 u1 res1 hok1 L hL n)

/-- **C99**: a zip archive extracted over a tar stream. -/
theorem C99_tar_zip {A : Archive} {D : Decomp} {F2 : Nat} (hwf : ZipWF A D F2) {T : TarFmt} {Y : List Byte} {clean : Bool} {Ck : Ckpt → Nat → Prop} {F1 : Nat}
    {all : List (THdr × List Byte)} (hT : T.Law) (hall : TarHas T clean Y all) {cfg1 cfg2 : FCfg} {B : Path} (hB1 : cfg1.Base B) (hB2 : cfg2.Base B)
    (hind : Independent cfg1 B (tarPlan all ++ A.plan)) (hkind1 : OneKind (tarPlan all)) (hkind2 : OneKind A.plan)
    (fs0 : FS) (hfit : DiskFit B (tarPlan all ++ A.plan) fs0) (hone : OneName B (tarPlan all ++ A.plan) fs0)
    (hist1 hist2 : List ECkpt) (k1 k2 : FSink) (ck1 ck2 : Option ECkpt) (before1 before2 : List ECkpt) (env : ZEnv) (hh : env.Honest A) (X : TarSrc Y clean Ck F1)
    (pr : Ckpt → Int × Int) (V1 V2 : SaveCons) (u1 : V1.St) (u2 : V2.St) (res1 res2 : List Entry)
    (hchain1 : TarAttempts Y clean Ck F1 T (folderSink cfg1) (onFS fs0) hist1 k1) (hck1 : ChooseCk hist1 ck1 before1)
    (hok1 : (tarRun X T pr (folderSink cfg1) V1 ck1 k1 u1).1 = .ok res1)
    (hchain2 : ZipAttempts A D F2 (folderSink cfg2) (onFS (tarRun X T pr (folderSink cfg1) V1 ck1 k1 u1).2.2.sink.os.fs) hist2 k2)
    (hck2 : ChooseCk hist2 ck2 before2) (hok2 : (zipResume A env D F2 (folderSink cfg2) V2 ck2 k2 u2).1 = .ok res2) (L : Path) (hL : AllOrd L) (n : PNode) :
    (zipResume A env D F2 (folderSink cfg2) V2 ck2 k2 u2).2.sink.os.fs.holds L = some n ↔
      TreeOf (zipNode A D) B L n ∨ (Spares B A.plan L ∧ (TreeOf (tarNode all) B L n ∨ (Spares B (tarPlan all) L ∧ fs0.holds L = some n))) := by
  have s1 : ∀ x ∈ tarPlan all, x ∈ tarPlan all ++ A.plan := fun x h => List.mem_append_left _ h
  have s2 : ∀ x ∈ A.plan, x ∈ tarPlan all ++ A.plan := fun x h => List.mem_append_right _ h
  have hstep := TarAttempts.step (K := folderSink cfg1) X pr V1 u1 hchain1 hck1 (Or.inl rfl)
  obtain ⟨f2, o2⟩ := fit_after (tarChain_made s1 hT hall hB1 hind fs0 hfit _ _ hstep) hone s2
  rw [C98_zip hwf hB2 (hind.less s2) hkind2 _ f2 o2 hist2 k2 hchain2 ck2 before2 hck2 env hh V2 u2 res2 hok2 L hL n]
  exact overlay_twice (C98_tar hT hall hB1 (hind.less s1) hkind1 fs0 (hfit.less s1) (hone.less s1) hist1 k1 hchain1 ck1 before1 hck1 X pr V1 u1 res1 hok1 L hL n)

/-- **C99**, on Windows: a tar stream extracted over a zip archive. -/
theorem C99_win_zip_tar {A : Archive} {D : Decomp} {F1 : Nat} (hwf : ZipWF A D F1) {T : TarFmt} {Y : List Byte} {clean : Bool} {Ck : Ckpt → Nat → Prop} {F2 : Nat}
    {all : List (THdr × List Byte)} (hT : T.Law) (hall : TarHas T clean Y all) {w1 w2 : WCfg} {V : Str} {B : Path} (hB1 : w1.Base V B) (hB2 : w2.Base V B)
    (hq1 : w1.Qualifies) (hq2 : w2.Qualifies) (hf1 : w1.FoldOK) (hf2 : w2.FoldOK) (hpl : ∀ p, w1.placeOf p = w2.placeOf p)
    (hind : w1.Independent (A.plan ++ tarPlan all)) (hkind1 : OneKind A.plan) (hkind2 : OneKind (tarPlan all))
    (fs0 : FS) (hfit : w1.DiskFit (A.plan ++ tarPlan all) fs0) (hone : OneNameW w1 (A.plan ++ tarPlan all) fs0)
    (hist1 hist2 : List ECkpt) (k1 k2 : FSink) (ck1 ck2 : Option ECkpt) (before1 before2 : List ECkpt) (env : ZEnv) (hh : env.Honest A) (X : TarSrc Y clean Ck F2)
    (pr : Ckpt → Int × Int) (U1 U2 : SaveCons) (u1 : U1.St) (u2 : U2.St) (res1 res2 : List Entry)
    (hchain1 : ZipAttempts A D F1 (winSink w1) (onFS fs0) hist1 k1) (hck1 : ChooseCk hist1 ck1 before1)
    (hok1 : (zipResume A env D F1 (winSink w1) U1 ck1 k1 u1).1 = .ok res1)
    (hchain2 : TarAttempts Y clean Ck F2 T (winSink w2) (onFS (zipResume A env D F1 (winSink w1) U1 ck1 k1 u1).2.sink.os.fs) hist2 k2)
    (hck2 : ChooseCk hist2 ck2 before2) (hok2 : (tarRun X T pr (winSink w2) U2 ck2 k2 u2).1 = .ok res2) (L : Path) (hL : AllOrd L) (n : PNode) :
    (tarRun X T pr (winSink w2) U2 ck2 k2 u2).2.2.sink.os.fs.holds L = some n ↔
      TreeOfW w2 (tarNode all) L n ∨ (SparesW w2 (tarPlan all) L ∧ (TreeOfW w1 (zipNode A D) L n ∨ (SparesW w1 A.plan L ∧ fs0.holds L = some n))) := by
  have s1 : ∀ x ∈ A.plan, x ∈ A.plan ++ tarPlan all := fun x h => List.mem_append_left _ h
  have s2 : ∀ x ∈ tarPlan all, x ∈ A.plan ++ tarPlan all := fun x h => List.mem_append_right _ h
  have hstep := ZipAttempts.step (K := winSink w1) env U1 u1 hh hchain1 hck1 (Or.inl rfl)
  obtain ⟨f2, o2⟩ := fitW_after (zipChainW_made s1 hB1 hq1 hf1 hind fs0 hfit _ _ hstep) hone hpl s2
  rw [C98_win_tar hT hall hB2 hq2 hf2 (hind.less hpl s2) hkind2 _ f2 o2 hist2 k2 hchain2 ck2 before2 hck2 X pr U2 u2 res2 hok2 L hL n]
  exact overlayW_twice (C98_win_zip hwf hB1 hq1 hf1 (hind.less (fun _ => rfl) s1) hkind1 fs0 (hfit.less s1) (hone.less s1) hist1 k1 hchain1 ck1 before1 hck1 env hh U1 u1 res1 hok1 L hL n)

/-- **C99**, on Windows: a zip archive extracted over a tar stream. -/
theorem C99_win_tar_zip {A : Archive} {D : Decomp} {F2 : Nat} (hwf : ZipWF A D F2) {T : TarFmt} {Y : List Byte} {clean : Bool} {Ck : Ckpt → Nat → Prop} {F1 : Nat}
    {all : List (THdr × List Byte)} (hT : T.Law) (hall : TarHas T clean Y all) {w1 w2 : WCfg} {V : Str} {B : Path} (hB1 : w1.Base V B) (hB2 : w2.Base V B)
    (hq1 : w1.Qualifies) (hq2 : w2.Qualifies) (hf1 : w1.FoldOK) (hf2 : w2.FoldOK) (hpl : ∀ p, w1.placeOf p = w2.placeOf p)
    (hind : w1.Independent (tarPlan all ++ A.plan)) (hkind1 : OneKind (tarPlan all)) (hkind2 : OneKind A.plan)
    (fs0 : FS) (hfit : w1.DiskFit (tarPlan all ++ A.plan) fs0) (hone : OneNameW w1 (tarPlan all ++ A.plan) fs0)
    (hist1 hist2 : List ECkpt) (k1 k2 : FSink) (ck1 ck2 : Option ECkpt) (before1 before2 : List ECkpt) (env : ZEnv) (hh : env.Honest A) (X : TarSrc Y clean Ck F1)
    (pr : Ckpt → Int × Int) (U1 U2 : SaveCons) (u1 : U1.St) (u2 : U2.St) (res1 res2 : List Entry)
    (hchain1 : TarAttempts Y clean Ck F1 T (winSink w1) (onFS fs0) hist1 k1) (hck1 : ChooseCk hist1 ck1 before1)
    (hok1 : (tarRun X T pr (winSink w1) U1 ck1 k1 u1).1 = .ok res1)
    (hchain2 : ZipAttempts A D F2 (winSink w2) (onFS (tarRun X T pr (winSink w1) U1 ck1 k1 u1).2.2.sink.os.fs) hist2 k2)
    (hck2 : ChooseCk hist2 ck2 before2) (hok2 : (zipResume A env D F2 (winSink w2) U2 ck2 k2 u2).1 = .ok res2) (L : Path) (hL : AllOrd L) (n : PNode) :
    (zipResume A env D F2 (winSink w2) U2 ck2 k2 u2).2.sink.os.fs.holds L = some n ↔
      TreeOfW w2 (zipNode A D) L n ∨ (SparesW w2 A.plan L ∧ (TreeOfW w1 (tarNode all) L n ∨ (SparesW w1 (tarPlan all) L ∧ fs0.holds L = some n))) := by
  have s1 : ∀ x ∈ tarPlan all, x ∈ tarPlan all ++ A.plan := fun x h => List.mem_append_left _ h
  have s2 : ∀ x ∈ A.plan, x ∈ tarPlan all ++ A.plan := fun x h => List.mem_append_right _ h
  have hstep := TarAttempts.step (K := winSink w1) X pr U1 u1 hchain1 hck1 (Or.inl rfl)
  obtain ⟨f2, o2⟩ := fitW_after (tarChainW_made s1 hT hall hB1 hq1 hf1 hind fs0 hfit _ _ hstep) hone hpl s2
  rw [C98_win_zip hwf hB2 hq2 hf2 (hind.less hpl s2) hkind2 _ f2 o2 hist2 k2 hchain2 ck2 before2 hck2 env hh U2 u2 res2 hok2 L hL n]
  exact overlayW_twice (C98_win_tar hT hall hB1 hq1 hf1 (hind.less (fun _ => rfl) s1) hkind1 fs0 (hfit.less s1) (hone.less s1) hist1 k1 hchain1 ck1 before1 hck1 X pr U1 u1 res1 hok1 L hL n)

/-! ## Non-vacuity -/

/-- The toy archive extracted over "C:\\d", and then once more. -/
def winTwice := winRun noFlt none (onFS (winRun noFlt none (onFS exWinFS) []).2.sink.os.fs) []

theorem winTwice_ok : winTwice.1 = .ok (toyArchive.files.map zipFileEntry) := by rfl

theorem mem_twice {x : Str × Kind} (h : x ∈ toyArchive.plan ++ toyArchive.plan) : x ∈ toyArchive.plan := by simpa using h

example (L : Path) (hL : AllOrd L) (n : PNode) : winTwice.2.sink.os.fs.holds L = some n ↔
    TreeOfW (exWinK noFlt) (zipNode toyArchive (toy false false)) L n ∨ (SparesW (exWinK noFlt) toyArchive.plan L ∧
      (TreeOfW (exWinK noFlt) (zipNode toyArchive (toy false false)) L n ∨ (SparesW (exWinK noFlt) toyArchive.plan L ∧ exWinFS.holds L = some n))) :=
  C99_win_zip (w1 := exWinK noFlt) (w2 := exWinK noFlt) (A1 := toyArchive) (A2 := toyArchive) toy_wf toy_wf (exWinK_base _) (exWinK_base _) (exWinK_qualifies _) (exWinK_qualifies _)
    (exWinK_fold _) (exWinK_fold _) (fun _ => rfl) ((winPlan_independent _).less (fun _ => rfl) fun _ => mem_twice) (by unfold OneKind; decide +kernel) (by unfold OneKind; decide +kernel)
    exWinFS ((exWinFS_fit _).less fun _ => mem_twice) (exWinFS_oneName _ _) _ _ _ _ none none _ _ toyEnv toyEnv toy_honest toy_honest listCons listCons [] [] _ _
    .refl .fresh winOver_ok .refl .fresh winTwice_ok L hL n

/-- The toy archive killed after 28 calls on Windows and given up, then extracted anew. -/
def winGivenUp := winRun (killedAt 28 1) none (onFS exWinFS) []

/-- The first did not succeed. -/
example : winGivenUp.1.toOption.isNone = true := by decide +kernel

theorem winGivenUp_chain : ZipAttempts toyArchive (toy false false) 100 (winSink (exWinK (killedAt 28 1))) (onFS exWinFS) ([] ++ savedCks winGivenUp.2.log)
    winGivenUp.2.sink :=
  ZipAttempts.step (A := toyArchive) (D := toy false false) (F := 100) (K := winSink (exWinK (killedAt 28 1))) (k := onFS exWinFS) (before := [])
    toyEnv listCons [] toy_honest ZipAttempts.refl .fresh (Or.inl rfl)

theorem winAnew_ok : (winRun noFlt none (onFS winGivenUp.2.sink.os.fs) []).1 = .ok (toyArchive.files.map zipFileEntry) := by rfl

example : MadeOnlyForW (exWinK (killedAt 28 1)) toyArchive.plan exWinFS winGivenUp.2.sink.os.fs ∧ ∀ L, AllOrd L → ∀ n,
    ((winRun noFlt none (onFS winGivenUp.2.sink.os.fs) []).2.sink.os.fs.holds L = some n ↔
      TreeOfW (exWinK noFlt) (zipNode toyArchive (toy false false)) L n ∨ (SparesW (exWinK noFlt) toyArchive.plan L ∧ winGivenUp.2.sink.os.fs.holds L = some n)) :=
  C99_win_zip_abandoned (w1 := exWinK (killedAt 28 1)) (w2 := exWinK noFlt) (A1 := toyArchive) (A2 := toyArchive) toy_wf (exWinK_base _) (exWinK_base _)
    (exWinK_qualifies _) (exWinK_qualifies _) (exWinK_fold _) (exWinK_fold _) (fun p => (exWinK_place _ p).trans (exWinK_place _ p).symm) ((winPlan_independent _).less (fun _ => rfl) fun _ => mem_twice)
    (by unfold OneKind; decide +kernel) exWinFS ((exWinFS_fit _).less fun _ => mem_twice) (exWinFS_oneName _ _) _ _ winGivenUp.2.sink (onFS winGivenUp.2.sink.os.fs)
    winGivenUp_chain .refl none _ .fresh toyEnv toy_honest listCons [] _ winAnew_ok

theorem zipTar_independent : Independent (exCfg.withFaults noFlt) [[100]] (toyNewer.plan ++ tarPlan toyMembers) ∧
    Independent (exCfg.withFaults noFlt) [[100]] (tarPlan toyMembers ++ toyNewer.plan) := by
  have h1 : ∀ x ∈ toyNewer.plan ++ tarPlan toyMembers, ∀ y ∈ toyNewer.plan ++ tarPlan toyMembers, x.1 ≠ y.1 →
    namePlace [[100]] x.1 ≠ namePlace [[100]] y.1 ∧ (namePlace [[100]] x.1 <+: namePlace [[100]] y.1 → x.2 = .dir) := by decide +kernel
  have h2 : ∀ x ∈ tarPlan toyMembers ++ toyNewer.plan, ∀ y ∈ tarPlan toyMembers ++ toyNewer.plan, x.1 ≠ y.1 →
    namePlace [[100]] x.1 ≠ namePlace [[100]] y.1 ∧ (namePlace [[100]] x.1 <+: namePlace [[100]] y.1 → x.2 = .dir) := by decide +kernel
  exact ⟨fun x hx y hy _ _ _ _ h => h1 x hx y hy h, fun x hx y hy _ _ _ _ h => h2 x hx y hy h⟩

/-- The toy tar stream over the newer archive, over `diskOld 1`. -/
example (L : Path) (hL : AllOrd L) (n : PNode) :
    (diskTarK noFlt none (onFS (zipResume toyNewer toyEnv (toy false false) 100 (folderSink exCfg) listCons none (onFS (diskOld 1)) []).2.sink.os.fs) []).2.2.sink.os.fs.holds L = some n ↔
      TreeOf (tarNode toyMembers) [[100]] L n ∨ (Spares [[100]] (tarPlan toyMembers) L ∧
        (TreeOf (zipNode toyNewer (toy false false)) [[100]] L n ∨ (Spares [[100]] toyNewer.plan L ∧ (diskOld 1).holds L = some n))) :=
  C99_zip_tar newer_wf (toyTar_law true) toy_has exCfg_base (base_faults exCfg_base _) zipTar_independent.1
    (by unfold OneKind; decide +kernel) (by unfold OneKind; decide +kernel) (diskOld 1) (diskOld_fit _ (by decide +kernel) (by decide +kernel)) (diskOld_oneName _)
    _ _ _ _ none none _ _ toyEnv newer_honest toyTarSrc (fun _ => (0, 1)) listCons listCons [] [] _ _ .refl .fresh (by rfl) .refl .fresh (by rfl) L hL n

/-- The newer archive over the toy tar stream. -/
example (L : Path) (hL : AllOrd L) (n : PNode) :
    (zipResume toyNewer toyEnv (toy false false) 100 (folderSink exCfg) listCons none (onFS (diskTarK noFlt none (onFS (diskOld 1)) []).2.2.sink.os.fs) []).2.sink.os.fs.holds L = some n ↔
      TreeOf (zipNode toyNewer (toy false false)) [[100]] L n ∨ (Spares [[100]] toyNewer.plan L ∧
        (TreeOf (tarNode toyMembers) [[100]] L n ∨ (Spares [[100]] (tarPlan toyMembers) L ∧ (diskOld 1).holds L = some n))) :=
  C99_tar_zip newer_wf (toyTar_law true) toy_has (base_faults exCfg_base _) exCfg_base zipTar_independent.2
    (by unfold OneKind; decide +kernel) (by unfold OneKind; decide +kernel) (diskOld 1) (diskOld_fit _ (by decide +kernel) (by decide +kernel)) (diskOld_oneName _)
    _ _ _ _ none none _ _ toyEnv newer_honest toyTarSrc (fun _ => (0, 1)) listCons listCons [] [] _ _ .refl .fresh (by rfl) .refl .fresh (by rfl) L hL n

/-! On Windows, with tar streams -/

theorem exWinFS_fits (flt : Faults) (plan : List (Str × Kind)) : (exWinK flt).DiskFit plan exWinFS := by
  refine ⟨exWinFS_tree, ?_, ?_, ?_⟩
  · intro x hx _ L r t _ _ _ h
    exact exWinFS_nolink r t h
  · intro x hx y hy _ _ L M i _ _ a b
    rw [(exWinFS_file a).1, (exWinFS_file b).1]
  · intro x hx _ L i _ h
    rw [(exWinFS_file h).2]; decide

theorem winTar_independent (flt : Faults) : (exWinK flt).Independent (toyNewer.plan ++ tarPlan toyMembers) ∧
    (exWinK flt).Independent (tarPlan toyMembers ++ toyNewer.plan) := by
  have h1 : ∀ x ∈ toyNewer.plan ++ tarPlan toyMembers, ∀ y ∈ toyNewer.plan ++ tarPlan toyMembers,
    (x.1 ≠ y.1 → exWin.placeOf x.1 ≠ exWin.placeOf y.1 ∧
      (((exWin.placeOf x.1).getD [] <+: (exWin.placeOf y.1).getD []) → x.2 = .dir)) ∧ (x.1 = y.1 → x.2 = .symlink → y.2 ≠ .file) := by decide +kernel
  have key : ∀ x ∈ toyNewer.plan ++ tarPlan toyMembers, ∀ y ∈ toyNewer.plan ++ tarPlan toyMembers, ∀ L M, (exWinK flt).placeOf x.1 = some L →
      (exWinK flt).placeOf y.1 = some M → (x.1 ≠ y.1 → L ≠ M ∧ (L <+: M → x.2 = .dir)) ∧ (x.1 = y.1 → x.2 = .symlink → y.2 ≠ .file) := by
    intro x hx y hy L M hL hM
    rw [exWinK_place] at hL hM
    have := h1 x hx y hy
    rw [hL, hM] at this
    exact ⟨fun h => ⟨fun e => (this.1 h).1 (by rw [e]), fun hp => (this.1 h).2 hp⟩, this.2⟩
  refine ⟨fun x hx y hy _ _ => key x hx y hy, fun x hx y hy _ _ => key x ?_ y ?_⟩
  · simpa [or_comm] using hx
  · simpa [or_comm] using hy

/-- The toy tar stream, extracted on Windows. -/
def winTar (flt : Faults) (ck : Option ECkpt) (k : FSink) (u : List (Except Err Action)) :=
  tarRun toyTarSrc (toyTar true) (fun _ => (0, 1)) (winSink (exWinK flt)) listCons ck k u

/-- The newer archive, extracted on Windows. -/
def winNewer (k : FSink) := zipResume toyNewer toyEnv (toy false false) 100 (winSink (exWinK noFlt)) listCons none k []

theorem winTar_ok : ∃ r, (winTar noFlt none (onFS exWinFS) []).1 = .ok r := ⟨_, by rfl⟩

theorem winNewer_ok : ∃ r, (winNewer (onFS exWinFS)).1 = .ok r := ⟨_, by rfl⟩

theorem winNewerTar_ok : ∃ r, (winTar noFlt none (onFS (winNewer (onFS exWinFS)).2.sink.os.fs) []).1 = .ok r := ⟨_, by rfl⟩

theorem winTarNewer_ok : ∃ r, (winNewer (onFS (winTar noFlt none (onFS exWinFS) []).2.2.sink.os.fs)).1 = .ok r := ⟨_, by rfl⟩

/-- The tar stream over "C:\\d". -/
example (L : Path) (hL : AllOrd L) (n : PNode) :
    (winTar noFlt none (onFS exWinFS) []).2.2.sink.os.fs.holds L = some n ↔ OverlaidW (tarNode toyMembers) (exWinK noFlt) (tarPlan toyMembers) exWinFS L n := by
  obtain ⟨r, hr⟩ := winTar_ok
  exact C98_win_tar (w := exWinK noFlt) (toyTar_law true) toy_has (exWinK_base _) (exWinK_qualifies _) (exWinK_fold _)
    ((winTar_independent noFlt).1.less (fun _ => rfl) fun _ h => List.mem_append_right _ h) (by unfold OneKind; decide +kernel) exWinFS (exWinFS_fits _ _) (exWinFS_oneName _ _)
    _ _ .refl none _ .fresh toyTarSrc (fun _ => (0, 1)) listCons [] r hr L hL n

/-- The tar stream over the newer archive. -/
example (L : Path) (hL : AllOrd L) (n : PNode) :
    (winTar noFlt none (onFS (winNewer (onFS exWinFS)).2.sink.os.fs) []).2.2.sink.os.fs.holds L = some n ↔
      TreeOfW (exWinK noFlt) (tarNode toyMembers) L n ∨ (SparesW (exWinK noFlt) (tarPlan toyMembers) L ∧
        (TreeOfW (exWinK noFlt) (zipNode toyNewer (toy false false)) L n ∨ (SparesW (exWinK noFlt) toyNewer.plan L ∧ exWinFS.holds L = some n))) := by
  obtain ⟨r, hr⟩ := winNewer_ok
  obtain ⟨r2, hr2⟩ := winNewerTar_ok
  exact C99_win_zip_tar (w1 := exWinK noFlt) (w2 := exWinK noFlt) newer_wf (toyTar_law true) toy_has (exWinK_base _) (exWinK_base _) (exWinK_qualifies _) (exWinK_qualifies _)
    (exWinK_fold _) (exWinK_fold _) (fun _ => rfl) (winTar_independent noFlt).1 (by unfold OneKind; decide +kernel) (by unfold OneKind; decide +kernel)
    exWinFS (exWinFS_fits _ _) (exWinFS_oneName _ _) _ _ _ _ none none _ _ toyEnv newer_honest toyTarSrc (fun _ => (0, 1)) listCons listCons [] [] r r2
    .refl .fresh hr .refl .fresh hr2 L hL n

/-- The newer archive over the tar stream. -/
example (L : Path) (hL : AllOrd L) (n : PNode) :
    (winNewer (onFS (winTar noFlt none (onFS exWinFS) []).2.2.sink.os.fs)).2.sink.os.fs.holds L = some n ↔
      TreeOfW (exWinK noFlt) (zipNode toyNewer (toy false false)) L n ∨ (SparesW (exWinK noFlt) toyNewer.plan L ∧
        (TreeOfW (exWinK noFlt) (tarNode toyMembers) L n ∨ (SparesW (exWinK noFlt) (tarPlan toyMembers) L ∧ exWinFS.holds L = some n))) := by
  obtain ⟨r, hr⟩ := winTar_ok
  obtain ⟨r2, hr2⟩ := winTarNewer_ok
  exact C99_win_tar_zip (w1 := exWinK noFlt) (w2 := exWinK noFlt) newer_wf (toyTar_law true) toy_has (exWinK_base _) (exWinK_base _) (exWinK_qualifies _) (exWinK_qualifies _)
    (exWinK_fold _) (exWinK_fold _) (fun _ => rfl) (winTar_independent noFlt).2 (by unfold OneKind; decide +kernel) (by unfold OneKind; decide +kernel)
    exWinFS (exWinFS_fits _ _) (exWinFS_oneName _ _) _ _ _ _ none none _ _ toyEnv newer_honest toyTarSrc (fun _ => (0, 1)) listCons listCons [] [] r r2
    .refl .fresh hr .refl .fresh hr2 L hL n

/-- What is on the disk then: "a" as the newer archive has it, "b" as the tar stream has it, the new "d/n", and "F" as it was. -/
example : let fs := (winNewer (onFS (winTar noFlt none (onFS exWinFS) []).2.2.sink.os.fs)).2.sink.os.fs
    fs.holds [cs ['c', ':'], cs ['d'], cs ['a']] = some (.file [9, 9]) ∧ fs.holds [cs ['c', ':'], cs ['d'], cs ['b']] = some (.file [5, 6]) ∧
    fs.holds [cs ['c', ':'], cs ['d'], cs ['d'], cs ['n']] = some (.file [8]) ∧ fs.holds [cs ['c', ':'], cs ['d'], cs ['f']] = some (.file [1]) :=
  ⟨by rfl, by rfl, by rfl, by rfl⟩

/-! A tar stream on Windows, the process killed in the middle -/

/-- Killed after the checkpoints in "a". -/
def winTarK := winTar (killedAt 13 1) none (onFS diskEmpty) []

theorem winTarK_dead : (∃ e, winTarK.1 = .error e) ∧ ∃ c, savedCks winTarK.2.2.log = [tarCk1, c] := ⟨⟨_, by rfl⟩, _, by rfl⟩

/-- The process restarted. -/
def winTarK2 : FSink := (winSink (exWinK (killedAt 13 1))).reborn winTarK.2.2.sink

theorem winTarK_attempts : TarAttempts (plainGeo toyStream).stream true (Seek.CkS (plainGeo toyStream)) 100 (toyTar true)
    (winSink (exWinK (killedAt 13 1))) (onFS diskEmpty) (savedCks winTarK.2.2.log) winTarK2 := by
  have h0 : TarAttempts (plainGeo toyStream).stream true (Seek.CkS (plainGeo toyStream)) 100 (toyTar true) (winSink (exWinK (killedAt 13 1)))
    (onFS diskEmpty) [] (onFS diskEmpty) := .refl
  have h1 := TarAttempts.step toyTarSrc (fun _ => (0, 1)) listCons [] h0 .fresh (Or.inr (Eq.refl _))
  rw [List.nil_append] at h1
  unfold winTarK2 winTarK winTar
  exact h1

theorem winTarK_ok : ∃ r, (winTar (killedAt 13 1) (some tarCk1) winTarK2 []).1 = .ok r := ⟨_, by rfl⟩

theorem winTarWhole_ok : ∃ r, (winTar noFlt none (onFS diskEmpty) []).1 = .ok r := ⟨_, by rfl⟩

theorem diskEmpty_fits (flt : Faults) (plan : List (Str × Kind)) : (exWinK flt).DiskFit plan diskEmpty := by
  have h := winEmpty_fit flt
  have h0 : ∀ L, diskEmpty.nodes L = some .dir ∨ diskEmpty.nodes L = none := by
    intro L; show (if L = [] then some Node.dir else none) = _ ∨ (if L = [] then some Node.dir else none) = _
    by_cases h : L = [] <;> simp [h]
  refine ⟨h.tree, ?_, ?_, ?_⟩
  · intro x hx _ L r t _ _ _ h
    rcases h0 r with g | g <;> rw [g] at h <;> cases h
  · intro x hx y hy _ _ L M i _ _ h
    rcases h0 L with g | g <;> rw [g] at h <;> cases h
  · intro x hx _ L i _ h
    rcases h0 L with g | g <;> rw [g] at h <;> cases h

theorem winMembers_independent (flt : Faults) : (exWinK flt).Independent (tarPlan toyMembers) :=
  (winTar_independent flt).1.less (fun _ => rfl) fun _ h => List.mem_append_right _ h

/-- Killed: whatever is new is the members' (C95). -/
example : MadeOnlyForW (exWinK (killedAt 13 1)) (tarPlan toyMembers) diskEmpty winTarK2.os.fs :=
  C95_win_tar (toyTar_law true) toy_has (exWinK_base _) (exWinK_qualifies _) (exWinK_fold _) (winMembers_independent _) diskEmpty (diskEmpty_fits _ _) _ _ winTarK_attempts

/-- Killed and resumed, or not: the same tree (C97, by C96). -/
example (L : Path) (hL : [cs ['c', ':'], cs ['d']] <+: L) (hne : L ≠ [cs ['c', ':'], cs ['d']]) :
    (winTar (killedAt 13 1) (some tarCk1) winTarK2 []).2.2.sink.os.fs.holds L = (winTar noFlt none (onFS diskEmpty) []).2.2.sink.os.fs.holds L := by
  obtain ⟨_, c, hc⟩ := winTarK_dead
  obtain ⟨r, hr⟩ := winTarK_ok
  obtain ⟨r2, hr2⟩ := winTarWhole_ok
  exact C97_win_tar (w1 := exWinK (killedAt 13 1)) (w2 := exWinK noFlt) (toyTar_law true) toy_has (exWinK_base _) (exWinK_base _) (exWinK_qualifies _) (exWinK_qualifies _)
    (exWinK_fold _) (exWinK_fold _) (fun p => (exWinK_place _ p).trans (exWinK_place _ p).symm) rfl (winMembers_independent _) (winMembers_independent _)
    diskEmpty diskEmpty (diskEmpty_fits _ _) (diskEmpty_fits _ _) (nothingIn_win _) (nothingIn_win _) _ _ _ _ winTarK_attempts .refl
    (some tarCk1) none _ _ (.pick (a := []) (b := [c]) hc) .fresh toyTarSrc toyTarSrc (fun _ => (0, 1)) (fun _ => (0, 1)) listCons listCons [] [] r r2 hr hr2 L
    (by rwa [show (exWinK (killedAt 13 1)).place _ _ = _ from exWin_place])
    (by rwa [show (exWinK (killedAt 13 1)).place _ _ = _ from exWin_place])

theorem exWinFS_bystander_tar (flt : Faults) : BystanderW (exWinK flt) (tarPlan toyMembers) exWinFS [cs ['c', ':'], cs ['d'], cs ['f']] := by
  have h1 : ∀ x ∈ tarPlan toyMembers, exWin.placeOf x.1 ≠ some [cs ['c', ':'], cs ['d'], cs ['f']] ∧
      ¬ (exWin.placeOf x.1).getD [] <+: [cs ['c', ':'], cs ['d'], cs ['f']] ∧ ¬ [cs ['c', ':'], cs ['d'], cs ['f']] <+: (exWin.placeOf x.1).getD [] := by decide +kernel
  have key : ∀ x ∈ tarPlan toyMembers, ∀ Q, (exWinK flt).placeOf x.1 = some Q → [cs ['c', ':'], cs ['d'], cs ['f']] ≠ Q ∧
      ¬ Q <+: [cs ['c', ':'], cs ['d'], cs ['f']] ∧ ¬ [cs ['c', ':'], cs ['d'], cs ['f']] <+: Q := by
    intro x hx Q hQ
    rw [exWinK_place] at hQ
    have := h1 x hx
    rw [hQ] at this
    exact ⟨fun e => this.1 (by rw [e]), this.2⟩
  refine ⟨by unfold AllOrd Ordinary; decide +kernel, by decide +kernel, ?_, ?_, ?_⟩
  · intro x hx _ Q hQ
    have := key x hx Q hQ
    exact ⟨this.1, fun h => absurd h this.2.1, fun h => absurd h this.2.2⟩
  · intro x hx _ Q hQ i hi
    exact absurd (exWinFS_file hi).1.symm (key x hx Q hQ).1
  · intro i hi
    rw [(exWinFS_file hi).2]; decide

/-- The file "F" in "C:\\d" is left alone by an extraction of the tar stream that is killed (C94). -/
example : (winTar (killedAt 13 1) none (onFS exWinFS) []).2.2.sink.os.fs.holds [cs ['c', ':'], cs ['d'], cs ['f']] = some (.file [1]) :=
  C94_win_tar (toyTar_law true) toy_has (exWinK_base (killedAt 13 1)) (exWinK_qualifies _) (exWinK_fold _) (winMembers_independent _) exWinFS (exWinFS_fits _ _) _ _
    (TarAttempts.step (K := winSink (exWinK (killedAt 13 1))) toyTarSrc (fun _ => (0, 1)) listCons [] .refl .fresh (Or.inl rfl)) _ (exWinFS_bystander_tar _)

end Savior
