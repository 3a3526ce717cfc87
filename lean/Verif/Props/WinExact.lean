import Verif.WinMakes
import Verif.Props.Win
import Verif.Props.Again
/-!
# What an extraction makes on Windows, and what the result is (C95, C96, C97)
-/

namespace Savior
open FSink

theorem chosen_listsW {A : Archive} {D : Decomp} {F : Nat} {w : WCfg} {k0 k : (winSink w).St} {hist before : List ECkpt} {ck : Option ECkpt}
    (h : ZipAttempts A D F (winSink w) k0 hist k) (hc : ChooseCk hist ck before) : ∀ c e, ck = some c → c.entry = some e → A.Lists e := by
  intro c e h1 h2
  subst h1
  cases hc with
  | @pick a b _ he => exact zipAttempts_lists h c (by rw [he]; simp) e h2

/-- What holds after any chain of runs over an archive. -/
theorem zipChainW_made {A : Archive} {D : Decomp} {F : Nat} {w : WCfg} {V : Str} {B : Path} {plan : List (Str × Kind)} (hsub : ∀ x ∈ A.plan, x ∈ plan) (hB : w.Base V B) (hq : w.Qualifies) (hf : w.FoldOK)
    (hind : w.Independent plan) (fs0 : FS) (hfit : w.DiskFit plan fs0)
    (hist : List ECkpt) (k : FSink) (hchain : ZipAttempts A D F (winSink w) (onFS fs0) hist k) : MadeW w plan fs0 k := by
  have run : ∀ (env : ZEnv) (U : SaveCons) (u : U.St) (ck : Option ECkpt) (k : (winSink w).St), MadeW w plan fs0 k →
      (∀ c e, ck = some c → c.entry = some e → A.Lists e) → MadeW w plan fs0 (zipResume A env D F (winSink w) U ck k u).2.sink := by
    intro env U u ck k hk hck
    obtain ⟨b, hc⟩ := zipResume_calls A env D F (winSink w) U ck k u
    have ha := (zipResume_member A env D F (winSink w) ((lists_unmoved A).climbs _) U ck k u (lists_entry A) hck).log
    exact calls_makeW hB hq hf hind hc hk (ha.imp fun _ h => hsub _ (lists_plan h))
  have next : ∀ {s s' : (winSink w).St}, (winSink w).Next s s' → MadeW w plan fs0 s → MadeW w plan fs0 s' := by
    rintro s s' (rfl | rfl) h
    · exact h
    · exact ⟨h.disk, h.only, h.newer⟩
  have main : ∀ {k0 k : (winSink w).St} {hist : List ECkpt}, MadeW w plan fs0 k0 →
      ZipAttempts A D F (winSink w) k0 hist k → MadeW w plan fs0 k := by
    intro k0 k hist hk h
    induction h with
    | refl => exact hk
    | @step hist ck before k1 k2 env U u he hz hc hn ih => exact next hn (run env U u ck k1 ih (chosen_listsW hz hc))
    | @kept hist ck before k1 k2 env U u he hz hc hs hn ih => exact next hn (run env U u ck k1 ih (chosen_listsW hz hc))
  exact main (k0 := onFS fs0) ⟨diskOKW_of_fit hfit, fun _ _ h => Or.inl h, .refl _⟩ hchain

/-- **C95**, for zip archives on Windows: at any point after any chain of runs, everything on the disk was there before the first — the very same folder, link or
file —, or is at a member's place and what a member is there (a link being a regular file), or is a folder above one. -/
theorem C95_win_zip {A : Archive} {D : Decomp} {F : Nat} {w : WCfg} {V : Str} {B : Path} (hB : w.Base V B) (hq : w.Qualifies) (hf : w.FoldOK)
    (hind : w.Independent A.plan) (fs0 : FS) (hfit : w.DiskFit A.plan fs0)
    (hist : List ECkpt) (k : FSink) (hchain : ZipAttempts A D F (winSink w) (onFS fs0) hist k) : MadeOnlyForW w A.plan fs0 k.os.fs :=
  (zipChainW_made (fun _ h => h) hB hq hf hind fs0 hfit hist k hchain).only

/-- What holds after any chain of runs over a tar stream. -/
theorem tarChainW_made {T : TarFmt} {Y : List Byte} {clean : Bool} {Ck : Ckpt → Nat → Prop} {F : Nat} {w : WCfg} {V : Str} {B : Path} {all : List (THdr × List Byte)}
    {plan : List (Str × Kind)} (hsub : ∀ x ∈ tarPlan all, x ∈ plan)
    (hT : T.Law) (hall : TarHas T clean Y all) (hB : w.Base V B) (hq : w.Qualifies) (hf : w.FoldOK) (hind : w.Independent plan) (fs0 : FS) (hfit : w.DiskFit plan fs0)
    (hist : List ECkpt) (k : FSink) (hchain : TarAttempts Y clean Ck F T (winSink w) (onFS fs0) hist k) : MadeW w plan fs0 k := by
  have run : ∀ (X : TarSrc Y clean Ck F) (pr : Ckpt → Int × Int) (U : SaveCons) (u : U.St) (ck : Option ECkpt) (k : (winSink w).St),
      MadeW w plan fs0 k → (∀ c, ck = some c → TarCkOK T clean Y Ck c) →
      MadeW w plan fs0 (tarRun X T pr (winSink w) U ck k u).2.2.sink := by
    intro X pr U u ck k hk hck
    have hc : Calls (winSink w) true k false (tarRun X T pr (winSink w) U ck k u).2.2.log (tarRun X T pr (winSink w) U ck k u).2.2.sink :=
      tarResume_calls X.conduit pr F (winSink w) U ck X.src k u
    have ha := (tarRun_members (tarLists_unmoved T clean Y) (fun h hh ht => ⟨h, hh, tarMember_entry ht⟩) hT X pr (K := winSink w) (V := U) ck k u hck).1
    exact calls_makeW hB hq hf hind hc hk (ha.imp fun _ h => hsub _ (tarLists_plan hall h).1)
  have pick : ∀ {k0 k : (winSink w).St} {hist before : List ECkpt} {ck : Option ECkpt}, TarAttempts Y clean Ck F T (winSink w) k0 hist k → ChooseCk hist ck before →
      ∀ c, ck = some c → TarCkOK T clean Y Ck c := by
    intro k0 k hist before ck h hc c he
    subst he
    cases hc with
    | @pick a b _ he => exact tarAttempts_ckOK hT h c (by rw [he]; simp)
  have next : ∀ {s s' : (winSink w).St}, (winSink w).Next s s' → MadeW w plan fs0 s → MadeW w plan fs0 s' := by
    rintro s s' (rfl | rfl) h
    · exact h
    · exact ⟨h.disk, h.only, h.newer⟩
  have main : ∀ {k0 k : (winSink w).St} {hist : List ECkpt}, MadeW w plan fs0 k0 →
      TarAttempts Y clean Ck F T (winSink w) k0 hist k → MadeW w plan fs0 k := by
    intro k0 k hist hk h
    induction h with
    | refl => exact hk
    | @step hist ck before k1 k2 X pr U u hz hc hn ih => exact next hn (run X pr U u ck k1 ih (pick hz hc))
    | @kept hist ck before k1 k2 X pr U u hz hc hs hn ih => exact next hn (run X pr U u ck k1 ih (pick hz hc))
  exact main (k0 := onFS fs0) ⟨diskOKW_of_fit hfit, fun _ _ h => Or.inl h, .refl _⟩ hchain

/-- **C95**, for tar streams on Windows: likewise. -/
theorem C95_win_tar {T : TarFmt} {Y : List Byte} {clean : Bool} {Ck : Ckpt → Nat → Prop} {F : Nat} {w : WCfg} {V : Str} {B : Path} {all : List (THdr × List Byte)}
    (hT : T.Law) (hall : TarHas T clean Y all) (hB : w.Base V B) (hq : w.Qualifies) (hf : w.FoldOK) (hind : w.Independent (tarPlan all)) (fs0 : FS)
    (hfit : w.DiskFit (tarPlan all) fs0)
    (hist : List ECkpt) (k : FSink) (hchain : TarAttempts Y clean Ck F T (winSink w) (onFS fs0) hist k) : MadeOnlyForW w (tarPlan all) fs0 k.os.fs :=
  (tarChainW_made (fun _ h => h) hT hall hB hq hf hind fs0 hfit hist k hchain).only

/-- The last step: with what was made, and what members hold. -/
theorem exactW_of {w : WCfg} {B : Path} {plan : List (Str × Kind)} {fs0 fs : FS} {node : Str → Option PNode} (ht : fs.Tree) (hm : MadeOnlyForW w plan fs0 fs)
    (hnode : ∀ p n, shouldIgnore p = false → node p = some n → ∃ Q, w.placeOf p = some Q ∧ fs.holds Q = some (winNode n))
    (hplan : ∀ x ∈ plan, ∃ n, node x.1 = some n)
    (hnone : NothingIn B fs0) (L : Path) (hL : B <+: L) (hne : L ≠ B) (n : PNode) : fs.holds L = some n ↔ TreeOfW w node L n := by
  constructor
  · intro h
    obtain ⟨m, hmn⟩ := holds_some h
    rcases hm L m hmn with g | ⟨x, hx, hi, Q, hQ, ⟨rfl, _⟩ | ⟨g1, g2, rfl⟩⟩
    · rw [hnone L hL hne] at g; cases g
    · obtain ⟨n', hn'⟩ := hplan x hx
      obtain ⟨Q', hQ', hh⟩ := hnode x.1 n' hi hn'
      rw [hQ] at hQ'
      cases hQ'
      rw [h] at hh
      exact Or.inl ⟨x.1, n', hi, hn', hQ, Option.some.inj hh⟩
    · obtain ⟨n', hn'⟩ := hplan x hx
      refine Or.inr ⟨?_, x.1, n', Q, hi, hn', hQ, g1, g2⟩
      unfold FS.holds at h
      rw [hmn] at h
      cases h
      rfl
  · rintro (⟨p, m, hi, hn, hQ, rfl⟩ | ⟨rfl, p, m, Q, hi, hn, hQ, ⟨x, hx⟩, g2⟩)
    · obtain ⟨Q', hQ', hh⟩ := hnode p m hi hn
      rw [hQ] at hQ'
      cases hQ'
      exact hh
    · obtain ⟨Q', hQ', hp⟩ := hnode p m hi hn
      rw [hQ] at hQ'
      cases hQ'
      obtain ⟨m', hm'⟩ := holds_some hp
      by_cases hd : fs.nodes L = some .dir
      · unfold FS.holds; rw [hd]
      · have := tree_below ht hd x (by rintro rfl; exact g2 (by rw [← hx, List.append_nil]))
        rw [hx, hm'] at this
        cases this

/-- Every member holds something. -/
theorem zipNode_some {A : Archive} {D : Decomp} : ∀ x ∈ A.plan, ∃ n, zipNode A D x.1 = some n := by
  intro x hx
  obtain ⟨zf, hz, rfl⟩ := List.mem_map.1 hx
  unfold zipNode
  cases hg : (A.files.filter fun z => z.name = zf.name).getLast? with
  | none =>
    rw [List.getLast?_eq_none_iff] at hg
    have : zf ∈ A.files.filter fun z => z.name = zf.name := List.mem_filter.2 ⟨hz, by simp⟩
    rw [hg] at this
    simp at this
  | some z => exact ⟨_, rfl⟩

theorem tarNode_some {all : List (THdr × List Byte)} : ∀ x ∈ tarPlan all, ∃ n, tarNode all x.1 = some n := by
  intro x hx
  obtain ⟨y, hy, rfl⟩ := List.mem_map.1 hx
  obtain ⟨hy1, hy2⟩ := List.mem_filter.1 hy
  unfold tarNode
  cases hg : (all.filter fun m => m.1.name = y.1.name ∧ m.1.typ ≠ .other).getLast? with
  | none =>
    rw [List.getLast?_eq_none_iff] at hg
    have : y ∈ all.filter fun m => m.1.name = y.1.name ∧ m.1.typ ≠ .other := List.mem_filter.2 ⟨hy1, by simpa using hy2⟩
    rw [hg] at this
    simp at this
  | some z => exact ⟨_, rfl⟩

/-- **C96**, for zip archives on Windows: a run that succeeds, after any chain of runs — whatever failed in them — that started with nothing in the destination
folder, leaves in it exactly the tree the archive describes (links as files with their targets' texts, letters' case not distinguished). -/
theorem C96_win_zip {A : Archive} {D : Decomp} {F : Nat} (hwf : ZipWF A D F) {w : WCfg} {V : Str} {B : Path} (hB : w.Base V B) (hq : w.Qualifies) (hf : w.FoldOK)
    (hind : w.Independent A.plan) (fs0 : FS) (hfit : w.DiskFit A.plan fs0) (hnone : NothingIn (w.place V B) fs0)
    (hist : List ECkpt) (k : FSink) (hchain : ZipAttempts A D F (winSink w) (onFS fs0) hist k) (ck : Option ECkpt) (before : List ECkpt)
    (hck : ChooseCk hist ck before) (env : ZEnv) (hh : env.Honest A) (U : SaveCons) (u : U.St)
    (res : List Entry) (hok : (zipResume A env D F (winSink w) U ck k u).1 = .ok res) (L : Path) (hL : w.place V B <+: L) (hne : L ≠ w.place V B) (n : PNode) :
    (zipResume A env D F (winSink w) U ck k u).2.sink.os.fs.holds L = some n ↔ TreeOfW w (zipNode A D) L n := by
  have hstep := ZipAttempts.step (K := winSink w) env U u hh hchain hck (Or.inl rfl)
  have hm := zipChainW_made (fun _ h => h) hB hq hf hind fs0 hfit _ _ hstep
  exact exactW_of hm.disk.tree hm.only
    (fun p m hi hn => C79_zip hwf hB hq hf hind fs0 hfit hist k hchain ck before hck env hh U u res hok p hi m hn) zipNode_some hnone L hL hne n

/-- **C96**, for tar streams on Windows: likewise, for a complete, well-formed stream. -/
theorem C96_win_tar {T : TarFmt} {Y : List Byte} {clean : Bool} {Ck : Ckpt → Nat → Prop} {F : Nat} (hT : T.Law) {all : List (THdr × List Byte)}
    (hall : TarHas T clean Y all) {w : WCfg} {V : Str} {B : Path} (hB : w.Base V B) (hq : w.Qualifies) (hf : w.FoldOK)
    (hind : w.Independent (tarPlan all)) (fs0 : FS) (hfit : w.DiskFit (tarPlan all) fs0) (hnone : NothingIn (w.place V B) fs0)
    (hist : List ECkpt) (k : FSink) (hchain : TarAttempts Y clean Ck F T (winSink w) (onFS fs0) hist k)
    (ck : Option ECkpt) (before : List ECkpt) (hck : ChooseCk hist ck before) (X : TarSrc Y clean Ck F) (pr : Ckpt → Int × Int) (U : SaveCons) (u : U.St)
    (res : List Entry) (hok : (tarRun X T pr (winSink w) U ck k u).1 = .ok res) (L : Path) (hL : w.place V B <+: L) (hne : L ≠ w.place V B) (n : PNode) :
    (tarRun X T pr (winSink w) U ck k u).2.2.sink.os.fs.holds L = some n ↔ TreeOfW w (tarNode all) L n := by
  have hstep := TarAttempts.step (K := winSink w) X pr U u hchain hck (Or.inl rfl)
  have hm := tarChainW_made (fun _ h => h) hT hall hB hq hf hind fs0 hfit _ _ hstep
  exact exactW_of hm.disk.tree hm.only
    (fun p m hi hn => C79_tar hT hall hB hq hf hind fs0 hfit hist k hchain ck before hck X pr U u res hok p hi m hn) tarNode_some hnone L hL hne n

/-- What is described depends on where names lead, and nothing else. -/
theorem treeOfW_congr {w1 w2 : WCfg} (h : ∀ p, w1.placeOf p = w2.placeOf p) {node : Str → Option PNode} {L : Path} {n : PNode} :
    TreeOfW w1 node L n ↔ TreeOfW w2 node L n := by
  unfold TreeOfW
  simp only [h]

/-- **C97**, for zip archives on Windows: any two chains of runs of the same archive into the same empty folder that end in runs that succeed — on different
disks, with different interruptions, consumers, checkpoints and failures — leave the same tree there. -/
theorem C97_win_zip {A : Archive} {D : Decomp} {F : Nat} (hwf : ZipWF A D F) {w1 w2 : WCfg} {V : Str} {B : Path} (hB1 : w1.Base V B) (hB2 : w2.Base V B)
    (hq1 : w1.Qualifies) (hq2 : w2.Qualifies) (hf1 : w1.FoldOK) (hf2 : w2.FoldOK) (hpl : ∀ p, w1.placeOf p = w2.placeOf p)
    (hp : w1.place V B = w2.place V B)
    (hind1 : w1.Independent A.plan) (hind2 : w2.Independent A.plan)
    (fs1 fs2 : FS) (hfit1 : w1.DiskFit A.plan fs1) (hfit2 : w2.DiskFit A.plan fs2) (hnone1 : NothingIn (w1.place V B) fs1) (hnone2 : NothingIn (w2.place V B) fs2)
    (hist1 hist2 : List ECkpt) (k1 k2 : FSink) (hchain1 : ZipAttempts A D F (winSink w1) (onFS fs1) hist1 k1)
    (hchain2 : ZipAttempts A D F (winSink w2) (onFS fs2) hist2 k2) (ck1 ck2 : Option ECkpt) (before1 before2 : List ECkpt)
    (hck1 : ChooseCk hist1 ck1 before1) (hck2 : ChooseCk hist2 ck2 before2) (env1 env2 : ZEnv) (hh1 : env1.Honest A) (hh2 : env2.Honest A)
    (U1 U2 : SaveCons) (u1 : U1.St) (u2 : U2.St) (res1 res2 : List Entry)
    (hok1 : (zipResume A env1 D F (winSink w1) U1 ck1 k1 u1).1 = .ok res1) (hok2 : (zipResume A env2 D F (winSink w2) U2 ck2 k2 u2).1 = .ok res2)
    (L : Path) (hL : w1.place V B <+: L) (hne : L ≠ w1.place V B) :
    (zipResume A env1 D F (winSink w1) U1 ck1 k1 u1).2.sink.os.fs.holds L = (zipResume A env2 D F (winSink w2) U2 ck2 k2 u2).2.sink.os.fs.holds L := by
  apply Option.ext
  intro n
  rw [C96_win_zip hwf hB1 hq1 hf1 hind1 fs1 hfit1 hnone1 hist1 k1 hchain1 ck1 before1 hck1 env1 hh1 U1 u1 res1 hok1 L hL hne n,
    C96_win_zip hwf hB2 hq2 hf2 hind2 fs2 hfit2 hnone2 hist2 k2 hchain2 ck2 before2 hck2 env2 hh2 U2 u2 res2 hok2 L (hp ▸ hL) (hp ▸ hne) n, treeOfW_congr hpl]

/-- **C97**, for tar streams on Windows: likewise, for a complete, well-formed stream. -/
theorem C97_win_tar {T : TarFmt} {Y : List Byte} {clean : Bool} {Ck : Ckpt → Nat → Prop} {F : Nat} (hT : T.Law) {all : List (THdr × List Byte)}
    (hall : TarHas T clean Y all) {w1 w2 : WCfg} {V : Str} {B : Path} (hB1 : w1.Base V B) (hB2 : w2.Base V B)
    (hq1 : w1.Qualifies) (hq2 : w2.Qualifies) (hf1 : w1.FoldOK) (hf2 : w2.FoldOK) (hpl : ∀ p, w1.placeOf p = w2.placeOf p)
    (hp : w1.place V B = w2.place V B)
    (hind1 : w1.Independent (tarPlan all)) (hind2 : w2.Independent (tarPlan all))
    (fs1 fs2 : FS) (hfit1 : w1.DiskFit (tarPlan all) fs1) (hfit2 : w2.DiskFit (tarPlan all) fs2) (hnone1 : NothingIn (w1.place V B) fs1)
    (hnone2 : NothingIn (w2.place V B) fs2)
    (hist1 hist2 : List ECkpt) (k1 k2 : FSink) (hchain1 : TarAttempts Y clean Ck F T (winSink w1) (onFS fs1) hist1 k1)
    (hchain2 : TarAttempts Y clean Ck F T (winSink w2) (onFS fs2) hist2 k2) (ck1 ck2 : Option ECkpt) (before1 before2 : List ECkpt)
    (hck1 : ChooseCk hist1 ck1 before1) (hck2 : ChooseCk hist2 ck2 before2) (X1 X2 : TarSrc Y clean Ck F) (pr1 pr2 : Ckpt → Int × Int)
    (U1 U2 : SaveCons) (u1 : U1.St) (u2 : U2.St) (res1 res2 : List Entry)
    (hok1 : (tarRun X1 T pr1 (winSink w1) U1 ck1 k1 u1).1 = .ok res1) (hok2 : (tarRun X2 T pr2 (winSink w2) U2 ck2 k2 u2).1 = .ok res2)
    (L : Path) (hL : w1.place V B <+: L) (hne : L ≠ w1.place V B) :
    (tarRun X1 T pr1 (winSink w1) U1 ck1 k1 u1).2.2.sink.os.fs.holds L = (tarRun X2 T pr2 (winSink w2) U2 ck2 k2 u2).2.2.sink.os.fs.holds L := by
  apply Option.ext
  intro n
  rw [C96_win_tar hT hall hB1 hq1 hf1 hind1 fs1 hfit1 hnone1 hist1 k1 hchain1 ck1 before1 hck1 X1 pr1 U1 u1 res1 hok1 L hL hne n,
    C96_win_tar hT hall hB2 hq2 hf2 hind2 fs2 hfit2 hnone2 hist2 k2 hchain2 ck2 before2 hck2 X2 pr2 U2 u2 res2 hok2 L (hp ▸ hL) (hp ▸ hne) n, treeOfW_congr hpl]

/-! ## Non-vacuity -/

theorem nothingIn_win (flt : Faults) : NothingIn ((exWinK flt).place (cs ['C', ':']) [cs ['d']]) diskEmpty := by
  intro L hL _
  have hp : (exWinK flt).place (cs ['C', ':']) [cs ['d']] = [cs ['c', ':'], cs ['d']] := exWin_place
  rw [hp] at hL
  refine if_neg ?_
  rintro rfl
  simp at hL

/-- Killed while writing "b", then resumed: in "C:\\d" there is exactly what the archive describes, "l" being a file. -/
example (L : Path) (hL : [cs ['c', ':'], cs ['d']] <+: L) (hne : L ≠ [cs ['c', ':'], cs ['d']]) (n : PNode) :
    (winRun (killedAt 28 1) (some toyCk1) winKill2 []).2.sink.os.fs.holds L = some n ↔ TreeOfW (exWinK (killedAt 28 1)) (zipNode toyArchive (toy false false)) L n := by
  obtain ⟨_, c, hc⟩ := winKill_dead
  exact C96_win_zip toy_wf (exWinK_base _) (exWinK_qualifies _) (exWinK_fold _) (winPlan_independent _) diskEmpty (winEmpty_fit _) (nothingIn_win _) _ _ winKill_attempts
    _ _ (.pick (a := []) (b := [c]) hc) toyEnv toy_honest listCons [] _ winKill_ok L (by rwa [show (exWinK (killedAt 28 1)).place _ _ = _ from exWin_place])
    (by rwa [show (exWinK (killedAt 28 1)).place _ _ = _ from exWin_place]) n

/-- It describes a file for the link. -/
example : TreeOfW (exWinK (killedAt 28 1)) (zipNode toyArchive (toy false false)) [cs ['c', ':'], cs ['d'], cs ['l']] (.file (cs ['a'])) :=
  Or.inl ⟨cs ['l'], .link (cs ['a']), by rfl, by rfl, by rfl, by rfl⟩

/-- Killed: outside "C:\\d" everything new is the volume's folder. -/
example (L : Path) (n : Node) (h : winKill2.os.fs.nodes L = some n) : diskEmpty.nodes L = some n ∨ ∃ x ∈ toyArchive.plan, MadeForW (exWinK (killedAt 28 1)) x L n :=
  C95_win_zip (exWinK_base _) (exWinK_qualifies _) (exWinK_fold _) (winPlan_independent _) diskEmpty (winEmpty_fit _) _ _ winKill_attempts L n h

theorem winWhole_ok : (winRun noFlt none (onFS diskEmpty) []).1 = .ok (toyArchive.files.map zipFileEntry) := by rfl

/-- Killed and resumed, or not: the same tree. -/
example (L : Path) (hL : [cs ['c', ':'], cs ['d']] <+: L) (hne : L ≠ [cs ['c', ':'], cs ['d']]) :
    (winRun (killedAt 28 1) (some toyCk1) winKill2 []).2.sink.os.fs.holds L = (winRun noFlt none (onFS diskEmpty) []).2.sink.os.fs.holds L := by
  obtain ⟨_, c, hc⟩ := winKill_dead
  exact C97_win_zip (w1 := exWinK (killedAt 28 1)) (w2 := exWinK noFlt) toy_wf (exWinK_base _) (exWinK_base _) (exWinK_qualifies _) (exWinK_qualifies _) (exWinK_fold _) (exWinK_fold _)
    (fun p => (exWinK_place _ p).trans (exWinK_place _ p).symm) rfl (winPlan_independent _) (winPlan_independent _) diskEmpty diskEmpty (winEmpty_fit _) (winEmpty_fit _)
    (nothingIn_win _) (nothingIn_win _) _ _ _ _ winKill_attempts .refl
    (some toyCk1) none _ _ (.pick (a := []) (b := [c]) hc) .fresh toyEnv toyEnv toy_honest toy_honest listCons listCons [] [] _ _ winKill_ok winWhole_ok L
    (by rwa [show (exWinK (killedAt 28 1)).place _ _ = _ from exWin_place])
    (by rwa [show (exWinK (killedAt 28 1)).place _ _ = _ from exWin_place])

end Savior
