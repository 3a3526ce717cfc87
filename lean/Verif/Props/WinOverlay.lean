import Verif.Spec.WinOverlay
import Verif.Props.WinBystander
import Verif.Props.Overlay
/-!
# Extraction over what was there, on Windows (C98)
-/

namespace Savior
open FSink

theorem winNode_dir {n : PNode} : winNode n = .dir ↔ n = .dir := by cases n <;> simp [winNode]

/-- The last step: with what was made, what members hold, and what is left alone. -/
theorem overlayW_of {w : WCfg} {plan : List (Str × Kind)} {fs0 fs : FS} {node : Str → Option PNode} (ht : fs.Tree) (hm : MadeOnlyForW w plan fs0 fs)
    (hnode : ∀ p n, shouldIgnore p = false → node p = some n → ∃ Q, w.placeOf p = some Q ∧ fs.holds Q = some (winNode n))
    (hplan : ∀ x ∈ plan, ∃ n, node x.1 = some n ∧ (n = .dir → x.2 = .dir))
    (hone : OneNameW w plan fs0) (hspare : ∀ L, BystanderW w plan fs0 L → fs.holds L = fs0.holds L) (L : Path) (hL : AllOrd L) (n : PNode) :
    fs.holds L = some n ↔ OverlaidW node w plan fs0 L n := by
  have by_ : SparesW w plan L → fs0.nodes L ≠ none → BystanderW w plan fs0 L := by
    intro hs h0
    refine ⟨hL, h0, fun x hx hi Q hQ => ⟨?_, (hs x hx hi Q hQ).2, fun h => absurd h (hs x hx hi Q hQ).1⟩, ?_, fun i => hone.inode L i⟩
    · rintro rfl; exact (hs x hx hi _ hQ).1 (List.prefix_refl _)
    · intro x hx hi Q hQ i a b
      have := hone.single x hx hi Q hQ L i a b
      exact (hs x hx hi Q hQ).1 (by rw [this]; exact List.prefix_refl _)
  have at_ : ∀ {p m Q}, shouldIgnore p = false → node p = some m → w.placeOf p = some Q → fs.holds Q = some (winNode m) := by
    intro p m Q hi hn hQ
    obtain ⟨Q', hQ', hh⟩ := hnode p m hi hn
    rw [hQ] at hQ'
    cases hQ'
    exact hh
  -- at a member's place or above one there is what the archive says
  have under : ∀ x ∈ plan, shouldIgnore x.1 = false → ∀ Q, w.placeOf x.1 = some Q → L <+: Q → fs.holds L = some n → TreeOfW w node L n := by
    intro x hx hi Q hQ hp h
    obtain ⟨n', hn', _⟩ := hplan x hx
    have g := at_ hi hn' hQ
    by_cases e : L = Q
    · subst e
      rw [h] at g
      exact Or.inl ⟨x.1, n', hi, hn', hQ, Option.some.inj g⟩
    · obtain ⟨m', hm'⟩ := holds_some g
      refine Or.inr ⟨?_, x.1, n', Q, hi, hn', hQ, hp, e⟩
      unfold FS.holds at h
      rw [dir_above ht hp e (by rw [hm']; simp)] at h
      cases h
      rfl
  constructor
  · intro h
    obtain ⟨m, hmn⟩ := holds_some h
    by_cases hu : ∃ x ∈ plan, shouldIgnore x.1 = false ∧ ∃ Q, w.placeOf x.1 = some Q ∧ L <+: Q
    · obtain ⟨x, hx, hi, Q, hQ, hp⟩ := hu
      exact Or.inl (under x hx hi Q hQ hp h)
    rcases hm L m hmn with g | ⟨x, hx, hi, Q, hQ, ⟨rfl, _⟩ | ⟨g1, _, _⟩⟩
    · have hs : SparesW w plan L := by
        intro x hx hi Q hQ
        refine ⟨fun hp => hu ⟨x, hx, hi, Q, hQ, hp⟩, fun hp => ?_⟩
        obtain ⟨n', hn', hk⟩ := hplan x hx
        have g := at_ hi hn' hQ
        unfold FS.holds at g
        rw [dir_above ht hp (by rintro rfl; exact hu ⟨x, hx, hi, _, hQ, List.prefix_refl _⟩) (by rw [hmn]; simp)] at g
        exact hk (winNode_dir.1 (Option.some.inj g).symm)
      exact Or.inr ⟨hs, by rw [← hspare L (by_ hs (by rw [g]; simp))]; exact h⟩
    · exact absurd ⟨x, hx, hi, _, hQ, List.prefix_refl _⟩ hu
    · exact absurd ⟨x, hx, hi, Q, hQ, g1⟩ hu
  · rintro ((⟨p, m, hi, hn, hQ, rfl⟩ | ⟨rfl, p, m, Q, hi, hn, hQ, g1, g2⟩) | ⟨hs, h0⟩)
    · exact at_ hi hn hQ
    · have hp := at_ hi hn hQ
      obtain ⟨m', hm'⟩ := holds_some hp
      unfold FS.holds
      rw [dir_above ht g1 g2 (by rw [hm']; simp)]
    · obtain ⟨m0, hm0⟩ := holds_some h0
      rw [hspare L (by_ hs (by rw [hm0]; simp))]
      exact h0

/-- **C98**, for zip archives on Windows: a run that succeeds, after any chain of runs — whatever failed in them — leaves the whole disk as it was before the
first with the archive laid over it (links as files with their targets' texts). -/
theorem C98_win_zip {A : Archive} {D : Decomp} {F : Nat} (hwf : ZipWF A D F) {w : WCfg} {V : Str} {B : Path} (hB : w.Base V B) (hq : w.Qualifies) (hf : w.FoldOK)
    (hind : w.Independent A.plan) (hkind : OneKind A.plan)
    (fs0 : FS) (hfit : w.DiskFit A.plan fs0) (hone : OneNameW w A.plan fs0)
    (hist : List ECkpt) (k : FSink) (hchain : ZipAttempts A D F (winSink w) (onFS fs0) hist k) (ck : Option ECkpt) (before : List ECkpt)
    (hck : ChooseCk hist ck before) (env : ZEnv) (hh : env.Honest A) (U : SaveCons) (u : U.St)
    (res : List Entry) (hok : (zipResume A env D F (winSink w) U ck k u).1 = .ok res) (L : Path) (hL : AllOrd L) (n : PNode) :
    (zipResume A env D F (winSink w) U ck k u).2.sink.os.fs.holds L = some n ↔ OverlaidW (zipNode A D) w A.plan fs0 L n := by
  have hstep := ZipAttempts.step (K := winSink w) env U u hh hchain hck (Or.inl rfl)
  have hm := zipChainW_made (fun _ h => h) hB hq hf hind fs0 hfit _ _ hstep
  exact overlayW_of hm.disk.tree hm.only
    (fun p m hi hn => C79_zip hwf hB hq hf hind fs0 hfit hist k hchain ck before hck env hh U u res hok p hi m hn) (zip_onekind hkind) hone
    (fun L hb => C94_win_zip hB hq hf hind fs0 hfit _ _ hstep L hb) L hL n

/-- **C98**, for tar streams on Windows: likewise, for a complete, well-formed stream. -/
theorem C98_win_tar {T : TarFmt} {Y : List Byte} {clean : Bool} {Ck : Ckpt → Nat → Prop} {F : Nat} (hT : T.Law) {all : List (THdr × List Byte)}
    (hall : TarHas T clean Y all) {w : WCfg} {V : Str} {B : Path} (hB : w.Base V B) (hq : w.Qualifies) (hf : w.FoldOK)
    (hind : w.Independent (tarPlan all)) (hkind : OneKind (tarPlan all))
    (fs0 : FS) (hfit : w.DiskFit (tarPlan all) fs0) (hone : OneNameW w (tarPlan all) fs0)
    (hist : List ECkpt) (k : FSink) (hchain : TarAttempts Y clean Ck F T (winSink w) (onFS fs0) hist k)
    (ck : Option ECkpt) (before : List ECkpt) (hck : ChooseCk hist ck before) (X : TarSrc Y clean Ck F) (pr : Ckpt → Int × Int) (U : SaveCons) (u : U.St)
    (res : List Entry) (hok : (tarRun X T pr (winSink w) U ck k u).1 = .ok res) (L : Path) (hL : AllOrd L) (n : PNode) :
    (tarRun X T pr (winSink w) U ck k u).2.2.sink.os.fs.holds L = some n ↔ OverlaidW (tarNode all) w (tarPlan all) fs0 L n := by
  have hstep := TarAttempts.step (K := winSink w) X pr U u hchain hck (Or.inl rfl)
  have hm := tarChainW_made (fun _ h => h) hT hall hB hq hf hind fs0 hfit _ _ hstep
  exact overlayW_of hm.disk.tree hm.only
    (fun p m hi hn => C79_tar hT hall hB hq hf hind fs0 hfit hist k hchain ck before hck X pr U u res hok p hi m hn) (tar_onekind hkind) hone
    (fun L hb => C94_win_tar hT hall hB hq hf hind fs0 hfit _ _ hstep L hb) L hL n

/-! ## Non-vacuity -/

theorem exWinFS_oneName (flt : Faults) (plan : List (Str × Kind)) : OneNameW (exWinK flt) plan exWinFS :=
  ⟨fun _ _ _ _ _ _ _ a b => by rw [(exWinFS_file a).1, (exWinFS_file b).1], fun _ _ h => by rw [(exWinFS_file h).2]; decide⟩

theorem winOver_ok : (winRun noFlt none (onFS exWinFS) []).1 = .ok (toyArchive.files.map zipFileEntry) := by rfl

/-- The toy archive over "C:\\d", with the file "F" in it. -/
example (L : Path) (hL : AllOrd L) (n : PNode) :
    (winRun noFlt none (onFS exWinFS) []).2.sink.os.fs.holds L = some n ↔ OverlaidW (zipNode toyArchive (toy false false)) (exWinK noFlt) toyArchive.plan exWinFS L n :=
  C98_win_zip (w := exWinK noFlt) toy_wf (exWinK_base _) (exWinK_qualifies _) (exWinK_fold _) (winPlan_independent _) (by unfold OneKind; decide +kernel) exWinFS (exWinFS_fit _)
    (exWinFS_oneName _ _) _ _ .refl none _ .fresh toyEnv toy_honest listCons [] _ winOver_ok L hL n

/-- "F" stays; the link "l" is a file. -/
example : (winRun noFlt none (onFS exWinFS) []).2.sink.os.fs.holds [cs ['c', ':'], cs ['d'], cs ['f']] = some (.file [1]) ∧
    (winRun noFlt none (onFS exWinFS) []).2.sink.os.fs.holds [cs ['c', ':'], cs ['d'], cs ['l']] = some (.file (cs ['a'])) := ⟨by rfl, by rfl⟩

/-- Over an older "F" which the archive replaces: it does not matter that the archive calls it "F". -/
example : exWin.placeOf (cs ['F']) = some [cs ['c', ':'], cs ['d'], cs ['f']] := by decide +kernel

end Savior
