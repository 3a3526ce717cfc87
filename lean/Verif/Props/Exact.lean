import Verif.Spec.Exact
import Verif.Props.Makes
/-!
# The result is the archive, the whole archive and nothing but the archive (C96)
-/

namespace Savior
open FSink

/-- The last step: with what was made, and what members hold. -/
theorem exact_of {cfg : FCfg} {B : Path} {plan : List (Str × Kind)} {fs0 fs : FS} {node : Str → Option PNode} (ht : fs.Tree) (hm : MadeOnlyFor B plan fs0 fs)
    (hnode : ∀ p n, shouldIgnore p = false → node p = some n → fs.holds (namePlace B p) = some n) (hplan : ∀ x ∈ plan, ∃ n, node x.1 = some n)
    (hnone : NothingIn B fs0) (L : Path) (hL : B <+: L) (hne : L ≠ B) (n : PNode) : fs.holds L = some n ↔ TreeOf node B L n := by
  constructor
  · intro h
    obtain ⟨m, hmn⟩ := holds_some h
    rcases hm L m hmn with g | ⟨x, hx, hi, hb, ⟨rfl, _⟩ | ⟨g1, g2, rfl⟩⟩
    · rw [hnone L hL hne] at g; cases g
    · obtain ⟨n', hn'⟩ := hplan x hx
      have := hnode x.1 n' hi hn'
      rw [h] at this
      cases this
      exact Or.inl ⟨x.1, hi, hn', rfl⟩
    · obtain ⟨n', hn'⟩ := hplan x hx
      refine Or.inr ⟨?_, x.1, n', hi, hn', g1, g2⟩
      unfold FS.holds at h
      rw [hmn] at h
      cases h
      rfl
  · rintro (⟨p, hi, hn, rfl⟩ | ⟨rfl, p, m, hi, hn, ⟨x, hx⟩, g2⟩)
    · exact hnode p n hi hn
    · have hp := hnode p m hi hn
      obtain ⟨m', hm'⟩ := holds_some hp
      by_cases hd : fs.nodes L = some .dir
      · unfold FS.holds; rw [hd]
      · have := tree_below ht hd x (by rintro rfl; exact g2 (by rw [← hx, List.append_nil]))
        rw [hx, hm'] at this
        cases this

/-- **C96**, for zip archives: a run that succeeds, after any chain of runs — whatever failed in them — that started with nothing in the destination folder, leaves
in it exactly the tree the archive describes. -/
theorem C96_zip {A : Archive} {D : Decomp} {F : Nat} (hwf : ZipWF A D F) {cfg : FCfg} {B : Path} (hB : cfg.Base B) (hind : Independent cfg B A.plan)
    (fs0 : FS) (hfit : DiskFit B A.plan fs0) (hnone : NothingIn B fs0)
    (hist : List ECkpt) (k : FSink) (hchain : ZipAttempts A D F (folderSink cfg) (onFS fs0) hist k) (ck : Option ECkpt) (before : List ECkpt)
    (hck : ChooseCk hist ck before) (env : ZEnv) (hh : env.Honest A) (V : SaveCons) (u : V.St)
    (res : List Entry) (hok : (zipResume A env D F (folderSink cfg) V ck k u).1 = .ok res) (L : Path) (hL : B <+: L) (hne : L ≠ B) (n : PNode) :
    (zipResume A env D F (folderSink cfg) V ck k u).2.sink.os.fs.holds L = some n ↔ TreeOf (zipNode A D) B L n := by
  have hstep := ZipAttempts.step (K := folderSink cfg) env V u hh hchain hck (Or.inl rfl)
  refine exact_of (cfg := cfg) (zipChain_perm hB hind (k0 := onFS fs0) (diskOK_of_fit hfit) hstep).1.tree (C95_zip hB hind fs0 hfit _ _ hstep) ?_ ?_ hnone L hL hne n
  · intro p m hi hn
    exact C60_folder_partial hwf hB hind fs0 hfit hist k hchain ck before hck env hh V u res hok p hi m hn
  · intro x hx
    obtain ⟨zf, hz, rfl⟩ := List.mem_map.1 hx
    unfold zipNode
    cases hg : (A.files.filter fun z => z.name = zf.name).getLast? with
    | none =>
      rw [List.getLast?_eq_none_iff] at hg
      have : zf ∈ A.files.filter fun z => z.name = zf.name := List.mem_filter.2 ⟨hz, by simp⟩
      rw [hg] at this
      simp at this
    | some z => exact ⟨_, rfl⟩

/-- **C96**, for tar streams: likewise, for a complete, well-formed stream (one cut at a member boundary extracts successfully as well, see `C46`). -/
theorem C96_tar {T : TarFmt} {Y : List Byte} {clean : Bool} {Ck : Ckpt → Nat → Prop} {F : Nat} {cfg : FCfg} {B : Path} {all : List (THdr × List Byte)}
    (hT : T.Law) (hall : TarHas T clean Y all) (hB : cfg.Base B) (hind : Independent cfg B (tarPlan all)) (fs0 : FS) (hfit : DiskFit B (tarPlan all) fs0) (hnone : NothingIn B fs0)
    (hist : List ECkpt) (k : FSink) (hchain : TarAttempts Y clean Ck F T (folderSink cfg) (onFS fs0) hist k)
    (ck : Option ECkpt) (before : List ECkpt) (hck : ChooseCk hist ck before) (X : TarSrc Y clean Ck F) (pr : Ckpt → Int × Int) (V : SaveCons) (u : V.St)
    (res : List Entry) (hok : (tarRun X T pr (folderSink cfg) V ck k u).1 = .ok res) (L : Path) (hL : B <+: L) (hne : L ≠ B) (n : PNode) :
    (tarRun X T pr (folderSink cfg) V ck k u).2.2.sink.os.fs.holds L = some n ↔ TreeOf (tarNode all) B L n := by
  have hstep := TarAttempts.step (K := folderSink cfg) X pr V u hchain hck (Or.inl rfl)
  refine exact_of (cfg := cfg) (tarChain_made (fun _ h => h) hT hall hB hind fs0 hfit _ _ hstep).disk.tree (C95_tar hT hall hB hind fs0 hfit _ _ hstep) ?_ ?_ hnone L hL hne n
  · intro p m hi hn
    exact C60_tar_folder_partial hT hall hB hind fs0 hfit hist k hchain ck before hck X pr V u res hok p hi m hn
  · intro x hx
    obtain ⟨y, hy, rfl⟩ := List.mem_map.1 hx
    obtain ⟨hy1, hy2⟩ := List.mem_filter.1 hy
    unfold tarNode
    cases hg : (all.filter fun m => m.1.name = y.1.name ∧ m.1.typ ≠ .other).getLast? with
    | none =>
      rw [List.getLast?_eq_none_iff] at hg
      have : y ∈ all.filter fun m => m.1.name = y.1.name ∧ m.1.typ ≠ .other := List.mem_filter.2 ⟨hy1, by simpa using hy2⟩
      rw [hg] at this
      simp at this
    | some z => exact ⟨_, rfl⟩

/-! ## Non-vacuity -/

theorem nothingIn_empty : NothingIn [[100]] diskEmpty := by
  intro L hL _
  refine if_neg ?_
  rintro rfl
  simp at hL

/-- Killed twice, then resumed: below "/d" there is exactly what the archive describes. -/
example (L : Path) (hL : [[100]] <+: L) (hne : L ≠ [[100]]) (n : PNode) :
    (diskRun (killedAt 29 3) (some toyCk1) diskKill3.2.sink []).2.sink.os.fs.holds L = some n ↔ TreeOf (zipNode toyArchive (toy false false)) [[100]] L n := by
  obtain ⟨hist, h, rfl⟩ := diskKill3_attempts
  exact C96_zip toy_wf (base_faults exCfg_base _) (toyPlan_independent _) diskEmpty (diskEmpty_fit _ (by decide +kernel)) nothingIn_empty _ _ h
    _ _ (.pick (a := []) (b := []) rfl) toyEnv toy_honest listCons [] _ diskKill4_ok L hL hne n

example (L : Path) (hL : [[100]] <+: L) (hne : L ≠ [[100]]) (n : PNode) :
    (diskTarK (killedAt 11 2) (some tarCk1) diskTarK2.2.2.sink []).2.2.sink.os.fs.holds L = some n ↔ TreeOf (tarNode toyMembers) [[100]] L n := by
  have h := diskTarK2_attempts
  exact C96_tar (toyTar_law true) toy_has (base_faults exCfg_base _) (toyTarPlan_independent _) diskEmpty (diskEmpty_fit _ (by decide +kernel)) nothingIn_empty _ _ h
    _ _ (.pick (a := []) (b := []) (by rw [diskTarK2_dead.2]; rfl)) toyTarSrc (fun _ => (0, 1)) listCons [] _ diskTarK3_ok L hL hne n

/-- The archive describes something. -/
example : TreeOf (zipNode toyArchive (toy false false)) [[100]] [[100], cs ['l']] (.link (cs ['a'])) := Or.inl ⟨cs ['l'], by rfl, by rfl, by decide +kernel⟩

end Savior
