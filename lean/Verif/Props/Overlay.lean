import Verif.Spec.Overlay
import Verif.Props.Again
/-!
# Extraction over what was there (C98)
-/

namespace Savior
open FSink

/-- What is there is a folder if there is something below. -/
theorem dir_above {fs : FS} (ht : fs.Tree) {L M : Path} (hp : L <+: M) (hne : L ≠ M) (hM : fs.nodes M ≠ none) : fs.nodes L = some .dir := by
  by_cases hd : fs.nodes L = some .dir
  · exact hd
  · obtain ⟨x, rfl⟩ := hp
    exact absurd (tree_below ht hd x (by rintro rfl; exact hne (by simp))) hM

/-- The last step: with what was made, what members hold, and what is left alone. -/
theorem overlay_of {B : Path} {plan : List (Str × Kind)} {fs0 fs : FS} {node : Str → Option PNode} (ht0 : fs0.Tree) (ht : fs.Tree) (hm : MadeOnlyFor B plan fs0 fs)
    (hnode : ∀ p n, shouldIgnore p = false → node p = some n → fs.holds (namePlace B p) = some n)
    (hplan : ∀ x ∈ plan, ∃ n, node x.1 = some n ∧ (n = .dir → x.2 = .dir)) (hin : ∀ p n, node p = some n → ∃ x ∈ plan, x.1 = p)
    (hone : OneName B plan fs0) (hspare : ∀ L, Bystander B plan fs0 L → fs.holds L = fs0.holds L) (L : Path) (hL : AllOrd L) (n : PNode) :
    fs.holds L = some n ↔ Overlaid node B plan fs0 L n := by
  have by_ : Spares B plan L → fs0.nodes L ≠ none → Bystander B plan fs0 L := by
    intro hs h0
    refine ⟨hL, h0, fun x hx hi _ => ⟨?_, (hs x hx hi).2, fun h => absurd h (hs x hx hi).1⟩, ?_, fun i => hone.inode L i⟩
    · rintro rfl; exact (hs x hx hi).1 (List.prefix_refl _)
    · intro x hx hi hb i a b
      have := hone.single x hx hi hb L i a b
      exact (hs x hx hi).1 (by rw [this]; exact List.prefix_refl _)
  -- at a member's place or above one there is what the archive says
  have under : ∀ x ∈ plan, shouldIgnore x.1 = false → L <+: namePlace B x.1 → fs.holds L = some n → TreeOf node B L n := by
    intro x hx hi hp h
    obtain ⟨n', hn', _⟩ := hplan x hx
    have g := hnode x.1 n' hi hn'
    by_cases e : L = namePlace B x.1
    · rw [← e, h] at g
      cases g
      exact Or.inl ⟨x.1, hi, hn', e⟩
    · obtain ⟨m', hm'⟩ := holds_some g
      refine Or.inr ⟨?_, x.1, n', hi, hn', hp, e⟩
      unfold FS.holds at h
      rw [dir_above ht hp e (by rw [hm']; simp)] at h
      cases h
      rfl
  constructor
  · intro h
    obtain ⟨m, hmn⟩ := holds_some h
    by_cases hu : ∃ x ∈ plan, shouldIgnore x.1 = false ∧ L <+: namePlace B x.1
    · obtain ⟨x, hx, hi, hp⟩ := hu
      exact Or.inl (under x hx hi hp h)
    rcases hm L m hmn with g | ⟨x, hx, hi, _, ⟨rfl, _⟩ | ⟨g1, _, _⟩⟩
    · have hs : Spares B plan L := by
        intro x hx hi
        refine ⟨fun hp => hu ⟨x, hx, hi, hp⟩, fun hp => ?_⟩
        obtain ⟨n', hn', hk⟩ := hplan x hx
        have g := hnode x.1 n' hi hn'
        unfold FS.holds at g
        rw [dir_above ht hp (by rintro rfl; exact hu ⟨x, hx, hi, List.prefix_refl _⟩) (by rw [hmn]; simp)] at g
        exact hk (by cases g; rfl)
      exact Or.inr ⟨hs, by rw [← hspare L (by_ hs (by rw [g]; simp))]; exact h⟩
    · exact absurd ⟨x, hx, hi, List.prefix_refl _⟩ hu
    · exact absurd ⟨x, hx, hi, g1⟩ hu
  · rintro ((⟨p, hi, hn, rfl⟩ | ⟨rfl, p, m, hi, hn, g1, g2⟩) | ⟨hs, h0⟩)
    · exact hnode p n hi hn
    · have hp := hnode p m hi hn
      obtain ⟨m', hm'⟩ := holds_some hp
      unfold FS.holds
      rw [dir_above ht g1 g2 (by rw [hm']; simp)]
    · obtain ⟨m0, hm0⟩ := holds_some h0
      rw [hspare L (by_ hs (by rw [hm0]; simp))]
      exact h0

/-- What a member of an archive without members of the same name and different kinds is. -/
theorem zip_onekind {A : Archive} {D : Decomp} (hk : OneKind A.plan) : ∀ x ∈ A.plan, ∃ n, zipNode A D x.1 = some n ∧ (n = .dir → x.2 = .dir) := by
  intro x hx
  obtain ⟨zf, hz, rfl⟩ := List.mem_map.1 hx
  unfold zipNode
  cases hg : (A.files.filter fun z => z.name = zf.name).getLast? with
  | none =>
    rw [List.getLast?_eq_none_iff] at hg
    have : zf ∈ A.files.filter fun z => z.name = zf.name := List.mem_filter.2 ⟨hz, by simp⟩
    rw [hg] at this
    simp at this
  | some z =>
    refine ⟨_, rfl, fun h => ?_⟩
    obtain ⟨hz1, hz2⟩ := List.mem_filter.1 (List.mem_of_getLast? hg)
    have e := hk _ (List.mem_map.2 ⟨z, hz1, rfl⟩) _ hx (by simpa using hz2)
    simp only at e ⊢
    rw [← e]
    unfold zipNodeOf at h
    cases hz : (zipFileEntry z).kind <;> rw [hz] at h <;> first | rfl | cases h

theorem tar_onekind {all : List (THdr × List Byte)} (hk : OneKind (tarPlan all)) : ∀ x ∈ tarPlan all, ∃ n, tarNode all x.1 = some n ∧ (n = .dir → x.2 = .dir) := by
  intro x hx
  obtain ⟨y, hy, rfl⟩ := List.mem_map.1 hx
  obtain ⟨hy1, hy2⟩ := List.mem_filter.1 hy
  unfold tarNode
  cases hg : (all.filter fun m => m.1.name = y.1.name ∧ m.1.typ ≠ .other).getLast? with
  | none =>
    rw [List.getLast?_eq_none_iff] at hg
    have : y ∈ all.filter fun m => m.1.name = y.1.name ∧ m.1.typ ≠ .other := List.mem_filter.2 ⟨hy1, by simpa using hy2⟩
    rw [hg] at this
    simp at this
  | some z =>
    refine ⟨_, rfl, fun h => ?_⟩
    obtain ⟨hz1, hz2⟩ := List.mem_filter.1 (List.mem_of_getLast? hg)
    have hz2 : z.1.name = y.1.name ∧ z.1.typ ≠ .other := by simpa using hz2
    have e := hk _ (List.mem_map.2 ⟨z, List.mem_filter.2 ⟨hz1, by simpa using hz2.2⟩, rfl⟩) _ hx hz2.1
    simp only at e ⊢
    rw [← e]
    unfold tarNodeOf at h
    unfold tarEntryOf
    cases hz : z.1.typ <;> rw [hz] at h <;> simp_all

/-- **C98**, for zip archives: a run that succeeds, after any chain of runs — whatever failed in them — leaves the whole disk as it was before the first with the archive
laid over it. -/
theorem C98_zip {A : Archive} {D : Decomp} {F : Nat} (hwf : ZipWF A D F) {cfg : FCfg} {B : Path} (hB : cfg.Base B) (hind : Independent cfg B A.plan) (hkind : OneKind A.plan)
    (fs0 : FS) (hfit : DiskFit B A.plan fs0) (hone : OneName B A.plan fs0)
    (hist : List ECkpt) (k : FSink) (hchain : ZipAttempts A D F (folderSink cfg) (onFS fs0) hist k) (ck : Option ECkpt) (before : List ECkpt)
    (hck : ChooseCk hist ck before) (env : ZEnv) (hh : env.Honest A) (V : SaveCons) (u : V.St)
    (res : List Entry) (hok : (zipResume A env D F (folderSink cfg) V ck k u).1 = .ok res) (L : Path) (hL : AllOrd L) (n : PNode) :
    (zipResume A env D F (folderSink cfg) V ck k u).2.sink.os.fs.holds L = some n ↔ Overlaid (zipNode A D) B A.plan fs0 L n := by
  have hstep := ZipAttempts.step (K := folderSink cfg) env V u hh hchain hck (Or.inl rfl)
  refine overlay_of hfit.tree (zipChain_perm hB hind (k0 := onFS fs0) (diskOK_of_fit hfit) hstep).1.tree (C95_zip hB hind fs0 hfit _ _ hstep) ?_ (zip_onekind hkind) ?_ hone
    (fun L hb => (C94_zip hB hind fs0 hfit _ _ hstep L hb).1) L hL n
  · intro p m hi hn
    exact C60_folder_partial hwf hB hind fs0 hfit hist k hchain ck before hck env hh V u res hok p hi m hn
  · intro p m hn
    unfold zipNode at hn
    obtain ⟨z, hz, _⟩ := Option.map_eq_some_iff.1 hn
    obtain ⟨hz1, hz2⟩ := List.mem_filter.1 (List.mem_of_getLast? hz)
    exact ⟨_, List.mem_map.2 ⟨z, hz1, rfl⟩, by simpa using hz2⟩

/-- **C98**, for tar streams: likewise, for a complete, well-formed stream. -/
theorem C98_tar {T : TarFmt} {Y : List Byte} {clean : Bool} {Ck : Ckpt → Nat → Prop} {F : Nat} {cfg : FCfg} {B : Path} {all : List (THdr × List Byte)}
    (hT : T.Law) (hall : TarHas T clean Y all) (hB : cfg.Base B) (hind : Independent cfg B (tarPlan all)) (hkind : OneKind (tarPlan all))
    (fs0 : FS) (hfit : DiskFit B (tarPlan all) fs0) (hone : OneName B (tarPlan all) fs0)
    (hist : List ECkpt) (k : FSink) (hchain : TarAttempts Y clean Ck F T (folderSink cfg) (onFS fs0) hist k)
    (ck : Option ECkpt) (before : List ECkpt) (hck : ChooseCk hist ck before) (X : TarSrc Y clean Ck F) (pr : Ckpt → Int × Int) (V : SaveCons) (u : V.St)
    (res : List Entry) (hok : (tarRun X T pr (folderSink cfg) V ck k u).1 = .ok res) (L : Path) (hL : AllOrd L) (n : PNode) :
    (tarRun X T pr (folderSink cfg) V ck k u).2.2.sink.os.fs.holds L = some n ↔ Overlaid (tarNode all) B (tarPlan all) fs0 L n := by
  have hstep := TarAttempts.step (K := folderSink cfg) X pr V u hchain hck (Or.inl rfl)
  refine overlay_of hfit.tree (tarChain_made (fun _ h => h) hT hall hB hind fs0 hfit _ _ hstep).disk.tree (C95_tar hT hall hB hind fs0 hfit _ _ hstep) ?_ (tar_onekind hkind) ?_ hone
    (fun L hb => (C94_tar hT hall hB hind fs0 hfit _ _ hstep L hb).1) L hL n
  · intro p m hi hn
    exact C60_tar_folder_partial hT hall hB hind fs0 hfit hist k hchain ck before hck X pr V u res hok p hi m hn
  · intro p m hn
    unfold tarNode at hn
    obtain ⟨z, hz, _⟩ := Option.map_eq_some_iff.1 hn
    obtain ⟨hz1, hz2⟩ := List.mem_filter.1 (List.mem_of_getLast? hz)
    have hz2 : z.1.name = p ∧ z.1.typ ≠ .other := by simpa using hz2
    exact ⟨_, List.mem_map.2 ⟨z, List.mem_filter.2 ⟨hz1, by simpa using hz2.2⟩, rfl⟩, hz2.1⟩

/-! ## Non-vacuity -/

/-- What the condition about links asks of `diskOld 1`. -/
theorem diskOld_oneName (plan : List (Str × Kind)) : OneName [[100]] plan (diskOld 1) := by
  constructor
  · intro x _ _ _ L i a b
    have a := diskOld_nodes 1 a
    have b := diskOld_nodes 1 b
    simp only [List.mem_cons, Prod.mk.injEq, List.not_mem_nil, or_false, reduceCtorEq, and_false, false_or, Node.file.injEq] at a b
    rcases a with ⟨a, h⟩ | ⟨a, h⟩ <;> rcases b with ⟨b, g⟩ | ⟨b, g⟩
    · rw [a, b]
    · omega
    · omega
    · rw [a, b]
  · intro L i a
    have a := diskOld_nodes 1 a
    simp only [List.mem_cons, Prod.mk.injEq, List.not_mem_nil, or_false, reduceCtorEq, and_false, false_or, Node.file.injEq] at a
    show i < 2
    rcases a with ⟨_, a⟩ | ⟨_, a⟩ <;> omega

/-- The toy archive over a folder with other things in it, and an older "a". -/
example (L : Path) (hL : AllOrd L) (n : PNode) :
    (diskRun noFlt none (onFS (diskOld 1)) []).2.sink.os.fs.holds L = some n ↔ Overlaid (zipNode toyArchive (toy false false)) [[100]] toyArchive.plan (diskOld 1) L n :=
  C98_zip toy_wf (base_faults exCfg_base _) (toyPlan_independent _) (by unfold OneKind; decide +kernel) (diskOld 1) (diskOld_fit _ (by decide +kernel) (by decide +kernel)) (diskOld_oneName _)
    _ _ .refl none _ .fresh toyEnv toy_honest listCons [] _ (by rfl) L hL n

/-- Likewise the toy tar stream. -/
example (L : Path) (hL : AllOrd L) (n : PNode) :
    (diskTarK noFlt none (onFS (diskOld 1)) []).2.2.sink.os.fs.holds L = some n ↔ Overlaid (tarNode toyMembers) [[100]] (tarPlan toyMembers) (diskOld 1) L n :=
  C98_tar (toyTar_law true) toy_has (base_faults exCfg_base _) (toyTarPlan_independent _) (by unfold OneKind; decide +kernel) (diskOld 1) (diskOld_fit _ (by decide +kernel) (by decide +kernel)) (diskOld_oneName _)
    _ _ .refl none _ .fresh toyTarSrc (fun _ => (0, 1)) listCons [] _ (by rfl) L hL n

/-- The old file in the member folder "/d/d" stays; the older "a" is replaced. -/
example : Overlaid (zipNode toyArchive (toy false false)) [[100]] toyArchive.plan (diskOld 1) [[100], [100], cs ['o', 'l', 'd']] (.file [7, 8]) :=
  Or.inr ⟨by unfold Spares; decide +kernel, by rfl⟩

example : ¬ Spares [[100]] toyArchive.plan [[100], cs ['a']] := by unfold Spares; decide +kernel

end Savior
