import Verif.Bystander
import Verif.Props.Modes
/-!
# What else is in the destination (C94)
-/

namespace Savior
open FSink

/-- A bystander counts as a place of its own. -/
def WithBystander (cfg : FCfg) (B : Path) (plan : List (Str × Kind)) (L : Path) (kd : Kind) (Q : Path) (k : Kind) : Prop :=
  PlanPlace cfg B plan Q k ∨ (Q = L ∧ k = kd)

section
variable {cfg : FCfg} {B : Path} {plan : List (Str × Kind)} {fs0 : FS} {L : Path}

theorem bystander_start (hB : cfg.Base B) (hind : Independent cfg B plan) (hfit : DiskFit B plan fs0) (hL : Bystander B plan fs0 L) :
    ∃ kd, Planned (WithBystander cfg B plan L kd) ∧ (∀ Q k, PlanPlace cfg B plan Q k → WithBystander cfg B plan L kd Q k ∧ L ≠ Q) ∧
      WithBystander cfg B plan L kd L kd ∧ (∃ n, fs0.holds L = some n) ∧ (kd = .file ∨ fs0.permAt L = none) ∧
      Spared (WithBystander cfg B plan L kd) L kd fs0 (onFS fs0) := by
  refine ⟨if fs0.nodes L = some .dir then .dir else .file, ⟨?_, ?_⟩, ?_, Or.inr ⟨rfl, rfl⟩, ?_, ?_, ⟨?_, ?_, ?_, ?_⟩, ⟨rfl, rfl⟩, ?_⟩
  · rintro Q k (h | ⟨rfl, _⟩)
    · exact (planned hB hind).ord Q k h
    · exact hL.ord
  · rintro Q k Q' k' (h | ⟨rfl, rfl⟩) (h' | ⟨rfl, rfl⟩) hne hpre
    · exact (planned hB hind).apart Q k Q' k' h h' hne hpre
    · obtain ⟨p, h1, h2, h3, rfl⟩ := h
      exact (hL.apart _ h1 h2 h3).2.1 hpre
    · obtain ⟨p, h1, h2, h3, rfl⟩ := h'
      rw [if_pos ((hL.apart _ h1 h2 h3).2.2 hpre)]
    · exact absurd rfl hne
  · rintro Q k ⟨p, h1, h2, h3, rfl⟩
    exact ⟨Or.inl ⟨p, h1, h2, h3, rfl⟩, (hL.apart _ h1 h2 h3).1⟩
  · cases hn : fs0.nodes L with
    | none => exact absurd hn hL.there
    | some n => unfold FS.holds; rw [hn]; cases n <;> exact ⟨_, rfl⟩
  · split
    · rename_i hd
      right
      cases hm : fs0.permAt L with
      | none => rfl
      | some m =>
        obtain ⟨i, hi, _⟩ := permAt_some hm
        rw [hd] at hi; cases hi
    · exact Or.inl rfl
  · exact hfit.tree
  · rintro Q k r t (h | ⟨rfl, rfl⟩) hr hne ht
    · exact (diskOK_of_fit (cfg := cfg) hfit).straight Q k r t h hr hne ht
    · obtain ⟨x, rfl⟩ := hr
      refine hL.there (tree_below hfit.tree (q := r) (by rw [show fs0.nodes r = _ from ht]; simp) x ?_)
      rintro rfl; simp at hne
  · rintro Q k Q' k' i (h | ⟨rfl, rfl⟩) (h' | ⟨rfl, rfl⟩) a b
    · exact (diskOK_of_fit (cfg := cfg) hfit).alone Q k Q' k' i h h' a b
    · obtain ⟨p, h1, h2, h3, rfl⟩ := h
      exact absurd b (hL.nohard _ h1 h2 h3 i a)
    · obtain ⟨p, h1, h2, h3, rfl⟩ := h'
      exact absurd a (hL.nohard _ h1 h2 h3 i b)
    · rfl
  · rintro Q k i (h | ⟨rfl, rfl⟩) a
    · exact (diskOK_of_fit (cfg := cfg) hfit).low Q k i h a
    · exact hL.inode i a
  · intro i p o h
    simp [onFS] at h

theorem spared_next {S : Path → Kind → Prop} {kd : Kind} {s s' : (folderSink cfg).St} (hn : (folderSink cfg).Next s s') (h : Spared S L kd fs0 s) : Spared S L kd fs0 s' := by
  rcases hn with rfl | rfl
  · exact h
  · exact ⟨h.disk, h.same, fun i p o hm => absurd hm (by simp [folderSink])⟩

end

/-- **C94**, for zip archives: a file, link or folder that no member concerns is the same at any point after any chain of runs — bytes, target and permissions —,
however the runs ended, whatever failed and whichever checkpoints were resumed from. -/
theorem C94_zip {A : Archive} {D : Decomp} {F : Nat} {cfg : FCfg} {B : Path} (hB : cfg.Base B) (hind : Independent cfg B A.plan) (fs0 : FS) (hfit : DiskFit B A.plan fs0)
    (hist : List ECkpt) (k : FSink) (hchain : ZipAttempts A D F (folderSink cfg) (onFS fs0) hist k) (L : Path) (hL : Bystander B A.plan fs0 L) :
    Untouched L fs0 k.os.fs := by
  obtain ⟨kd, hS, hsub, hSL, hth, hkd, h0⟩ := bystander_start hB hind hfit hL
  have run : ∀ (env : ZEnv) (V : SaveCons) (u : V.St) (ck : Option ECkpt) (k : (folderSink cfg).St), Spared (WithBystander cfg B A.plan L kd) L kd fs0 k →
      (∀ c e, ck = some c → c.entry = some e → A.Lists e) → Spared (WithBystander cfg B A.plan L kd) L kd fs0 (zipResume A env D F (folderSink cfg) V ck k u).2.sink := by
    intro env V u ck k hk hck
    obtain ⟨b, hc⟩ := zipResume_calls A env D F (folderSink cfg) V ck k u
    have ha := (zipResume_member A env D F (folderSink cfg) ((lists_unmoved A).climbs _) V ck k u (lists_entry A) hck).log
    exact calls_spare hS hsub hSL hth hkd hB hc hk (ha.imp fun _ => lists_plan)
  have main : ∀ {k0 k : (folderSink cfg).St} {hist : List ECkpt}, Spared (WithBystander cfg B A.plan L kd) L kd fs0 k0 →
      ZipAttempts A D F (folderSink cfg) k0 hist k → Spared (WithBystander cfg B A.plan L kd) L kd fs0 k := by
    intro k0 k hist hk h
    induction h with
    | refl => exact hk
    | @step hist ck before k1 k2 env V u he hz hc hn ih => exact spared_next hn (run env V u ck k1 ih (chosen_lists hz hc))
    | @kept hist ck before k1 k2 env V u he hz hc hs hn ih => exact spared_next hn (run env V u ck k1 ih (chosen_lists hz hc))
  exact (main (k0 := onFS fs0) h0 hchain).same

/-- **C94**, for tar streams: likewise. -/
theorem C94_tar {T : TarFmt} {Y : List Byte} {clean : Bool} {Ck : Ckpt → Nat → Prop} {F : Nat} {cfg : FCfg} {B : Path} {all : List (THdr × List Byte)}
    (hT : T.Law) (hall : TarHas T clean Y all) (hB : cfg.Base B) (hind : Independent cfg B (tarPlan all)) (fs0 : FS) (hfit : DiskFit B (tarPlan all) fs0)
    (hist : List ECkpt) (k : FSink) (hchain : TarAttempts Y clean Ck F T (folderSink cfg) (onFS fs0) hist k) (L : Path) (hL : Bystander B (tarPlan all) fs0 L) :
    Untouched L fs0 k.os.fs := by
  obtain ⟨kd, hS, hsub, hSL, hth, hkd, h0⟩ := bystander_start hB hind hfit hL
  have run : ∀ (X : TarSrc Y clean Ck F) (pr : Ckpt → Int × Int) (V : SaveCons) (u : V.St) (ck : Option ECkpt) (k : (folderSink cfg).St),
      Spared (WithBystander cfg B (tarPlan all) L kd) L kd fs0 k → (∀ c, ck = some c → TarCkOK T clean Y Ck c) →
      Spared (WithBystander cfg B (tarPlan all) L kd) L kd fs0 (tarRun X T pr (folderSink cfg) V ck k u).2.2.sink := by
    intro X pr V u ck k hk hck
    have hc : Calls (folderSink cfg) true k false (tarRun X T pr (folderSink cfg) V ck k u).2.2.log (tarRun X T pr (folderSink cfg) V ck k u).2.2.sink :=
      tarResume_calls X.conduit pr F (folderSink cfg) V ck X.src k u
    have ha := (tarRun_members (tarLists_unmoved T clean Y) (fun h hh ht => ⟨h, hh, tarMember_entry ht⟩) hT X pr (K := folderSink cfg) (V := V) ck k u hck).1
    exact calls_spare hS hsub hSL hth hkd hB hc hk (ha.imp fun _ h => (tarLists_plan hall h).1)
  have pick : ∀ {k0 k : (folderSink cfg).St} {hist before : List ECkpt} {ck : Option ECkpt}, TarAttempts Y clean Ck F T (folderSink cfg) k0 hist k → ChooseCk hist ck before →
      ∀ c, ck = some c → TarCkOK T clean Y Ck c := by
    intro k0 k hist before ck h hc c he
    subst he
    cases hc with
    | @pick a b _ he => exact tarAttempts_ckOK hT h c (by rw [he]; simp)
  have main : ∀ {k0 k : (folderSink cfg).St} {hist : List ECkpt}, Spared (WithBystander cfg B (tarPlan all) L kd) L kd fs0 k0 →
      TarAttempts Y clean Ck F T (folderSink cfg) k0 hist k → Spared (WithBystander cfg B (tarPlan all) L kd) L kd fs0 k := by
    intro k0 k hist hk h
    induction h with
    | refl => exact hk
    | @step hist ck before k1 k2 X pr V u hz hc hn ih => exact spared_next hn (run X pr V u ck k1 ih (pick hz hc))
    | @kept hist ck before k1 k2 X pr V u hz hc hs hn ih => exact spared_next hn (run X pr V u ck k1 ih (pick hz hc))
  exact (main (k0 := onFS fs0) h0 hchain).same

/-! ## Non-vacuity, and why the conditions -/

/-- A disk with folders "/d" and "/d/d"; a file "/d/d/old" (bytes 7, 8; permissions 0600), a link "/d/z", a file "/e" — and, if `i` is 0, a hard link "/d/a" of
"/d/d/old". -/
def diskOld (i : Nat) : FS := ⟨fun p =>
  if p = [] ∨ p = [[100]] ∨ p = [[100], [100]] then some .dir
  else if p = [[100], [100], cs ['o', 'l', 'd']] then some (.file 0)
  else if p = [[100], cs ['z']] then some (.link (cs ['a']))
  else if p = [[100], cs ['a']] then some (.file i)
  else none, fun j => if j = 0 then [7, 8] else [9], fun _ => 0o600, 2⟩

theorem diskOld_nodes (i : Nat) {p : Path} {n : Node} (h : (diskOld i).nodes p = some n) :
    (p, n) ∈ [([], Node.dir), ([[100]], .dir), ([[100], [100]], .dir), ([[100], [100], cs ['o', 'l', 'd']], .file 0), ([[100], cs ['z']], .link (cs ['a'])), ([[100], cs ['a']], .file i)] := by
  simp only [diskOld] at h
  split at h
  · rename_i h1
    cases h
    rcases h1 with rfl | rfl | rfl <;> simp
  split at h
  · rename_i h1; cases h; subst h1; simp
  split at h
  · rename_i h1; cases h; subst h1; simp
  split at h
  · rename_i h1; cases h; subst h1; simp
  · cases h

theorem diskOld_tree (i : Nat) : (diskOld i).Tree := by
  refine ⟨rfl, fun p c h => ?_⟩
  cases hn : (diskOld i).nodes (p ++ [c]) with
  | none => exact absurd hn h
  | some n =>
    have := diskOld_nodes i hn
    simp only [List.mem_cons, Prod.mk.injEq, List.not_mem_nil, or_false] at this
    have key : ∀ (l : Path) (x : Path), p ++ [c] = x → l = x.dropLast → p = l := by
      rintro l x hx rfl; rw [← hx, List.dropLast_concat]
    rcases this with ⟨h, _⟩ | ⟨h, _⟩ | ⟨h, _⟩ | ⟨h, _⟩ | ⟨h, _⟩ | ⟨h, _⟩
    · simp at h
    · rw [key [] _ h rfl]; rfl
    · rw [key [[100]] _ h rfl]; rfl
    · rw [key [[100], [100]] _ h rfl]; rfl
    · rw [key [[100]] _ h rfl]; rfl
    · rw [key [[100]] _ h rfl]; rfl

theorem diskOld_fit (plan : List (Str × Kind)) (h1 : ∀ x ∈ plan, ¬ [[100], cs ['z']] <+: namePlace [[100]] x.1)
    (h2 : ∀ x ∈ plan, namePlace [[100]] x.1 ≠ [[100], [100], cs ['o', 'l', 'd']]) : DiskFit [[100]] plan (diskOld 1) := by
  refine ⟨diskOld_tree 1, ?_, ?_, ?_⟩
  · intro x hx _ _ r t hr _ hn
    have := diskOld_nodes 1 hn
    simp only [List.mem_cons, Prod.mk.injEq, List.not_mem_nil, or_false, reduceCtorEq, and_false, false_or] at this
    rw [this.1] at hr
    exact h1 x hx hr
  · intro x hx y hy _ _ _ _ i a b
    have a := diskOld_nodes 1 a
    have b := diskOld_nodes 1 b
    simp only [List.mem_cons, Prod.mk.injEq, List.not_mem_nil, or_false, reduceCtorEq, and_false, false_or] at a b
    rcases a with ⟨a, _⟩ | ⟨a, _⟩
    · exact absurd a (h2 x hx)
    · rcases b with ⟨b, _⟩ | ⟨b, _⟩
      · exact absurd b (h2 y hy)
      · rw [a, b]
  · intro x hx _ _ i a
    have a := diskOld_nodes 1 a
    simp only [List.mem_cons, Prod.mk.injEq, List.not_mem_nil, or_false, reduceCtorEq, and_false, false_or, Node.file.injEq] at a
    show i < 2
    rcases a with ⟨_, a⟩ | ⟨_, a⟩ <;> omega

/-- A place of `diskOld 1` at which something is, and to which no member leads. -/
theorem diskOld_bystander (plan : List (Str × Kind)) (L : Path) (ho : AllOrd L) (hth : (diskOld 1).nodes L ≠ none)
    (h1 : ∀ x ∈ plan, L ≠ namePlace [[100]] x.1 ∧ (namePlace [[100]] x.1 <+: L → x.2 = .dir) ∧ (L <+: namePlace [[100]] x.1 → (diskOld 1).nodes L = some .dir))
    (h2 : ∀ x ∈ plan, namePlace [[100]] x.1 ≠ [[100], [100], cs ['o', 'l', 'd']]) (h3 : L ≠ [[100], cs ['a']]) : Bystander [[100]] plan (diskOld 1) L := by
  refine ⟨ho, hth, fun x hx _ _ => h1 x hx, ?_, ?_⟩
  · intro x hx _ _ i a b
    have a := diskOld_nodes 1 a
    have b := diskOld_nodes 1 b
    simp only [List.mem_cons, Prod.mk.injEq, List.not_mem_nil, or_false, reduceCtorEq, and_false, false_or, Node.file.injEq] at a b
    rcases a with ⟨a, _⟩ | ⟨_, a⟩
    · exact h2 x hx a
    · rcases b with ⟨_, b⟩ | ⟨b, _⟩
      · omega
      · exact h3 b
  · intro i a
    have a := diskOld_nodes 1 a
    simp only [List.mem_cons, Prod.mk.injEq, List.not_mem_nil, or_false, reduceCtorEq, and_false, false_or, Node.file.injEq] at a
    show i < 2
    rcases a with ⟨_, a⟩ | ⟨_, a⟩ <;> omega

/-- The toy archive has the folder "d" as a member; extracting it into "/d" — killed after 29 calls — leaves the file "old" in it, the link "z" and "/d" alone. -/
example : ∀ L ∈ [[[100], [100], cs ['o', 'l', 'd']], [[100], cs ['z']], [[100]]], Untouched L (diskOld 1) (diskRun (killedAt 29 3) none (onFS (diskOld 1)) []).2.sink.os.fs := by
  intro L hL
  have h := ZipAttempts.step (A := toyArchive) (D := toy false false) (F := 100) (K := folderSink (exCfg.withFaults (killedAt 29 3))) (k := onFS (diskOld 1)) (before := [])
    toyEnv listCons [] toy_honest ZipAttempts.refl .fresh (Or.inl rfl)
  refine C94_zip (base_faults exCfg_base (killedAt 29 3)) (toyPlan_independent _) (diskOld 1) (diskOld_fit _ (by decide +kernel) (by decide +kernel)) _ _ h L ?_
  have hz : ∀ L ∈ [[[100], [100], cs ['o', 'l', 'd']], [[100], cs ['z']], [[100]]], ∀ x ∈ toyArchive.plan,
      L ≠ namePlace [[100]] x.1 ∧ (namePlace [[100]] x.1 <+: L → x.2 = .dir) ∧ (L <+: namePlace [[100]] x.1 → (diskOld 1).nodes L = some .dir) := by decide +kernel
  refine diskOld_bystander _ L ?_ ?_ (hz L hL) (by decide +kernel) ?_
  · revert L; unfold AllOrd Ordinary; decide +kernel
  · revert L; decide +kernel
  · revert L; decide +kernel

/-- The member "a" is extracted all the same. -/
example : (diskRun noFlt none (onFS (diskOld 1)) []).2.sink.os.fs.holds [[100], cs ['a']] = some (.file [1, 2, 3]) := by rfl

/-- Likewise for the toy tar stream. -/
example : ∀ L ∈ [[[100], [100], cs ['o', 'l', 'd']], [[100], cs ['z']], [[100]]], Untouched L (diskOld 1) (diskTarK (killedAt 11 2) none (onFS (diskOld 1)) []).2.2.sink.os.fs := by
  intro L hL
  have h := TarAttempts.step (K := folderSink (exCfg.withFaults (killedAt 11 2))) (k := onFS (diskOld 1)) (before := [])
    toyTarSrc (fun _ => (0, 1)) listCons [] (TarAttempts.refl (T := toyTar true)) .fresh (Or.inl rfl)
  refine C94_tar (toyTar_law true) toy_has (base_faults exCfg_base (killedAt 11 2)) (toyTarPlan_independent _) (diskOld 1) (diskOld_fit _ (by decide +kernel) (by decide +kernel)) _ _ h L ?_
  have hz : ∀ L ∈ [[[100], [100], cs ['o', 'l', 'd']], [[100], cs ['z']], [[100]]], ∀ x ∈ tarPlan toyMembers,
      L ≠ namePlace [[100]] x.1 ∧ (namePlace [[100]] x.1 <+: L → x.2 = .dir) ∧ (L <+: namePlace [[100]] x.1 → (diskOld 1).nodes L = some .dir) := by decide +kernel
  refine diskOld_bystander _ L ?_ ?_ (hz L hL) (by decide +kernel) ?_
  · revert L; unfold AllOrd Ordinary; decide +kernel
  · revert L; decide +kernel
  · revert L; decide +kernel

/-- **C94 needs `nohard`**: "/d/a" being a hard link of "/d/d/old", extracting the member "a" writes into "old". (FolderSink opens an existing file without removing it.) -/
theorem C94_false_hardlink : (∃ res, (diskRun noFlt none (onFS (diskOld 0)) []).1 = .ok res) ∧ (diskOld 0).holds [[100], [100], cs ['o', 'l', 'd']] = some (.file [7, 8]) ∧
    (diskRun noFlt none (onFS (diskOld 0)) []).2.sink.os.fs.holds [[100], [100], cs ['o', 'l', 'd']] = some (.file [1, 2, 3]) := ⟨⟨_, by rfl⟩, by rfl, by rfl⟩

end Savior
