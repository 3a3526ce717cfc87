import Verif.Makes
import Verif.Props.Bystander
/-!
# Nothing else is made (C95)
-/

namespace Savior
open FSink

/-- What holds after any chain of runs over an archive; `plan` may have more members than the archive. -/
theorem zipChain_made {A : Archive} {D : Decomp} {F : Nat} {cfg : FCfg} {B : Path} {plan : List (Str × Kind)} (hsub : ∀ x ∈ A.plan, x ∈ plan) (hB : cfg.Base B)
    (hind : Independent cfg B plan) (fs0 : FS) (hfit : DiskFit B plan fs0)
    (hist : List ECkpt) (k : FSink) (hchain : ZipAttempts A D F (folderSink cfg) (onFS fs0) hist k) : Made cfg B plan fs0 k := by
  have run : ∀ (env : ZEnv) (V : SaveCons) (u : V.St) (ck : Option ECkpt) (k : (folderSink cfg).St), Made cfg B plan fs0 k →
      (∀ c e, ck = some c → c.entry = some e → A.Lists e) → Made cfg B plan fs0 (zipResume A env D F (folderSink cfg) V ck k u).2.sink := by
    intro env V u ck k hk hck
    obtain ⟨b, hc⟩ := zipResume_calls A env D F (folderSink cfg) V ck k u
    have ha := (zipResume_member A env D F (folderSink cfg) ((lists_unmoved A).climbs _) V ck k u (lists_entry A) hck).log
    exact calls_make hB hind hc hk (ha.imp fun _ h => hsub _ (lists_plan h))
  have next : ∀ {s s' : (folderSink cfg).St}, (folderSink cfg).Next s s' → Made cfg B plan fs0 s → Made cfg B plan fs0 s' := by
    rintro s s' (rfl | rfl) h
    · exact h
    · exact ⟨h.disk, h.only, h.newer⟩
  have main : ∀ {k0 k : (folderSink cfg).St} {hist : List ECkpt}, Made cfg B plan fs0 k0 →
      ZipAttempts A D F (folderSink cfg) k0 hist k → Made cfg B plan fs0 k := by
    intro k0 k hist hk h
    induction h with
    | refl => exact hk
    | @step hist ck before k1 k2 env V u he hz hc hn ih => exact next hn (run env V u ck k1 ih (chosen_lists hz hc))
    | @kept hist ck before k1 k2 env V u he hz hc hs hn ih => exact next hn (run env V u ck k1 ih (chosen_lists hz hc))
  exact main (k0 := onFS fs0) ⟨diskOK_of_fit hfit, fun _ _ h => Or.inl h, .refl _⟩ hchain

/-- **C95**, for zip archives: at any point after any chain of runs, everything on the disk was there before the first — the very same folder, link or file —,
or is at a member's place and of its kind, or is a folder above one. -/
theorem C95_zip {A : Archive} {D : Decomp} {F : Nat} {cfg : FCfg} {B : Path} (hB : cfg.Base B) (hind : Independent cfg B A.plan) (fs0 : FS) (hfit : DiskFit B A.plan fs0)
    (hist : List ECkpt) (k : FSink) (hchain : ZipAttempts A D F (folderSink cfg) (onFS fs0) hist k) : MadeOnlyFor B A.plan fs0 k.os.fs :=
  (zipChain_made (fun _ h => h) hB hind fs0 hfit hist k hchain).only

/-- What holds after any chain of runs over a tar stream. -/
theorem tarChain_made {T : TarFmt} {Y : List Byte} {clean : Bool} {Ck : Ckpt → Nat → Prop} {F : Nat} {cfg : FCfg} {B : Path} {all : List (THdr × List Byte)}
    {plan : List (Str × Kind)} (hsub : ∀ x ∈ tarPlan all, x ∈ plan)
    (hT : T.Law) (hall : TarHas T clean Y all) (hB : cfg.Base B) (hind : Independent cfg B plan) (fs0 : FS) (hfit : DiskFit B plan fs0)
    (hist : List ECkpt) (k : FSink) (hchain : TarAttempts Y clean Ck F T (folderSink cfg) (onFS fs0) hist k) : Made cfg B plan fs0 k := by
  have run : ∀ (X : TarSrc Y clean Ck F) (pr : Ckpt → Int × Int) (V : SaveCons) (u : V.St) (ck : Option ECkpt) (k : (folderSink cfg).St),
      Made cfg B plan fs0 k → (∀ c, ck = some c → TarCkOK T clean Y Ck c) →
      Made cfg B plan fs0 (tarRun X T pr (folderSink cfg) V ck k u).2.2.sink := by
    intro X pr V u ck k hk hck
    have hc : Calls (folderSink cfg) true k false (tarRun X T pr (folderSink cfg) V ck k u).2.2.log (tarRun X T pr (folderSink cfg) V ck k u).2.2.sink :=
      tarResume_calls X.conduit pr F (folderSink cfg) V ck X.src k u
    have ha := (tarRun_members (tarLists_unmoved T clean Y) (fun h hh ht => ⟨h, hh, tarMember_entry ht⟩) hT X pr (K := folderSink cfg) (V := V) ck k u hck).1
    exact calls_make hB hind hc hk (ha.imp fun _ h => hsub _ (tarLists_plan hall h).1)
  have pick : ∀ {k0 k : (folderSink cfg).St} {hist before : List ECkpt} {ck : Option ECkpt}, TarAttempts Y clean Ck F T (folderSink cfg) k0 hist k → ChooseCk hist ck before →
      ∀ c, ck = some c → TarCkOK T clean Y Ck c := by
    intro k0 k hist before ck h hc c he
    subst he
    cases hc with
    | @pick a b _ he => exact tarAttempts_ckOK hT h c (by rw [he]; simp)
  have next : ∀ {s s' : (folderSink cfg).St}, (folderSink cfg).Next s s' → Made cfg B plan fs0 s → Made cfg B plan fs0 s' := by
    rintro s s' (rfl | rfl) h
    · exact h
    · exact ⟨h.disk, h.only, h.newer⟩
  have main : ∀ {k0 k : (folderSink cfg).St} {hist : List ECkpt}, Made cfg B plan fs0 k0 →
      TarAttempts Y clean Ck F T (folderSink cfg) k0 hist k → Made cfg B plan fs0 k := by
    intro k0 k hist hk h
    induction h with
    | refl => exact hk
    | @step hist ck before k1 k2 X pr V u hz hc hn ih => exact next hn (run X pr V u ck k1 ih (pick hz hc))
    | @kept hist ck before k1 k2 X pr V u hz hc hs hn ih => exact next hn (run X pr V u ck k1 ih (pick hz hc))
  exact main (k0 := onFS fs0) ⟨diskOK_of_fit hfit, fun _ _ h => Or.inl h, .refl _⟩ hchain

/-- **C95**, for tar streams: likewise. -/
theorem C95_tar {T : TarFmt} {Y : List Byte} {clean : Bool} {Ck : Ckpt → Nat → Prop} {F : Nat} {cfg : FCfg} {B : Path} {all : List (THdr × List Byte)}
    (hT : T.Law) (hall : TarHas T clean Y all) (hB : cfg.Base B) (hind : Independent cfg B (tarPlan all)) (fs0 : FS) (hfit : DiskFit B (tarPlan all) fs0)
    (hist : List ECkpt) (k : FSink) (hchain : TarAttempts Y clean Ck F T (folderSink cfg) (onFS fs0) hist k) : MadeOnlyFor B (tarPlan all) fs0 k.os.fs :=
  (tarChain_made (fun _ h => h) hT hall hB hind fs0 hfit hist k hchain).only

/-! ## Non-vacuity, and why the conditions -/

/-- The toy archive, extracted to `diskOld 1` and killed after 29 calls: places to which no member leads and above which none leads stay empty … -/
example : ∀ L, (∀ x ∈ toyArchive.plan, ¬ L <+: namePlace [[100]] x.1) → (diskOld 1).nodes L = none →
    (diskRun (killedAt 29 3) none (onFS (diskOld 1)) []).2.sink.os.fs.nodes L = none := by
  intro L hno h0
  have h := ZipAttempts.step (A := toyArchive) (D := toy false false) (F := 100) (K := folderSink (exCfg.withFaults (killedAt 29 3))) (k := onFS (diskOld 1)) (before := [])
    toyEnv listCons [] toy_honest ZipAttempts.refl .fresh (Or.inl rfl)
  have hm := C95_zip (base_faults exCfg_base (killedAt 29 3)) (toyPlan_independent _) (diskOld 1) (diskOld_fit _ (by decide +kernel) (by decide +kernel)) _ _ h
  cases hn : (diskRun (killedAt 29 3) none (onFS (diskOld 1)) []).2.sink.os.fs.nodes L with
  | none => rfl
  | some n =>
    rcases hm L n hn with g | ⟨x, hx, _, _, ⟨rfl, _⟩ | ⟨g, _⟩⟩
    · rw [h0] at g; cases g
    · exact absurd (List.prefix_refl _) (hno x hx)
    · exact absurd g (hno x hx)

/-- … and members' are filled. -/
example : (diskOld 1).nodes [[100], cs ['l']] = none ∧ (diskRun noFlt none (onFS (diskOld 1)) []).2.sink.os.fs.nodes [[100], cs ['l']] = some (.link (cs ['a'])) := ⟨by rfl, by rfl⟩

/-- Likewise for the toy tar stream. -/
example : ∀ L, (∀ x ∈ tarPlan toyMembers, ¬ L <+: namePlace [[100]] x.1) → (diskOld 1).nodes L = none →
    (diskTarK (killedAt 11 2) none (onFS (diskOld 1)) []).2.2.sink.os.fs.nodes L = none := by
  intro L hno h0
  have h := TarAttempts.step (K := folderSink (exCfg.withFaults (killedAt 11 2))) (k := onFS (diskOld 1)) (before := [])
    toyTarSrc (fun _ => (0, 1)) listCons [] (TarAttempts.refl (T := toyTar true)) .fresh (Or.inl rfl)
  have hm := C95_tar (toyTar_law true) toy_has (base_faults exCfg_base (killedAt 11 2)) (toyTarPlan_independent _) (diskOld 1) (diskOld_fit _ (by decide +kernel) (by decide +kernel)) _ _ h
  cases hn : (diskTarK (killedAt 11 2) none (onFS (diskOld 1)) []).2.2.sink.os.fs.nodes L with
  | none => rfl
  | some n =>
    rcases hm L n hn with g | ⟨x, hx, _, _, ⟨rfl, _⟩ | ⟨g, _⟩⟩
    · rw [h0] at g; cases g
    · exact absurd (List.prefix_refl _) (hno x hx)
    · exact absurd g (hno x hx)

/-- A disk on which "/d/d" is a link to the existing folder "/e". -/
def diskLed : FS := ⟨fun p =>
  if p = [] ∨ p = [[100]] ∨ p = [cs ['e']] then some .dir
  else if p = [[100], cs ['d']] then some (.link (cs ['/', 'e']))
  else none, fun _ => [], fun _ => 0, 0⟩

/-- An archive with the single member "d/x". -/
def oneBelow : Archive where
  bytes := [7]
  files := [⟨cs ['d', '/', 'x'], .store, false, 1, 1, 0o644, 0, ([], true)⟩]

/-- **C95 needs `nolink`**: "/d/d" being a link to "/e", extracting "d/x" into "/d" makes "/e/x". -/
theorem C95_false_link : (∃ res, (zipResume oneBelow toyEnv (toy false false) 100 (folderSink exCfg) listCons none (onFS diskLed) []).1 = .ok res) ∧
    diskLed.nodes [cs ['e'], cs ['x']] = none ∧
    (zipResume oneBelow toyEnv (toy false false) 100 (folderSink exCfg) listCons none (onFS diskLed) []).2.sink.os.fs.holds [cs ['e'], cs ['x']] = some (.file [7]) :=
  ⟨⟨_, by rfl⟩, by rfl, by rfl⟩

end Savior
