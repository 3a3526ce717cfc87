import Verif.WinBystander
import Verif.Props.WinExact
/-!
# What else is in the destination, on Windows (C94)
-/

namespace Savior
open FSink

/-- A bystander counts as a place of its own. -/
def WithBystanderW (w : WCfg) (plan : List (Str × Kind)) (L : Path) (kd : Kind) (Q : Path) (k : Kind) : Prop :=
  PlanPlaceW w plan Q k ∨ (Q = L ∧ k = kd)

section
variable {w : WCfg} {V : Str} {B : Path} {plan : List (Str × Kind)} {fs0 : FS} {L : Path}

theorem bystanderW_start (hB : w.Base V B) (hq : w.Qualifies) (hf : w.FoldOK) (hind : w.Independent plan) (hfit : w.DiskFit plan fs0) (hL : BystanderW w plan fs0 L) :
    ∃ kd, Planned (WithBystanderW w plan L kd) ∧ (∀ Q k, PlanPlaceW w plan Q k → WithBystanderW w plan L kd Q k ∧ L ≠ Q) ∧
      WithBystanderW w plan L kd L kd ∧ (∃ n, fs0.holds L = some n) ∧ SparedW (WithBystanderW w plan L kd) L fs0 (onFS fs0) := by
  refine ⟨if fs0.nodes L = some .dir then .dir else .file, ⟨?_, ?_⟩, ?_, Or.inr ⟨rfl, rfl⟩, ?_, ⟨?_, ?_, ?_, ?_⟩, rfl, ?_⟩
  · rintro Q k (h | ⟨rfl, _⟩)
    · exact (plannedW hB hq hf hind).ord Q k h
    · exact hL.ord
  · rintro Q k Q' k' (h | ⟨rfl, rfl⟩) (h' | ⟨rfl, rfl⟩) hne hpre
    · exact (plannedW hB hq hf hind).apart Q k Q' k' h h' hne hpre
    · obtain ⟨p, kp, h1, h2, h3, rfl⟩ := h
      have e : kp = .dir := (hL.apart _ h1 h2 _ h3).2.1 hpre
      rw [e]; rfl
    · obtain ⟨p, kp, h1, h2, h3, rfl⟩ := h'
      rw [if_pos ((hL.apart _ h1 h2 _ h3).2.2 hpre)]
    · exact absurd rfl hne
  · rintro Q k ⟨p, kp, h1, h2, h3, rfl⟩
    exact ⟨Or.inl ⟨p, kp, h1, h2, h3, rfl⟩, (hL.apart _ h1 h2 _ h3).1⟩
  · cases hn : fs0.nodes L with
    | none => exact absurd hn hL.there
    | some n => unfold FS.holds; rw [hn]; cases n <;> exact ⟨_, rfl⟩
  · exact hfit.tree
  · rintro Q k r t (h | ⟨rfl, rfl⟩) hr hne ht
    · exact (diskOKW_of_fit hfit).straight Q k r t h hr hne ht
    · obtain ⟨x, rfl⟩ := hr
      refine hL.there (tree_below hfit.tree (q := r) (by rw [show fs0.nodes r = _ from ht]; simp) x ?_)
      rintro rfl; simp at hne
  · rintro Q k Q' k' i (h | ⟨rfl, rfl⟩) (h' | ⟨rfl, rfl⟩) a b
    · exact (diskOKW_of_fit hfit).alone Q k Q' k' i h h' a b
    · obtain ⟨p, kp, h1, h2, h3, _⟩ := h
      exact absurd b (hL.nohard _ h1 h2 _ h3 i a)
    · obtain ⟨p, kp, h1, h2, h3, _⟩ := h'
      exact absurd a (hL.nohard _ h1 h2 _ h3 i b)
    · rfl
  · rintro Q k i (h | ⟨rfl, rfl⟩) a
    · exact (diskOKW_of_fit hfit).low Q k i h a
    · exact hL.inode i a
  · intro i p o h
    simp [onFS] at h

theorem sparedW_next {S : Path → Kind → Prop} {s s' : (winSink w).St} (hn : (winSink w).Next s s') (h : SparedW S L fs0 s) : SparedW S L fs0 s' := by
  rcases hn with rfl | rfl
  · exact h
  · exact ⟨h.disk, h.same, fun i p o hm => absurd hm (by simp [winSink])⟩

end

/-- **C94**, for zip archives on Windows: a file, link or folder that no member concerns is the same — bytes or target — at any point after any chain of runs,
however the runs ended, whatever failed and whichever checkpoints were resumed from. -/
theorem C94_win_zip {A : Archive} {D : Decomp} {F : Nat} {w : WCfg} {V : Str} {B : Path} (hB : w.Base V B) (hq : w.Qualifies) (hf : w.FoldOK)
    (hind : w.Independent A.plan) (fs0 : FS) (hfit : w.DiskFit A.plan fs0)
    (hist : List ECkpt) (k : FSink) (hchain : ZipAttempts A D F (winSink w) (onFS fs0) hist k) (L : Path) (hL : BystanderW w A.plan fs0 L) :
    k.os.fs.holds L = fs0.holds L := by
  obtain ⟨kd, hS, hsub, hSL, hth, h0⟩ := bystanderW_start hB hq hf hind hfit hL
  have run : ∀ (env : ZEnv) (U : SaveCons) (u : U.St) (ck : Option ECkpt) (k : (winSink w).St), SparedW (WithBystanderW w A.plan L kd) L fs0 k →
      (∀ c e, ck = some c → c.entry = some e → A.Lists e) → SparedW (WithBystanderW w A.plan L kd) L fs0 (zipResume A env D F (winSink w) U ck k u).2.sink := by
    intro env U u ck k hk hck
    obtain ⟨b, hc⟩ := zipResume_calls A env D F (winSink w) U ck k u
    have ha := (zipResume_member A env D F (winSink w) ((lists_unmoved A).climbs _) U ck k u (lists_entry A) hck).log
    exact calls_spareW hS hsub hSL hth hc hk (ha.imp fun _ => lists_plan)
  have main : ∀ {k0 k : (winSink w).St} {hist : List ECkpt}, SparedW (WithBystanderW w A.plan L kd) L fs0 k0 →
      ZipAttempts A D F (winSink w) k0 hist k → SparedW (WithBystanderW w A.plan L kd) L fs0 k := by
    intro k0 k hist hk h
    induction h with
    | refl => exact hk
    | @step hist ck before k1 k2 env U u he hz hc hn ih => exact sparedW_next hn (run env U u ck k1 ih (chosen_listsW hz hc))
    | @kept hist ck before k1 k2 env U u he hz hc hs hn ih => exact sparedW_next hn (run env U u ck k1 ih (chosen_listsW hz hc))
  exact (main (k0 := onFS fs0) h0 hchain).same

/-- **C94**, for tar streams on Windows: likewise. -/
theorem C94_win_tar {T : TarFmt} {Y : List Byte} {clean : Bool} {Ck : Ckpt → Nat → Prop} {F : Nat} {w : WCfg} {V : Str} {B : Path} {all : List (THdr × List Byte)}
    (hT : T.Law) (hall : TarHas T clean Y all) (hB : w.Base V B) (hq : w.Qualifies) (hf : w.FoldOK) (hind : w.Independent (tarPlan all)) (fs0 : FS)
    (hfit : w.DiskFit (tarPlan all) fs0)
    (hist : List ECkpt) (k : FSink) (hchain : TarAttempts Y clean Ck F T (winSink w) (onFS fs0) hist k) (L : Path) (hL : BystanderW w (tarPlan all) fs0 L) :
    k.os.fs.holds L = fs0.holds L := by
  obtain ⟨kd, hS, hsub, hSL, hth, h0⟩ := bystanderW_start hB hq hf hind hfit hL
  have run : ∀ (X : TarSrc Y clean Ck F) (pr : Ckpt → Int × Int) (U : SaveCons) (u : U.St) (ck : Option ECkpt) (k : (winSink w).St),
      SparedW (WithBystanderW w (tarPlan all) L kd) L fs0 k → (∀ c, ck = some c → TarCkOK T clean Y Ck c) →
      SparedW (WithBystanderW w (tarPlan all) L kd) L fs0 (tarRun X T pr (winSink w) U ck k u).2.2.sink := by
    intro X pr U u ck k hk hck
    have hc : Calls (winSink w) true k false (tarRun X T pr (winSink w) U ck k u).2.2.log (tarRun X T pr (winSink w) U ck k u).2.2.sink :=
      tarResume_calls X.conduit pr F (winSink w) U ck X.src k u
    have ha := (tarRun_members (tarLists_unmoved T clean Y) (fun h hh ht => ⟨h, hh, tarMember_entry ht⟩) hT X pr (K := winSink w) (V := U) ck k u hck).1
    exact calls_spareW hS hsub hSL hth hc hk (ha.imp fun _ h => (tarLists_plan hall h).1)
  have pick : ∀ {k0 k : (winSink w).St} {hist before : List ECkpt} {ck : Option ECkpt}, TarAttempts Y clean Ck F T (winSink w) k0 hist k → ChooseCk hist ck before →
      ∀ c, ck = some c → TarCkOK T clean Y Ck c := by
    intro k0 k hist before ck h hc c he
    subst he
    cases hc with
    | @pick a b _ he => exact tarAttempts_ckOK hT h c (by rw [he]; simp)
  have main : ∀ {k0 k : (winSink w).St} {hist : List ECkpt}, SparedW (WithBystanderW w (tarPlan all) L kd) L fs0 k0 →
      TarAttempts Y clean Ck F T (winSink w) k0 hist k → SparedW (WithBystanderW w (tarPlan all) L kd) L fs0 k := by
    intro k0 k hist hk h
    induction h with
    | refl => exact hk
    | @step hist ck before k1 k2 X pr U u hz hc hn ih => exact sparedW_next hn (run X pr U u ck k1 ih (pick hz hc))
    | @kept hist ck before k1 k2 X pr U u hz hc hs hn ih => exact sparedW_next hn (run X pr U u ck k1 ih (pick hz hc))
  exact (main (k0 := onFS fs0) h0 hchain).same

/-! ## Non-vacuity -/

theorem exWinFS_fit (flt : Faults) : (exWinK flt).DiskFit toyArchive.plan exWinFS := by
  refine ⟨exWinFS_tree, ?_, ?_, ?_⟩
  · intro x hx _ L r t _ _ _ h
    exact exWinFS_nolink r t h
  · intro x hx y hy _ _ L M i _ _ a b
    rw [(exWinFS_file a).1, (exWinFS_file b).1]
  · intro x hx _ L i _ h
    rw [(exWinFS_file h).2]; decide

theorem exWinFS_bystander (flt : Faults) : BystanderW (exWinK flt) toyArchive.plan exWinFS [cs ['c', ':'], cs ['d'], cs ['f']] := by
  have h1 : ∀ x ∈ toyArchive.plan, x.1.take 1 ≠ cs ['f'] := by decide +kernel
  have ne : ∀ x ∈ toyArchive.plan, ∀ Q, (exWinK flt).placeOf x.1 = some Q → ∃ c, Q = [cs ['c', ':'], cs ['d'], [c]] ∧ [c] ≠ cs ['f'] := by
    intro x hx Q hQ
    obtain ⟨c, hc, tc⟩ := winPlan_places flt x hx
    rw [hc] at hQ
    cases hQ
    exact ⟨c, rfl, by rw [← tc]; exact h1 x hx⟩
  refine ⟨by unfold AllOrd Ordinary; decide +kernel, by decide +kernel, ?_, ?_, ?_⟩
  · intro x hx _ Q hQ
    obtain ⟨c, rfl, hc⟩ := ne x hx Q hQ
    refine ⟨by simpa using hc.symm, fun hp => ?_, fun hp => ?_⟩
    · have := hp.eq_of_length (by rfl)
      exact absurd this (by simpa using hc)
    · have := hp.eq_of_length (by rfl)
      exact absurd this.symm (by simpa using hc)
  · intro x hx _ Q hQ i hi
    obtain ⟨c, rfl, hc⟩ := ne x hx Q hQ
    have := (exWinFS_file hi).1
    simp only [List.cons.injEq, and_true, true_and] at this
    exact absurd this hc
  · intro i hi
    rw [(exWinFS_file hi).2]; decide

/-- The file "F" in "C:\\d" is left alone by an extraction that is killed after 28 calls. -/
example : (winRun (killedAt 28 1) none (onFS exWinFS) []).2.sink.os.fs.holds [cs ['c', ':'], cs ['d'], cs ['f']] = some (.file [1]) := by
  have h := ZipAttempts.step (A := toyArchive) (D := toy false false) (F := 100) (K := winSink (exWinK (killedAt 28 1))) (k := onFS exWinFS) (before := [])
    toyEnv listCons [] toy_honest ZipAttempts.refl .fresh (Or.inl rfl)
  exact C94_win_zip (exWinK_base _) (exWinK_qualifies _) (exWinK_fold _) (winPlan_independent _) exWinFS (exWinFS_fit _) _ _ h _ (exWinFS_bystander _)

end Savior
