import Verif.ZipPath
import Verif.Spec.Retry
/-!
# Resuming a zip extraction from the checkpoint object a run worked with
-/

namespace Savior

/-- The checkpoint object within member `i`: everything before `o` has been written. For stored and deflated files the
source checkpoint may be an earlier one. -/
structure HeldAt (A : Archive) (D : Decomp) (sh : Str → Bool) (ck : ECkpt) (i : Nat) (zf : ZFile) (o : Nat) : Prop where
  file : A.files[i]? = some zf
  what : ((zipFileEntry zf).kind = .file ∧ zf.resumable ∧ o ≤ (zipContent A D zf).1.length ∧
      ck.entry = some { zipFileEntry zf with woff := shownOff sh zf o } ∧
      ∃ o0, StartsAt A D zf ck o0 ∧ (sh zf.name = true → o0 ≤ o) ∧ (sh zf.name = false → o = o0)) ∨
    (o = 0 ∧ ((zipFileEntry zf).kind = .file → ¬ zf.resumable) ∧
      ∃ x, ck.entry = some { zipFileEntry zf with woff := x } ∧ ((zipFileEntry zf).kind ≠ .file → x = 0))

/-- The checkpoint object is for offset `o` of member `i`. -/
def HeldCk (A : Archive) (D : Decomp) (sh : Str → Bool) (ck : ECkpt) (i o : Nat) : Prop :=
  ck.entryIndex = i ∧ ((∃ zf, HeldAt A D sh ck i zf o) ∨ (ck.entry = none ∧ ck.srcCk = none ∧ o = 0))

theorem startsAt_le {A : Archive} {D : Decomp} {zf : ZFile} {ck : ECkpt} {o : Nat} (h : StartsAt A D zf ck o) : o ≤ (zipContent A D zf).1.length := by
  rcases h with ⟨_, rfl⟩ | ⟨c, _, h⟩
  · exact Nat.zero_le _
  · exact fileCk_le h

theorem pathCk_held {A : Archive} {D : Decomp} {sh : Str → Bool} {ck : ECkpt} {i o : Nat} (h : PathCk A D sh ck i o) : HeldCk A D sh ck i o := by
  rcases h with ⟨zf, h⟩ | ⟨h1, h2, h3, h4⟩
  · obtain ⟨c, hc, hf⟩ := h.saved.src
    refine ⟨h.saved.index, Or.inl ⟨zf, h.saved.file, Or.inl ⟨h.kind, ?_, fileCk_le hf, h.entry, o, Or.inr ⟨c, hc, hf⟩, fun _ => Nat.le_refl _, fun _ => rfl⟩⟩⟩
    unfold fileCk at hf
    unfold ZFile.resumable
    cases hm : zf.method <;> simp [hm] at hf ⊢
  · exact ⟨h1, Or.inr ⟨h2, h3, h4⟩⟩

theorem heldCk_le {A : Archive} {D : Decomp} {sh : Str → Bool} {ck : ECkpt} {i o : Nat} (h : HeldCk A D sh ck i o) :
    o = 0 ∨ ∃ zf, A.files[i]? = some zf ∧ (zipFileEntry zf).kind = .file ∧ o ≤ (zipContent A D zf).1.length := by
  rcases h.2 with ⟨zf, h1, h2⟩ | h
  · rcases h2 with ⟨a, _, b, _⟩ | ⟨a, _⟩
    · exact Or.inr ⟨zf, h1, a, b⟩
    · exact Or.inl a
  · exact Or.inl h.2.2

section
variable {K : SinkM} {V : SaveCons} {A : Archive} {D : Decomp}

/-- The checkpoints saved in this run are not after `(i, o)`. -/
def Past (A : Archive) (D : Decomp) (sh : Str → Bool) (log : List Ev) (i o : Nat) : Prop :=
  ∀ c ∈ savedCks log, ∃ i' o', HeldCk A D sh c i' o' ∧ PosLe A sh i' o' i o

theorem Past.say {sh : Str → Bool} {log : List Ev} {i o : Nat} {ev : Ev} (h : Past A D sh log i o) (hev : ∀ ck a, ev ≠ .save ck a) :
    Past A D sh (log ++ [ev]) i o := by
  unfold Past
  rw [savedCks_say _ _ hev]
  exact h

theorem Past.le {sh : Str → Bool} {log : List Ev} {i o i' o' : Nat} (h : Past A D sh log i o) (hle : PosLe A sh i o i' o') : Past A D sh log i' o' := by
  intro c hc
  obtain ⟨a, b, h1, h2⟩ := h c hc
  exact ⟨a, b, h1, h2.trans hle⟩

/-- However a run ends: the checkpoint object and the saved checkpoints can be resumed from. -/
def HeldEnd (A : Archive) (D : Decomp) (P : PathLaw K) (w : XW K V) : Prop :=
  P.Inv w.sink ∧ (∃ i o, HeldCk A D P.shown w.ck i o ∧ HoldsFrom 0 A D P.shown (P.node w.sink) i o) ∧
  ∃ i o, Past A D P.shown w.log i o ∧ HoldsFrom 0 A D P.shown (P.node w.sink) i o

/-- Before member `i`. -/
def HeldBeg (A : Archive) (D : Decomp) (P : PathLaw K) (i : Nat) (w : XW K V) : Prop :=
  ∃ o, HoldsFrom 0 A D P.shown (P.node w.sink) i o ∧ Past A D P.shown w.log i o ∧
    ((o = 0 ∧ w.ck.entry = none ∧ w.ck.srcCk = none ∧ ∃ j : Nat, w.ck.entryIndex = j ∧ j ≤ i) ∨
      (w.ck.entryIndex = i ∧ ∃ zf, HeldAt A D P.shown w.ck i zf o)) ∧ P.Inv w.sink

theorem HeldBeg.bad {P : PathLaw K} {i : Nat} {w : XW K V} (h : HeldBeg A D P i w) : HeldEnd A D P w := by
  obtain ⟨o, h1, h2, h3, h4⟩ := h
  refine ⟨h4, ?_, i, o, h2, h1⟩
  rcases h3 with ⟨rfl, a, b, j, c, d⟩ | ⟨a, b⟩
  · refine ⟨j, 0, ⟨c, Or.inr ⟨a, b, rfl⟩⟩, h1.mono (Or.inl rfl) ?_ (Nat.zero_le _)⟩
    rcases Nat.lt_or_ge j i with h | h
    · exact Or.inl h
    · exact Or.inr ⟨by omega, Or.inl (Nat.le_refl _)⟩
  · exact ⟨i, o, ⟨a, Or.inl b⟩, h1⟩

/-- The entry a member is extracted with. -/
theorem HeldBeg.entry {P : PathLaw K} {i : Nat} {zf : ZFile} {w : XW K V} (h : HeldBeg A D P i w) (hzf : A.files[i]? = some zf) :
    ∃ o, HoldsFrom 0 A D P.shown (P.node w.sink) i o ∧ Past A D P.shown w.log i o ∧ P.Inv w.sink ∧
      (((zipFileEntry zf).kind = .file ∧ zf.resumable ∧ o ≤ (zipContent A D zf).1.length ∧
        w.ck.entry.getD (zipFileEntry zf) = { zipFileEntry zf with woff := shownOff P.shown zf o } ∧
        ∃ o0, StartsAt A D zf w.ck o0 ∧ (P.shown zf.name = true → o0 ≤ o) ∧ (P.shown zf.name = false → o = o0)) ∨
      (o = 0 ∧ ((zipFileEntry zf).kind = .file → ¬ zf.resumable) ∧
        ∃ x, w.ck.entry.getD (zipFileEntry zf) = { zipFileEntry zf with woff := x } ∧ ((zipFileEntry zf).kind ≠ .file → x = 0))) := by
  obtain ⟨o, h1, h2, h3, h4⟩ := h
  refine ⟨o, h1, h2, h4, ?_⟩
  rcases h3 with ⟨rfl, a, b, _⟩ | ⟨_, zf', c, d⟩
  · rw [a]
    by_cases hk : (zipFileEntry zf).kind = .file ∧ zf.resumable
    · refine Or.inl ⟨hk.1, hk.2, Nat.zero_le _, ?_, 0, Or.inl ⟨b, rfl⟩, fun _ => Nat.le_refl _, fun _ => rfl⟩
      unfold shownOff
      split <;> rfl
    · exact Or.inr ⟨rfl, fun x y => hk ⟨x, y⟩, 0, rfl, fun _ => rfl⟩
  · obtain rfl : zf = zf' := Option.some.inj (hzf.symm.trans c)
    rcases d with ⟨d1, d2, d3, d4, d5⟩ | ⟨d1, d2, x, d3, d4⟩
    · exact Or.inl ⟨d1, d2, d3, by rw [d4]; rfl, d5⟩
    · exact Or.inr ⟨d1, d2, x, by rw [d3]; rfl, d4⟩

/-- Entering a member changes nothing else. -/
theorem HeldBeg.enter {P : PathLaw K} {i : Nat} {zf : ZFile} {w : XW K V} (h : HeldBeg A D P i w) (hzf : A.files[i]? = some zf) :
    HeldBeg A D P i (zipEnter i zf w) := by
  obtain ⟨o, h1, h2, h3, h4⟩ := h.entry hzf
  refine ⟨o, h1, h2, Or.inr ⟨rfl, zf, hzf, ?_⟩, h3⟩
  rcases h4 with ⟨a, b, c, d, e⟩ | ⟨a, b, x, d, e⟩
  · exact Or.inl ⟨a, b, c, congrArg some d, e⟩
  · exact Or.inr ⟨a, b, x, congrArg some d, e⟩

/-- The steps of an extraction into a path sink. -/
def heldSteps (env : ZEnv) (hh : env.Honest A) (total : Int) (P : PathLaw K) (hfit : P.FitsAll A) (V : SaveCons) : ZipSteps A D env total K V where
  Beg i w := HeldBeg A D P i w
  Mid i _ o w := ∃ zf, A.files[i]? = some zf ∧ (zipFileEntry zf).kind = .file ∧ zf.resumable ∧ Written 0 A D P zf i o w.sink ∧ Past A D P.shown w.log i o ∧
    o ≤ (zipContent A D zf).1.length ∧ w.ck.entryIndex = i ∧ w.ck.entry = some { zipFileEntry zf with woff := shownOff P.shown zf o } ∧
    ∃ o1, StartsAt A D zf w.ck o1 ∧ (P.shown zf.name = true → o1 ≤ o)
  Cop i xs w := ∃ zf, A.files[i]? = some zf ∧ (zipFileEntry zf).kind = .file ∧ ¬ zf.resumable ∧ HoldsFrom 0 A D P.shown (P.node w.sink) i 0 ∧
    Past A D P.shown w.log i 0 ∧
    (P.shown zf.name = true → P.node w.sink zf.name = some (.file xs) ∧ P.At w.sink zf.name xs.length) ∧
    (P.shown zf.name = false → P.Deaf w.sink) ∧ P.Inv w.sink ∧ w.ck.entryIndex = i ∧ ∃ x, w.ck.entry = some { zipFileEntry zf with woff := x }
  Bad w := HeldEnd A D P w
  beg_bad := fun _ _ h => h.bad
  beg_kind := by
    intro i zf w h hzf
    obtain ⟨o, _, _, _, h1⟩ := h.entry hzf
    rcases h1 with ⟨_, _, _, h1, _⟩ | ⟨_, _, x, h1, _⟩ <;> rw [h1]
  beg_src := by
    intro i zf w h hzf hr hk
    obtain ⟨o, _, _, _, h1⟩ := h.entry hzf
    rcases h1 with ⟨_, _, _, _, o0, h1, _⟩ | ⟨_, h1, _⟩
    · exact ⟨o0, h1⟩
    · exact absurd hr (h1 hk)
  enter_bad := fun _ _ _ h hzf => (h.enter hzf).bad
  zero_bad := by
    intro i zf w h hzf _ hk hrs
    obtain ⟨o, h1, h2, h3, h4⟩ := h.entry hzf
    refine ⟨h3, ?_, i, o, h2, h1⟩
    refine ⟨i, 0, ⟨rfl, Or.inl ⟨zf, hzf, Or.inr ⟨rfl, fun _ => hrs, 0, ?_, fun _ => rfl⟩⟩⟩, h1.zero⟩
    show some { w.ck.entry.getD (zipFileEntry zf) with woff := 0 } = _
    rcases h4 with ⟨_, a, _⟩ | ⟨_, _, x, d, _⟩
    · exact absurd a hrs
    · rw [d]
  mkdir := by
    rintro i zf w h hzf _ hk w' rfl
    obtain ⟨o, h2, h3, hinv, h5⟩ := h.entry hzf
    have hkf : (zipFileEntry zf).kind ≠ .file := by rw [hk]; nofun
    have hx : o = 0 ∧ w.ck.entry.getD (zipFileEntry zf) = { zipFileEntry zf with woff := 0 } := by
      rcases h5 with ⟨a, _⟩ | ⟨a, _, x, b, c⟩
      · exact absurd a hkf
      · rw [c hkf] at b; exact ⟨a, b⟩
    obtain ⟨rfl, h1⟩ := hx
    have hcur := h3.say (ev := .mkdir (w.ck.entry.getD (zipFileEntry zf)) (K.mkdir (w.ck.entry.getD (zipFileEntry zf)) w.sink).1) (by simp)
    have hpath : (w.ck.entry.getD (zipFileEntry zf)).path = zf.name := by rw [h1]; rfl
    have hmem := List.mem_of_getElem? hzf
    have hf : P.Fits (w.ck.entry.getD (zipFileEntry zf)).path .dir := by rw [hpath, ← hk]; exact hfit zf hmem
    have hfr : ∀ z ∈ A.files, ∀ n, z.name ≠ zf.name → P.node w.sink z.name = some n →
        P.node (K.mkdir (w.ck.entry.getD (zipFileEntry zf)) w.sink).2 z.name = some n := by
      intro z hz n hp; exact P.mkdir_frame _ _ _ _ _ hinv hf (hfit z hz) (by rw [hpath]; exact hp)
    have hinv' := P.mkdir_inv _ _ hinv hf
    refine ⟨fun hok => ⟨0, h2.next hzf hfr (fun hs _ => ?_), hcur.le (Or.inl (by omega)), Or.inl ⟨rfl, rfl, rfl, i, rfl, Nat.le_succ i⟩, hinv'⟩, fun _ => ?_⟩
    · have := P.mkdir_ok _ _ hinv hf (by rw [hpath]; exact hs) hok
      rw [hpath] at this
      unfold zipNodeOf
      rw [hk]; exact this
    · have hh0 := h2.frame hzf hfr (fun h => absurd h (Nat.lt_irrefl 0))
      exact ⟨hinv', ⟨i, 0, ⟨rfl, Or.inl ⟨zf, hzf, Or.inr ⟨rfl, fun h => absurd h hkf, 0, congrArg some h1, fun _ => rfl⟩⟩⟩, hh0⟩, i, 0, hcur, hh0⟩
  symlink := by
    rintro i zf w chunks h hzf _ hk hop w' rfl
    obtain ⟨o, h2, h3, hinv, h5⟩ := h.entry hzf
    have hkf : (zipFileEntry zf).kind ≠ .file := by rw [hk]; nofun
    have hx : o = 0 ∧ w.ck.entry.getD (zipFileEntry zf) = { zipFileEntry zf with woff := 0 } := by
      rcases h5 with ⟨a, _⟩ | ⟨a, _, x, b, c⟩
      · exact absurd a hkf
      · rw [c hkf] at b; exact ⟨a, b⟩
    obtain ⟨rfl, h1⟩ := hx
    have hcur := h3.say (ev := .symlink (w.ck.entry.getD (zipFileEntry zf)) chunks.flatten (K.symlink (w.ck.entry.getD (zipFileEntry zf)) chunks.flatten w.sink).1) (by simp)
    have hpath : (w.ck.entry.getD (zipFileEntry zf)).path = zf.name := by rw [h1]; rfl
    have hmem := List.mem_of_getElem? hzf
    have hf : P.Fits (w.ck.entry.getD (zipFileEntry zf)).path .symlink := by rw [hpath, ← hk]; exact hfit zf hmem
    have hfr : ∀ z ∈ A.files, ∀ n, z.name ≠ zf.name → P.node w.sink z.name = some n →
        P.node (K.symlink (w.ck.entry.getD (zipFileEntry zf)) chunks.flatten w.sink).2 z.name = some n := by
      intro z hz n hp; exact P.symlink_frame _ _ _ _ _ _ hinv hf (hfit z hz) (by rw [hpath]; exact hp)
    have hinv' := P.symlink_inv _ chunks.flatten _ hinv hf
    refine ⟨fun hok => ⟨0, h2.next hzf hfr (fun hs _ => ?_), hcur.le (Or.inl (by omega)), Or.inl ⟨rfl, rfl, rfl, i, rfl, Nat.le_succ i⟩, hinv'⟩, fun _ => ?_⟩
    · have := P.symlink_ok _ _ _ hinv hf (by rw [hpath]; exact hs) (by rw [h1]) hok
      rw [hpath, hh i zf hzf chunks hop] at this
      unfold zipNodeOf
      rw [hk]
      rw [hh i zf hzf chunks hop]
      exact this
    · have hh0 := h2.frame hzf hfr (fun h => absurd h (Nat.lt_irrefl 0))
      exact ⟨hinv', ⟨i, 0, ⟨rfl, Or.inl ⟨zf, hzf, Or.inr ⟨rfl, fun h => absurd h hkf, 0, congrArg some h1, fun _ => rfl⟩⟩⟩, hh0⟩, i, 0, hcur, hh0⟩
  open_ := by
    intro i zf w o0 oc h hzf _ hk hrs hsa hoc
    obtain ⟨o, h2, h3, hinv, h5⟩ := h.entry hzf
    rcases h5 with ⟨_, _, hlen0, h1, o0', hsa', hle, heq⟩ | ⟨_, h5, _⟩
    rotate_left
    · exact absurd hrs (h5 hk)
    obtain rfl := startsAt_unique hsa hsa'
    have hcur := h3.say (ev := .openW (w.ck.entry.getD (zipFileEntry zf)) (K.getWriter (w.ck.entry.getD (zipFileEntry zf)) w.sink).1) (by simp)
    have hpath : (w.ck.entry.getD (zipFileEntry zf)).path = zf.name := by rw [h1]; rfl
    have hmem := List.mem_of_getElem? hzf
    have hf : P.Fits (w.ck.entry.getD (zipFileEntry zf)).path .file := by rw [hpath, ← hk]; exact hfit zf hmem
    have hfr : ∀ z ∈ A.files, ∀ n, z.name ≠ zf.name → P.node w.sink z.name = some n →
        P.node (K.getWriter (w.ck.entry.getD (zipFileEntry zf)) w.sink).2 z.name = some n := by
      intro z hz n hp; exact P.open_frame _ _ _ _ _ hinv hf (hfit z hz) (by rw [hpath]; exact hp)
    have hinv' := P.open_inv _ _ hinv hf
    have hat : HeldAt A D P.shown (zipOpen (zipEnter i zf w)).2.ck i zf o :=
      ⟨hzf, Or.inl ⟨hk, hrs, hlen0, congrArg some h1, o0, hsa, hle, heq⟩⟩
    cases hs : P.shown zf.name with
    | true =>
      have hso : ∀ o, shownOff P.shown zf o = o := by intro o; unfold shownOff; rw [hs]; rfl
      have hwoff : (w.ck.entry.getD (zipFileEntry zf)).woff = o := by rw [h1, hso]
      have hoc' : oc = o := by
        have := (hoc o hwoff).2.2 (by have := hle hs; omega)
        omega
      subst hoc'
      refine ⟨fun hok _ hlen => ?_, fun hbad => ?_⟩
      · have hok' : (K.getWriter (w.ck.entry.getD (zipFileEntry zf)) w.sink).1 = none := hok
        obtain ⟨c, g1, g2, g3, g4⟩ := P.open_ok _ _ oc hinv hf (by rw [hpath]; exact hs) hwoff hok'
        rw [hpath] at g1 g3 g4
        have hc : Unshadowed A i → c = (zipContent A D zf).1.take oc := by
          intro hu
          rcases Nat.eq_zero_or_pos oc with hz | hz
          · subst hz
            simpa using g2
          · obtain ⟨c0, k1, k2, k3⟩ := h2.part zf hzf hs hu hz
            rw [g4 c0 k1 k2, k3]
        refine ⟨zf, hzf, hk, hrs, ⟨h2.frame hzf hfr ?_, fun _ => ⟨c, g1, g2, g3, hc⟩, fun h => (by rw [hs] at h; cases h), hinv'⟩, hcur, hlen, rfl, ?_, o0, hsa, fun _ => hle hs⟩
        · intro _ _ hu
          exact ⟨c, g1, by omega, by rw [hc hu, List.take_take, Nat.min_self]⟩
        · exact congrArg some h1
      · have hbad' : (K.getWriter (w.ck.entry.getD (zipFileEntry zf)) w.sink).1 ≠ none := hbad
        have hh0 : HoldsFrom 0 A D P.shown (P.node (K.getWriter (w.ck.entry.getD (zipFileEntry zf)) w.sink).2) i oc := by
          refine h2.frame hzf hfr ?_
          intro hpos _ hu
          obtain ⟨c0, k1, k2, k3⟩ := h2.part zf hzf hs hu hpos
          have := P.open_fail _ _ oc hinv hf (by rw [hpath]; exact hs) hwoff hbad' c0 (by rw [hpath]; exact k1) k2
          rw [hpath] at this
          obtain ⟨c, g1, g2, g3⟩ := this
          exact ⟨c, g1, g2, by rw [g3, k3]⟩
        exact ⟨hinv', ⟨i, oc, ⟨rfl, Or.inl ⟨zf, hat⟩⟩, hh0⟩, i, oc, hcur, hh0⟩
    | false =>
      have hso : ∀ o, shownOff P.shown zf o = 0 := by intro o; unfold shownOff; rw [hs]; rfl
      have hhold : HoldsFrom 0 A D P.shown (P.node (K.getWriter (w.ck.entry.getD (zipFileEntry zf)) w.sink).2) i 0 :=
        h2.zero.frame hzf hfr (fun h => absurd h (Nat.lt_irrefl 0))
      refine ⟨fun hok _ hlen => ?_, fun hbad => ⟨hinv', ⟨i, o, ⟨rfl, Or.inl ⟨zf, hat⟩⟩, hhold.hidden hzf hs⟩, i, o, hcur, hhold.hidden hzf hs⟩⟩
      refine ⟨zf, hzf, hk, hrs, ⟨hhold.hidden hzf hs, fun h => (by rw [hs] at h; cases h), fun _ => ?_, hinv'⟩,
        hcur.le (Or.inr ⟨rfl, Or.inr ⟨zf, hzf, hs⟩⟩), hlen, rfl, ?_, o0, hsa, fun h => (by rw [hs] at h; cases h)⟩
      · exact P.open_deaf _ _ hinv hf (by rw [hpath]; exact hs) hok
      · show some (w.ck.entry.getD (zipFileEntry zf)) = _
        rw [h1, hso, hso]
  save := by
    rintro i zf' w o0 o c ⟨zf, h1, h2, hrs, h3, h4, hlen, hi, h5, _⟩ hzf ho _ hc _ _ _
    obtain rfl : zf = zf' := Option.some.inj (h1.symm.trans hzf)
    have hst := zipOnSave_log total c w
    have hkeep : (zipOnSave total c w).1.sink = (K.sync w.sink).2 ∧ (zipOnSave total c w).1.ck.entry = w.ck.entry ∧
        (zipOnSave total c w).1.ck.entryIndex = w.ck.entryIndex ∧ (zipOnSave total c w).1.ck.srcCk = some c := by
      unfold zipOnSave
      simp only
      split
      · exact ⟨rfl, rfl, rfl, rfl⟩
      · split <;> exact ⟨rfl, rfl, rfl, rfl⟩
    obtain ⟨s0, s1, s2, s3⟩ := P.sync_spec w.sink h3.inv
    refine ⟨zf, h1, h2, hrs, ?_, ?_, hlen, by rw [hkeep.2.2.1]; exact hi, by rw [hkeep.2.1]; exact h5, o, Or.inr ⟨c, hkeep.2.2.2, hc⟩, fun _ => Nat.le_refl _⟩
    · rw [hkeep.1]
      obtain ⟨k1, k2, k3, k4⟩ := h3
      refine ⟨by rw [s1]; exact k1, fun hs => ?_, fun hs => s3 (k3 hs), s0⟩
      obtain ⟨cc, k2, k3, k4, k5⟩ := k2 hs
      exact ⟨cc, by rw [s1]; exact k2, k3, s2 _ _ k4, k5⟩
    · rcases hst with ⟨y, e1, _⟩ | ⟨a, e1, _⟩
      · rw [e1]; exact h4.say (by simp)
      · rw [e1]
        intro x hx
        rw [savedCks_save] at hx
        rcases List.mem_append.mp hx with hx | hx
        · exact h4.say (ev := .sync .none) (by simp) x hx
        · rw [List.mem_singleton] at hx; subst hx
          exact ⟨i, o, ⟨hi, Or.inl ⟨zf, h1, Or.inl ⟨h2, hrs, hlen, h5, o, Or.inr ⟨c, rfl, hc⟩, fun _ => Nat.le_refl _, fun _ => rfl⟩⟩⟩, .refl ..⟩
  write := by
    rintro i zf' w o0 o bs ⟨zf, h1, h2, hrs, ⟨k1, kn, kd, kinv⟩, h4, hlen, hi, h5, o1, hsa, hle⟩ hzf hbs hol
    obtain rfl : zf = zf' := Option.some.inj (h1.symm.trans hzf)
    have hcur := h4.say (ev := .write bs (K.write bs w.sink).1.1 (K.write bs w.sink).1.2.2) (by simp)
    have hmem := List.mem_of_getElem? h1
    cases hs : P.shown zf.name with
    | true =>
      have hso : ∀ o, shownOff P.shown zf o = o := by intro o; unfold shownOff; rw [hs]; rfl
      obtain ⟨c, k2, k3, k4, k5⟩ := kn hs
      subst k3
      obtain ⟨k, g1, g2, g3, g4, g5, g0, g6⟩ := P.write_spec bs w.sink zf.name c kinv (by rw [← h2]; exact hfit zf hmem) k2 k4
      have g6' : ∀ z ∈ A.files, ∀ n, z.name ≠ zf.name → P.node w.sink z.name = some n → P.node (K.write bs w.sink).2 z.name = some n :=
        fun z hz n hne => g6 _ _ n (hfit z hz) hne
      have hcc : Unshadowed A i → c ++ bs.take k = (zipContent A D zf).1.take (c.length + k) := by
        intro hu
        rw [List.take_add, ← k5 hu]
        congr 1
        have := congrArg (List.take k) hbs
        rw [this, List.take_take, Nat.min_eq_left g1]
      have hhold : HoldsFrom 0 A D P.shown (P.node (K.write bs w.sink).2) i (c.length + k) := by
        refine ⟨(k1.zero.frame h1 g6' (fun h => absurd h (Nat.lt_irrefl 0))).done, ?_⟩
        intro z hz _ hu hpos
        obtain rfl : zf = z := Option.some.inj (h1.symm.trans hz)
        refine ⟨c ++ bs.take k, g2, ?_, by rw [hcc hu, List.take_take, Nat.min_self]⟩
        rw [List.length_append, List.length_take, Nat.min_eq_left g1]
        exact Nat.le_refl _
      have hent : (w.write bs).2.ck.entry = some { zipFileEntry zf with woff := shownOff P.shown zf (c.length + k) } := by
        show w.ck.entry.map _ = _
        rw [h5, g4, hso, hso]
        simp
      have hcur' : Past A D P.shown (w.write bs).2.log i (c.length + k) := hcur.le (Or.inr ⟨rfl, Or.inl (by omega)⟩)
      refine ⟨fun hok => ?_, fun _ => ?_⟩
      · have hok' : (K.write bs w.sink).1.2.2 = none := hok
        obtain ⟨hk, _⟩ := g5 hok'
        subst hk
        rw [List.take_length] at g2 hcc
        exact ⟨zf, h1, h2, hrs, ⟨hhold, fun _ => ⟨c ++ bs, g2, by simp, g3, hcc⟩, fun h => (by rw [hs] at h; cases h), g0⟩,
          hcur', hol, hi, hent, o1, hsa, fun _ => by have := hle hs; omega⟩
      · refine ⟨g0, ⟨i, c.length + k, ⟨hi, Or.inl ⟨zf, h1, Or.inl ⟨h2, hrs, by omega, hent, o1, hsa, fun _ => ?_, fun h => (by rw [hs] at h; cases h)⟩⟩⟩, hhold⟩, i, _, hcur', hhold⟩
        have := hle hs; omega
    | false =>
      have hso : ∀ o, shownOff P.shown zf o = 0 := by intro o; unfold shownOff; rw [hs]; rfl
      obtain ⟨d1, d2, d3, d4⟩ := P.write_deaf bs w.sink kinv (kd hs)
      have hhold : HoldsFrom 0 A D P.shown (P.node (K.write bs w.sink).2) i o := by rw [d3]; exact k1
      have hent : ∀ x, (w.write bs).2.ck.entry = some { zipFileEntry zf with woff := shownOff P.shown zf x } := by
        intro x
        show w.ck.entry.map _ = _
        rw [h5, d4, hso, hso]
        simp
      refine ⟨fun _ => ?_, fun _ => ?_⟩
      · exact ⟨zf, h1, h2, hrs, ⟨hhold.hidden h1 hs, fun h => (by rw [hs] at h; cases h), fun _ => d2, d1⟩,
          hcur.le (Or.inr ⟨rfl, Or.inl (by omega)⟩), hol, hi, hent _, o1, hsa, fun h => (by rw [hs] at h; cases h)⟩
      · exact ⟨d1, ⟨i, o1, ⟨hi, Or.inl ⟨zf, h1, Or.inl ⟨h2, hrs, startsAt_le hsa, hent _, o1, hsa, fun _ => Nat.le_refl _, fun _ => rfl⟩⟩⟩, hhold.hidden h1 hs⟩, i, o, hcur, hhold⟩
  should := fun _ _ _ _ _ h => h
  emit := by
    rintro i w o0 o ⟨zf, h1, h2, hrs, h3, h4, h⟩
    exact ⟨zf, h1, h2, hrs, h3, h4.say (by simp), h⟩
  mid_bad := by
    rintro i w o0 o ⟨zf, h1, h2, hrs, h3, h4, hlen, hi, h5, o1, hsa, hle⟩
    refine ⟨h3.inv, ?_, i, o, h4, h3.holds⟩
    cases hs : P.shown zf.name with
    | true => exact ⟨i, o, ⟨hi, Or.inl ⟨zf, h1, Or.inl ⟨h2, hrs, hlen, h5, o1, hsa, hle, fun h => (by rw [hs] at h; cases h)⟩⟩⟩, h3.holds⟩
    | false =>
      refine ⟨i, o1, ⟨hi, Or.inl ⟨zf, h1, Or.inl ⟨h2, hrs, startsAt_le hsa, ?_, o1, hsa, fun _ => Nat.le_refl _, fun _ => rfl⟩⟩⟩, h3.holds.hidden h1 hs⟩
      rw [h5]
      unfold shownOff
      rw [hs]
      rfl
  mid_stop := by
    rintro i zf' w o0 o ⟨zf, h1, h2, hrs, h3, h4, hlen, hi, h5, o1, hsa, hle⟩ _ _
    exact ⟨h3.inv, ⟨i, 0, ⟨hi, Or.inr ⟨rfl, rfl, rfl⟩⟩, h3.holds.zero⟩, i, o, h4, h3.holds⟩
  mid_end := by
    rintro i zf' w o0 ⟨zf, h1, h2, hrs, ⟨k1, kn, kd, kinv⟩, h4, hlen, hi, h5, _⟩ hzf _ hse
    obtain rfl : zf = zf' := Option.some.inj (h1.symm.trans hzf)
    refine ⟨0, ?_, h4.le (Or.inl (by omega)), Or.inl ⟨rfl, rfl, rfl, i, hi, Nat.le_succ i⟩, kinv⟩
    refine k1.zero.next h1 (fun _ _ _ _ h => h) (fun hs hu => ?_)
    obtain ⟨c, k2, k3, k4, k5⟩ := kn hs
    unfold zipNodeOf
    rw [h2]
    have := k5 hu
    rw [List.take_length] at this
    rw [← this]; exact k2
  copy := by
    intro i zf w h hzf _ hk hrs
    obtain ⟨o, h2, h3, hinv, h5⟩ := h.entry hzf
    have hx : o = 0 ∧ ∃ x, w.ck.entry.getD (zipFileEntry zf) = { zipFileEntry zf with woff := x } := by
      rcases h5 with ⟨_, a, _⟩ | ⟨a, _, x, b, _⟩
      · exact absurd a hrs
      · exact ⟨a, x, b⟩
    obtain ⟨rfl, x, h1⟩ := hx
    have hcur := h3.say (ev := .openW { w.ck.entry.getD (zipFileEntry zf) with woff := 0 } (K.getWriter { w.ck.entry.getD (zipFileEntry zf) with woff := 0 } w.sink).1) (by simp)
    have hpath : (w.ck.entry.getD (zipFileEntry zf)).path = zf.name := by rw [h1]; rfl
    have hmem := List.mem_of_getElem? hzf
    have hf : P.Fits ({ w.ck.entry.getD (zipFileEntry zf) with woff := 0 } : Entry).path .file := by
      show P.Fits (w.ck.entry.getD (zipFileEntry zf)).path .file
      rw [hpath, ← hk]; exact hfit zf hmem
    have hfr : ∀ z ∈ A.files, ∀ n, z.name ≠ zf.name → P.node w.sink z.name = some n →
        P.node (K.getWriter { w.ck.entry.getD (zipFileEntry zf) with woff := 0 } w.sink).2 z.name = some n := by
      intro z hz n hp
      exact P.open_frame _ _ _ _ _ hinv hf (hfit z hz) (by show z.name ≠ (w.ck.entry.getD (zipFileEntry zf)).path; rw [hpath]; exact hp)
    have hinv' := P.open_inv _ _ hinv hf
    have hh0 := h2.frame hzf hfr (fun h => absurd h (Nat.lt_irrefl 0))
    have hent : (zipOpen (zipZero (zipEnter i zf w))).2.ck.entry = some { zipFileEntry zf with woff := 0 } := by
      show some { w.ck.entry.getD (zipFileEntry zf) with woff := 0 } = _
      rw [h1]
    refine ⟨fun hok => ?_, fun _ => ⟨hinv', ⟨i, 0, ⟨rfl, Or.inl ⟨zf, hzf, Or.inr ⟨rfl, fun _ => hrs, 0, hent, fun _ => rfl⟩⟩⟩, hh0⟩, i, 0, hcur, hh0⟩⟩
    have hok' : (K.getWriter { w.ck.entry.getD (zipFileEntry zf) with woff := 0 } w.sink).1 = none := hok
    refine ⟨zf, hzf, hk, hrs, hh0, hcur, fun hs => ?_, fun hs => ?_, hinv', rfl, 0, hent⟩
    · obtain ⟨c, g1, g2, g3, _⟩ := P.open_ok _ _ 0 hinv hf (by show P.shown (w.ck.entry.getD (zipFileEntry zf)).path = true; rw [hpath]; exact hs) rfl hok'
      have g1' : P.node (K.getWriter { w.ck.entry.getD (zipFileEntry zf) with woff := 0 } w.sink).2 zf.name = some (.file c) := by rw [← hpath]; exact g1
      have g3' : P.At (K.getWriter { w.ck.entry.getD (zipFileEntry zf) with woff := 0 } w.sink).2 zf.name 0 := by rw [← hpath]; exact g3
      have hc : c = [] := List.length_eq_zero_iff.mp g2
      subst hc
      exact ⟨g1', g3'⟩
    · exact P.open_deaf _ _ hinv hf (by show P.shown (w.ck.entry.getD (zipFileEntry zf)).path = false; rw [hpath]; exact hs) hok'
  copy_write := by
    rintro i w xs bs ⟨zf, h1, h2, hrs, h3, h4, h5, h6, hinv, hi, x, hx⟩ _
    have hcur := h4.say (ev := .write bs (K.write bs w.sink).1.1 (K.write bs w.sink).1.2.2) (by simp)
    have hmem := List.mem_of_getElem? h1
    have hent : ∃ y, (w.write bs).2.ck.entry = some { zipFileEntry zf with woff := y } := by
      have : ∃ f : Entry → Int, (w.write bs).2.ck.entry = w.ck.entry.map fun e => { e with woff := f e } := ⟨_, rfl⟩
      obtain ⟨f, hf⟩ := this
      rw [hf, hx]
      exact ⟨_, rfl⟩
    obtain ⟨y, hy⟩ := hent
    have hheld : HeldCk A D P.shown (w.write bs).2.ck i 0 := ⟨hi, Or.inl ⟨zf, h1, Or.inr ⟨rfl, fun _ => hrs, y, hy, fun h => absurd h2 h⟩⟩⟩
    cases hs : P.shown zf.name with
    | true =>
      obtain ⟨k2, k4⟩ := h5 hs
      obtain ⟨k, g1, g2, g3, g4, g5, g0, g6⟩ := P.write_spec bs w.sink zf.name xs hinv (by rw [← h2]; exact hfit zf hmem) k2 k4
      have hh0 := h3.frame h1 (fun z hz n hne => g6 _ _ n (hfit z hz) hne) (fun h => absurd h (Nat.lt_irrefl 0))
      refine ⟨fun hok _ => ?_, g0, ⟨i, 0, hheld, hh0⟩, i, 0, hcur, hh0⟩
      have hok' : (K.write bs w.sink).1.2.2 = none := hok
      obtain ⟨hk, _⟩ := g5 hok'
      subst hk
      rw [List.take_length] at g2
      exact ⟨zf, h1, h2, hrs, hh0, hcur, fun _ => ⟨g2, by rw [List.length_append]; exact g3⟩, fun h => (by rw [hs] at h; cases h), g0, hi, y, hy⟩
    | false =>
      obtain ⟨d1, d2, d3, d4⟩ := P.write_deaf bs w.sink hinv (h6 hs)
      have hh0 : HoldsFrom 0 A D P.shown (P.node (K.write bs w.sink).2) i 0 := by rw [d3]; exact h3
      exact ⟨fun _ _ => ⟨zf, h1, h2, hrs, hh0, hcur, fun h => (by rw [hs] at h; cases h), fun _ => d2, d1, hi, y, hy⟩, d1, ⟨i, 0, hheld, hh0⟩, i, 0, hcur, hh0⟩
  copy_bad := by
    rintro i w xs ⟨zf, h1, h2, hrs, h3, h4, _, _, hinv, hi, x, hx⟩
    exact ⟨hinv, ⟨i, 0, ⟨hi, Or.inl ⟨zf, h1, Or.inr ⟨rfl, fun _ => hrs, x, hx, fun h => absurd h2 h⟩⟩⟩, h3⟩, i, 0, h4, h3⟩
  copy_end := by
    rintro i zf' w chunks ⟨zf, h1, h2, hrs, h3, h4, h5, h6, hinv, hi, _⟩ hzf hop
    obtain rfl : zf = zf' := Option.some.inj (h1.symm.trans hzf)
    refine ⟨0, h3.next h1 (fun _ _ _ _ h => h) (fun hs _ => ?_), h4.le (Or.inl (by omega)), Or.inl ⟨rfl, rfl, rfl, i, hi, Nat.le_succ i⟩, hinv⟩
    have h5 := (h5 hs).1
    rw [hh i zf h1 chunks hop] at h5
    unfold zipNodeOf zipContent
    rw [h2]
    unfold ZFile.resumable at hrs
    cases hm : zf.method <;> simp [hm] at hrs ⊢ <;> exact h5

/-- What is in hand can be resumed from. -/
def HeldOK (A : Archive) (D : Decomp) (P : PathLaw K) (ck : Option ECkpt) (k : K.St) : Prop :=
  P.Inv k ∧ ∀ c, ck = some c → ∃ i o, HeldCk A D P.shown c i o ∧ HoldsFrom 0 A D P.shown (P.node k) i o

/-- What one run does. -/
theorem zipResume_held {F : Nat} (hwf : ZipWF A D F) (env : ZEnv) (hh : env.Honest A) (P : PathLaw K) (hfit : P.FitsAll A)
    (ck : Option ECkpt) (k : K.St) (u : V.St) (hok : HeldOK A D P ck k) :
    HeldEnd A D P (zipResume A env D F K V ck k u).2 ∧
    (∀ res, (zipResume A env D F K V ck k u).1 = .ok res → HoldsFrom 0 A D P.shown (P.node (zipResume A env D F K V ck k u).2.sink) A.files.length 0) := by
  obtain ⟨hinv, hck⟩ := hok
  have key := zipResume_steps hwf (heldSteps env hh (zipSum A.files) P hfit V) ck k u ?_
  · refine ⟨key.1, ?_⟩
    intro res hres
    obtain ⟨_, _, j, hj, o, hb, _⟩ := key.2.1 res hres
    exact ⟨fun h z hl hlt hz hs hu => hb.done h z hl (by omega) hz hs hu, fun _ _ _ _ h => absurd h (Nat.lt_irrefl 0)⟩
  · intro r hr
    obtain ⟨h1, h2, h3, _⟩ := zipPrepare_log A ck k u r hr
    have hsv : savedCks r.2.log = [] := by unfold savedCks; rw [saves_prealloc _ h1]; rfl
    have hpast : ∀ i o, Past A D P.shown r.2.log i o := by
      intro i o c hc
      rw [hsv] at hc; cases hc
    have hbeg : ∃ i : Nat, (ck.getD freshCk).entryIndex = i ∧ HeldBeg A D P i r.2 := by
      cases ck with
      | none =>
        have hi : P.Inv r.2.sink := by
          subst hr
          exact zipPrealloc_inv P hfit A.files _ (fun _ h => h) hinv
        exact ⟨0, rfl, 0, .nothing .., hpast _ _, Or.inl ⟨rfl, by rw [h2]; rfl, by rw [h2]; rfl, 0, by rw [h2]; rfl, Nat.le_refl _⟩, hi⟩
      | some c =>
        have hsink : r.2.sink = k := by
          subst hr
          rfl
        obtain ⟨i, o, hc, hhold⟩ := hck c rfl
        rw [← hsink] at hhold hinv
        refine ⟨i, hc.1, o, hhold, hpast _ _, ?_, hinv⟩
        rw [h2]
        rcases hc.2 with ⟨zf, h⟩ | ⟨a, b, d⟩
        · exact Or.inr ⟨hc.1, zf, h⟩
        · exact Or.inl ⟨d, a, b, i, hc.1, Nat.le_refl _⟩
    obtain ⟨i, hi, hb⟩ := hbeg
    exact ⟨hb.bad, fun _ => ⟨i, hi, hb⟩, h3⟩

end
end Savior
