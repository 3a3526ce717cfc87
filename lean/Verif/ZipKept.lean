import Verif.ZipPath
/-!
# The checkpoints of zip runs: no `Data`, and write offsets within the member
-/

namespace Savior

/-- A saved checkpoint of a zip run: no `Data`, a write offset that is not beyond the source checkpoint's. -/
def KeptCk (A : Archive) (D : Decomp) (c : ECkpt) : Prop := c.data = none ∧ ∃ i zf o x, SavedCk A D c i zf o ∧ (zipFileEntry zf).kind = .file ∧
  c.entry = some { zipFileEntry zf with woff := x } ∧ 0 ≤ x ∧ x ≤ o

section
variable {K : SinkM} {V : SaveCons}

/-- All saved checkpoints are of this form. -/
def KeptLog (A : Archive) (D : Decomp) (log : List Ev) : Prop := ∀ s ∈ saves log, KeptCk A D s.1

theorem KeptLog.say {A : Archive} {D : Decomp} {log : List Ev} (h : KeptLog A D log) {ev : Ev} (h1 : saves [ev] = []) : KeptLog A D (log ++ [ev]) := by
  unfold KeptLog
  rw [saves_append, h1, List.append_nil]; exact h

/-- Where a run is before member `i`. -/
def KeptAt (A : Archive) (D : Decomp) (i : Nat) (ck : ECkpt) : Prop :=
  ck.data = none ∧ ((ck.entry = none ∧ ck.srcCk = none) ∨
  ∃ zf o x, SavedCk A D ck i zf o ∧ (zipFileEntry zf).kind = .file ∧ ck.entry = some { zipFileEntry zf with woff := x } ∧ 0 ≤ x ∧ x ≤ o)

theorem keptAt_entry {A : Archive} {D : Decomp} {i : Nat} {zf : ZFile} {ck : ECkpt} (h : KeptAt A D i ck)
    (hzf : A.files[i]? = some zf) : ∃ x, ck.entry.getD (zipFileEntry zf) = { zipFileEntry zf with woff := x } ∧
      0 ≤ x ∧ ∃ o : Nat, StartsAt A D zf ck o := by
  rcases h.2 with ⟨h4, h5⟩ | ⟨zf', o, x, h3, hk, h4, h6⟩
  · exact ⟨0, by rw [h4]; rfl, by simp, 0, Or.inl ⟨h5, rfl⟩⟩
  · have := h3.file
    rw [hzf] at this
    cases this
    exact ⟨x, by rw [h4]; rfl, h6.1, o, Or.inr h3.src⟩

/-- The steps of an extraction, with regard to the form of checkpoints. -/
def keptSteps (A : Archive) (D : Decomp) (env : ZEnv) (K : SinkM) (hK : K.Counting) (V : SaveCons)
    (total : Int) : ZipSteps A D env total K V where
  Beg i w := KeptLog A D w.log ∧ KeptAt A D i w.ck
  Mid i _ o w := ∃ zf x, A.files[i]? = some zf ∧ (zipFileEntry zf).kind = .file ∧ KeptLog A D w.log ∧ w.ck.data = none ∧
    w.ck.entryIndex = i ∧ w.ck.entry = some { zipFileEntry zf with woff := x } ∧ 0 ≤ x ∧ x ≤ o
  Cop _ _ w := KeptLog A D w.log ∧ w.ck.data = none
  Bad w := KeptLog A D w.log
  beg_bad := by rintro i w ⟨h, _⟩; exact h
  beg_kind := by
    intro i zf w h hzf
    obtain ⟨x, h1, _⟩ := keptAt_entry h.2 hzf
    rw [h1]
  beg_src := by
    intro i zf w h hzf _ _
    obtain ⟨_, _, _, o, h1⟩ := keptAt_entry h.2 hzf
    exact ⟨o, h1⟩
  enter_bad := by rintro i zf w ⟨h, _⟩ _; exact h
  zero_bad := by rintro i zf w ⟨h, _⟩ _ _ _ _; exact h
  mkdir := by
    rintro i zf w h hzf _ hk w' rfl
    have := h.1.say (ev := .mkdir (w.ck.entry.getD (zipFileEntry zf)) (K.mkdir (w.ck.entry.getD (zipFileEntry zf)) w.sink).1) rfl
    exact ⟨fun _ => ⟨this, h.2.1, Or.inl ⟨rfl, rfl⟩⟩, fun _ => this⟩
  symlink := by
    rintro i zf w chunks h hzf _ hk _ w' rfl
    have := h.1.say (ev := .symlink (w.ck.entry.getD (zipFileEntry zf)) chunks.flatten (K.symlink (w.ck.entry.getD (zipFileEntry zf)) chunks.flatten w.sink).1) rfl
    exact ⟨fun _ => ⟨this, h.2.1, Or.inl ⟨rfl, rfl⟩⟩, fun _ => this⟩
  open_ := by
    intro i zf w o0 oc h hzf _ hk hrs hsa hoc
    obtain ⟨x, h1, h7, _⟩ := keptAt_entry h.2 hzf
    have hl := h.1.say (ev := .openW (w.ck.entry.getD (zipFileEntry zf)) (K.getWriter (w.ck.entry.getD (zipFileEntry zf)) w.sink).1) rfl
    refine ⟨fun _ hle hlen => ?_, fun _ => hl⟩
    rw [h1] at hle
    refine ⟨zf, x, hzf, hk, hl, h.2.1, rfl, ?_, h7, hle⟩
    show some (w.ck.entry.getD (zipFileEntry zf)) = _
    rw [h1]
  save := by
    rintro i zf' w o0 o c ⟨zf, x, h1, h2, h3, hd, hi, h5, h7⟩ hzf ho _ hc _ _ _
    obtain rfl : zf = zf' := Option.some.inj (h1.symm.trans hzf)
    have hst := zipOnSave_log (total := total) c w
    have hkeep : (zipOnSave total c w).1.ck.entry = w.ck.entry ∧
        (zipOnSave total c w).1.ck.entryIndex = w.ck.entryIndex ∧ (zipOnSave total c w).1.ck.data = w.ck.data := by
      unfold zipOnSave
      simp only
      split
      · exact ⟨rfl, rfl, rfl⟩
      · split <;> exact ⟨rfl, rfl, rfl⟩
    refine ⟨zf, x, h1, h2, ?_, by rw [hkeep.2.2]; exact hd, by rw [hkeep.2.1]; exact hi, by rw [hkeep.1]; exact h5, h7⟩
    rcases hst with ⟨y, e1, _⟩ | ⟨a, e1, _⟩
    · rw [e1]; exact h3.say rfl
    · rw [e1]
      have hs := h3.say (ev := .sync none) rfl
      intro s hs'
      rw [saves_append, List.mem_append] at hs'
      rcases hs' with hs' | hs'
      · exact hs s hs'
      · simp [saves] at hs'
        subst hs'
        exact ⟨hd, i, zf, o, x, ⟨h1, hi, ⟨x, h5⟩, c, rfl, hc⟩, h2, h5, h7⟩
  write := by
    rintro i zf' w o0 o bs ⟨zf, x, h1, h2, h3, hd, hi, h5, h7⟩ hzf _ hol
    obtain rfl : zf = zf' := Option.some.inj (h1.symm.trans hzf)
    have hl := h3.say (ev := .write bs (K.write bs w.sink).1.1 (K.write bs w.sink).1.2.2) rfl
    refine ⟨fun hok => ?_, fun _ => hl⟩
    have hk : (K.write bs w.sink).1.2.2 = none := hok
    have a := hK bs w.sink hk
    refine ⟨zf, x + (K.write bs w.sink).1.2.1, h1, h2, hl, hd, hi, ?_, by omega, by push_cast; omega⟩
    show w.ck.entry.map _ = _
    rw [h5]
    rfl
  should := by rintro i w o0 o n h; exact h
  emit := by
    rintro i w o0 o ⟨zf, x, h1, h2, h3, hd, hi, h5, h7⟩
    exact ⟨zf, x, h1, h2, h3.say rfl, hd, hi, h5, h7⟩
  mid_bad := by rintro i w o0 o ⟨zf, x, _, _, h, _⟩; exact h
  mid_stop := by rintro i zf w o0 o ⟨zf, x, _, _, h, _⟩ _ _; exact h
  mid_end := by
    rintro i zf' w o0 ⟨zf, x, h1, h2, h3, hd, _⟩ hzf _ _
    exact ⟨h3, hd, Or.inl ⟨rfl, rfl⟩⟩
  copy := by
    intro i zf w h hzf _ hk hrs
    have hl := h.1.say (ev := .openW { w.ck.entry.getD (zipFileEntry zf) with woff := 0 } (K.getWriter { w.ck.entry.getD (zipFileEntry zf) with woff := 0 } w.sink).1) rfl
    exact ⟨fun _ => ⟨hl, h.2.1⟩, fun _ => hl⟩
  copy_write := by
    rintro i w xs bs ⟨h1, hd⟩ _
    have hl := h1.say (ev := .write bs (K.write bs w.sink).1.1 (K.write bs w.sink).1.2.2) rfl
    exact ⟨fun _ _ => ⟨hl, hd⟩, hl⟩
  copy_bad := by rintro i w xs ⟨h, _⟩; exact h
  copy_end := by
    rintro i zf w chunks ⟨h1, hd⟩ hzf _
    exact ⟨h1, hd, Or.inl ⟨rfl, rfl⟩⟩

theorem zipResume_kept {A : Archive} {D : Decomp} {F : Nat} (hwf : ZipWF A D F) (env : ZEnv) (hK : K.Counting)
    (ck : Option ECkpt) (hck : ∀ c, ck = some c → KeptCk A D c) (k : K.St) (u : V.St) :
    KeptLog A D (zipResume A env D F K V ck k u).2.log := by
  have key := (zipResume_steps hwf (keptSteps A D env K hK V _) ck k u ?_).1
  · exact key
  · intro r hr
    obtain ⟨h1, h2, h3, _⟩ := zipPrepare_log A ck k u r hr
    have hsv : saves r.2.log = [] := saves_prealloc _ h1
    have hok : KeptLog A D r.2.log := by
      intro s hs; rw [hsv] at hs; cases hs
    refine ⟨hok, fun _ => ?_, h3⟩
    cases ck with
    | none => exact ⟨0, rfl, hok, by rw [h2]; rfl, Or.inl ⟨by rw [h2]; rfl, by rw [h2]; rfl⟩⟩
    | some c =>
      obtain ⟨hd, i, zf, o, x, hs, hk, he, hx⟩ := hck c rfl
      refine ⟨i, hs.index, hok, by rw [h2]; exact hd, Or.inr ⟨zf, o, x, ?_, hk, ?_, hx⟩⟩
      · rw [h2]; exact hs
      · rw [h2]; exact he

theorem zipSaved_kept {A : Archive} {D : Decomp} {F : Nat} (hwf : ZipWF A D F) {n : Nat} {c : ECkpt}
    (h : ZipSaved A D F SinkM.Counting n c) : KeptCk A D c := by
  induction h with
  | first env K V k u hQ h => exact zipResume_kept (V := V) hwf env hQ none (by simp) k u _ h
  | again env K V k u hQ _ h ih => exact zipResume_kept (V := V) hwf env hQ (some _) (by intro c hc; cases hc; exact ih) k u _ h

end
end Savior
