import Verif.ZipPath
import Verif.Spec.Where
/-!
# Checkpoints of a zip run are aligned: the write offset is the source's offset (for names that are counted)
-/

namespace Savior

/-- A saved checkpoint whose write offset is its source checkpoint's offset. -/
def AlignCk (ct : Str → Bool) (A : Archive) (D : Decomp) (c : ECkpt) : Prop := ∃ i zf o x, SavedCk A D c i zf o ∧ (zipFileEntry zf).kind = .file ∧
  c.entry = some { zipFileEntry zf with woff := x } ∧ x = countedOff ct zf.name o

section
variable {K : SinkM} {V : SaveCons}

/-- All saved checkpoints are aligned. -/
def AlignLog (ct : Str → Bool) (A : Archive) (D : Decomp) (log : List Ev) : Prop := ∀ s ∈ saves log, AlignCk ct A D s.1

theorem AlignLog.say {ct : Str → Bool} {A : Archive} {D : Decomp} {log : List Ev} (h : AlignLog ct A D log) {ev : Ev} (h1 : saves [ev] = []) : AlignLog ct A D (log ++ [ev]) := by
  unfold AlignLog
  rw [saves_append, h1, List.append_nil]; exact h

/-- Where an aligned run is before member `i`. -/
def AlignAt (ct : Str → Bool) (A : Archive) (D : Decomp) (i : Nat) (ck : ECkpt) : Prop :=
  (ck.entry = none ∧ ck.srcCk = none) ∨
  ∃ zf o x, SavedCk A D ck i zf o ∧ (zipFileEntry zf).kind = .file ∧ ck.entry = some { zipFileEntry zf with woff := x } ∧ x = countedOff ct zf.name o

theorem alignAt_entry {ct : Str → Bool} {A : Archive} {D : Decomp} {i : Nat} {zf : ZFile} {ck : ECkpt} (h : AlignAt ct A D i ck)
    (hzf : A.files[i]? = some zf) : ∃ x, ck.entry.getD (zipFileEntry zf) = { zipFileEntry zf with woff := x } ∧
      ∃ o : Nat, StartsAt A D zf ck o ∧ x = countedOff ct zf.name o := by
  rcases h with ⟨h4, h5⟩ | ⟨zf', o, x, h3, hk, h4, h6⟩
  · exact ⟨0, by rw [h4]; rfl, 0, Or.inl ⟨h5, rfl⟩, by simp [countedOff]⟩
  · have := h3.file
    rw [hzf] at this
    cases this
    exact ⟨x, by rw [h4]; rfl, o, Or.inr h3.src, h6⟩

/-- The steps of an extraction, with regard to alignment of checkpoints. -/
def alignSteps (ct : Str → Bool) (A : Archive) (D : Decomp) (env : ZEnv) (K : SinkM) (hK : Counts K ct) (V : SaveCons)
    (total : Int) : ZipSteps A D env total K V where
  Beg i w := AlignLog ct A D w.log ∧ AlignAt ct A D i w.ck
  Mid i _ o w := ∃ zf x, A.files[i]? = some zf ∧ (zipFileEntry zf).kind = .file ∧ AlignLog ct A D w.log ∧ hK.on w.sink = ct zf.name ∧
    w.ck.entryIndex = i ∧ w.ck.entry = some { zipFileEntry zf with woff := x } ∧ x = countedOff ct zf.name o
  Cop _ _ w := AlignLog ct A D w.log
  Bad w := AlignLog ct A D w.log
  beg_bad := by rintro i w ⟨h, _⟩; exact h
  beg_kind := by
    intro i zf w h hzf
    obtain ⟨x, h1, _⟩ := alignAt_entry h.2 hzf
    rw [h1]
  beg_src := by
    intro i zf w h hzf _ _
    obtain ⟨_, _, o, h1, _⟩ := alignAt_entry h.2 hzf
    exact ⟨o, h1⟩
  enter_bad := by rintro i zf w ⟨h, _⟩ _; exact h
  zero_bad := by rintro i zf w ⟨h, _⟩ _ _ _ _; exact h
  mkdir := by
    rintro i zf w h hzf _ hk w' rfl
    have := h.1.say (ev := .mkdir (w.ck.entry.getD (zipFileEntry zf)) (K.mkdir (w.ck.entry.getD (zipFileEntry zf)) w.sink).1) rfl
    exact ⟨fun _ => ⟨this, Or.inl ⟨rfl, rfl⟩⟩, fun _ => this⟩
  symlink := by
    rintro i zf w chunks h hzf _ hk _ w' rfl
    have := h.1.say (ev := .symlink (w.ck.entry.getD (zipFileEntry zf)) chunks.flatten (K.symlink (w.ck.entry.getD (zipFileEntry zf)) chunks.flatten w.sink).1) rfl
    exact ⟨fun _ => ⟨this, Or.inl ⟨rfl, rfl⟩⟩, fun _ => this⟩
  open_ := by
    intro i zf w o0 oc h hzf _ hk hrs hsa hoc
    obtain ⟨x, h1, o, h6, h7⟩ := alignAt_entry h.2 hzf
    have heq := startsAt_unique hsa h6
    subst heq
    have hl := h.1.say (ev := .openW (w.ck.entry.getD (zipFileEntry zf)) (K.getWriter (w.ck.entry.getD (zipFileEntry zf)) w.sink).1) rfl
    refine ⟨fun hok hle hlen => ?_, fun _ => hl⟩
    have hon : hK.on (K.getWriter (w.ck.entry.getD (zipFileEntry zf)) w.sink).2 = ct zf.name := by
      rw [hK.getWriter _ w.sink hok, h1]; rfl
    refine ⟨zf, x, hzf, hk, hl, hon, rfl, ?_, ?_⟩
    · show some (w.ck.entry.getD (zipFileEntry zf)) = _
      rw [h1]
    · cases hc : ct zf.name with
      | false => rw [h7]; simp [countedOff, hc]
      | true =>
        have hx : x = o0 := by rw [h7]; simp [countedOff, hc]
        have hoc' : oc = o0 := (hoc o0 (by rw [h1]; exact hx)).2.1 rfl
        rw [hoc']; exact h7
  save := by
    rintro i zf' w o0 o c ⟨zf, x, h1, h2, h3, hon, hi, h5, h7⟩ hzf ho _ hc _ _ _
    obtain rfl : zf = zf' := Option.some.inj (h1.symm.trans hzf)
    have hst := zipOnSave_log (total := total) c w
    have hkeep : (zipOnSave total c w).1.ck.entry = w.ck.entry ∧
        (zipOnSave total c w).1.ck.entryIndex = w.ck.entryIndex ∧ hK.on (zipOnSave total c w).1.sink = hK.on w.sink := by
      have hy := hK.sync w.sink
      unfold zipOnSave
      simp only
      split
      · exact ⟨rfl, rfl, hy⟩
      · split <;> exact ⟨rfl, rfl, hy⟩
    refine ⟨zf, x, h1, h2, ?_, by rw [hkeep.2.2]; exact hon, by rw [hkeep.2.1]; exact hi, by rw [hkeep.1]; exact h5, h7⟩
    rcases hst with ⟨y, e1, _⟩ | ⟨a, e1, _⟩
    · rw [e1]; exact h3.say rfl
    · rw [e1]
      have hs := h3.say (ev := .sync none) rfl
      intro s hs'
      rw [saves_append, List.mem_append] at hs'
      rcases hs' with hs' | hs'
      · exact hs s hs'
      · simp [saves] at hs'
        subst hs'
        exact ⟨i, zf, o, x, ⟨h1, hi, ⟨x, h5⟩, c, rfl, hc⟩, h2, h5, h7⟩
  write := by
    rintro i zf' w o0 o bs ⟨zf, x, h1, h2, h3, hon, hi, h5, h7⟩ hzf _ hol
    obtain rfl : zf = zf' := Option.some.inj (h1.symm.trans hzf)
    have hl := h3.say (ev := .write bs (K.write bs w.sink).1.1 (K.write bs w.sink).1.2.2) rfl
    refine ⟨fun hok => ?_, fun _ => hl⟩
    have hk : (K.write bs w.sink).1.2.2 = none := hok
    obtain ⟨a, a'⟩ := hK.write bs w.sink hk
    refine ⟨zf, x + (K.write bs w.sink).1.2.1, h1, h2, hl, a'.trans hon, hi, ?_, by
      rw [a, h7, hon]; unfold countedOff; split <;> simp⟩
    show w.ck.entry.map _ = _
    rw [h5]
    rfl
  should := by rintro i w o0 o n h; exact h
  emit := by
    rintro i w o0 o ⟨zf, x, h1, h2, h3, hon, hi, h5, h7⟩
    exact ⟨zf, x, h1, h2, h3.say rfl, hon, hi, h5, h7⟩
  mid_bad := by rintro i w o0 o ⟨zf, x, _, _, h, _⟩; exact h
  mid_stop := by rintro i zf w o0 o ⟨zf, x, _, _, h, _⟩ _ _; exact h
  mid_end := by
    rintro i zf' w o0 ⟨zf, x, h1, h2, h3, _⟩ hzf _ _
    exact ⟨h3, Or.inl ⟨rfl, rfl⟩⟩
  copy := by
    intro i zf w h hzf _ hk hrs
    have hl := h.1.say (ev := .openW { w.ck.entry.getD (zipFileEntry zf) with woff := 0 } (K.getWriter { w.ck.entry.getD (zipFileEntry zf) with woff := 0 } w.sink).1) rfl
    exact ⟨fun _ => hl, fun _ => hl⟩
  copy_write := by
    rintro i w xs bs h1 _
    have hl := h1.say (ev := .write bs (K.write bs w.sink).1.1 (K.write bs w.sink).1.2.2) rfl
    exact ⟨fun _ _ => hl, hl⟩
  copy_bad := by rintro i w xs h; exact h
  copy_end := by
    rintro i zf w chunks h1 hzf _
    exact ⟨h1, Or.inl ⟨rfl, rfl⟩⟩

theorem zipResume_align {ct : Str → Bool} {A : Archive} {D : Decomp} {F : Nat} (hwf : ZipWF A D F) (env : ZEnv) (hK : Counts K ct)
    (ck : Option ECkpt) (hck : ∀ c, ck = some c → AlignCk ct A D c) (k : K.St) (u : V.St) :
    AlignLog ct A D (zipResume A env D F K V ck k u).2.log := by
  have key := (zipResume_steps hwf (alignSteps ct A D env K hK V _) ck k u ?_).1
  · exact key
  · intro r hr
    obtain ⟨h1, h2, h3, _⟩ := zipPrepare_log A ck k u r hr
    have hsv : saves r.2.log = [] := saves_prealloc _ h1
    have hok : AlignLog ct A D r.2.log := by
      intro s hs; rw [hsv] at hs; cases hs
    refine ⟨hok, fun _ => ?_, h3⟩
    cases ck with
    | none => exact ⟨0, rfl, hok, Or.inl ⟨by rw [h2]; rfl, by rw [h2]; rfl⟩⟩
    | some c =>
      obtain ⟨i, zf, o, x, hs, hk, he, hx⟩ := hck c rfl
      refine ⟨i, hs.index, hok, Or.inr ⟨zf, o, x, ?_, hk, ?_, hx⟩⟩
      · rw [h2]; exact hs
      · rw [h2]; exact he

theorem zipSaved_align {ct : Str → Bool} {A : Archive} {D : Decomp} {F : Nat} (hwf : ZipWF A D F) {n : Nat} {c : ECkpt}
    (h : ZipSaved A D F (SinkM.CountsBy ct) n c) : AlignCk ct A D c := by
  induction h with
  | first env K V k u hQ h => exact hQ.elim fun hK => zipResume_align (V := V) hwf env hK none (by simp) k u _ h
  | again env K V k u hQ _ h ih => exact hQ.elim fun hK => zipResume_align (V := V) hwf env hK (some _) (by intro c hc; cases hc; exact ih) k u _ h

end

/-- A sink that counts everything. -/
def countsAll {K : SinkM} (h : K.Precise) : Counts K (fun _ => true) where
  on _ := true
  getWriter _ _ _ := rfl
  write bs s hk := ⟨h bs s hk, rfl⟩
  sync _ := rfl

theorem zipSaved_imp {A : Archive} {D : Decomp} {F : Nat} {Q Q' : SinkM → Prop} (hQ : ∀ K, Q K → Q' K) {n : Nat} {c : ECkpt}
    (h : ZipSaved A D F Q n c) : ZipSaved A D F Q' n c := by
  induction h with
  | first env K V k u hq h => exact .first env K V k u (hQ K hq) h
  | again env K V k u hq _ h ih => exact .again env K V k u (hQ K hq) ih h

end Savior
