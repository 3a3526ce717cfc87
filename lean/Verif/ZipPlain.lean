import Verif.ZipLater
/-!
# Invariants of the log of a zip run
-/

namespace Savior

/-- Events (other than saves and preallocations) that extracting member `zf` may cause. -/
def EvOf (zf : ZFile) : Ev → Prop
  | .prealloc _ _ => False
  | .save _ _ => False
  | .mkdir e _ => EntryOf zf e
  | .symlink e _ _ => EntryOf zf e
  | .openW e _ => EntryOf zf e
  | .write _ _ _ => True
  | .sync _ => True
  | .progress _ => True

section
variable {K : SinkM} {V : SaveCons}

/-- The checkpoint `OnSave` hands to the consumer (proof helper). -/
def savedOf (total : Int) (c : Ckpt) (w : XW K V) : ECkpt := { w.ck with srcCk := some c, progress := zipProgress total w }

theorem zipOnSave_log (total : Int) (c : Ckpt) (w : XW K V) :
    (∃ x, (zipOnSave total c w).1.log = w.log ++ [.sync (some x)] ∧ (zipOnSave total c w).1.stopErr = w.stopErr) ∨
    (∃ a, (zipOnSave total c w).1.log = w.log ++ [.sync none] ++ [.save (savedOf total c w) a] ∧
      (zipOnSave total c w).1.stopErr = (match a with | .ok .stop => true | _ => w.stopErr) ∧
      ∃ v, (V.save (savedOf total c w) v).1 = a) := by
  unfold zipOnSave
  simp only
  split
  · rename_i x hx
    left
    refine ⟨x, ?_, rfl⟩
    rw [hx]; rfl
  · rename_i hx
    right
    split
    · rename_i x hs
      refine ⟨.error x, ?_, rfl, _, hs⟩
      rw [← hs, ← hx]
      rfl
    · rename_i hs
      refine ⟨.ok .stop, ?_, rfl, _, hs⟩
      rw [← hs, ← hx]
      rfl
    · rename_i hs
      refine ⟨.ok .cont, ?_, rfl, _, hs⟩
      rw [← hs, ← hx]
      rfl

/-- Invariants over the current index, `stopError != nil`, and the log. -/
structure LogInv (A : Archive) (V : SaveCons) (P : Nat → Bool → List Ev → Prop) : Prop where
  next : ∀ i zf b log, P i b log → A.files[i]? = some zf → zf.encrypted = false → P (i + 1) b log
  ev : ∀ i zf b log e, P i b log → A.files[i]? = some zf → zf.encrypted = false → EvOf zf e → P i b (log ++ [e])
  save : ∀ i zf log ck a, P i false log → A.files[i]? = some zf → zf.encrypted = false → (∃ n u, (V.shouldSave n u).1 = true) →
    (∃ v, (V.save ck v).1 = a) → P i (match a with | .ok .stop => true | _ => false) (log ++ [.sync none] ++ [.save ck a])

/-- The steps of an extraction, for an invariant of the log. -/
def plainSteps (A : Archive) (D : Decomp) (env : ZEnv) (total : Int) (K : SinkM) (V : SaveCons) (P : Nat → Bool → List Ev → Prop)
    (hP : LogInv A V P) : ZipSteps A D env total K V where
  Beg i w := P i w.stopErr w.log ∧ ((w.ck.entry = none ∧ w.ck.srcCk = none) ∨ (∃ zf o, SavedCk A D w.ck i zf o))
  Mid i _ _ w := P i w.stopErr w.log ∧ ∃ zf, A.files[i]? = some zf ∧ zf.encrypted = false
  Cop i _ w := P i w.stopErr w.log ∧ ∃ zf, A.files[i]? = some zf ∧ zf.encrypted = false
  Bad w := ∃ i, P i w.stopErr w.log
  beg_bad := by rintro i w ⟨h, _⟩; exact ⟨i, h⟩
  beg_kind := by
    rintro i zf w ⟨_, h⟩ hzf
    rcases h with ⟨h, _⟩ | ⟨zf', o, h⟩
    · rw [h]; rfl
    · obtain ⟨e, h1⟩ := h.entry
      have := h.file
      rw [hzf] at this
      cases this
      rw [h1]; rfl
  beg_src := by
    rintro i zf w ⟨_, h⟩ hzf _ _
    rcases h with ⟨_, h⟩ | ⟨zf', o, h⟩
    · exact ⟨0, Or.inl ⟨h, rfl⟩⟩
    · have := h.file
      rw [hzf] at this
      cases this
      exact ⟨o, Or.inr h.src⟩
  enter_bad := by rintro i zf w ⟨h, _⟩ _; exact ⟨i, h⟩
  zero_bad := by rintro i zf w ⟨h, _⟩ _ _ _ _; exact ⟨i, h⟩
  mkdir := by
    rintro i zf w ⟨h, h'⟩ hzf henc _ w' rfl
    have he : EntryOf zf (w.ck.entry.getD (zipFileEntry zf)) := by
      rcases h' with ⟨h', _⟩ | ⟨zf', o, h'⟩
      · rw [h']; exact ⟨0, rfl⟩
      · obtain ⟨x, h1⟩ := h'.entry
        have := h'.file
        rw [hzf] at this
        cases this
        rw [h1]; exact ⟨x, rfl⟩
    have hl := hP.ev i zf _ _ (.mkdir (w.ck.entry.getD (zipFileEntry zf)) (K.mkdir (w.ck.entry.getD (zipFileEntry zf)) w.sink).1) h hzf henc he
    exact ⟨fun _ => ⟨hP.next i zf _ _ hl hzf henc, Or.inl ⟨rfl, rfl⟩⟩, fun _ => ⟨i, hl⟩⟩
  symlink := by
    rintro i zf w chunks ⟨h, h'⟩ hzf henc _ _ w' rfl
    have he : EntryOf zf (w.ck.entry.getD (zipFileEntry zf)) := by
      rcases h' with ⟨h', _⟩ | ⟨zf', o, h'⟩
      · rw [h']; exact ⟨0, rfl⟩
      · obtain ⟨x, h1⟩ := h'.entry
        have := h'.file
        rw [hzf] at this
        cases this
        rw [h1]; exact ⟨x, rfl⟩
    have hl := hP.ev i zf _ _ (.symlink (w.ck.entry.getD (zipFileEntry zf)) chunks.flatten (K.symlink (w.ck.entry.getD (zipFileEntry zf)) chunks.flatten w.sink).1) h hzf henc he
    exact ⟨fun _ => ⟨hP.next i zf _ _ hl hzf henc, Or.inl ⟨rfl, rfl⟩⟩, fun _ => ⟨i, hl⟩⟩
  open_ := by
    rintro i zf w o0 oc ⟨h, h'⟩ hzf henc _ _ _ _
    have he : EntryOf zf (w.ck.entry.getD (zipFileEntry zf)) := by
      rcases h' with ⟨h', _⟩ | ⟨zf', o, h'⟩
      · rw [h']; exact ⟨0, rfl⟩
      · obtain ⟨x, h1⟩ := h'.entry
        have := h'.file
        rw [hzf] at this
        cases this
        rw [h1]; exact ⟨x, rfl⟩
    have hl := hP.ev i zf _ _ (.openW (w.ck.entry.getD (zipFileEntry zf)) (K.getWriter (w.ck.entry.getD (zipFileEntry zf)) w.sink).1) h hzf henc he
    exact ⟨fun _ _ _ => ⟨hl, zf, hzf, henc⟩, fun _ => ⟨i, hl⟩⟩
  save := by
    rintro i zf w o0 o c ⟨h, zf', h1, h2⟩ hzf _ _ _ hst hse hev
    have hse' : w.stopErr = false := by rw [← hse]; exact hst
    rcases zipOnSave_log total c w with ⟨x, e1, e2⟩ | ⟨a, e1, e2, e3⟩
    · rw [e1, e2]
      exact ⟨hP.ev i zf' _ _ _ h h1 h2 trivial, zf', h1, h2⟩
    · rw [e1, e2]
      rw [hse'] at h ⊢
      exact ⟨hP.save i zf' w.log _ a h h1 h2 hev e3, zf', h1, h2⟩
  write := by
    rintro i zf w o0 o bs ⟨h, zf', h1, h2⟩ _ _ _
    have hl := hP.ev i zf' _ _ (.write bs (K.write bs w.sink).1.1 (K.write bs w.sink).1.2.2) h h1 h2 trivial
    exact ⟨fun _ => ⟨hl, zf', h1, h2⟩, fun _ => ⟨i, hl⟩⟩
  should := by rintro i w o0 o n h; exact h
  emit := by
    rintro i w o0 o ⟨h, zf', h1, h2⟩
    exact ⟨hP.ev i zf' _ _ _ h h1 h2 trivial, zf', h1, h2⟩
  mid_bad := by rintro i w o0 o ⟨h, _⟩; exact ⟨i, h⟩
  mid_stop := by rintro i zf w o0 o ⟨h, _⟩ _ _; exact ⟨i, h⟩
  mid_end := by
    rintro i zf w o0 ⟨h, zf', h1, h2⟩ _ _ _
    exact ⟨hP.next i zf' _ _ h h1 h2, Or.inl ⟨rfl, rfl⟩⟩
  copy := by
    rintro i zf w ⟨h, h'⟩ hzf henc _ _
    have he : EntryOf zf { w.ck.entry.getD (zipFileEntry zf) with woff := 0 } := by
      rcases h' with ⟨h', _⟩ | ⟨zf', o, h'⟩
      · rw [h']; exact ⟨0, rfl⟩
      · obtain ⟨x, h1⟩ := h'.entry
        have := h'.file
        rw [hzf] at this
        cases this
        rw [h1]; exact ⟨0, rfl⟩
    have hl := hP.ev i zf _ _ (.openW { w.ck.entry.getD (zipFileEntry zf) with woff := 0 } (K.getWriter { w.ck.entry.getD (zipFileEntry zf) with woff := 0 } w.sink).1) h hzf henc he
    exact ⟨fun _ => ⟨hl, zf, hzf, henc⟩, fun _ => ⟨i, hl⟩⟩
  copy_write := by
    rintro i w xs bs ⟨h, zf', h1, h2⟩ _
    have hl := hP.ev i zf' _ _ (.write bs (K.write bs w.sink).1.1 (K.write bs w.sink).1.2.2) h h1 h2 trivial
    exact ⟨fun _ _ => ⟨hl, zf', h1, h2⟩, i, hl⟩
  copy_bad := by rintro i w xs ⟨h, _⟩; exact ⟨i, h⟩
  copy_end := by
    rintro i zf w chunks ⟨h, zf', h1, h2⟩ _ _
    exact ⟨hP.next i zf' _ _ h h1 h2, Or.inl ⟨rfl, rfl⟩⟩

theorem zipResume_plain {A : Archive} {D : Decomp} {F : Nat} {Q : SinkM → Prop} (hwf : ZipWF A D F) (env : ZEnv) (P : Nat → Bool → List Ev → Prop)
    (hP : LogInv A V P) (ck : Option ECkpt) (hck : ZipStart A D F Q ck) (k : K.St) (u : V.St)
    (hinit : ∀ log, (∀ ev ∈ log, ∃ e x, ev = Ev.prealloc e x) → P (startIndex ck) false log) :
    (∃ i, P i (zipResume A env D F K V ck k u).2.stopErr (zipResume A env D F K V ck k u).2.log) ∧
    (∀ res, (zipResume A env D F K V ck k u).1 = .ok res → res = A.files.map zipFileEntry ∧
      (zipResume A env D F K V ck k u).2.stopErr = false ∧
      ∃ j, A.files.length ≤ j ∧ P j false (zipResume A env D F K V ck k u).2.log) ∧
    ((zipResume A env D F K V ck k u).1 = .error .stop → (zipResume A env D F K V ck k u).2.stopErr = true) := by
  have key := zipResume_steps hwf (plainSteps A D env (zipSum A.files) K V P hP) ck k u ?_
  · refine ⟨key.1, ?_, key.2.2⟩
    intro res hres
    obtain ⟨a, b, j, c, d⟩ := key.2.1 res hres
    refine ⟨a, b, j, c, ?_⟩
    have := d.1
    rw [b] at this
    exact this
  · intro r hr
    obtain ⟨h1, h2, h3, _⟩ := zipPrepare_log A ck k u r hr
    have hp := hinit _ h1
    refine ⟨⟨_, by rw [h3]; exact hp⟩, fun _ => ?_, h3⟩
    cases ck with
    | none => exact ⟨0, rfl, by rw [h3]; exact hp, Or.inl (by rw [h2]; exact ⟨rfl, rfl⟩)⟩
    | some c =>
      obtain ⟨n, hn⟩ := hck c rfl
      obtain ⟨i, zf, o, hs⟩ := zipSaved_wf hwf hn
      refine ⟨i, hs.index, ?_, Or.inr ⟨zf, o, by rw [h2]; exact hs⟩⟩
      rw [h3]
      have : startIndex (some c) = i := by simp [startIndex, hs.index]
      rw [this] at hp
      exact hp

/-- How a run can end. -/
theorem zipResume_result {A : Archive} {D : Decomp} {F : Nat} {Q : SinkM → Prop} (hwf : ZipWF A D F) (env : ZEnv) (ck : Option ECkpt) (hck : ZipStart A D F Q ck)
    (k : K.St) (u : V.St) : (∃ res, (zipResume A env D F K V ck k u).1 = .ok res) ∨ (zipResume A env D F K V ck k u).1 = .error .stop ∨
    ∃ x, (zipResume A env D F K V ck k u).1 = .error (.wrapped x) := by
  have hp : ∀ (fs : List ZFile) (w : XW K V) x, (zipPrealloc fs w).1 = some x → ∃ y, x = .wrapped y := by
    intro fs
    induction fs with
    | nil => intro w x h; cases h
    | cons zf fs ih =>
      intro w x h
      unfold zipPrealloc at h
      split at h
      · simp only at h
        split at h
        · simp at h; exact ⟨_, h.symm⟩
        · exact ih _ _ h
      · exact ih _ _ h
  have hpp : ∀ x, (zipPrepare A ck (zipInit A ck k u : XW K V)).1 = some x → ∃ y, x = .wrapped y := by
    intro x
    unfold zipPrepare
    split
    · exact hp _ _ _
    · simp
  have hne : ∀ (fs : List ZFile) (i : Nat) (w : XW K V) x, (zipLoop A env D F (zipSum A.files) fs i w).1 = some x → ∃ y, x = .wrapped y := by
    intro fs
    induction fs with
    | nil => intro i w x h; cases h
    | cons z fs ih =>
      intro i w x h
      unfold zipLoop at h
      split at h
      · cases h
      · simp only at h
        split at h
        · simp at h; exact ⟨_, h.symm⟩
        · exact ih _ _ _ h
  have hix : ¬ (ck.getD freshCk).entryIndex < 0 := by
    cases ck with
    | none => simp [freshCk]
    | some c =>
      obtain ⟨n, hn⟩ := hck c rfl
      obtain ⟨i, zf, o, hs⟩ := zipSaved_wf hwf hn
      simp [hs.index]
  unfold zipResume
  simp only
  generalize zipPrepare A ck (zipInit A ck k u : XW K V) = Q at *
  obtain ⟨pe, pw⟩ := Q
  cases pe with
  | some x =>
    obtain ⟨y, hy⟩ := hpp x rfl
    subst hy
    exact Or.inr (Or.inr ⟨y, rfl⟩)
  | none =>
    simp only
    rw [if_neg hix]
    have := hne (A.files.drop (ck.getD freshCk).entryIndex.toNat) (ck.getD freshCk).entryIndex.toNat pw
    generalize zipLoop A env D F (zipSum A.files) (A.files.drop (ck.getD freshCk).entryIndex.toNat) (ck.getD freshCk).entryIndex.toNat pw = R at *
    obtain ⟨re, rw'⟩ := R
    cases re with
    | some x =>
      obtain ⟨y, hy⟩ := this x rfl
      subst hy
      exact Or.inr (Or.inr ⟨y, rfl⟩)
    | none =>
      simp only
      split
      · exact Or.inr (Or.inl rfl)
      · exact Or.inl ⟨_, rfl⟩

end
end Savior
