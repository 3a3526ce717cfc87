import Verif.Asks
import Verif.ZipPath
/-!
# A zip extraction that reports being stopped was told to stop
-/

namespace Savior

section
variable {K : SinkM} {V : SaveCons}

/-- If the run is to stop, the consumer said so. -/
def Halted (w : XW K V) : Prop := w.stopErr = true → ∃ c, (c, .ok .stop) ∈ saves w.log

theorem Halted.more {w w' : XW K V} (h : Halted w) (l : List Ev) (hl : w'.log = w.log ++ l) (hs : w'.stopErr = w.stopErr) : Halted w' := by
  intro g
  obtain ⟨c, hc⟩ := h (hs ▸ g)
  exact ⟨c, by rw [hl, saves_append]; exact List.mem_append_left _ hc⟩
theorem zipOnSave_halted (total : Int) (ck : Ckpt) (w : XW K V) (h : Halted w) : Halted (zipOnSave total ck w).1 := by
  unfold zipOnSave
  simp only []
  split
  · exact h.more [_] rfl rfl
  · split
    · exact h.more [_, _] (by simp only [XW.say, List.append_assoc]; rfl) rfl
    · rename_i hs
      intro _
      simp only [XW.say] at hs ⊢
      exact ⟨_, by rw [saves_append]; exact List.mem_append_right _ (by rw [← hs]; exact List.mem_singleton.2 rfl)⟩
    · exact h.more [_, _] (by simp only [XW.say, List.append_assoc]; rfl) rfl

theorem zipPrealloc_not_stop : ∀ (fs : List ZFile) (w : XW K V) x, (zipPrealloc fs w).1 = some x → x ≠ .stop := by
  intro fs
  induction fs with
  | nil => intro w x h; cases h
  | cons zf fs ih =>
    intro w x h
    unfold zipPrealloc at h
    split at h
    · simp only [] at h
      split at h
      · simp at h; rw [← h]; simp
      · exact ih _ _ h
    · exact ih _ _ h

theorem write_halted (bs : List Byte) (w : XW K V) (h : Halted w) : Halted (w.write bs).2 := h.more [_] rfl rfl

theorem zipOpen_halted (w : XW K V) (h : Halted w) : Halted (zipOpen w).2 := by
  unfold zipOpen
  split
  · exact h
  · exact Halted.more h [_] rfl rfl

theorem zipRunFile_halted (S : SourceM) (hS : S.Conduit) (F : Nat) (total : Int) (src : S.St) (w : XW K V) (h : Halted w) :
    Halted (zipRunFile S F total src w).2 := by
  unfold zipRunFile
  simp only []
  split
  · exact h
  · split
    · exact h
    · have g := zipOpen_halted w h
      cases hg : (zipOpen w).1 with
      | some x => exact g
      | none =>
        exact copyLoop_inv (zipIO S total) (fun q => Halted q.2)
          (fun q hq => by
            show Halted (S.read (zipOnSave total) 32768 q.1 q.2).2.2
            rcases hS _ (zipOnSave total) 32768 q.1 q.2 with a | ⟨ck, a⟩
            · rw [a]; exact hq
            · rw [a]; exact zipOnSave_halted total ck q.2 hq)
          (fun bs q hq => write_halted bs q.2 hq) (fun q hq => Halted.more hq [_] rfl rfl) (fun n q hq => Halted.more hq [] (by simp [zipIO]) rfl) (fun q hq => hq) F 0 _ g

theorem ioCopy_halted : ∀ (chunks : List (List Byte)) (e : Option Err) (w : XW K V), Halted w → Halted (ioCopy chunks e w).2 := by
  intro chunks
  induction chunks with
  | nil => intro e w h; exact h
  | cons c cs ih =>
    intro e w h
    unfold ioCopy
    split
    · exact ih e w h
    · simp only []
      have h1 := write_halted c w h
      split
      · exact h1
      · split
        · exact h1
        · exact ih e _ h1

theorem zipEntry_halted (A : Archive) (env : ZEnv) (D : Decomp) (F : Nat) (total : Int) (i : Nat) (zf : ZFile) (w : XW K V) (h : Halted w) :
    Halted (zipEntry A env D F total i zf w).2 := by
  have key : ∀ (r : Option Err × XW K V), Halted r.2 → Halted (match r.1 with
      | some e => (some e, r.2)
      | none => (none, { r.2 with done := wrap64 (r.2.done + zf.usize) })).2 := by
    rintro ⟨r1, r2⟩ hr
    cases r1 <;> exact hr
  unfold zipEntry
  simp only []
  split
  · exact h
  · refine key _ ?_
    split
    · exact Halted.more h [_] rfl rfl
    · split
      · exact h
      · exact h
      · exact Halted.more h [_] rfl rfl
    · unfold zipFile
      split
      · split
        · exact h
        · exact zipRunFile_halted seekM seek_conduit F total _ _ h
      · split
        · exact h
        · exact zipRunFile_halted _ (wrap_reports _ _ _ _).conduit F total _ _ h
      · unfold zipCopyFile
        simp only []
        split
        · exact h
        · rename_i chunks e _
          have g := zipOpen_halted (K := K) (V := V)
            { w with ck := { w.ck with entryIndex := i, entry := (some (w.ck.entry.getD (zipFileEntry zf))).map fun e => { e with woff := 0 } } } h
          split
          · exact g
          · exact ioCopy_halted _ _ _ g

theorem zipLoop_halted (A : Archive) (env : ZEnv) (D : Decomp) (F : Nat) (total : Int) : ∀ (fs : List ZFile) (i : Nat) (w : XW K V),
    Halted w → Halted (zipLoop A env D F total fs i w).2 := by
  intro fs
  induction fs with
  | nil => intro i w h; exact h
  | cons zf fs ih =>
    intro i w h
    unfold zipLoop
    split
    · exact h
    · have he := zipEntry_halted A env D F total i zf w h
      simp only []
      split
      · exact he
      · exact ih _ _ he

theorem zipPrealloc_halted : ∀ (fs : List ZFile) (w : XW K V), Halted w → Halted (zipPrealloc fs w).2 := by
  intro fs
  induction fs with
  | nil => intro w h; exact h
  | cons zf fs ih =>
    intro w h
    unfold zipPrealloc
    split
    · simp only []
      split
      · exact Halted.more h [_] rfl rfl
      · exact ih _ (Halted.more h [_] rfl rfl)
    · exact ih w h


theorem zipLoop_not_stop (A : Archive) (env : ZEnv) (D : Decomp) (F : Nat) (total : Int) : ∀ (fs : List ZFile) (i : Nat) (w : XW K V) x,
    (zipLoop A env D F total fs i w).1 = some x → x ≠ .stop := by
  intro fs
  induction fs with
  | nil => intro i w x h; cases h
  | cons z fs ih =>
    intro i w x h
    unfold zipLoop at h
    split at h
    · cases h
    · simp only at h
      split at h
      · simp at h; rw [← h]; simp
      · exact ih _ _ _ h

/-- A zip extraction reports having been stopped only if the consumer answered a checkpoint with "stop", whatever the archive, the
checkpoint and the sink. -/
theorem zipResume_stopped (A : Archive) (env : ZEnv) (D : Decomp) (F : Nat) (K : SinkM) (V : SaveCons) (ck : Option ECkpt) (k : K.St) (u : V.St)
    (h : (zipResume A env D F K V ck k u).1 = .error .stop) : ∃ c, (c, .ok .stop) ∈ saves (zipResume A env D F K V ck k u).2.log := by
  have hp : Halted (zipPrepare A ck (zipInit A ck k u : XW K V)).2 := by
    unfold zipPrepare
    split
    · exact zipPrealloc_halted _ _ nofun
    · exact nofun
  have hq : ∀ x, (zipPrepare A ck (zipInit A ck k u : XW K V)).1 = some x → x ≠ .stop := by
    unfold zipPrepare
    split
    · exact zipPrealloc_not_stop _ _
    · nofun
  unfold zipResume at h ⊢
  simp only [] at h ⊢
  generalize zipPrepare A ck (zipInit A ck k u : XW K V) = Q at *
  obtain ⟨pe, pw⟩ := Q
  cases pe with
  | some e => simp at h; exact absurd h (hq e rfl)
  | none =>
    simp only [] at h hp ⊢
    split at h
    · cases h
    · rename_i hi
      rw [if_neg hi]
      have hl := zipLoop_halted A env D F (zipSum A.files) (A.files.drop (ck.getD freshCk).entryIndex.toNat) (ck.getD freshCk).entryIndex.toNat _ hp
      have hn := zipLoop_not_stop A env D F (zipSum A.files) (A.files.drop (ck.getD freshCk).entryIndex.toNat) (ck.getD freshCk).entryIndex.toNat pw
      generalize zipLoop A env D F (zipSum A.files) (A.files.drop (ck.getD freshCk).entryIndex.toNat) (ck.getD freshCk).entryIndex.toNat pw = R at *
      obtain ⟨re, rw'⟩ := R
      cases re with
      | some x => simp at h; exact absurd h (hn x rfl)
      | none =>
        simp only [] at h ⊢
        cases hse : rw'.stopErr with
        | true =>
          simp only [if_true]
          exact hl hse
        | false => rw [hse] at h; simp at h

end

end Savior
