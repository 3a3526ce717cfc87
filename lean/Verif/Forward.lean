import Verif.Spec.Progress
import Verif.Calls
import Verif.TarStack
/-!
# Sources only go forward, and so does the progress of a tar extraction
-/

namespace Savior

theorem Ahead.refl (p : Int × Int) : Ahead p p := ⟨⟨rfl, Int.le_refl _⟩, id⟩

theorem Ahead.trans {p q r : Int × Int} (h1 : Ahead p q) (h2 : Ahead q r) : Ahead p r :=
  ⟨⟨h1.1.1.trans h2.1.1, Int.le_trans h1.1.2 h2.1.2⟩, h2.2 ∘ h1.2⟩

/-- Reading and asking for saves never takes the progress of `S` back, in the states `ok`. With `sv`, `pr` tells the progress
at the moment a checkpoint is made. -/
structure Forward (S : SourceM) (ok : S.St → Prop) (pr : Ckpt → Int × Int) (sv : Bool) : Prop where
  resume : ∀ ck s, ok s → ok (S.resume ck s).2
  read : ∀ {C : Type} (cb : Callback C) (n : Nat) (s : S.St) (c : C), ok s → ok (S.read cb n s c).2.1 ∧
    Ahead (S.progress s) (S.progress (S.read cb n s c).2.1) ∧
    ((S.read cb n s c).2.2 = c ∨ ∃ ck, (S.read cb n s c).2.2 = (cb ck c).1 ∧
      (sv = true → Ahead (S.progress s) (pr ck) ∧ Ahead (pr ck) (S.progress (S.read cb n s c).2.1)))
  readByte : ∀ {C : Type} (cb : Callback C) (s : S.St) (c : C), ok s → Ahead (S.progress s) (S.progress (S.readByte cb s c).2.1)
  wantSave : ∀ s, ok s → ok (S.wantSave s) ∧ S.progress (S.wantSave s) = S.progress s
  setSSC : ∀ b s, ok s → ok (S.setSSC b s) ∧ S.progress (S.setSSC b s) = S.progress s

/-- Any state will do. -/
def anySt (S : SourceM) (_ : S.St) : Prop := True

/-! ## The file -/

theorem rs_read_len (rs : Rs) (k : Nat) : (rs.read k).1.1.length ≤ k := by
  unfold Rs.read
  repeat' (first | (simp only [List.length_take, List.length_nil]; omega) | (dsimp only; split) | split)

theorem bufio_read_len (b : Bufio) (rs : Rs) (n : Nat) : (b.read rs n).1.1.length ≤ n := by
  unfold Bufio.read
  split
  · split
    · simp
    · split
      · exact rs_read_len rs n
      · dsimp only
        split
        · simp
        · simp only [List.length_take]; omega
  · simp only [List.length_take]; omega

/-- The progress of a file of size `size` at `offset`. -/
def seekPr (size : Int) (offset : Int) : Int × Int := if size > 0 then (offset, size) else (0, 1)

theorem seekPr_ahead (size o o' : Int) (h : o ≤ o') (hs : o ≤ size → o' ≤ size) : Ahead (seekPr size o) (seekPr size o') := by
  unfold seekPr
  split
  · refine ⟨⟨rfl, h⟩, ?_⟩
    rintro ⟨a, b, c⟩
    exact ⟨by simp only at a ⊢; omega, hs b, c⟩
  · exact Ahead.refl _

theorem handleSave_same {C : Type} (cb : Callback C) (s : SeekSt) (c : C) :
    (Seek.handleSave cb s c).1.offset = s.offset ∧ (Seek.handleSave cb s c).1.size = s.size ∧
    ((Seek.handleSave cb s c).2 = c ∨ (Seek.handleSave cb s c).2 = (cb (.plain s.offset) c).1) := by
  unfold Seek.handleSave
  split
  · refine ⟨rfl, rfl, ?_⟩
    split
    · exact Or.inr rfl
    · exact Or.inl rfl
  · exact ⟨rfl, rfl, Or.inl rfl⟩

/-- What `Read` does to the offset and the size, and which checkpoint it makes. -/
theorem seek_read_moves {C : Type} (cb : Callback C) (n : Nat) (s : SeekSt) (c : C) :
    (Seek.read cb n s c).2.1.size = s.size ∧ s.offset ≤ (Seek.read cb n s c).2.1.offset ∧
    (s.offset ≤ s.size → (Seek.read cb n s c).2.1.offset ≤ s.size) ∧
    ((Seek.read cb n s c).2.2 = c ∨ (Seek.read cb n s c).2.2 = (cb (.plain s.offset) c).1) := by
  have hs := handleSave_same cb s c
  unfold Seek.read
  split
  · exact ⟨rfl, Int.le_refl _, id, Or.inl rfl⟩
  split
  · exact ⟨rfl, Int.le_refl _, id, Or.inl rfl⟩
  dsimp only
  split
  · exact ⟨rfl, Int.le_refl _, id, Or.inl rfl⟩
  split
  · exact ⟨rfl, Int.le_refl _, id, Or.inl rfl⟩
  rename_i h1 h2
  generalize Seek.handleSave cb s c = h at *
  split
  · exact ⟨hs.2.1, by rw [hs.1]; exact Int.le_refl _, fun hh => by rw [hs.1]; exact hh, hs.2.2⟩
  · rename_i b _
    have hn : s.offset ≤ s.size → ((if (n : Int) > s.size - s.offset then (s.size - s.offset).toNat else n : Nat) : Int) ≤ s.size - s.offset := by
      intro hle; split <;> omega
    generalize (if (n : Int) > s.size - s.offset then (s.size - s.offset).toNat else n) = n' at *
    have hl := bufio_read_len b h.1.rs n'
    refine ⟨hs.2.1, ?_, ?_, hs.2.2⟩
    · dsimp only; rw [hs.1]; omega
    · intro hle
      have := hn hle
      dsimp only; rw [hs.1]; omega

theorem seek_readByte_moves {C : Type} (cb : Callback C) (s : SeekSt) (c : C) :
    (Seek.readByte cb s c).2.1.size = s.size ∧ s.offset ≤ (Seek.readByte cb s c).2.1.offset ∧
    (s.offset ≤ s.size → (Seek.readByte cb s c).2.1.offset ≤ s.size) := by
  have hs := handleSave_same cb s c
  unfold Seek.readByte
  split
  · exact ⟨rfl, Int.le_refl _, id⟩
  split
  · exact ⟨rfl, Int.le_refl _, id⟩
  dsimp only
  generalize Seek.handleSave cb s c = h at *
  split
  · exact ⟨hs.2.1, by rw [hs.1]; exact Int.le_refl _, fun hh => by rw [hs.1]; exact hh⟩
  · rename_i b _
    refine ⟨hs.2.1, ?_, ?_⟩
    · dsimp only; split <;> omega
    · intro hle
      dsimp only; split <;> omega

theorem seek_resume_size (ck : Option Ckpt) (s : SeekSt) : (Seek.resume ck s).2.size = s.size := by
  unfold Seek.resume Seek.resume.go
  repeat' (first | rfl | (dsimp only; split) | split)

/-- A file, also with the values in checkpoints. -/
theorem seek_forward_saves (size : Int) : Forward seekM (fun s => SeekSt.size s = size) (fun ck => seekPr size ck.offset) true where
  resume ck s h := (seek_resume_size ck s).trans h
  read cb n s c h := by
    obtain ⟨a, b, d, e⟩ := seek_read_moves cb n s c
    have hm : Ahead (seekPr (SeekSt.size s) (SeekSt.offset s)) (seekPr (Seek.read cb n s c).2.1.size (Seek.read cb n s c).2.1.offset) := by
      rw [a]; exact seekPr_ahead _ _ _ b d
    refine ⟨a.trans h, hm, ?_⟩
    rcases e with e | e
    · exact Or.inl e
    · refine Or.inr ⟨_, e, fun _ => ?_⟩
      have hp : seekPr size (Ckpt.offset (.plain (SeekSt.offset s))) = seekPr (SeekSt.size s) (SeekSt.offset s) := by rw [← h]; rfl
      rw [hp]
      exact ⟨Ahead.refl _, hm⟩
  readByte cb s c _ := by
    obtain ⟨a, b, d⟩ := seek_readByte_moves cb s c
    show Ahead (seekPr (SeekSt.size s) (SeekSt.offset s)) (seekPr (Seek.readByte cb s c).2.1.size (Seek.readByte cb s c).2.1.offset)
    rw [a]; exact seekPr_ahead _ _ _ b d
  wantSave s h := ⟨h, rfl⟩
  setSSC b s h := ⟨h, rfl⟩

theorem seek_forward (pr : Ckpt → Int × Int) : Forward seekM (anySt seekM) pr false where
  resume _ _ _ := trivial
  read cb n s c _ := by
    obtain ⟨a, b, d, e⟩ := seek_read_moves cb n s c
    refine ⟨trivial, ?_, ?_⟩
    · show Ahead (seekPr (SeekSt.size s) (SeekSt.offset s)) (seekPr (Seek.read cb n s c).2.1.size (Seek.read cb n s c).2.1.offset)
      rw [a]; exact seekPr_ahead _ _ _ b d
    · rcases e with e | e
      · exact Or.inl e
      · exact Or.inr ⟨_, e, nofun⟩
  readByte cb s c _ := by
    obtain ⟨a, b, d⟩ := seek_readByte_moves cb s c
    show Ahead (seekPr (SeekSt.size s) (SeekSt.offset s)) (seekPr (Seek.readByte cb s c).2.1.size (Seek.readByte cb s c).2.1.offset)
    rw [a]; exact seekPr_ahead _ _ _ b d
  wantSave _ _ := ⟨trivial, rfl⟩
  setSSC _ _ _ := ⟨trivial, rfl⟩

/-! ## Decompressing sources -/

section
variable {I : SourceM} {pr : Ckpt → Int × Int} (hI : Forward I (anySt I) pr false)
include hI

theorem askInner_ahead (D : Decomp) (st : D.St) (src : I.St) (ck : Option Ckpt) :
    Ahead (I.progress src) (I.progress (askInner D I st src ck).2.1) := by
  unfold askInner
  split
  · exact hI.readByte _ _ _ trivial
  · exact (hI.read _ _ _ _ trivial).2.1

theorem srLoop_ahead (D : Decomp) : ∀ (f n : Nat) (r : SR D) (src : I.St) (ck : Option Ckpt),
    Ahead (I.progress src) (I.progress (srLoop D I f n r src ck).2.2.1) := by
  intro f
  induction f with
  | zero => intro n r src ck; exact Ahead.refl _
  | succ f ih =>
    intro n r src ck
    unfold srLoop
    split
    · exact Ahead.refl _
    · split
      · exact Ahead.refl _
      · split
        · exact Ahead.refl _
        · exact (askInner_ahead hI D r.st src ck).trans (ih _ _ _ _)

theorem hdrLoop_ahead (D : Decomp) : ∀ (f : Nat) (r : SR D) (src : I.St) (ck : Option Ckpt) (fired : Bool),
    Ahead (I.progress src) (I.progress (hdrLoop D I f r src ck fired).2.1) := by
  intro f
  induction f with
  | zero => intro r src ck fired; exact Ahead.refl _
  | succ f ih =>
    intro r src ck fired
    unfold hdrLoop
    split
    · exact Ahead.refl _
    · split
      · exact Ahead.refl _
      · exact (askInner_ahead hI D r.st src ck).trans (ih _ _ _ _)

omit hI in
theorem discard_ahead {ok : I.St → Prop} {sv : Bool} (hI : Forward I ok pr sv) {C : Type} (cb : Callback C) : ∀ (f : Nat) (d : Int) (s : I.St) (c : C), ok s →
    ok (discard I cb f d s c).2.1 ∧ Ahead (I.progress s) (I.progress (discard I cb f d s c).2.1) := by
  intro f
  induction f with
  | zero => intro d s c hs; unfold discard; split <;> exact ⟨hs, Ahead.refl _⟩
  | succ f ih =>
    intro d s c hs
    unfold discard
    split
    · dsimp only
      have h := hI.read cb (min d 4096).toNat s c hs
      split
      · exact ⟨h.1, h.2.1⟩
      · obtain ⟨a, b⟩ := ih (d - (I.read cb (min d 4096).toNat s c).1.1.length) _ (I.read cb (min d 4096).toNat s c).2.2 h.1
        exact ⟨a, h.2.1.trans b⟩
    · exact ⟨hs, Ahead.refl _⟩

theorem wrap_read_ahead (cfg : WrapCfg) (D : Decomp) (F : Nat) {C : Type} (cb : Callback C) (n : Nat) (s : WrapSt D I) (c : C) :
    Ahead (I.progress s.src) (I.progress (Wrap.read cfg D I F cb n s c).2.1.src) := by
  unfold Wrap.read
  split
  · exact Ahead.refl _
  · have h := srLoop_ahead hI D F n (by assumption) s.src s.srcCk
    repeat' (first | exact h | (dsimp only; split) | split)

theorem storeByte_src (D : Decomp) (bs : List Byte) (s : WrapSt D I) : (Wrap.storeByte D I bs s).src = s.src := by
  unfold Wrap.storeByte
  split <;> rfl

theorem wrap_forward (cfg : WrapCfg) (D : Decomp) (F : Nat) : Forward (wrapM cfg D I F) (anySt _) pr false where
  resume _ _ _ := trivial
  read cb n s c _ := by
    refine ⟨trivial, wrap_read_ahead hI cfg D F cb n s c, ?_⟩
    rcases (wrap_reports cfg D I F).conduit _ cb n s c with e | ⟨ck, e⟩
    · exact Or.inl e
    · exact Or.inr ⟨ck, e, nofun⟩
  readByte cb s c _ := by
    show Ahead (I.progress (WrapSt.src s)) (I.progress (Wrap.readByte cfg D I F cb s c).2.1.src)
    have h1 := wrap_read_ahead hI cfg D F cb 1 s c
    unfold Wrap.readByte
    split
    · exact Ahead.refl _
    · dsimp only
      split
      · rw [storeByte_src hI]
        refine h1.trans ?_
        have := wrap_read_ahead hI cfg D F cb 1 (Wrap.storeByte D I (Wrap.read cfg D I F cb 1 s c).1.1 (Wrap.read cfg D I F cb 1 s c).2.1) (Wrap.read cfg D I F cb 1 s c).2.2
        rw [storeByte_src hI] at this
        exact this
      · rw [storeByte_src hI]; exact h1
  wantSave s _ := ⟨trivial, (hI.wantSave _ trivial).2⟩
  setSSC b s _ := ⟨trivial, (hI.setSSC _ _ trivial).2⟩

end

theorem stack_forward (F : Nat) (pr : Ckpt → Int × Int) : ∀ ls, Forward (stackM F ls) (anySt _) pr false
  | [] => seek_forward pr
  | l :: ls => wrap_forward (stack_forward F pr ls) l.cfg l.D F

/-! ## Resuming -/

theorem seek_starts (ck : Option Ckpt) (s s' : SeekSt) (o : Int) (h : Seek.resume ck s = (.ok o, s'))
    (hck : ∀ c, ck = some c → c.offset ≤ s.size) : Fraction (Seek.progress s') := by
  have hgo : ∀ (t : SeekSt), Seek.resume.go t = (.ok o, s') → s'.offset = t.offset ∧ s'.size = t.size := by
    intro t ht
    unfold Seek.resume.go at ht
    dsimp only at ht
    split at ht
    · cases ht
    · cases ht; exact ⟨rfl, rfl⟩
  unfold Seek.resume at h
  have key : 0 ≤ s'.offset ∧ (s'.offset ≤ s'.size ∨ s'.offset = 0) := by
    split at h
    · rename_i c
      split at h
      · cases h
      · obtain ⟨a, b⟩ := hgo _ h
        rw [a, b]
        exact ⟨by dsimp only; omega, Or.inl (hck c rfl)⟩
    · obtain ⟨a, b⟩ := hgo _ h
      rw [a, b]
      exact ⟨Int.le_refl _, Or.inr rfl⟩
  unfold Seek.progress Fraction
  split
  · dsimp only; omega
  · decide

section
variable {I : SourceM} {pr : Ckpt → Int × Int} (hI : Forward I (anySt I) pr false) (hn : ∀ s o s', I.resume none s = (.ok o, s') → Fraction (I.progress s'))
include hI hn

theorem fromStart_starts (cfg : WrapCfg) (D : Decomp) (F : Nat) (s s' : WrapSt D I) (o : Int)
    (h : Wrap.fromStart cfg D I F s = (.ok o, s')) : Fraction (I.progress s'.src) := by
  unfold Wrap.fromStart at h
  dsimp only at h
  split at h
  · cases h
  · rename_i so hso
    split at h
    · cases h
    · have h0 := hn s.src so (I.resume none s.src).2 (by rw [← hso])
      have h1 := hdrLoop_ahead hI D F (SR.mk' D.start 0 0) (I.resume none s.src).2 s.srcCk false
      split at h
      · cases h
      · split at h
        · cases h
        · cases h
          exact h1.2 h0

theorem aligned_starts (cfg : WrapCfg) (D : Decomp) (F : Nat) (so ckOff : Int) (dc : DCk) (s s' : WrapSt D I) (o : Int)
    (hs : Fraction (I.progress s.src)) (h : Wrap.aligned cfg D I F so ckOff dc s = (.ok o, s')) : Fraction (I.progress s'.src) := by
  unfold Wrap.aligned at h
  split at h
  · split at h
    · cases h; exact hs
    · dsimp only at h
      split at h
      · cases h
      · exact fromStart_starts hI hn cfg D F _ _ _ h
  · exact fromStart_starts hI hn cfg D F _ _ _ h

theorem wrap_starts (cfg : WrapCfg) (D : Decomp) (F : Nat) (ck : Option Ckpt) (s s' : WrapSt D I) (o : Int)
    (hck : ∀ tag off sck ckOff dc, ck = some (.dec tag off sck ckOff dc) → ∀ o' t, I.resume sck s.src = (.ok o', t) → Fraction (I.progress t))
    (h : Wrap.resume cfg D I F ck s = (.ok o, s')) : Fraction (I.progress s'.src) := by
  unfold Wrap.resume at h
  split at h
  · rename_i tag off sck ckOff dc
    split at h
    · dsimp only at h
      split at h
      · cases h
      · rename_i so hso
        have h0 := hck tag off sck ckOff dc rfl so (I.resume sck s.src).2 (by rw [← hso])
        split at h
        · have h1 := (discard_ahead hI srCb F (dc.roff - so) (I.resume sck s.src).2 (s.srcCk, false) trivial).2
          split at h
          · cases h
          · split at h
            · cases h
            · exact aligned_starts hI hn cfg D F _ _ _ _ _ _ (h1.2 h0) h
        · exact aligned_starts hI hn cfg D F _ _ _ _ _ _ h0 h
    · exact fromStart_starts hI hn cfg D F _ _ _ h
  · exact fromStart_starts hI hn cfg D F _ _ _ h

end

/-- A stack of sources resumed from a checkpoint within the file starts at a fraction. -/
theorem stack_starts (F : Nat) : ∀ (ls : List Layer) (ck : Option Ckpt) (s : (stackM F ls).St) (o : Int) (s' : (stackM F ls).St),
    (stackM F ls).resume ck s = (.ok o, s') → CkWithin (stackSize F ls s) ls ck → Fraction ((stackM F ls).progress s')
  | [], ck, s, o, s', h, hck => seek_starts ck s s' o h (by intro c hc; subst hc; exact hck)
  | l :: ls, ck, s, o, s', h, hck => by
    refine wrap_starts (stack_forward F (fun _ => (0, 1)) ls) (fun s o s' h => stack_starts F ls none s o s' h (by unfold CkWithin; trivial)) l.cfg l.D F ck s s' o ?_ h
    rintro tag off sck ckOff dc rfl o' t ht
    exact stack_starts F ls sck _ o' t ht hck

/-! ## The total does not change -/

section
variable {I : SourceM} {pr : Ckpt → Int × Int} (hI : Forward I (anySt I) pr false) (hr : ∀ ck s, (I.progress (I.resume ck s).2).2 = (I.progress s).2)
include hI hr

theorem fromStart_den (cfg : WrapCfg) (D : Decomp) (F : Nat) (s : WrapSt D I) : (I.progress (Wrap.fromStart cfg D I F s).2.src).2 = (I.progress s.src).2 := by
  have h0 := hr none s.src
  have h1 := (hdrLoop_ahead hI D F (SR.mk' D.start 0 0) (I.resume none s.src).2 s.srcCk false).1.1
  have h2 := h1.symm.trans h0
  unfold Wrap.fromStart
  repeat' (first | exact h0 | exact h2 | (dsimp only; split) | split)

theorem aligned_den (cfg : WrapCfg) (D : Decomp) (F : Nat) (so ckOff : Int) (dc : DCk) (s : WrapSt D I) :
    (I.progress (Wrap.aligned cfg D I F so ckOff dc s).2.src).2 = (I.progress s.src).2 := by
  have h0 := fun s => fromStart_den hI hr cfg D F s
  have h1 := hr none s.src
  unfold Wrap.aligned
  repeat' (first | rfl | exact h0 _ | exact h1 | exact (h0 _).trans h1 | (dsimp only; split) | split)

theorem wrap_resume_den (cfg : WrapCfg) (D : Decomp) (F : Nat) (ck : Option Ckpt) (s : WrapSt D I) :
    (I.progress (Wrap.resume cfg D I F ck s).2.src).2 = (I.progress s.src).2 := by
  unfold Wrap.resume
  split
  · rename_i tag off sck ckOff dc
    split
    · dsimp only
      have h0 := hr sck s.src
      split
      · exact h0
      · rename_i so hso
        split
        · have h1 := (discard_ahead hI srCb F (dc.roff - so) (I.resume sck s.src).2 (s.srcCk, false) trivial).2.1.1.symm.trans h0
          split
          · exact h1
          · split
            · exact h1
            · exact (aligned_den hI hr cfg D F _ _ _ _).trans h1
        · exact (aligned_den hI hr cfg D F _ _ _ _).trans h0
    · exact fromStart_den hI hr cfg D F _
  · exact fromStart_den hI hr cfg D F _

end

/-- The total is the size of the file, or 1 for an empty one. -/
theorem stack_total (F : Nat) : ∀ (ls : List Layer) (s : (stackM F ls).St), ((stackM F ls).progress s).2 = if 0 < stackSize F ls s then stackSize F ls s else 1
  | [], s => by
    show (Seek.progress s).2 = if 0 < SeekSt.size s then SeekSt.size s else 1
    unfold Seek.progress
    split
    · rfl
    · rfl
  | _ :: ls, s => stack_total F ls (WrapSt.src s)

theorem stack_resume_total (F : Nat) : ∀ (ls : List Layer) (ck : Option Ckpt) (s : (stackM F ls).St),
    ((stackM F ls).progress ((stackM F ls).resume ck s).2).2 = ((stackM F ls).progress s).2
  | [], ck, s => by
    show (Seek.progress (Seek.resume ck s).2).2 = (Seek.progress s).2
    unfold Seek.progress
    rw [seek_resume_size ck s]
    split <;> rfl
  | l :: ls, ck, s => wrap_resume_den (stack_forward F (fun _ => (0, 1)) ls) (stack_resume_total F ls) l.cfg l.D F ck s

/-! ## The extractor -/

/-- The values looked at: those reported, with `sv` also those in checkpoints. -/
def shown (sv : Bool) (log : List Ev) : List (Int × Int) := if sv then progresses log else reported log

theorem reported_append (a b : List Ev) : reported (a ++ b) = reported a ++ reported b := by
  induction a with
  | nil => rfl
  | cons x a ih => cases x <;> simp [reported, ih]

theorem progresses_snoc (a b : List Ev) : progresses (a ++ b) = progresses a ++ progresses b := by
  induction a with
  | nil => rfl
  | cons x a ih => cases x <;> simp [progresses, ih]

/-- Neither a progress report nor a checkpoint. -/
def Ev.mute : Ev → Prop
  | .save _ _ => False
  | .progress _ => False
  | _ => True

theorem shown_mute (sv : Bool) (log : List Ev) (ev : Ev) (h : ev.mute) : shown sv (log ++ [ev]) = shown sv log := by
  unfold shown
  cases sv
  · simp only [Bool.false_eq_true, if_false, reported_append]
    cases ev <;> simp_all [reported, Ev.mute]
  · simp only [if_true, progresses_snoc]
    cases ev <;> simp_all [progresses, Ev.mute]

theorem shown_progress (sv : Bool) (log : List Ev) (p : Int × Int) : shown sv (log ++ [.progress p]) = shown sv log ++ [p] := by
  unfold shown
  cases sv
  · simp [reported_append, reported]
  · simp [progresses_snoc, progresses]

theorem shown_save (sv : Bool) (log : List Ev) (ck : ECkpt) (a : Except Err Action) :
    shown sv (log ++ [.save ck a]) = shown sv log ++ if sv then [ck.progress] else [] := by
  unfold shown
  cases sv
  · simp [reported_append, reported]
  · simp [progresses_snoc, progresses]

/-- From `b` through `l` to `x`, never back. -/
def Going (b : Int × Int) (l : List (Int × Int)) (x : Int × Int) : Prop := (b :: (l ++ [x])).Pairwise Ahead

theorem Going.move {b : Int × Int} {l : List (Int × Int)} {x y : Int × Int} (h : Going b l x) (hxy : Ahead x y) : Going b l y := by
  unfold Going at *
  rw [List.pairwise_cons, List.pairwise_append] at *
  obtain ⟨h1, h2, _, h3⟩ := h
  refine ⟨?_, h2, by simp, ?_⟩
  · intro a ha
    rcases List.mem_append.mp ha with ha | ha
    · exact h1 a (List.mem_append_left _ ha)
    · rw [List.mem_singleton.mp ha]
      exact (h1 x (by simp)).trans hxy
  · intro a ha c hc
    rw [List.mem_singleton.mp hc]
    exact (h3 a ha x (by simp)).trans hxy

theorem Going.say {b : Int × Int} {l : List (Int × Int)} {x y z : Int × Int} (h : Going b l x) (hxy : Ahead x y) (hyz : Ahead y z) : Going b (l ++ [y]) z := by
  have h1 := h.move hxy
  have h2 := h.move (hxy.trans hyz)
  unfold Going at *
  rw [List.pairwise_cons, List.pairwise_append] at *
  obtain ⟨a1, a2, _, a3⟩ := h1
  obtain ⟨b1, b2, _, b3⟩ := h2
  refine ⟨?_, List.pairwise_append.mpr ⟨a2, by simp, a3⟩, by simp, ?_⟩
  · intro a ha
    rcases List.mem_append.mp ha with ha | ha
    · exact a1 a ha
    · rw [List.mem_singleton.mp ha]
      exact b1 z (by simp)
  · intro a ha c hc
    rw [List.mem_singleton.mp hc]
    rcases List.mem_append.mp ha with ha | ha
    · exact b3 a ha z (by simp)
    · rw [List.mem_singleton.mp ha]; exact hyz

/-- The source checkpoint a run starts from. -/
def tarStart (ck : Option ECkpt) : Option Ckpt :=
  match ck with
  | some c => match c.data with
    | some ⟨some _, some _⟩ => c.srcCk
    | _ => none
  | none => none

section
variable {K : SinkM} {V : SaveCons} {T : TarFmt} {S : SourceM} {ok : S.St → Prop} {pr : Ckpt → Int × Int} {sv : Bool} {b : Int × Int} (hS : Forward S ok pr sv)

/-- Checkpoints say what the progress was when they were made, and runs can be resumed from them. -/
def SavedAt (pr : Ckpt → Int × Int) (log : List Ev) : Prop :=
  ∀ s ∈ saves log, ∃ sck, s.1.srcCk = some sck ∧ s.1.progress = pr sck ∧ tarStart (some s.1) = some sck

theorem SavedAt.mute {pr : Ckpt → Int × Int} {log : List Ev} (h : SavedAt pr log) (ev : Ev) (he : saves [ev] = []) : SavedAt pr (log ++ [ev]) := by
  intro s hs
  rw [saves_append, he, List.append_nil] at hs
  exact h s hs

/-- The state is `ok`, and the values shown led up to where it is. -/
def OnGoing (S : SourceM) (ok : S.St → Prop) (pr : Ckpt → Int × Int) (sv : Bool) (b : Int × Int) (s : S.St) (log : List Ev) : Prop :=
  ok s ∧ Going b (shown sv log) (S.progress s) ∧ SavedAt pr log

theorem OnGoing.mute {S : SourceM} {ok : S.St → Prop} {pr : Ckpt → Int × Int} {sv : Bool} {b : Int × Int} {s : S.St} {log : List Ev} (h : OnGoing S ok pr sv b s log) (ev : Ev)
    (he : ev.mute) : OnGoing S ok pr sv b s (log ++ [ev]) := ⟨h.1, by rw [shown_mute _ _ _ he]; exact h.2.1, h.2.2.mute ev (by cases ev <;> first | rfl | exact he.elim)⟩

theorem OnGoing.report {S : SourceM} {ok : S.St → Prop} {pr : Ckpt → Int × Int} {sv : Bool} {b : Int × Int} {s : S.St} {log : List Ev} (h : OnGoing S ok pr sv b s log) :
    OnGoing S ok pr sv b s (log ++ [.progress (S.progress s)]) := ⟨h.1, by rw [shown_progress]; exact h.2.1.say (Ahead.refl _) (Ahead.refl _), h.2.2.mute _ rfl⟩

/-- What the save callback shows. -/
theorem tarOnSave_going (ck : Ckpt) (c : TC T K V) {x y : Int × Int} (h : Going b (shown sv c.xw.log) x) (hxy : Ahead x y)
    (hsv : sv = true → Ahead x (pr ck) ∧ Ahead (pr ck) y) : Going b (shown sv (tarOnSave T pr ck c).1.xw.log) y := by
  have hs : ∀ (k : ECkpt) (a : Except Err Action), k.progress = pr ck → Going b (shown sv (c.xw.log ++ [.save k a])) y := by
    intro k a hk
    rw [shown_save]
    cases sv with
    | false => simpa using h.move hxy
    | true => rw [hk]; exact h.say (hsv rfl).1 (hsv rfl).2
  unfold tarOnSave
  split
  · exact h.move hxy
  · split
    · exact h.move hxy
    · simp only []
      split <;> exact hs _ _ rfl

/-- What the save callback saves. -/
theorem tarOnSave_saved (ck : Ckpt) (c : TC T K V) (h : SavedAt pr c.xw.log) : SavedAt pr (tarOnSave T pr ck c).1.xw.log := by
  have hs : ∀ (k : ECkpt) (a : Except Err Action), k.srcCk = some ck → k.progress = pr ck → tarStart (some k) = some ck →
      SavedAt pr (c.xw.log ++ [.save k a]) := by
    intro k a h1 h2 h3 s hs
    rw [saves_append, List.mem_append] at hs
    rcases hs with hs | hs
    · exact h s hs
    · have : s = (k, a) := by simpa [saves] using hs
      subst this
      exact ⟨ck, h1, h2, h3⟩
  unfold tarOnSave
  split
  · exact h
  · split
    · exact h
    · simp only []
      split <;> exact hs _ _ rfl rfl rfl

include hS

theorem read_going (n : Nat) (s : S.St) (c : TC T K V) (h : OnGoing S ok pr sv b s c.xw.log) :
    OnGoing S ok pr sv b (S.read (tarOnSave T pr) n s c).2.1 (S.read (tarOnSave T pr) n s c).2.2.xw.log := by
  obtain ⟨h0, h1, h2⟩ := hS.read (tarOnSave T pr) n s c h.1
  refine ⟨h0, ?_⟩
  rcases h2 with e | ⟨ck, e, h3⟩
  · rw [e]; exact ⟨h.2.1.move h1, h.2.2⟩
  · rw [e]; exact ⟨tarOnSave_going ck c h.2.1 h1 h3, tarOnSave_saved ck c h.2.2⟩

theorem tarNext_going : ∀ (fuel : Nat) (s : S.St) (c : TC T K V), OnGoing S ok pr sv b s c.xw.log →
    OnGoing S ok pr sv b (tarNext S T (tarOnSave T pr) fuel s c).2.1 (tarNext S T (tarOnSave T pr) fuel s c).2.2.xw.log := by
  intro fuel
  induction fuel with
  | zero => intro s c h; exact h
  | succ fuel ih =>
    intro s c h
    unfold tarNext
    split
    · exact h
    · exact h
    · exact h
    · rename_i n hn
      have hr' := read_going hS n s c h
      simp only []
      split
      · exact ih _ _ hr'
      · split
        · split
          · exact ih _ _ hr'
          · split <;> exact hr'
        · exact hr'

theorem tarFile_going (F : Nat) (e : Entry) (s : S.St) (c : TC T K V) (h : OnGoing S ok pr sv b s c.xw.log) :
    OnGoing S ok pr sv b (tarFile S T pr F e s c).2.1 (tarFile S T pr F e s c).2.2.xw.log := by
  unfold tarFile
  simp only []
  split
  · exact h.mute _ trivial
  · have hc : ∀ q : S.St × TC T K V, OnGoing S ok pr sv b q.1 q.2.xw.log →
        OnGoing S ok pr sv b (copyDo (tarIO S T pr) F q).2.1.1 (copyDo (tarIO S T pr) F q).2.1.2.xw.log := fun q hq =>
      copyLoop_inv (tarIO S T pr) (fun q => OnGoing S ok pr sv b q.1 q.2.xw.log)
        (fun q hq => by
          show OnGoing S ok pr sv b (tarRead S T pr q.1 q.2).2.1 (tarRead S T pr q.1 q.2).2.2.xw.log
          unfold tarRead
          split
          · exact hq
          · exact read_going hS _ q.1 q.2 hq)
        (fun bs q hq => by
          exact hq.mute _ trivial)
        (fun q hq => by
          exact hq.report)
        (fun n q hq => hq)
        (fun q hq => by
          obtain ⟨a, e⟩ := hS.wantSave q.1 hq.1
          exact ⟨a, by show Going b (shown sv q.2.xw.log) (S.progress (S.wantSave q.1)); rw [e]; exact hq.2.1, hq.2.2⟩) F 0 _ hq
    generalize hW : (s, ({ c with xw := _ } : TC T K V)) = W
    have hc := hc W (by
      rw [← hW]
      exact h.mute _ trivial)
    generalize copyDo (tarIO S T pr) F W = r at *
    obtain ⟨r1, ⟨r2, r3⟩, r4⟩ := r
    cases r1 with
    | some x => exact hc
    | none =>
      exact OnGoing.report hc

theorem tarExtract_going (F : Nat) (e : Entry) (s : S.St) (c : TC T K V) (h : OnGoing S ok pr sv b s c.xw.log) :
    OnGoing S ok pr sv b (tarExtract S T pr F e s c).2.1 (tarExtract S T pr F e s c).2.2.xw.log := by
  have key : ∀ (r : Option Err × S.St × TC T K V), OnGoing S ok pr sv b r.2.1 r.2.2.xw.log → OnGoing S ok pr sv b
      (match r.1 with
      | some x => (some x, r.2)
      | none => (none, r.2.1, { r.2.2 with xw := { r.2.2.xw with ck := { r.2.2.xw.ck with entry := none, srcCk := none, data := none } } })).2.1
      (match r.1 with
      | some x => (some x, r.2)
      | none => (none, r.2.1, { r.2.2 with xw := { r.2.2.xw with ck := { r.2.2.xw.ck with entry := none, srcCk := none, data := none } } })).2.2.xw.log := by
    rintro ⟨r1, r2⟩ hr
    cases r1 <;> exact hr
  unfold tarExtract
  simp only []
  refine key _ ?_
  split
  · exact h.mute _ trivial
  · exact h.mute _ trivial
  · exact tarFile_going hS F e s _ h

theorem tarStep_going (F : Nat) (idx : Int) (s : S.St) (c : TC T K V) (h : OnGoing S ok pr sv b s c.xw.log) :
    OnGoing S ok pr sv b (tarStep S T pr F idx s c).2.1 (tarStep S T pr F idx s c).2.2.xw.log := by
  unfold tarStep
  simp only []
  split
  · exact tarExtract_going hS F _ s _ h
  · have hn := tarNext_going (T := T) (K := K) (V := V) hS F s { c with cur := false, xw := { c.xw with ck := { c.xw.ck with entryIndex := idx } } } h
    generalize tarNext S T (tarOnSave T pr) F s { c with cur := false, xw := { c.xw with ck := { c.xw.ck with entryIndex := idx } } } = n at *
    obtain ⟨n1, n2, n3⟩ := n
    cases n1 with
    | error x => exact hn
    | ok hd =>
      simp only []
      split
      · exact hn
      · exact tarExtract_going hS F _ n2 n3 hn

theorem tarLoop_going (F : Nat) : ∀ (fuel : Nat) (idx : Int) (s : S.St) (c : TC T K V), OnGoing S ok pr sv b s c.xw.log →
    OnGoing S ok pr sv b (tarLoop S T pr F fuel idx s c).2.1 (tarLoop S T pr F fuel idx s c).2.2.xw.log := by
  intro fuel
  induction fuel with
  | zero => intro idx s c h; exact h
  | succ fuel ih =>
    intro idx s c h
    unfold tarLoop
    split
    · exact h
    · have hs := tarStep_going hS F idx s c h
      simp only []
      split
      · exact hs
      · exact hs
      · exact ih _ _ _ hs

/-- Nothing is logged before the loop; if it gets there, the source was resumed from the checkpoint or from the start and
has only gone forward since. -/
theorem tarBegin_going (F : Nat) (ck : Option ECkpt) (src : S.St) (hok : ok src) (k : K.St) (u : V.St) :
    (tarBegin S T F ck src k u : Option Err × S.St × TC T K V).2.2.xw.log = [] ∧
    ((tarBegin S T F ck src k u : Option Err × S.St × TC T K V).1 = none → ∃ sck o s', S.resume sck src = (.ok o, s') ∧
      (sck = none ∨ ∃ c, ck = some c ∧ sck = c.srcCk) ∧ sck = tarStart ck ∧ ok (tarBegin S T F ck src k u : Option Err × S.St × TC T K V).2.1 ∧
      Ahead (S.progress s') (S.progress (tarBegin S T F ck src k u : Option Err × S.St × TC T K V).2.1)) := by
  have h1 : none = tarStart ck → (tarFresh S T src k u : Option Err × S.St × TC T K V).2.2.xw.log = [] ∧
    ((tarFresh S T src k u : Option Err × S.St × TC T K V).1 = none → ∃ sck o s', S.resume sck src = (.ok o, s') ∧
      (sck = none ∨ ∃ c, ck = some c ∧ sck = c.srcCk) ∧ sck = tarStart ck ∧ ok (tarFresh S T src k u : Option Err × S.St × TC T K V).2.1 ∧
      Ahead (S.progress s') (S.progress (tarFresh S T src k u : Option Err × S.St × TC T K V).2.1)) := by
    intro hst
    unfold tarFresh
    simp only []
    split
    · exact ⟨rfl, nofun⟩
    · rename_i o ho
      exact ⟨rfl, fun _ => ⟨none, o, (S.resume none src).2, by rw [← ho], Or.inl rfl, hst, hS.resume _ _ hok, Ahead.refl _⟩⟩
  unfold tarBegin
  split
  · rename_i c
    split
    · unfold tarAgain
      simp only []
      split
      · exact ⟨rfl, nofun⟩
      · rename_i tck _ _ o ho
        have hd : ok (if o < tck.roff then discard S (fun _ c => (c, none)) F (tck.roff - o) (S.resume c.srcCk src).2 () else (none, (S.resume c.srcCk src).2, ())).2.1 ∧
            Ahead (S.progress (S.resume c.srcCk src).2)
            (S.progress (if o < tck.roff then discard S (fun _ c => (c, none)) F (tck.roff - o) (S.resume c.srcCk src).2 () else (none, (S.resume c.srcCk src).2, ())).2.1) := by
          split
          · exact discard_ahead hS _ _ _ _ _ (hS.resume _ _ hok)
          · exact ⟨hS.resume _ _ hok, Ahead.refl _⟩
        split
        · exact ⟨rfl, nofun⟩
        · split
          · exact ⟨rfl, nofun⟩
          · exact ⟨rfl, fun _ => ⟨c.srcCk, o, (S.resume c.srcCk src).2, by rw [← ho], Or.inr ⟨c, rfl, rfl⟩, by unfold tarStart; simp only [*], hd⟩⟩
    · rename_i hno
      refine h1 ?_
      unfold tarStart
      dsimp only
      split
      · rename_i res tck he
        exact absurd he (hno res tck)
      · rfl
  · exact h1 rfl

/-- The values shown by a run never go back, and if resuming starts at a fraction they are all fractions. -/
theorem tarResume_going (F : Nat) (ck : Option ECkpt) (src : S.St) (hok : ok src) (k : K.St) (u : V.St) :
    (shown sv (tarResume S T pr F K V ck src k u).2.2.log).Pairwise NotBack ∧
    ((∀ sck o s', S.resume sck src = (.ok o, s') → (sck = none ∨ ∃ c, ck = some c ∧ sck = c.srcCk) → Fraction (S.progress s')) →
      ∀ p ∈ shown sv (tarResume S T pr F K V ck src k u).2.2.log, Fraction p) ∧
    (∀ p ∈ shown sv (tarResume S T pr F K V ck src k u).2.2.log, (∃ o s', S.resume (tarStart ck) src = (.ok o, s') ∧ Ahead (S.progress s') p)) ∧
    SavedAt pr (tarResume S T pr F K V ck src k u).2.2.log := by
  have h0 := tarBegin_going (T := T) (K := K) (V := V) hS F ck src hok k u
  have hnil : shown sv [] = [] := by unfold shown; cases sv <;> rfl
  unfold tarResume
  simp only []
  generalize (tarBegin S T F ck src k u : Option Err × S.St × TC T K V) = b at *
  obtain ⟨b1, b2, b3⟩ := b
  dsimp only at h0
  cases b1 with
  | some x =>
    simp only []
    rw [h0.1, hnil]
    exact ⟨List.Pairwise.nil, fun _ p hp => (by cases hp), fun p hp => (by cases hp), (by intro s hs; cases hs)⟩
  | none =>
    simp only []
    obtain ⟨sck, o, s', e1, e2, e5, e4, e3⟩ := h0.2 rfl
    have hb : OnGoing S ok pr sv (S.progress s') (S.setSSC true b2) b3.xw.log := by
      obtain ⟨a, e⟩ := hS.setSSC true b2 e4
      refine ⟨a, ?_, by rw [h0.1]; intro s hs; cases hs⟩
      rw [h0.1, hnil, e]
      unfold Going
      simp only [List.nil_append, List.pairwise_cons, List.mem_singleton]
      exact ⟨fun a ha => by rw [ha]; exact e3, by simp, List.Pairwise.nil⟩
    have hl := (tarLoop_going hS F F b3.xw.ck.entryIndex (S.setSSC true b2) b3 hb).2
    obtain ⟨hl, hsa⟩ := hl
    have hfin : (shown sv (tarLoop S T pr F F b3.xw.ck.entryIndex (S.setSSC true b2) b3).2.2.xw.log).Pairwise NotBack ∧
        (Fraction (S.progress s') → ∀ p ∈ shown sv (tarLoop S T pr F F b3.xw.ck.entryIndex (S.setSSC true b2) b3).2.2.xw.log, Fraction p) ∧
        ∀ p ∈ shown sv (tarLoop S T pr F F b3.xw.ck.entryIndex (S.setSSC true b2) b3).2.2.xw.log, Ahead (S.progress s') p := by
      unfold Going at hl
      rw [List.pairwise_cons, List.pairwise_append] at hl
      exact ⟨hl.2.1.imp fun h => h.1, fun hf p hp => (hl.1 p (List.mem_append_left _ hp)).2 hf, fun p hp => hl.1 p (List.mem_append_left _ hp)⟩
    subst e5
    refine ⟨?_, fun hst => ?_, fun p hp => ⟨o, s', e1, ?_⟩, by split <;> exact hsa⟩
    · split <;> exact hfin.1
    · split <;> exact hfin.2.1 (hst _ _ _ e1 e2)
    · refine hfin.2.2 p ?_
      revert hp
      split <;> exact id

end

end Savior
