import Verif.ZipSteps
/-!
# Checkpoints of a zip run are later than its start
-/

namespace Savior

theorem posLt_of_lt_le {p q r : Int × Int} (h1 : posLt p q) (h2 : posLe q r) : posLt p r := by
  unfold posLt posLe at *; omega

/-- A checkpoint as the extractor saves them. -/
structure SavedCk (A : Archive) (D : Decomp) (ck : ECkpt) (i : Nat) (zf : ZFile) (o : Nat) : Prop where
  file : A.files[i]? = some zf
  index : ck.entryIndex = i
  entry : ∃ x, ck.entry = some { zipFileEntry zf with woff := x }
  src : ∃ c, ck.srcCk = some c ∧ fileCk A D zf c o

theorem fileCk_off {A : Archive} {D : Decomp} {zf : ZFile} {c : Ckpt} {o : Nat} (h : fileCk A D zf c o) : c.offset = o := by
  unfold fileCk at h
  split at h
  · rw [h.1]; rfl
  · exact (by
      have : CkW (seekLawful (zipGeo A zf)) flateCfg D c o := h
      unfold CkW at this
      obtain ⟨a, b, d, e, h1, h2⟩ := this
      grind [Ckpt.offset])
  · cases h

theorem fileCk_le {A : Archive} {D : Decomp} {zf : ZFile} {c : Ckpt} {o : Nat} (h : fileCk A D zf c o) :
    o ≤ (zipContent A D zf).1.length := by
  have hs : (zipGeo A zf).stream = zipRawBytes A zf := zipGeo_stream A zf _
  unfold fileCk at h
  unfold zipContent
  split at h
  · rename_i hm
    have := h.2
    rw [hs] at this
    simpa [hm] using this
  · rename_i hm
    have h' : CkW (seekLawful (zipGeo A zf)) flateCfg D c o := h
    unfold CkW at h'
    obtain ⟨_, _, _, _, _, _, _, _, _, _, h2, _⟩ := h'
    rw [hs] at h2
    simpa [hm] using h2
  · cases h

section
variable {K : SinkM} {V : SaveCons}

/-- All saves so far are well-formed, not before each other, strictly after `st`, and not after `p`. -/
structure LogOK (A : Archive) (D : Decomp) (st : Int × Int) (log : List Ev) (p : Int × Int) : Prop where
  wf : ∀ s ∈ saves log, ∃ i zf o, SavedCk A D s.1 i zf o
  after : D.Exact → ∀ s ∈ saves log, posLt st (ckPos s.1)
  sorted : (saves log).Pairwise fun a b => posLe (ckPos a.1) (ckPos b.1)
  upto : ∀ s ∈ saves log, posLe (ckPos s.1) p

theorem LogOK.say {A : Archive} {D : Decomp} {st : Int × Int} {log : List Ev} {p : Int × Int} (h : LogOK A D st log p) {ev : Ev}
    (hev : ∀ ck a, ev ≠ .save ck a) : LogOK A D st (log ++ [ev]) p := by
  have : saves (log ++ [ev]) = saves log := by
    rw [saves_append]
    cases ev <;> simp [saves] at hev ⊢
  exact ⟨by rw [this]; exact h.wf, by rw [this]; exact h.after, by rw [this]; exact h.sorted, by rw [this]; exact h.upto⟩

theorem LogOK.mono {A : Archive} {D : Decomp} {st : Int × Int} {log : List Ev} {p q : Int × Int} (h : LogOK A D st log p)
    (hpq : posLe p q) : LogOK A D st log q :=
  ⟨h.wf, h.after, h.sorted, fun s hs => by have := h.upto s hs; unfold posLe at *; omega⟩

theorem LogOK.save {A : Archive} {D : Decomp} {st : Int × Int} {log : List Ev} {p : Int × Int} (h : LogOK A D st log p) {ck : ECkpt}
    {a : Except Err Action} {i o : Nat} {zf : ZFile} (hck : SavedCk A D ck i zf o) (hp : p = ckPos ck) (hst : D.Exact → posLt st (ckPos ck)) :
    LogOK A D st (log ++ [.save ck a]) p := by
  have : saves (log ++ [.save ck a]) = saves log ++ [(ck, a)] := by rw [saves_append]; rfl
  constructor
  · intro s hs
    rw [this] at hs
    simp at hs
    rcases hs with hs | hs
    · exact h.wf s hs
    · subst hs; exact ⟨i, zf, o, hck⟩
  · intro hD s hs
    rw [this] at hs
    simp at hs
    rcases hs with hs | hs
    · exact h.after hD s hs
    · subst hs; exact hst hD
  · rw [this, List.pairwise_append]
    refine ⟨h.sorted, by simp, ?_⟩
    intro x hx y hy
    simp at hy
    subst hy
    have := h.upto x hx
    rw [hp] at this
    exact this
  · intro s hs
    rw [this] at hs
    simp at hs
    rcases hs with hs | hs
    · exact h.upto s hs
    · subst hs; rw [hp]; exact Or.inr ⟨rfl, Int.le_refl _⟩

/-- The steps of an extraction started at `st`. -/
def laterSteps (A : Archive) (D : Decomp) (env : ZEnv) (total : Int) (K : SinkM) (V : SaveCons) (st : Int × Int) :
    ZipSteps A D env total K V where
  Beg i w := ∃ p, LogOK A D st w.log p ∧ posLe p (i, 0) ∧
    ((st.1 < i ∧ w.ck.entry = none ∧ w.ck.srcCk = none) ∨
     (saves w.log = [] ∧ ∃ zf o, SavedCk A D w.ck i zf o ∧ st = ((i : Int), (o : Int))))
  Mid i o0 o w := LogOK A D st w.log (i, o) ∧ w.ck.entryIndex = i ∧
    (∃ x, ∀ zf, A.files[i]? = some zf → w.ck.entry = some { zipFileEntry zf with woff := x }) ∧ (st.1 < i ∨ st = ((i : Int), (o0 : Int)))
  Cop i _ w := (∃ p, LogOK A D st w.log p ∧ posLe p (i, 0)) ∧ st.1 ≤ i
  Bad w := ∃ p, LogOK A D st w.log p
  beg_bad := by rintro i w ⟨p, h, _⟩; exact ⟨p, h⟩
  beg_kind := by
    rintro i zf w ⟨p, _, _, h⟩ hzf
    rcases h with ⟨_, h, _⟩ | ⟨_, zf', o, h, _⟩
    · rw [h]; rfl
    · obtain ⟨e, h1⟩ := h.entry
      have := h.file
      rw [hzf] at this
      cases this
      rw [h1]; rfl
  beg_src := by
    rintro i zf w ⟨p, _, _, h⟩ hzf _ _
    rcases h with ⟨_, _, h⟩ | ⟨_, zf', o, h, _⟩
    · exact ⟨0, Or.inl ⟨h, rfl⟩⟩
    · have := h.file
      rw [hzf] at this
      cases this
      exact ⟨o, Or.inr h.src⟩
  enter_bad := by rintro i zf w ⟨p, h, _⟩ _; exact ⟨p, h⟩
  zero_bad := by rintro i zf w ⟨p, h, _⟩ _ _ _ _; exact ⟨p, h⟩
  mkdir := by
    rintro i zf w ⟨p, h, hp, h'⟩ _ _ _ w' rfl
    have hl := h.say (ev := .mkdir (w.ck.entry.getD (zipFileEntry zf)) (K.mkdir (w.ck.entry.getD (zipFileEntry zf)) w.sink).1) (by simp)
    have hst : st.1 ≤ i := by
      rcases h' with ⟨h', _⟩ | ⟨_, _, _, _, h'⟩
      · omega
      · rw [h']; exact Int.le_refl _
    exact ⟨fun _ => ⟨p, hl, by unfold posLe at *; push_cast; omega, Or.inl ⟨by push_cast; omega, rfl, rfl⟩⟩, fun _ => ⟨p, hl⟩⟩
  symlink := by
    rintro i zf w chunks ⟨p, h, hp, h'⟩ _ _ _ _ w' rfl
    have hl := h.say (ev := .symlink (w.ck.entry.getD (zipFileEntry zf)) chunks.flatten (K.symlink (w.ck.entry.getD (zipFileEntry zf)) chunks.flatten w.sink).1) (by simp)
    have hst : st.1 ≤ i := by
      rcases h' with ⟨h', _⟩ | ⟨_, _, _, _, h'⟩
      · omega
      · rw [h']; exact Int.le_refl _
    exact ⟨fun _ => ⟨p, hl, by unfold posLe at *; push_cast; omega, Or.inl ⟨by push_cast; omega, rfl, rfl⟩⟩, fun _ => ⟨p, hl⟩⟩
  open_ := by
    rintro i zf w o0 oc ⟨p, h, hp, h'⟩ hzf _ _ _ hsa _
    have hl := h.say (ev := .openW (w.ck.entry.getD (zipFileEntry zf)) (K.getWriter (w.ck.entry.getD (zipFileEntry zf)) w.sink).1) (by simp)
    refine ⟨fun _ _ _ => ⟨hl.mono ?_, rfl, ⟨(w.ck.entry.getD (zipFileEntry zf)).woff, ?_⟩, ?_⟩, fun _ => ⟨p, hl⟩⟩
    · unfold posLe at *; simp at *; omega
    · intro zf' hz
      rw [hzf] at hz
      cases hz
      show some (w.ck.entry.getD (zipFileEntry zf)) = _
      rcases h' with ⟨_, h', _⟩ | ⟨_, zf', o, h', _⟩
      · rw [h']; rfl
      · obtain ⟨e, h1⟩ := h'.entry
        have := h'.file
        rw [hzf] at this
        cases this
        rw [h1]; rfl
    · rcases h' with ⟨h', _⟩ | ⟨_, zf', o, h1, h2⟩
      · exact Or.inl h'
      · right
        rw [h2]
        congr 2
        obtain ⟨c, h3, h4⟩ := h1.src
        have := h1.file
        rw [hzf] at this
        cases this
        rcases hsa with ⟨h5, _⟩ | ⟨c', h5, h6⟩
        · rw [h3] at h5; cases h5
        · rw [h3] at h5
          cases h5
          have a := fileCk_off h4
          have b := fileCk_off h6
          omega
  save := by
    rintro i zf w o0 o c ⟨h1, h2, ⟨e, h3⟩, h5⟩ hzf ho hex hc _ _ _
    unfold zipOnSave
    simp only
    have hl := h1.say (ev := .sync (K.sync w.sink).1) (by simp)
    split
    · exact ⟨hl, h2, ⟨e, h3⟩, h5⟩
    · have hck : ∀ pr, SavedCk A D { w.ck with srcCk := some c, progress := pr } i zf o := by
        intro pr
        exact ⟨hzf, h2, ⟨e, h3 zf hzf⟩, c, rfl, hc⟩
      have hpos : ∀ pr, ((i : Int), (o : Int)) = ckPos { w.ck with srcCk := some c, progress := pr } := by
        intro pr
        simp [ckPos, h2, fileCk_off hc]
      have hst : ∀ pr, D.Exact → posLt st (ckPos { w.ck with srcCk := some c, progress := pr }) := by
        intro pr hD
        rw [← hpos]
        have := hex hD
        rcases h5 with h5 | h5
        · exact Or.inl h5
        · right; rw [h5]; simp; omega
      split
      · exact ⟨hl.save (hck _) (hpos _) (hst _), h2, ⟨e, h3⟩, h5⟩
      · exact ⟨hl.save (hck _) (hpos _) (hst _), h2, ⟨e, h3⟩, h5⟩
      · exact ⟨hl.save (hck _) (hpos _) (hst _), h2, ⟨e, h3⟩, h5⟩
  write := by
    rintro i zf w o0 o bs ⟨h1, h2, ⟨e, h3⟩, h5⟩ hzf _ _
    have hl := h1.say (ev := .write bs (K.write bs w.sink).1.1 (K.write bs w.sink).1.2.2) (by simp)
    refine ⟨fun _ => ⟨hl.mono (by unfold posLe; right; refine ⟨rfl, ?_⟩; push_cast; omega), h2, ?_, h5⟩, fun _ => ⟨_, hl⟩⟩
    refine ⟨e + (K.write bs w.sink).1.2.1, ?_⟩
    intro zf' hz
    show w.ck.entry.map _ = _
    rw [h3 zf' hz]
    rfl
  should := by rintro i w o0 o n ⟨h1, h2, h3, h4⟩; exact ⟨h1, h2, h3, h4⟩
  emit := by
    rintro i w o0 o ⟨h1, h2, h3, h4⟩
    exact ⟨h1.say (by simp), h2, h3, h4⟩
  mid_bad := by rintro i w o0 o ⟨h, _⟩; exact ⟨_, h⟩
  mid_stop := by rintro i zf w o0 o ⟨h, _⟩ _ _; exact ⟨_, h⟩
  mid_end := by
    rintro i zf w o0 ⟨h, _, _, h'⟩ _ _ _
    refine ⟨_, h, ?_, Or.inl ⟨?_, rfl, rfl⟩⟩
    · left; push_cast; omega
    · rcases h' with h' | h'
      · push_cast; omega
      · rw [h']; push_cast; omega
  copy := by
    rintro i zf w ⟨p, h, hp, h'⟩ hzf _ _ _
    have hl := h.say (ev := .openW { w.ck.entry.getD (zipFileEntry zf) with woff := 0 } (K.getWriter { w.ck.entry.getD (zipFileEntry zf) with woff := 0 } w.sink).1) (by simp)
    refine ⟨fun _ => ⟨⟨p, hl, hp⟩, ?_⟩, fun _ => ⟨p, hl⟩⟩
    rcases h' with ⟨h', _⟩ | ⟨_, _, _, _, h'⟩
    · omega
    · rw [h']; exact Int.le_refl _
  copy_write := by
    rintro i w xs bs ⟨⟨p, h, hp⟩, h'⟩ _
    have hl := h.say (ev := .write bs (K.write bs w.sink).1.1 (K.write bs w.sink).1.2.2) (by simp)
    exact ⟨fun _ _ => ⟨⟨p, hl, hp⟩, h'⟩, p, hl⟩
  copy_bad := by rintro i w xs ⟨⟨p, h, _⟩, _⟩; exact ⟨p, h⟩
  copy_end := by
    rintro i zf w chunks ⟨⟨p, h, hp⟩, h'⟩ _ _
    exact ⟨p, h, by unfold posLe at *; push_cast; omega, Or.inl ⟨by push_cast; omega, rfl, rfl⟩⟩

theorem zipPrealloc_log : ∀ (fs : List ZFile) (w : XW K V), (∃ l, (zipPrealloc fs w).2.log = w.log ++ l ∧ ∀ ev ∈ l, ∃ e r, ev = .prealloc e r) ∧
    (zipPrealloc fs w).2.ck = w.ck ∧ (zipPrealloc fs w).2.stopErr = w.stopErr ∧ (zipPrealloc fs w).2.done = w.done ∧
    (zipPrealloc fs w).2.stop = w.stop ∧ (zipPrealloc fs w).2.cons = w.cons := by
  intro fs
  induction fs with
  | nil => intro w; exact ⟨⟨[], by simp [zipPrealloc], by simp⟩, rfl, rfl, rfl, rfl, rfl⟩
  | cons zf fs ih =>
    intro w
    unfold zipPrealloc
    split
    · simp only
      split
      · refine ⟨⟨[_], rfl, by simp⟩, rfl, rfl, rfl, rfl, rfl⟩
      · obtain ⟨⟨l, h1, h2⟩, h3⟩ := ih (({ w with sink := (K.preallocate (zipFileEntry zf) w.sink).2 }).say (.prealloc (zipFileEntry zf) (K.preallocate (zipFileEntry zf) w.sink).1))
        refine ⟨⟨_ :: l, by rw [h1]; simp [XW.say]; rfl, ?_⟩, h3⟩
        intro ev hev
        simp at hev
        rcases hev with hev | hev
        · exact ⟨_, _, hev⟩
        · exact h2 ev hev
    · exact ih w

theorem saves_prealloc (l : List Ev) (h : ∀ ev ∈ l, ∃ e r, ev = .prealloc e r) : saves l = [] := by
  induction l with
  | nil => rfl
  | cons x l ih =>
    obtain ⟨e, r, hx⟩ := h x (by simp)
    subst hx
    exact ih (fun ev hev => h ev (by simp [hev]))

theorem zipPrepare_log (A : Archive) (ck : Option ECkpt) (k : K.St) (u : V.St) (r) (h : zipPrepare A ck (zipInit A ck k u : XW K V) = r) :
    (∀ ev ∈ r.2.log, ∃ e x, ev = .prealloc e x) ∧ r.2.ck = ck.getD freshCk ∧ r.2.stopErr = false ∧ r.2.stop = false ∧
    r.2.done = zipSum (A.files.take (ck.getD freshCk).entryIndex.toNat) ∧ r.2.cons = u := by
  subst h
  unfold zipPrepare
  split
  · obtain ⟨⟨l, h1, h2⟩, h3, h4, h5, h6, h7⟩ := zipPrealloc_log A.files (zipInit A ck k u : XW K V)
    have hn : (zipInit A ck k u : XW K V).log = [] := rfl
    rw [hn, List.nil_append] at h1
    refine ⟨by rw [h1]; exact h2, h3, h4, h6, h5, h7⟩
  · exact ⟨by simp [zipInit], rfl, rfl, rfl, rfl, rfl⟩

/-- All saves of a run: well-formed, in order, strictly after the start. -/
theorem zipResume_later {A : Archive} {D : Decomp} {F : Nat} (hwf : ZipWF A D F) (env : ZEnv) (ck : Option ECkpt)
    (hck : ∀ c, ck = some c → ∃ i zf o, SavedCk A D c i zf o) (k : K.St) (u : V.St) (st : Int × Int)
    (hst : (ck = none ∧ st = (-1, 0)) ∨ ∃ c, ck = some c ∧ st = ckPos c) :
    ∃ p, LogOK A D st (zipResume A env D F K V ck k u).2.log p := by
  refine (zipResume_steps hwf (laterSteps A D env (zipSum A.files) K V st) ck k u ?_).1
  intro r hr
  obtain ⟨h1, h2, h3, _⟩ := zipPrepare_log A ck k u r hr
  have hsv : saves r.2.log = [] := saves_prealloc _ h1
  have hlog : ∀ p, LogOK A D st r.2.log p := by
    intro p
    constructor <;> simp [hsv]
  refine ⟨⟨(0, 0), hlog _⟩, fun _ => ?_, h3⟩
  rcases hst with ⟨hn, hst⟩ | ⟨c, hc, hst⟩
  · subst hn
    subst hst
    refine ⟨0, rfl, (0, 0), hlog _, by unfold posLe; simp, Or.inl ⟨by simp, ?_, ?_⟩⟩ <;> · rw [h2]; rfl
  · subst hc
    obtain ⟨i, zf, o, hs⟩ := hck c rfl
    refine ⟨i, hs.index, (i, 0), hlog _, by unfold posLe; simp, Or.inr ⟨hsv, zf, o, ?_, ?_⟩⟩
    · rw [h2]; exact hs
    · rw [hst]
      obtain ⟨c', h4, h5⟩ := hs.src
      simp [ckPos, hs.index, h4, fileCk_off h5]

theorem zipSaved_wf {A : Archive} {D : Decomp} {F : Nat} {Q : SinkM → Prop} (hwf : ZipWF A D F) {n : Nat} {c : ECkpt} (h : ZipSaved A D F Q n c) :
    ∃ i zf o, SavedCk A D c i zf o := by
  induction h with
  | first env K V k u _ h =>
    obtain ⟨p, hl⟩ := zipResume_later (V := V) hwf env none (by simp) k u (-1, 0) (Or.inl ⟨rfl, rfl⟩)
    exact hl.wf _ h
  | again env K V k u _ _ h ih =>
    obtain ⟨p, hl⟩ := zipResume_later (V := V) hwf env (some _) (by intro c hc; cases hc; exact ih) k u _ (Or.inr ⟨_, rfl, rfl⟩)
    exact hl.wf _ h

/-- Number of positions before a position. -/
def posNum (A : Archive) (D : Decomp) (i o : Nat) : Nat := ((A.files.take i).map fun zf => (zipContent A D zf).1.length + 1).sum + o

theorem posNum_lt {A : Archive} {D : Decomp} {i j o o' : Nat} {zf : ZFile} (hi : A.files[i]? = some zf)
    (ho : o ≤ (zipContent A D zf).1.length) (h : i < j ∨ (i = j ∧ o < o')) : posNum A D i o < posNum A D j o' := by
  rcases h with h | ⟨rfl, h⟩
  · have hsplit : A.files.take j = A.files.take i ++ zf :: (A.files.take j).drop (i + 1) := by
      have h1 : (A.files.take j)[i]? = some zf := by rw [List.getElem?_take]; simp [h, hi]
      conv => lhs; rw [← List.take_append_drop i (A.files.take j)]
      rw [List.take_take, Nat.min_eq_left (by omega), List.drop_eq_getElem?_toList_append, h1]
      rfl
    unfold posNum
    rw [hsplit, List.map_append, List.sum_append, List.map_cons, List.sum_cons]
    omega
  · unfold posNum; omega

theorem posNum_bound {A : Archive} {D : Decomp} {i o : Nat} {zf : ZFile} (hi : A.files[i]? = some zf)
    (ho : o ≤ (zipContent A D zf).1.length) : posNum A D i o < zipPositions A D := by
  have := posNum_lt (j := A.files.length) (o' := 0) hi ho (Or.inl (by
    have := (List.getElem?_eq_some_iff.mp hi).1; omega))
  unfold posNum at this
  rw [List.take_length] at this
  exact this

theorem zipSaved_num {A : Archive} {D : Decomp} {F : Nat} {Q : SinkM → Prop} (hwf : ZipWF A D F) (hex : D.Exact) {n : Nat} {c : ECkpt} (h : ZipSaved A D F Q n c) :
    ∀ i zf o, SavedCk A D c i zf o → n ≤ posNum A D i o + 1 := by
  induction h with
  | first => intros; omega
  | again env K V k u _ hp h ih =>
    intro i zf o hs
    obtain ⟨i0, zf0, o0, hs0⟩ := zipSaved_wf hwf hp
    obtain ⟨p, hl⟩ := zipResume_later (V := V) hwf env (some _) (by intro c hc; cases hc; exact ⟨i0, zf0, o0, hs0⟩) k u _ (Or.inr ⟨_, rfl, rfl⟩)
    have hlt := hl.after hex _ h
    have h0 := ih i0 zf0 o0 hs0
    obtain ⟨c1, a1, b1⟩ := hs.src
    obtain ⟨c0, a0, b0⟩ := hs0.src
    simp only [posLt, ckPos, hs.index, hs0.index, a1, a0, fileCk_off b1, fileCk_off b0] at hlt
    have := posNum_lt (A := A) (D := D) (j := i) (o' := o) hs0.file (fileCk_le b0) (by omega)
    omega

end
end Savior
