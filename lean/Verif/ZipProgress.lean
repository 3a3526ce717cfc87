import Verif.ZipPlain
/-!
# Progress values of a zip run
-/

namespace Savior

theorem progresses_append (a b : List Ev) : progresses (a ++ b) = progresses a ++ progresses b := by
  induction a with
  | nil => rfl
  | cons x a ih => cases x <;> simp [progresses, ih]

/-- Sum of the sizes of the first `i` members. -/
def sizeBefore (A : Archive) (i : Nat) : Int := ((A.files.take i).map (·.usize)).sum

theorem sizeBefore_succ {A : Archive} {i : Nat} {zf : ZFile} (h : A.files[i]? = some zf) : sizeBefore A (i + 1) = sizeBefore A i + zf.usize := by
  unfold sizeBefore
  rw [List.take_add_one, h]
  simp

theorem sum_nonneg_of {l : List Int} (h : ∀ x ∈ l, 0 ≤ x) : 0 ≤ l.sum := by
  induction l with
  | nil => simp
  | cons a l ih =>
    have := h a (by simp)
    have := ih (fun x hx => h x (by simp [hx]))
    simp; omega

theorem sizeBefore_bounds {A : Archive} {D : Decomp} (ht : ZipTruthful A D) (i : Nat) :
    0 ≤ sizeBefore A i ∧ sizeBefore A i ≤ (A.files.map (·.usize)).sum := by
  have h1 : ∀ l : List ZFile, (∀ zf ∈ l, zf ∈ A.files) → 0 ≤ (l.map (·.usize)).sum := by
    intro l hl
    refine sum_nonneg_of ?_
    intro x hx
    simp at hx
    obtain ⟨zf, hz, rfl⟩ := hx
    exact ht.pos zf (hl zf hz)
  have h2 := h1 (A.files.drop i) (fun zf hz => List.mem_of_mem_drop hz)
  have h3 := h1 (A.files.take i) (fun zf hz => List.mem_of_mem_take hz)
  have : (A.files.map (·.usize)).sum = sizeBefore A i + ((A.files.drop i).map (·.usize)).sum := by
    unfold sizeBefore
    rw [← List.sum_append, ← List.map_append, List.take_append_drop]
  unfold sizeBefore at *
  omega

theorem wrap64_id {x : Int} (h1 : 0 ≤ x) (h2 : x < 2 ^ 63) : wrap64 x = x := by
  unfold wrap64; omega

theorem zipSum_eq {A : Archive} {D : Decomp} (ht : ZipTruthful A D) (i : Nat) : zipSum (A.files.take i) = sizeBefore A i := by
  have : ∀ i, i ≤ A.files.length → zipSum (A.files.take i) = sizeBefore A i := by
    intro i
    induction i with
    | zero => intro _; simp [zipSum, sizeBefore]
    | succ i ih =>
      intro hi
      have hz : A.files[i]? = some A.files[i] := by simp
      rw [sizeBefore_succ hz, ← ih (by omega)]
      have := ih (by omega)
      unfold zipSum at *
      rw [List.take_add_one, hz]
      simp only [Option.toList_some, List.foldl_append, List.foldl_cons, List.foldl_nil]
      rw [this]
      have a := sizeBefore_bounds ht (i + 1)
      rw [sizeBefore_succ hz] at a
      have := ht.total
      exact wrap64_id (by omega) (by omega)
  rcases Nat.le_total i A.files.length with h | h
  · exact this i h
  · rw [List.take_of_length_le h]
    have := this A.files.length (Nat.le_refl _)
    rw [List.take_length] at this
    rw [this]
    unfold sizeBefore
    rw [List.take_of_length_le h, List.take_length]

/-- All values so far are fractions of `total`, in order, at least `lo` and at most `top`; saved write offsets are sane. -/
structure ProgOK (A : Archive) (D : Decomp) (lo : Int) (log : List Ev) (total top : Int) : Prop where
  floor : lo ≤ top
  range : ∀ p ∈ progresses log, 0 ≤ p.1 ∧ p.1 ≤ top ∧ p.1 ≤ total ∧ p.2 = total ∧ lo ≤ p.1
  sorted : (progresses log).Pairwise fun p q => p.1 ≤ q.1
  woff : ∀ s ∈ saves log, ∃ i zf o x, SavedCk A D s.1 i zf o ∧ (zipFileEntry zf).kind = .file ∧ s.1.entry = some { zipFileEntry zf with woff := x } ∧ 0 ≤ x ∧ x ≤ o ∧ s.1.progress = (sizeBefore A i + x, total)

theorem ProgOK.mono {A : Archive} {D : Decomp} {log : List Ev} {lo total top top' : Int} (h : ProgOK A D lo log total top) (hle : top ≤ top') :
    ProgOK A D lo log total top' :=
  ⟨by have := h.floor; omega, fun p hp => by have := h.range p hp; exact ⟨this.1, by omega, this.2.2⟩, h.sorted, h.woff⟩

theorem ProgOK.say {A : Archive} {D : Decomp} {log : List Ev} {lo total top : Int} (h : ProgOK A D lo log total top) {ev : Ev}
    (h1 : saves [ev] = []) (h2 : progresses [ev] = []) : ProgOK A D lo (log ++ [ev]) total top := by
  constructor
  · exact h.floor
  · rw [progresses_append, h2, List.append_nil]; exact h.range
  · rw [progresses_append, h2, List.append_nil]; exact h.sorted
  · rw [saves_append, h1, List.append_nil]; exact h.woff

theorem ProgOK.val {A : Archive} {D : Decomp} {log : List Ev} {lo total top : Int} (h : ProgOK A D lo log total top) {ev : Ev} {p : Int × Int}
    (h2 : progresses [ev] = [p]) (hp : p = (top, total)) (h0 : 0 ≤ top) (h1 : top ≤ total)
    (h3 : ∀ s ∈ saves [ev], ∃ i zf o x, SavedCk A D s.1 i zf o ∧ (zipFileEntry zf).kind = .file ∧ s.1.entry = some { zipFileEntry zf with woff := x } ∧ 0 ≤ x ∧ x ≤ o ∧ s.1.progress = (sizeBefore A i + x, total)) :
    ProgOK A D lo (log ++ [ev]) total top := by
  constructor
  · exact h.floor
  · rw [progresses_append, h2]
    intro q hq
    simp at hq
    rcases hq with hq | hq
    · exact h.range q hq
    · subst hq; subst hp; exact ⟨h0, Int.le_refl _, h1, rfl, h.floor⟩
  · rw [progresses_append, h2, List.pairwise_append]
    refine ⟨h.sorted, by simp, ?_⟩
    intro a ha b hb
    simp at hb
    subst hb; subst hp
    exact (h.range a ha).2.1
  · rw [saves_append]
    intro s hs
    rw [List.mem_append] at hs
    rcases hs with hs | hs
    · exact h.woff s hs
    · exact h3 s hs

section
variable {K : SinkM} {V : SaveCons}

/-- The state of a run between members or at a checkpoint within one. -/
def ProgBeg (A : Archive) (D : Decomp) (lo total : Int) (i : Nat) (w : XW K V) : Prop :=
  ∃ x, ProgOK A D lo w.log total (sizeBefore A i + x) ∧ w.done = sizeBefore A i ∧
    ((x = 0 ∧ w.ck.entry = none ∧ w.ck.srcCk = none) ∨
     (∃ zf o, SavedCk A D w.ck i zf o ∧ (zipFileEntry zf).kind = .file ∧ w.ck.entry = some { zipFileEntry zf with woff := x } ∧ 0 ≤ x ∧ x ≤ o))

theorem progBeg_entry {A : Archive} {D : Decomp} {lo total : Int} {i : Nat} {zf : ZFile} {w : XW K V} (h : ProgBeg A D lo total i w)
    (hzf : A.files[i]? = some zf) : ∃ x, w.ck.entry.getD (zipFileEntry zf) = { zipFileEntry zf with woff := x } ∧
      ProgOK A D lo w.log total (sizeBefore A i + x) ∧ 0 ≤ x ∧ (x = 0 ∨ (zipFileEntry zf).kind = .file) ∧ w.done = sizeBefore A i ∧
      ∃ o : Nat, StartsAt A D zf w.ck o ∧ x ≤ o := by
  obtain ⟨x, h1, h2, h3⟩ := h
  rcases h3 with ⟨h3, h4, h5⟩ | ⟨zf', o, h3, hk, h4, h5, h6⟩
  · subst h3
    exact ⟨0, by rw [h4]; rfl, h1, Int.le_refl _, Or.inl rfl, h2, 0, Or.inl ⟨h5, rfl⟩, by simp⟩
  · have := h3.file
    rw [hzf] at this
    cases this
    exact ⟨x, by rw [h4]; rfl, h1, h5, Or.inr hk, h2, o, Or.inr h3.src, h6⟩

/-- The steps of an extraction, with regard to progress. -/
def progSteps (A : Archive) (D : Decomp) (ht : ZipTruthful A D) (env : ZEnv) (K : SinkM) (hK : K.Counting) (V : SaveCons)
    (lo total : Int) (htot : total = (A.files.map (·.usize)).sum) : ZipSteps A D env total K V where
  Beg i w := ProgBeg A D lo (A.files.map (·.usize)).sum i w
  Mid i _ o w := ∃ zf x, A.files[i]? = some zf ∧ (zipFileEntry zf).kind = .file ∧ zf.resumable ∧ ProgOK A D lo w.log (A.files.map (·.usize)).sum (sizeBefore A i + x) ∧
    w.done = sizeBefore A i ∧ w.ck.entryIndex = i ∧ w.ck.entry = some { zipFileEntry zf with woff := x } ∧ 0 ≤ x ∧ x ≤ o ∧ o ≤ (zipContent A D zf).1.length
  Cop i _ w := ProgOK A D lo w.log (A.files.map (·.usize)).sum (sizeBefore A (i + 1)) ∧ w.done = sizeBefore A i
  Bad w := ∃ top, ProgOK A D lo w.log (A.files.map (·.usize)).sum top
  beg_bad := by rintro i w ⟨x, h, _⟩; exact ⟨_, h⟩
  beg_kind := by
    intro i zf w h hzf
    obtain ⟨x, h1, _⟩ := progBeg_entry h hzf
    rw [h1]
  beg_src := by
    intro i zf w h hzf _ _
    obtain ⟨_, _, _, _, _, _, o, h1, _⟩ := progBeg_entry h hzf
    exact ⟨o, h1⟩
  enter_bad := by rintro i zf w ⟨x, h, _⟩ _; exact ⟨_, h⟩
  zero_bad := by rintro i zf w ⟨x, h, _⟩ _ _ _ _; exact ⟨_, h⟩
  mkdir := by
    rintro i zf w h hzf _ hk w' rfl
    obtain ⟨x, _, h2, _, h4, h5, _⟩ := progBeg_entry h hzf
    have hx : x = 0 := by
      rcases h4 with h4 | h4
      · exact h4
      · rw [hk] at h4; cases h4
    subst hx
    have hl := h2.say (ev := .mkdir (w.ck.entry.getD (zipFileEntry zf)) (K.mkdir (w.ck.entry.getD (zipFileEntry zf)) w.sink).1) rfl rfl
    have hp := ht.pos zf (List.mem_of_getElem? hzf)
    refine ⟨fun _ => ⟨0, hl.mono (by rw [sizeBefore_succ hzf]; omega), ?_, Or.inl ⟨rfl, rfl, rfl⟩⟩, fun _ => ⟨_, hl⟩⟩
    show wrap64 (w.done + zf.usize) = _
    rw [h5, ← sizeBefore_succ hzf]
    have := sizeBefore_bounds ht (i + 1)
    have := ht.total
    exact wrap64_id (by omega) (by omega)
  symlink := by
    rintro i zf w chunks h hzf _ hk _ w' rfl
    obtain ⟨x, _, h2, _, h4, h5, _⟩ := progBeg_entry h hzf
    have hx : x = 0 := by
      rcases h4 with h4 | h4
      · exact h4
      · rw [hk] at h4; cases h4
    subst hx
    have hl := h2.say (ev := .symlink (w.ck.entry.getD (zipFileEntry zf)) chunks.flatten (K.symlink (w.ck.entry.getD (zipFileEntry zf)) chunks.flatten w.sink).1) rfl rfl
    have hp := ht.pos zf (List.mem_of_getElem? hzf)
    refine ⟨fun _ => ⟨0, hl.mono (by rw [sizeBefore_succ hzf]; omega), ?_, Or.inl ⟨rfl, rfl, rfl⟩⟩, fun _ => ⟨_, hl⟩⟩
    show wrap64 (w.done + zf.usize) = _
    rw [h5, ← sizeBefore_succ hzf]
    have := sizeBefore_bounds ht (i + 1)
    have := ht.total
    exact wrap64_id (by omega) (by omega)
  open_ := by
    intro i zf w o0 oc h hzf _ hk hrs hsa hoc
    obtain ⟨x, h1, h2, h3, h4, h5, o, h6, h7⟩ := progBeg_entry h hzf
    have hl := h2.say (ev := .openW (w.ck.entry.getD (zipFileEntry zf)) (K.getWriter (w.ck.entry.getD (zipFileEntry zf)) w.sink).1) rfl rfl
    refine ⟨fun _ hle hlen => ?_, fun _ => ⟨_, hl⟩⟩
    rw [h1] at hle
    refine ⟨zf, x, hzf, hk, hrs, hl, h5, rfl, ?_, h3, hle, hlen⟩
    show some (w.ck.entry.getD (zipFileEntry zf)) = _
    rw [h1]
  save := by
    rintro i zf' w o0 o c ⟨zf, x, h1, h2, hrs, h3, h4, hi, h5, h6, h7, h8⟩ hzf ho _ hc _ _ _
    subst htot
    obtain rfl : zf = zf' := Option.some.inj (h1.symm.trans hzf)
    have hst := zipOnSave_log (total := (A.files.map (·.usize)).sum) c w
    have hkeep : (zipOnSave (A.files.map (·.usize)).sum c w).1.done = w.done ∧ (zipOnSave (A.files.map (·.usize)).sum c w).1.ck.entry = w.ck.entry ∧
        (zipOnSave (A.files.map (·.usize)).sum c w).1.ck.entryIndex = w.ck.entryIndex := by
      unfold zipOnSave
      simp only
      split
      · exact ⟨rfl, rfl, rfl⟩
      · split <;> exact ⟨rfl, rfl, rfl⟩
    refine ⟨zf, x, h1, h2, hrs, ?_, by rw [hkeep.1]; exact h4, by rw [hkeep.2.2]; exact hi, by rw [hkeep.2.1]; exact h5, h6, h7, h8⟩
    rcases hst with ⟨y, e1, _⟩ | ⟨a, e1, _⟩
    · rw [e1]; exact h3.say rfl rfl
    · rw [e1]
      have hs := h3.say (ev := .sync none) rfl rfl
      have hb := sizeBefore_bounds ht i
      have hsz := ht.size zf (List.mem_of_getElem? h1) h2
      have hb2 := sizeBefore_bounds ht (i + 1)
      rw [sizeBefore_succ h1] at hb2
      refine hs.val rfl ?_ (by omega) ?_ ?_
      · show zipProgress _ w = _
        simp only [zipProgress, h4, h5]
      · have : o ≤ (zipContent A D zf).1.length := fileCk_le hc
        omega
      · intro s hs
        simp [saves] at hs
        subst hs
        exact ⟨i, zf, o, x, ⟨h1, hi, ⟨x, h5⟩, c, rfl, hc⟩, h2, h5, h6, h7, by show zipProgress _ w = _; simp only [zipProgress, h4, h5]⟩
  write := by
    rintro i zf' w o0 o bs ⟨zf, x, h1, h2, hrs, h3, h4, hi, h5, h6, h7, h8⟩ hzf _ hol
    obtain rfl : zf = zf' := Option.some.inj (h1.symm.trans hzf)
    have hl := h3.say (ev := .write bs (K.write bs w.sink).1.1 (K.write bs w.sink).1.2.2) rfl rfl
    refine ⟨fun hok => ?_, fun _ => ⟨_, hl⟩⟩
    have hk : (K.write bs w.sink).1.2.2 = none := hok
    obtain ⟨a, b⟩ := hK bs w.sink hk
    refine ⟨zf, x + (K.write bs w.sink).1.2.1, h1, h2, hrs, hl.mono (by omega), h4, hi, ?_, by omega, by push_cast; omega, hol⟩
    show w.ck.entry.map _ = _
    rw [h5]
    rfl
  should := by rintro i w o0 o n h; exact h
  emit := by
    rintro i w o0 o ⟨zf, x, h1, h2, hrs, h3, h4, hi, h5, h6, h7, h8⟩
    subst htot
    refine ⟨zf, x, h1, h2, hrs, ?_, h4, hi, h5, h6, h7, h8⟩
    have hb := sizeBefore_bounds ht i
    have hsz := ht.size zf (List.mem_of_getElem? h1) h2
    have hb2 := sizeBefore_bounds ht (i + 1)
    rw [sizeBefore_succ h1] at hb2
    refine h3.val rfl ?_ (by omega) (by omega) (by simp [saves])
    simp only [zipProgress, h4, h5]
  mid_bad := by rintro i w o0 o ⟨zf, x, _, _, _, h, _⟩; exact ⟨_, h⟩
  mid_stop := by rintro i zf w o0 o ⟨zf, x, _, _, _, h, _⟩ _ _; exact ⟨_, h⟩
  mid_end := by
    rintro i zf' w o0 ⟨zf, x, h1, h2, hrs, h3, h4, hi, h5, h6, h7, h8⟩ hzf _ _
    obtain rfl : zf = zf' := Option.some.inj (h1.symm.trans hzf)
    have hsz := ht.size zf (List.mem_of_getElem? h1) h2
    refine ⟨0, h3.mono (by rw [sizeBefore_succ h1]; omega), ?_, Or.inl ⟨rfl, rfl, rfl⟩⟩
    show wrap64 (w.done + zf.usize) = _
    rw [h4, ← sizeBefore_succ h1]
    have := sizeBefore_bounds ht (i + 1)
    have := ht.total
    exact wrap64_id (by omega) (by omega)
  copy := by
    intro i zf w h hzf _ hk hrs
    obtain ⟨x, h1, h2, h3, h4, h5, o, h6, h7⟩ := progBeg_entry h hzf
    have hl := h2.say (ev := .openW { w.ck.entry.getD (zipFileEntry zf) with woff := 0 } (K.getWriter { w.ck.entry.getD (zipFileEntry zf) with woff := 0 } w.sink).1) rfl rfl
    have ho : x ≤ 0 := by
      rcases h6 with ⟨_, h6⟩ | ⟨c, _, h6⟩
      · omega
      · unfold fileCk at h6
        unfold ZFile.resumable at hrs
        cases hm : zf.method <;> simp [hm] at hrs h6
    have hp := ht.pos zf (List.mem_of_getElem? hzf)
    exact ⟨fun _ => ⟨hl.mono (by rw [sizeBefore_succ hzf]; omega), h5⟩, fun _ => ⟨_, hl⟩⟩
  copy_write := by
    rintro i w xs bs ⟨h1, h2⟩ _
    have hl := h1.say (ev := .write bs (K.write bs w.sink).1.1 (K.write bs w.sink).1.2.2) rfl rfl
    exact ⟨fun _ _ => ⟨hl, h2⟩, _, hl⟩
  copy_bad := by rintro i w xs ⟨h, _⟩; exact ⟨_, h⟩
  copy_end := by
    rintro i zf w chunks ⟨h1, h2⟩ hzf _
    refine ⟨0, h1.mono (by omega), ?_, Or.inl ⟨rfl, rfl, rfl⟩⟩
    show wrap64 (w.done + zf.usize) = _
    rw [h2, ← sizeBefore_succ hzf]
    have := sizeBefore_bounds ht (i + 1)
    have := ht.total
    exact wrap64_id (by omega) (by omega)

theorem zipSum_all {A : Archive} {D : Decomp} (ht : ZipTruthful A D) : zipSum A.files = (A.files.map (·.usize)).sum := by
  have := zipSum_eq ht A.files.length
  rw [List.take_length] at this
  rw [this]
  unfold sizeBefore
  rw [List.take_length]

/-- A saved checkpoint with a sane write offset. -/
def SaneCk (A : Archive) (D : Decomp) (c : ECkpt) : Prop := ∃ i zf o x, SavedCk A D c i zf o ∧ (zipFileEntry zf).kind = .file ∧
  c.entry = some { zipFileEntry zf with woff := x } ∧ 0 ≤ x ∧ x ≤ o

/-- And with the progress that follows from it. -/
def ToldCk (A : Archive) (D : Decomp) (c : ECkpt) : Prop := ∃ i zf o x, SavedCk A D c i zf o ∧ (zipFileEntry zf).kind = .file ∧
  c.entry = some { zipFileEntry zf with woff := x } ∧ 0 ≤ x ∧ x ≤ o ∧ c.progress = (sizeBefore A i + x, (A.files.map (·.usize)).sum)

/-- The numerator of the progress in a checkpoint; zero without one. -/
def startLo : Option ECkpt → Int
  | some c => c.progress.1
  | none => 0

theorem zipResume_progress {A : Archive} {D : Decomp} {F : Nat} (hwf : ZipWF A D F) (ht : ZipTruthful A D) (env : ZEnv) (hK : K.Counting)
    (ck : Option ECkpt) (hck : ∀ c, ck = some c → ToldCk A D c) (k : K.St) (u : V.St) :
    ∃ top, ProgOK A D (startLo ck) (zipResume A env D F K V ck k u).2.log (A.files.map (·.usize)).sum top := by
  have hsum := zipSum_all ht
  have key := (zipResume_steps hwf (progSteps A D ht env K hK V (startLo ck) _ hsum) ck k u ?_).1
  · exact key
  · intro r hr
    obtain ⟨h1, h2, h3, _, h5, _⟩ := zipPrepare_log A ck k u r hr
    have hsv : saves r.2.log = [] := saves_prealloc _ h1
    have hpv : progresses r.2.log = [] := by
      have : ∀ l : List Ev, (∀ ev ∈ l, ∃ e x, ev = Ev.prealloc e x) → progresses l = [] := by
        intro l
        induction l with
        | nil => intro _; rfl
        | cons x l ih =>
          intro h
          obtain ⟨e, r, hx⟩ := h x (by simp)
          subst hx
          exact ih (fun ev hev => h ev (by simp [hev]))
      exact this _ h1
    have hok : ∀ top, startLo ck ≤ top → ProgOK A D (startLo ck) r.2.log (A.files.map (·.usize)).sum top := by
      intro top hle
      refine ⟨hle, ?_, ?_, ?_⟩ <;> simp [hsv, hpv]
    refine ⟨⟨startLo ck, hok _ (Int.le_refl _)⟩, fun _ => ?_, h3⟩
    rw [zipSum_eq ht] at h5
    cases ck with
    | none =>
      exact ⟨0, rfl, ⟨0, hok _ (by simp [startLo, sizeBefore]), h5, Or.inl ⟨rfl, by rw [h2]; rfl, by rw [h2]; rfl⟩⟩⟩
    | some c =>
      obtain ⟨i, zf, o, x, hs, hk, he, hx1, hx2, hp⟩ := hck c rfl
      refine ⟨i, hs.index, ⟨x, hok _ (by show c.progress.1 ≤ _; rw [hp]; exact Int.le_refl _), ?_, Or.inr ⟨zf, o, ?_, hk, ?_, hx1, hx2⟩⟩⟩
      · rw [h5]; simp [hs.index]
      · rw [h2]; exact hs
      · rw [h2]; exact he

theorem zipSaved_sane {A : Archive} {D : Decomp} {F : Nat} (hwf : ZipWF A D F) (ht : ZipTruthful A D) {n : Nat} {c : ECkpt}
    (h : ZipSaved A D F SinkM.Counting n c) : ToldCk A D c := by
  induction h with
  | first env K V k u hQ h =>
    obtain ⟨p, hl⟩ := zipResume_progress (V := V) hwf ht env hQ none (by simp) k u
    exact hl.woff _ h
  | again env K V k u hQ _ h ih =>
    obtain ⟨p, hl⟩ := zipResume_progress (V := V) hwf ht env hQ (some _) (by intro c hc; cases hc; exact ih) k u
    exact hl.woff _ h

end
end Savior
