import Verif.ZipProgress
/-!
# Healthy zip extractions succeed
-/

namespace Savior

section
variable {K : SinkM} {V : SaveCons}

/-- All saved checkpoints are sane. -/
def SaneLog (A : Archive) (D : Decomp) (log : List Ev) : Prop := ∀ s ∈ saves log, SaneCk A D s.1

theorem SaneLog.say {A : Archive} {D : Decomp} {log : List Ev} (h : SaneLog A D log) {ev : Ev} (h1 : saves [ev] = []) : SaneLog A D (log ++ [ev]) := by
  unfold SaneLog
  rw [saves_append, h1, List.append_nil]; exact h

/-- Where a sane run is before member `i`. -/
def SaneAt (A : Archive) (D : Decomp) (i : Nat) (ck : ECkpt) : Prop :=
  (ck.entry = none ∧ ck.srcCk = none) ∨
  ∃ zf o x, SavedCk A D ck i zf o ∧ (zipFileEntry zf).kind = .file ∧ ck.entry = some { zipFileEntry zf with woff := x } ∧ 0 ≤ x ∧ x ≤ o

theorem saneAt_entry {A : Archive} {D : Decomp} {i : Nat} {zf : ZFile} {ck : ECkpt} (h : SaneAt A D i ck)
    (hzf : A.files[i]? = some zf) : ∃ x, ck.entry.getD (zipFileEntry zf) = { zipFileEntry zf with woff := x } ∧ 0 ≤ x ∧
      ∃ o : Nat, StartsAt A D zf ck o ∧ x ≤ o := by
  rcases h with ⟨h4, h5⟩ | ⟨zf', o, x, h3, hk, h4, h5, h6⟩
  · exact ⟨0, by rw [h4]; rfl, Int.le_refl _, 0, Or.inl ⟨h5, rfl⟩, by simp⟩
  · have := h3.file
    rw [hzf] at this
    cases this
    exact ⟨x, by rw [h4]; rfl, h5, o, Or.inr h3.src, h6⟩

/-- The steps of an extraction, with regard to sanity of checkpoints. -/
def saneSteps (A : Archive) (D : Decomp) (env : ZEnv) (K : SinkM) (hK : K.Counting) (V : SaveCons)
    (total : Int) : ZipSteps A D env total K V where
  Beg i w := SaneLog A D w.log ∧ SaneAt A D i w.ck
  Mid i _ o w := ∃ zf x, A.files[i]? = some zf ∧ (zipFileEntry zf).kind = .file ∧ SaneLog A D w.log ∧
    w.ck.entryIndex = i ∧ w.ck.entry = some { zipFileEntry zf with woff := x } ∧ 0 ≤ x ∧ x ≤ o
  Cop _ _ w := SaneLog A D w.log
  Bad w := SaneLog A D w.log
  beg_bad := by rintro i w ⟨h, _⟩; exact h
  beg_kind := by
    intro i zf w h hzf
    obtain ⟨x, h1, _⟩ := saneAt_entry h.2 hzf
    rw [h1]
  beg_src := by
    intro i zf w h hzf _ _
    obtain ⟨_, _, _, o, h1, _⟩ := saneAt_entry h.2 hzf
    exact ⟨o, h1⟩
  enter_bad := by rintro i zf w ⟨h, _⟩ _; exact h
  zero_bad := by rintro i zf w ⟨h, _⟩ _ _ _ _; exact h
  mkdir := by
    rintro i zf w h hzf _ hk w' rfl
    have := h.1.say (ev := .mkdir (w.ck.entry.getD (zipFileEntry zf)) (K.mkdir (w.ck.entry.getD (zipFileEntry zf)) w.sink).1) rfl
    exact ⟨fun _ => ⟨this, Or.inl ⟨rfl, rfl⟩⟩, fun _ => this⟩
  symlink := by
    rintro i zf w chunks h hzf _ hk _ w' rfl
    have := h.1.say (ev := .symlink (w.ck.entry.getD (zipFileEntry zf)) chunks.flatten (K.symlink (w.ck.entry.getD (zipFileEntry zf)) chunks.flatten w.sink).1) rfl
    exact ⟨fun _ => ⟨this, Or.inl ⟨rfl, rfl⟩⟩, fun _ => this⟩
  open_ := by
    intro i zf w o0 oc h hzf _ hk hrs hsa hoc
    obtain ⟨x, h1, h3, o, h6, h7⟩ := saneAt_entry h.2 hzf
    have hl := h.1.say (ev := .openW (w.ck.entry.getD (zipFileEntry zf)) (K.getWriter (w.ck.entry.getD (zipFileEntry zf)) w.sink).1) rfl
    refine ⟨fun _ hle hlen => ?_, fun _ => hl⟩
    rw [h1] at hle
    refine ⟨zf, x, hzf, hk, hl, rfl, ?_, h3, hle⟩
    show some (w.ck.entry.getD (zipFileEntry zf)) = _
    rw [h1]
  save := by
    rintro i zf' w o0 o c ⟨zf, x, h1, h2, h3, hi, h5, h6, h7⟩ hzf ho _ hc _ _ _
    obtain rfl : zf = zf' := Option.some.inj (h1.symm.trans hzf)
    have hst := zipOnSave_log (total := total) c w
    have hkeep : (zipOnSave total c w).1.ck.entry = w.ck.entry ∧
        (zipOnSave total c w).1.ck.entryIndex = w.ck.entryIndex := by
      unfold zipOnSave
      simp only
      split
      · exact ⟨rfl, rfl⟩
      · split <;> exact ⟨rfl, rfl⟩
    refine ⟨zf, x, h1, h2, ?_, by rw [hkeep.2]; exact hi, by rw [hkeep.1]; exact h5, h6, h7⟩
    rcases hst with ⟨y, e1, _⟩ | ⟨a, e1, _⟩
    · rw [e1]; exact h3.say rfl
    · rw [e1]
      have hs := h3.say (ev := .sync none) rfl
      intro s hs'
      rw [saves_append, List.mem_append] at hs'
      rcases hs' with hs' | hs'
      · exact hs s hs'
      · simp [saves] at hs'
        subst hs'
        exact ⟨i, zf, o, x, ⟨h1, hi, ⟨x, h5⟩, c, rfl, hc⟩, h2, h5, h6, h7⟩
  write := by
    rintro i zf' w o0 o bs ⟨zf, x, h1, h2, h3, hi, h5, h6, h7⟩ hzf _ hol
    obtain rfl : zf = zf' := Option.some.inj (h1.symm.trans hzf)
    have hl := h3.say (ev := .write bs (K.write bs w.sink).1.1 (K.write bs w.sink).1.2.2) rfl
    refine ⟨fun hok => ?_, fun _ => hl⟩
    have hk : (K.write bs w.sink).1.2.2 = none := hok
    obtain ⟨a, b⟩ := hK bs w.sink hk
    refine ⟨zf, x + (K.write bs w.sink).1.2.1, h1, h2, hl, hi, ?_, by omega, by push_cast; omega⟩
    show w.ck.entry.map _ = _
    rw [h5]
    rfl
  should := by rintro i w o0 o n h; exact h
  emit := by
    rintro i w o0 o ⟨zf, x, h1, h2, h3, hi, h5, h6, h7⟩
    exact ⟨zf, x, h1, h2, h3.say rfl, hi, h5, h6, h7⟩
  mid_bad := by rintro i w o0 o ⟨zf, x, _, _, h, _⟩; exact h
  mid_stop := by rintro i zf w o0 o ⟨zf, x, _, _, h, _⟩ _ _; exact h
  mid_end := by
    rintro i zf' w o0 ⟨zf, x, h1, h2, h3, _⟩ hzf _ _
    exact ⟨h3, Or.inl ⟨rfl, rfl⟩⟩
  copy := by
    intro i zf w h hzf _ hk hrs
    have hl := h.1.say (ev := .openW { w.ck.entry.getD (zipFileEntry zf) with woff := 0 } (K.getWriter { w.ck.entry.getD (zipFileEntry zf) with woff := 0 } w.sink).1) rfl
    exact ⟨fun _ => hl, fun _ => hl⟩
  copy_write := by
    rintro i w xs bs h1 _
    have hl := h1.say (ev := .write bs (K.write bs w.sink).1.1 (K.write bs w.sink).1.2.2) rfl
    exact ⟨fun _ _ => hl, hl⟩
  copy_bad := by rintro i w xs h; exact h
  copy_end := by
    rintro i zf w chunks h1 hzf _
    exact ⟨h1, Or.inl ⟨rfl, rfl⟩⟩

theorem zipResume_sane {A : Archive} {D : Decomp} {F : Nat} (hwf : ZipWF A D F) (env : ZEnv) (hK : K.Counting)
    (ck : Option ECkpt) (hck : ∀ c, ck = some c → SaneCk A D c) (k : K.St) (u : V.St) :
    SaneLog A D (zipResume A env D F K V ck k u).2.log := by
  have key := (zipResume_steps hwf (saneSteps A D env K hK V _) ck k u ?_).1
  · exact key
  · intro r hr
    obtain ⟨h1, h2, h3, _⟩ := zipPrepare_log A ck k u r hr
    have hsv : saves r.2.log = [] := saves_prealloc _ h1
    have hok : SaneLog A D r.2.log := by
      intro s hs; rw [hsv] at hs; cases hs
    refine ⟨hok, fun _ => ?_, h3⟩
    cases ck with
    | none => exact ⟨0, rfl, hok, Or.inl ⟨by rw [h2]; rfl, by rw [h2]; rfl⟩⟩
    | some c =>
      obtain ⟨i, zf, o, x, hs, hk, he, hx⟩ := hck c rfl
      refine ⟨i, hs.index, hok, Or.inr ⟨zf, o, x, ?_, hk, ?_, hx⟩⟩
      · rw [h2]; exact hs
      · rw [h2]; exact he

theorem zipSaved_saneCk {A : Archive} {D : Decomp} {F : Nat} (hwf : ZipWF A D F) {n : Nat} {c : ECkpt}
    (h : ZipSaved A D F SinkM.Counting n c) : SaneCk A D c := by
  induction h with
  | first env K V k u hQ h => exact zipResume_sane (V := V) hwf env hQ none (by simp) k u _ h
  | again env K V k u hQ _ h ih => exact zipResume_sane (V := V) hwf env hQ (some _) (by intro c hc; cases hc; exact ih) k u _ h

variable {A : Archive} {D : Decomp} {env : ZEnv}

theorem GoodSink.next {K : SinkM} (G : GoodSink K) (b : Bool) {s : K.St} (h : G.OK s) : G.OK (K.next b s) := by
  cases b
  · exact h
  · exact G.reborn _ h

theorem SinkM.next_spec (K : SinkM) (b : Bool) (s : K.St) : K.Next s (K.next b s) := by
  cases b
  · exact Or.inl rfl
  · exact Or.inr rfl

theorem zipOnSave_good (G : GoodSink K) (hV : V.Good) (total : Int) (c : Ckpt) (w : XW K V) (h : G.Open w.sink) :
    (zipOnSave total c w).2 = none ∧ G.Open (zipOnSave total c w).1.sink := by
  unfold zipOnSave
  simp only
  obtain ⟨a, b⟩ := G.sync w.sink h
  rw [a]
  simp only
  have key : ∀ (x : ECkpt) (v : V.St), ∃ act, (V.save x v).1 = .ok act := hV
  split
  · rename_i e he
    obtain ⟨act, ha⟩ := key _ _
    rw [ha] at he; cases he
  · exact ⟨rfl, b⟩
  · exact ⟨rfl, b⟩

theorem zipOpen_good (G : GoodSink K) (w : XW K V) (e : Entry) (he : w.ck.entry = some e) (hw : 0 ≤ e.woff) (h : G.OK w.sink) :
    (zipOpen w).1 = none ∧ G.Open (zipOpen w).2.sink := by
  unfold zipOpen
  rw [he]
  exact G.getWriter e w.sink h hw

theorem ioCopy_good (G : GoodSink K) : ∀ (chunks : List (List Byte)) (w : XW K V), G.Open w.sink →
    (ioCopy chunks none w).1 = none ∧ G.Open (ioCopy chunks none w).2.sink := by
  intro chunks
  induction chunks with
  | nil => intro w h; exact ⟨rfl, h⟩
  | cons c cs ih =>
    intro w h
    unfold ioCopy
    split
    · exact ih w h
    · obtain ⟨a, b, d⟩ := G.write c w.sink h
      have a' : (w.write c).1.2 = none := a
      have b' : (w.write c).1.1 = c.length := b
      simp only [a', b']
      simp only [ne_eq, not_true, if_false]
      exact ih _ d

theorem zipEntry_good {F : Nat} (hwf : ZipWF A D F) (hs : ZipSound A D) (he : env.Good A) (G : GoodSink K) (hV : V.Good)
    (total : Int) (i : Nat) (zf : ZFile) (hzf : A.files[i]? = some zf) (hpl : zf.encrypted = false) (w : XW K V) (hck : SaneAt A D i w.ck) (hok : G.OK w.sink) :
    (zipEntry A env D F total i zf w).1 = none ∧ G.OK (zipEntry A env D F total i zf w).2.sink := by
  have hmem : zf ∈ A.files := List.mem_of_getElem? hzf
  have hcs := hwf.csize zf hmem
  have hbud := hwf.budget zf hmem
  have hi : i < A.files.length := (List.getElem?_eq_some_iff.mp hzf).1
  obtain ⟨x, h1, h2, o, h3, h4⟩ := saneAt_entry hck hzf
  unfold zipEntry
  simp only
  have henter : { w with ck := { w.ck with entryIndex := (i : Int), entry := some (w.ck.entry.getD (zipFileEntry zf)) } } = zipEnter i zf w := rfl
  rw [henter, hpl]
  simp only [Bool.false_eq_true, if_false]
  have hgen : ∀ r : Option Err × XW K V, (r.1 = none ∧ G.OK r.2.sink) →
      (match r.1 with
        | some e => (some e, r.2)
        | none => (none, { r.2 with done := wrap64 (r.2.done + zf.usize) })).1 = none ∧ G.OK (match r.1 with
        | some e => (some e, r.2)
        | none => (none, { r.2 with done := wrap64 (r.2.done + zf.usize) })).2.sink := by
    rintro ⟨re, rw'⟩ ⟨a, b⟩
    simp only at a b
    subst a
    exact ⟨rfl, b⟩
  refine hgen _ ?_
  clear hgen
  have hk : (w.ck.entry.getD (zipFileEntry zf)).kind = (zipFileEntry zf).kind := by rw [h1]
  have hw0 : (w.ck.entry.getD (zipFileEntry zf)).woff = x := by rw [h1]
  rw [hk]
  cases hkind : (zipFileEntry zf).kind with
  | dir =>
    obtain ⟨a, b⟩ := G.mkdir (w.ck.entry.getD (zipFileEntry zf)) w.sink hok
    exact ⟨(congrArg (Option.map Err.wrapped) a).trans rfl, b⟩
  | symlink =>
    obtain ⟨chunks, hch⟩ := he.opens i hi
    simp only [hch]
    obtain ⟨a, b⟩ := G.symlink (w.ck.entry.getD (zipFileEntry zf)) chunks.flatten w.sink hok
    exact ⟨(congrArg (Option.map Err.wrapped) a).trans rfl, b⟩
  | file =>
    simp only
    by_cases hrs : zf.resumable
    · rcases zipFile_src (K := K) (V := V) hwf.law env total i zf hrs hcs hbud with ⟨_, hx⟩ | ⟨S, L, src, g1, g2, g3, g4, g5, g6, g7⟩
      · exact absurd (he.dataOff i) hx
      · rw [g1]
        have hop := zipOpen_good G (zipEnter i zf w) _ rfl (by rw [hw0]; exact h2) hok
        have hst : ((zipEnter i zf w).ck.srcCk = none ∧ o = 0) ∨ (∃ c, (zipEnter i zf w).ck.srcCk = some c ∧ L.CkFor c o) := by
          rcases h3 with h | ⟨c, h, h'⟩
          · exact Or.inl h
          · exact Or.inr ⟨c, h, (g4 c o).mpr h'⟩
        have key := zipRunFile_rule L total F g5 src (zipEnter i zf w) (w.ck.entry.getD (zipFileEntry zf))
            x o (fun _ w => G.Open w.sink) (fun _ => False) g2 g3 rfl hw0 hst (fun _ _ _ _ _ _ _ => hop.2)
            (fun _ _ _ _ w c h _ _ _ _ => (zipOnSave_good G hV total c w h).2)
            (by
              intro _ w bs h _ _
              obtain ⟨a, b, d⟩ := G.write bs w.sink h
              exact ⟨fun _ => d, fun hn => hn a⟩) (fun _ _ _ h => h) (fun _ _ h => h)
        have hnone : (zipRunFile S F total src (zipEnter i zf w)).1 = none := by
          cases hr : (zipRunFile S F total src (zipEnter i zf w)).1 with
          | none => rfl
          | some y =>
            exact absurd (key.2 (fun _ w c h => (zipOnSave_good G hV total c w h).1) (g6 (he.noFault i) (he.lazy i) hs.saveOK)
              (hs.clean zf hmem) (g7 hs.exact) h4 hop.1 (by simp [hr])) id
        refine ⟨hnone, ?_⟩
        rcases key.1 with ⟨a, _⟩ | ⟨a, _⟩ | ⟨o', _, a, _⟩ | ⟨a, _⟩
        · exact absurd hnone a
        · exact absurd hnone a
        · exact G.open_ok _ a
        · exact absurd hnone a
    · have hzc : ∀ w' : XW K V, zipFile A env D F total i zf w' = zipCopyFile env i w' := by
        intro w'
        unfold zipFile
        unfold ZFile.resumable at hrs
        cases hm : zf.method <;> simp [hm] at hrs ⊢
      rw [hzc]
      unfold zipCopyFile
      have hz : { zipEnter i zf w with ck := { (zipEnter i zf w).ck with entry := (zipEnter i zf w).ck.entry.map fun e => { e with woff := 0 } } } = zipZero (zipEnter i zf w) := rfl
      simp only [hz]
      obtain ⟨chunks, hch⟩ := he.opens i hi
      rw [hch]
      simp only
      have hop := zipOpen_good G (zipZero (zipEnter i zf w)) _ rfl (Int.le_refl _) hok
      rw [hop.1]
      simp only
      have := ioCopy_good G chunks _ hop.2
      rw [this.1]
      exact ⟨rfl, G.open_ok _ this.2⟩

theorem zipLoop_good {F : Nat} (hwf : ZipWF A D F) (hpl : ZipPlain A) (hs : ZipSound A D) (he : env.Good A) (G : GoodSink K) (hV : V.Good)
    (total : Int) : ∀ (fs : List ZFile) (i : Nat) (w : XW K V), fs = A.files.drop i → SaneAt A D i w.ck → G.OK w.sink →
    (zipLoop A env D F total fs i w).1 = none ∧ G.OK (zipLoop A env D F total fs i w).2.sink := by
  intro fs
  induction fs with
  | nil => intro i w _ _ h; exact ⟨rfl, h⟩
  | cons zf fs ih =>
    intro i w hfs hck hok
    have hi : A.files[i]? = some zf := by
      have := congrArg List.head? hfs
      rw [List.head?_drop] at this
      exact this.symm
    have hfs' : fs = A.files.drop (i + 1) := by
      have := congrArg List.tail hfs
      rw [List.tail_drop] at this
      exact this
    unfold zipLoop
    split
    · exact ⟨rfl, hok⟩
    · simp only
      obtain ⟨a, b⟩ := zipEntry_good hwf hs he G hV total i zf hi (hpl zf (List.mem_of_getElem? hi)) w hck hok
      rw [a]
      exact ih (i + 1) _ hfs' (Or.inl ⟨rfl, rfl⟩) b

theorem zipLoop_enc {F : Nat} (hwf : ZipWF A D F) (hs : ZipSound A D) (he : env.Good A) (G : GoodSink K) (hV : V.Good)
    (total : Int) (j : Nat) (zj : ZFile) (hj : A.files[j]? = some zj) (henc : zj.encrypted = true)
    (hbefore : ∀ i zf, i < j → A.files[i]? = some zf → zf.encrypted = false) :
    ∀ (fs : List ZFile) (i : Nat) (w : XW K V), fs = A.files.drop i → i ≤ j → SaneAt A D i w.ck → G.OK w.sink →
    (zipLoop A env D F total fs i w).1 = some (.wrapped .encrypted) ∨
    ((zipLoop A env D F total fs i w).1 = none ∧ (zipLoop A env D F total fs i w).2.stopErr = true) := by
  intro fs
  induction fs with
  | nil =>
    intro i w hfs hij _ _
    have := List.drop_eq_nil_iff.mp hfs.symm
    have := (List.getElem?_eq_some_iff.mp hj).1
    omega
  | cons zf fs ih =>
    intro i w hfs hij hck hok
    have hi : A.files[i]? = some zf := by
      have := congrArg List.head? hfs
      rw [List.head?_drop] at this
      exact this.symm
    have hfs' : fs = A.files.drop (i + 1) := by
      have := congrArg List.tail hfs
      rw [List.tail_drop] at this
      exact this
    unfold zipLoop
    split
    · rename_i hse
      exact Or.inr ⟨rfl, hse⟩
    · simp only
      rcases Nat.lt_or_ge i j with hlt | hge
      · obtain ⟨a, b⟩ := zipEntry_good hwf hs he G hV total i zf hi (hbefore i zf hlt hi) w hck hok
        rw [a]
        exact ih (i + 1) _ hfs' hlt (Or.inl ⟨rfl, rfl⟩) b
      · have : i = j := by omega
        subst this
        rw [hj] at hi
        cases hi
        have : (zipEntry A env D F total i zj w).1 = some .encrypted := by
          unfold zipEntry
          simp [henc]
        rw [this]
        exact Or.inl rfl

theorem zipPrealloc_good (G : GoodSink K) : ∀ (fs : List ZFile) (w : XW K V), G.OK w.sink →
    (zipPrealloc fs w).1 = none ∧ G.OK (zipPrealloc fs w).2.sink := by
  intro fs
  induction fs with
  | nil => intro w h; exact ⟨rfl, h⟩
  | cons zf fs ih =>
    intro w h
    unfold zipPrealloc
    split
    · obtain ⟨a, b⟩ := G.prealloc (zipFileEntry zf) w.sink h
      simp only [a]
      exact ih _ b
    · exact ih w h

theorem zipResume_good_at {F : Nat} (hwf : ZipWF A D F) (hpl : ZipPlain A) (hs : ZipSound A D) (he : env.Good A) (G : GoodSink K) (hV : V.Good)
    (ck : Option ECkpt) (hck : ∀ c, ck = some c → ∃ j : Nat, c.entryIndex = j ∧ SaneAt A D j c) (k : K.St) (u : V.St) (hok : G.OK k) :
    ((zipResume A env D F K V ck k u).1 = .ok (A.files.map zipFileEntry) ∨ (zipResume A env D F K V ck k u).1 = .error .stop) ∧
    G.OK (zipResume A env D F K V ck k u).2.sink := by
  unfold zipResume
  simp only
  have hp : (zipPrepare A ck (zipInit A ck k u : XW K V)).1 = none ∧ G.OK (zipPrepare A ck (zipInit A ck k u : XW K V)).2.sink := by
    unfold zipPrepare
    split
    · exact zipPrealloc_good G A.files _ hok
    · exact ⟨rfl, hok⟩
  obtain ⟨_, hc, _⟩ := zipPrepare_log (V := V) A ck k u _ rfl
  generalize zipPrepare A ck (zipInit A ck k u : XW K V) = Q at *
  obtain ⟨pe, pw⟩ := Q
  obtain ⟨h1, h2⟩ := hp
  simp only at h1 h2 hc
  subst h1
  simp only
  have hst : ∃ j : Nat, (ck.getD freshCk).entryIndex = j ∧ SaneAt A D j pw.ck := by
    cases ck with
    | none => exact ⟨0, rfl, Or.inl ⟨by rw [hc]; rfl, by rw [hc]; rfl⟩⟩
    | some c =>
      obtain ⟨j, hj, hsj⟩ := hck c rfl
      exact ⟨j, hj, by rw [hc]; exact hsj⟩
  obtain ⟨j, hj, hsj⟩ := hst
  rw [hj]
  simp only [Int.toNat_natCast]
  rw [if_neg (by omega)]
  obtain ⟨a, b⟩ := zipLoop_good hwf hpl hs he G hV (zipSum A.files) (A.files.drop j) j pw rfl hsj h2
  rw [a]
  simp only
  split
  · exact ⟨Or.inr rfl, b⟩
  · exact ⟨Or.inl rfl, b⟩

theorem zipResume_good {F : Nat} (hwf : ZipWF A D F) (hpl : ZipPlain A) (hs : ZipSound A D) (he : env.Good A) (G : GoodSink K) (hV : V.Good)
    (ck : Option ECkpt) (hck : ∀ c, ck = some c → SaneCk A D c) (k : K.St) (u : V.St) (hok : G.OK k) :
    ((zipResume A env D F K V ck k u).1 = .ok (A.files.map zipFileEntry) ∨ (zipResume A env D F K V ck k u).1 = .error .stop) ∧
    G.OK (zipResume A env D F K V ck k u).2.sink :=
  zipResume_good_at hwf hpl hs he G hV ck (fun c hc => by
    obtain ⟨i, zf, o, x, hs, hk, he, hx⟩ := hck c hc
    exact ⟨i, hs.index, Or.inr ⟨zf, o, x, hs, hk, he, hx⟩⟩) k u hok

theorem zipResume_enc {F : Nat} (hwf : ZipWF A D F) (hs : ZipSound A D) (he : env.Good A) (G : GoodSink K) (hV : V.Good)
    (ck : Option ECkpt) (hck : ∀ c, ck = some c → SaneCk A D c) (k : K.St) (u : V.St) (hok : G.OK k)
    (j : Nat) (zj : ZFile) (hj : A.files[j]? = some zj) (henc : zj.encrypted = true)
    (hbefore : ∀ i zf, i < j → A.files[i]? = some zf → zf.encrypted = false) (hsj : startIndex ck ≤ j) :
    (zipResume A env D F K V ck k u).1 = .error (.wrapped .encrypted) ∨ (zipResume A env D F K V ck k u).1 = .error .stop := by
  unfold zipResume
  simp only
  have hp : (zipPrepare A ck (zipInit A ck k u : XW K V)).1 = none ∧ G.OK (zipPrepare A ck (zipInit A ck k u : XW K V)).2.sink := by
    unfold zipPrepare
    split
    · exact zipPrealloc_good G A.files _ hok
    · exact ⟨rfl, hok⟩
  obtain ⟨_, hc, _⟩ := zipPrepare_log (V := V) A ck k u _ rfl
  generalize zipPrepare A ck (zipInit A ck k u : XW K V) = Q at *
  obtain ⟨pe, pw⟩ := Q
  obtain ⟨h1, h2⟩ := hp
  simp only at h1 h2 hc
  subst h1
  simp only
  have hst : ∃ j : Nat, (ck.getD freshCk).entryIndex = j ∧ SaneAt A D j pw.ck ∧ startIndex ck = j := by
    cases ck with
    | none => exact ⟨0, rfl, Or.inl ⟨by rw [hc]; rfl, by rw [hc]; rfl⟩, rfl⟩
    | some c =>
      obtain ⟨i, zf, o, x, hs, hk, he, hx⟩ := hck c rfl
      refine ⟨i, hs.index, Or.inr ⟨zf, o, x, ?_, hk, ?_, hx⟩, by simp [startIndex, hs.index]⟩
      · rw [hc]; exact hs
      · rw [hc]; exact he
  obtain ⟨i, hi, hsi, hstart⟩ := hst
  rw [hi]
  simp only [Int.toNat_natCast]
  rw [if_neg (by omega)]
  rcases zipLoop_enc hwf hs he G hV (zipSum A.files) j zj hj henc hbefore (A.files.drop i) i pw rfl (by omega) hsi h2 with a | ⟨a, b⟩
  · rw [a]; exact Or.inl rfl
  · rw [a]
    simp only [b, if_true]
    exact Or.inr trivial

end
end Savior
