import Verif.ZipToy
import Verif.ZipProgress
/-!
# Properties of the zip extractor (C33–C42, C49, C54)
-/

namespace Savior

/-- **C33.** However often and wherever a zip extraction into a sink is stopped and resumed from the checkpoint it
saved — by whatever consumers, over whatever read schedules —, when it finally succeeds the sink is in exactly the state
described by the archive (`zipIdeal`), which is also what an uninterrupted extraction gives (the chain may be empty). -/
theorem C33_zip_stop_resume {A : Archive} {D : Decomp} {F : Nat} (hwf : ZipWF A D F) {K : SinkM} (M : SinkLaw K) (k0 : K.St)
    (ck : Option ECkpt) (k : K.St) (hchain : ZipStops A D F K none k0 ck k)
    (env : ZEnv) (hh : env.Honest A) (V : SaveCons) (u : V.St) (res : List Entry)
    (hok : (zipResume A env D F K V ck k u).1 = .ok res) :
    M.view (zipResume A env D F K V ck k u).2.sink = zipIdeal M A D (M.view k0) := by
  have inv : ∀ ck k, ZipStops A D F K none k0 ck k → (ck = none → M.view k = M.view k0) ∧
      (∀ c, ck = some c → Resumable M A D (M.view k0) c (M.view k)) := by
    intro ck k h
    induction h with
    | refl => exact ⟨fun _ => rfl, by simp⟩
    | step env V u hh hprev h2 h3 h4 ih =>
      obtain ⟨i1, i2⟩ := ih
      refine ⟨by simp, ?_⟩
      intro c hc
      obtain ⟨c', a, b⟩ := (zipResume_ok hwf env hh (M.view k0) _ _ u i1 i2).2 h2
      rw [h3] at a
      cases a
      cases hc
      rcases h4 with h4 | h4
      · subst h4; exact b
      · subst h4; exact b.detach (M.reborn_view _)
  obtain ⟨i1, i2⟩ := inv ck k hchain
  exact ((zipResume_ok hwf env hh (M.view k0) ck k u i1 i2).1 res hok).2

/-- Non-vacuity of C33: two stops (within a stored and within a deflated file), then success. -/
example : (memLaw noFaults).view (toyRun noFaults (some toyCk2) toySink2 []).2.sink =
    zipIdeal (memLaw noFaults) toyArchive (toy false false) ((memLaw noFaults).view memEmpty) :=
  C33_zip_stop_resume toy_wf (memLaw noFaults) memEmpty _ _ toy_stops toyEnv toy_honest listCons [] _ toy_success

/-- **C39.** Every checkpoint saved by a resumed run lies strictly after the one it was resumed from, and within a run
checkpoints never go back — for every sink, consumer and read schedule, and whether or not the runs fail. (Without
`D.Exact` — a decompressor that refuses a checkpoint of its own — the source restarts and the strictness is lost.) -/
theorem C39_strictly_later {A : Archive} {D : Decomp} {F : Nat} {Q : SinkM → Prop} (hwf : ZipWF A D F) (hex : D.Exact) {n : Nat} {c0 : ECkpt}
    (h0 : ZipSaved A D F Q n c0) (env : ZEnv) (K : SinkM) (V : SaveCons) (k : K.St) (u : V.St) :
    (∀ s ∈ saves (zipResume A env D F K V (some c0) k u).2.log, posLt (ckPos c0) (ckPos s.1)) ∧
    (saves (zipResume A env D F K V (some c0) k u).2.log).Pairwise fun a b => posLe (ckPos a.1) (ckPos b.1) := by
  obtain ⟨p, hl⟩ := zipResume_later (V := V) hwf env (some c0) (by intro c hc; cases hc; exact zipSaved_wf hwf h0) k u _ (Or.inr ⟨_, rfl, rfl⟩)
  exact ⟨hl.after hex, hl.sorted⟩

/-- **C39**, termination: no archive can be stopped and resumed more often than it has positions. -/
theorem C39_bounded {A : Archive} {D : Decomp} {F : Nat} {Q : SinkM → Prop} (hwf : ZipWF A D F) (hex : D.Exact) {n : Nat} {c : ECkpt}
    (h : ZipSaved A D F Q n c) : n ≤ zipPositions A D := by
  obtain ⟨i, zf, o, hs⟩ := zipSaved_wf hwf h
  have := zipSaved_num hwf hex h i zf o hs
  obtain ⟨c', _, hc⟩ := hs.src
  have := posNum_bound hs.file (fileCk_le hc)
  omega

/-- **C35**, what holds: every checkpoint handed to the consumer is immediately preceded by a successful `Sync` of the
current writer. Missing for the full property: data of earlier members is not synced, see below. -/
theorem C35_sync_before_save_partial {A : Archive} {D : Decomp} {F : Nat} {Q : SinkM → Prop} (hwf : ZipWF A D F) (env : ZEnv) (K : SinkM) (V : SaveCons)
    (ck : Option ECkpt) (hck : ZipStart A D F Q ck) (k : K.St) (u : V.St) (pre post : List Ev) (c : ECkpt) (a : Except Err Action)
    (hlog : (zipResume A env D F K V ck k u).2.log = pre ++ .save c a :: post) : ∃ pre', pre = pre' ++ [.sync none] := by
  let P : Nat → Bool → List Ev → Prop := fun _ _ log =>
    ∀ pre c a post, log = pre ++ .save c a :: post → ∃ pre', pre = pre' ++ [.sync none]
  have hsnoc : ∀ log ev, (∀ c a, ev ≠ .save c a) → P 0 false log → P 0 false (log ++ [ev]) := by
    intro log ev hev h pre c a post heq
    rcases List.eq_nil_or_concat post with hp | ⟨post', x, hp⟩
    · subst hp
      have := (List.append_inj' heq rfl).2
      simp at this
      exact absurd this (hev c a)
    · subst hp
      rw [List.concat_eq_append, ← List.cons_append, ← List.append_assoc] at heq
      exact h pre c a post' (List.append_inj' heq rfl).1
  have hP : LogInv A V P := by
    refine ⟨fun _ _ _ _ h _ _ => h, ?_, ?_⟩
    · intro i zf b log e h _ _ he
      refine hsnoc log e ?_ h
      rintro c a rfl
      exact he
    · intro i zf log ck a h _ _ _ _ pre c a' post heq
      rcases List.eq_nil_or_concat post with hp | ⟨post', x, hp⟩
      · subst hp
        exact ⟨log, (List.append_inj' heq rfl).1.symm⟩
      · subst hp
        rw [List.concat_eq_append, ← List.cons_append, ← List.append_assoc] at heq
        exact hsnoc log (.sync none) (by simp) h pre c a' post' (List.append_inj' heq rfl).1
  obtain ⟨⟨i, h⟩, _⟩ := zipResume_plain hwf env P hP ck hck k u (by
    intro log hl pre c a post heq
    have := hl (.save c a) (by rw [heq]; simp)
    simp at this)
  exact h pre c a post hlog

/-- **C35 is false** for earlier members (and non-vacuity: saves do happen). The last byte of `a` is written, no `Sync`
follows before the writer of `b` is opened, and then a checkpoint within `b` (member 3) is handed to the consumer. -/
theorem C35_false_earlier_members : ∃ pre rest c ea el eb, ea.path = cs ['a'] ∧ eb.path = cs ['b'] ∧
    (toyRun noFaults none memEmpty []).2.log = pre ++ [.openW ea none, .write [1] 1 none] ++
      ((toyRun noFaults none memEmpty []).2.log.take 11).drop 6 ++
      [.write [3] 1 none, .write [] 0 none, .symlink el (cs ['a']) none, .openW eb none] ++ rest ∧
    (saves rest).head? = some (c, .ok .cont) ∧ c.entryIndex = 3 :=
  ⟨(toyRun noFaults none memEmpty []).2.log.take 4, (toyRun noFaults none memEmpty []).2.log.drop 15, toyCk2,
    zipFileEntry toyArchive.files[1], zipFileEntry toyArchive.files[2], zipFileEntry toyArchive.files[3], by rfl, by rfl, by rfl, by rfl, by rfl⟩

/-- **C36.** Once member `j` (not before the start of the run) is encrypted, the run does not succeed, and every directory
made, link created and writer opened belongs to a member before `j`. (Preallocation, which happens before any member is
looked at, does create a file for it.) -/
theorem C36_encrypted {A : Archive} {D : Decomp} {F : Nat} {Q : SinkM → Prop} (hwf : ZipWF A D F) (env : ZEnv) (K : SinkM) (V : SaveCons)
    (ck : Option ECkpt) (hck : ZipStart A D F Q ck) (k : K.St) (u : V.St) (j : Nat) (zj : ZFile) (hj : A.files[j]? = some zj)
    (henc : zj.encrypted = true) (hsj : startIndex ck ≤ j) :
    (∀ res, (zipResume A env D F K V ck k u).1 ≠ .ok res) ∧
    ∀ ev ∈ (zipResume A env D F K V ck k u).2.log, ∀ e, ev.touched = some e →
      ∃ h zf, startIndex ck ≤ h ∧ h < j ∧ A.files[h]? = some zf ∧ EntryOf zf e := by
  let P : Nat → Bool → List Ev → Prop := fun i _ log => startIndex ck ≤ i ∧ i ≤ j ∧ ∀ ev ∈ log, ∀ e, ev.touched = some e →
      ∃ h zf, startIndex ck ≤ h ∧ h < j ∧ A.files[h]? = some zf ∧ EntryOf zf e
  have hlt : ∀ i zf, A.files[i]? = some zf → zf.encrypted = false → i ≤ j → i < j := by
    intro i zf h1 h2 h3
    rcases Nat.lt_or_ge i j with h | h
    · exact h
    · have : i = j := by omega
      subst this
      rw [hj] at h1
      cases h1
      rw [henc] at h2; cases h2
  have hP : LogInv A V P := by
    refine ⟨?_, ?_, ?_⟩
    · rintro i zf b log ⟨h1, h2, h3⟩ hi he
      have := hlt i zf hi he h2
      exact ⟨by omega, by omega, h3⟩
    · rintro i zf b log e ⟨h1, h2, h3⟩ hi he hev
      refine ⟨h1, h2, ?_⟩
      intro ev hm e' ht
      simp at hm
      rcases hm with hm | hm
      · exact h3 ev hm e' ht
      · subst hm
        refine ⟨i, zf, h1, hlt i zf hi he h2, hi, ?_⟩
        cases ev <;> simp [Ev.touched] at ht <;> · subst ht; exact hev
    · rintro i zf log ck a ⟨h1, h2, h3⟩ hi he _ _
      refine ⟨h1, h2, ?_⟩
      intro ev hm e' ht
      simp at hm
      rcases hm with hm | hm | hm
      · exact h3 ev hm e' ht
      · subst hm; simp [Ev.touched] at ht
      · subst hm; simp [Ev.touched] at ht
  obtain ⟨⟨i, h⟩, h2, _⟩ := zipResume_plain hwf env P hP ck hck k u (by
    intro log hl
    refine ⟨Nat.le_refl _, hsj, ?_⟩
    intro ev hm e ht
    obtain ⟨e', x, hx⟩ := hl ev hm
    subst hx
    simp [Ev.touched] at ht)
  refine ⟨?_, h.2.2⟩
  intro res hres
  obtain ⟨_, _, j', h3, h4⟩ := h2 res hres
  have := (List.getElem?_eq_some_iff.mp hj).1
  have := h4.2.1
  omega

/-- **C37.** A successful run returns one entry per member, in archive order, wherever it was resumed. -/
theorem C37_results {A : Archive} {D : Decomp} {F : Nat} (env : ZEnv) (K : SinkM) (V : SaveCons) (ck : Option ECkpt) (k : K.St)
    (u : V.St) (res : List Entry) (h : (zipResume A env D F K V ck k u).1 = .ok res) :
    res.length = A.files.length ∧ ∀ (i : Nat) (zf : ZFile), A.files[i]? = some zf → ∃ e, res[i]? = some e ∧
      e.path = zf.name ∧ e.mode = zf.mode ∧ e.csize = zf.csize ∧ e.usize = zf.usize ∧ e.woff = 0 ∧
      (e.kind = .dir ↔ zf.mode.testBit 31 = true) ∧ (e.kind = .symlink ↔ zf.mode.testBit 31 = false ∧ zf.mode.testBit 27 = true) := by
  have : res = A.files.map zipFileEntry := by
    unfold zipResume at h
    simp only at h
    split at h
    · cases h
    · split at h
      · cases h
      · split at h
        · cases h
        · split at h
          · cases h
          · simpa using h.symm
  subst this
  refine ⟨by simp, ?_⟩
  intro i zf hi
  refine ⟨zipFileEntry zf, by simp [hi], rfl, rfl, rfl, rfl, rfl, ?_, ?_⟩
  · simp only [zipFileEntry]
    split
    · simp_all
    · split <;> simp_all
  · simp only [zipFileEntry]
    split
    · simp_all
    · split <;> simp_all

/-- **C38.** `ErrStop` is returned exactly when some save was answered with "stop" and nothing failed; then the last save
is the one answered with "stop". -/
theorem C38_stop_iff {A : Archive} {D : Decomp} {F : Nat} {Q : SinkM → Prop} (hwf : ZipWF A D F) (env : ZEnv) (K : SinkM) (V : SaveCons)
    (ck : Option ECkpt) (hck : ZipStart A D F Q ck) (k : K.St) (u : V.St) :
    ((zipResume A env D F K V ck k u).1 = .error .stop ↔
      (∃ c, (c, .ok .stop) ∈ saves (zipResume A env D F K V ck k u).2.log) ∧
      ¬ ∃ x, (zipResume A env D F K V ck k u).1 = .error (.wrapped x)) ∧
    ((zipResume A env D F K V ck k u).1 = .error .stop →
      ∃ c, (saves (zipResume A env D F K V ck k u).2.log).getLast? = some (c, .ok .stop)) ∧
    (∀ s ∈ (saves (zipResume A env D F K V ck k u).2.log).dropLast, ∀ c, s ≠ (c, .ok .stop)) := by
  let P : Nat → Bool → List Ev → Prop := fun _ b log => (b = true ↔ ∃ c, (c, .ok .stop) ∈ saves log) ∧
    (b = true → ∃ c, (saves log).getLast? = some (c, .ok .stop)) ∧ (∀ s ∈ (saves log).dropLast, ∀ c, s ≠ (c, .ok .stop))
  have hev : ∀ zf e, EvOf zf e → saves [e] = [] := by
    intro zf e h
    cases e <;> simp [saves, EvOf] at h ⊢
  have hP : LogInv A V P := by
    refine ⟨fun _ _ _ _ h _ _ => h, ?_, ?_⟩
    · intro i zf b log e h _ _ he
      have : saves (log ++ [e]) = saves log := by rw [saves_append, hev zf e he, List.append_nil]
      simp only [P, this]
      exact h
    · intro i zf log ck a h _ _ _ _
      have : saves (log ++ [.sync none] ++ [.save ck a]) = saves log ++ [(ck, a)] := by
        simp [saves_append, saves]
      have hno : ∀ c, (c, .ok .stop) ∉ saves log := by
        intro c hc
        have := h.1.mpr ⟨c, hc⟩
        cases this
      simp only [P, this]
      refine ⟨?_, ?_, ?_⟩
      · constructor
        · intro hb
          split at hb
          · exact ⟨ck, by simp⟩
          · cases hb
        · rintro ⟨c, hc⟩
          simp at hc
          rcases hc with hc | ⟨_, hc⟩
          · exact absurd hc (hno c)
          · subst hc; rfl
      · intro hb
        split at hb
        · exact ⟨ck, by simp⟩
        · cases hb
      · intro s hs c he
        simp at hs
        subst he
        exact hno c hs
  obtain ⟨⟨i, h⟩, h2, h3⟩ := zipResume_plain hwf env P hP ck hck k u (by
    intro log hl
    have := saves_prealloc log hl
    refine ⟨?_, ?_, ?_⟩ <;> simp [this])
  refine ⟨⟨?_, ?_⟩, fun hs => h.2.1 (h3 hs), h.2.2⟩
  · intro hs
    exact ⟨h.1.mp (h3 hs), by rintro ⟨x, hx⟩; rw [hs] at hx; cases hx⟩
  · rintro ⟨hc, hn⟩
    rcases zipResume_result hwf env ck hck k u with ⟨res, hr⟩ | hr | hr
    · have a := h2 res hr
      have b := h.1.mpr hc
      rw [a.2.1] at b; cases b
    · exact hr
    · exact absurd hr hn

/-- Every save was answered by the consumer it was handed to (helper for C56). -/
theorem zipSaves_answers {A : Archive} {D : Decomp} {F : Nat} {Q : SinkM → Prop} (hwf : ZipWF A D F) (env : ZEnv) (K : SinkM) (V : SaveCons)
    (ck : Option ECkpt) (hck : ZipStart A D F Q ck) (k : K.St) (u : V.St) :
    ∀ s ∈ saves (zipResume A env D F K V ck k u).2.log, ∃ v, (V.save s.1 v).1 = s.2 := by
  let P : Nat → Bool → List Ev → Prop := fun _ _ log => ∀ s ∈ saves log, ∃ v, (V.save s.1 v).1 = s.2
  have hev : ∀ zf e, EvOf zf e → saves [e] = [] := by
    intro zf e h
    cases e <;> simp [saves, EvOf] at h ⊢
  have hP : LogInv A V P := by
    refine ⟨fun _ _ _ _ h _ _ => h, ?_, ?_⟩
    · intro i zf b log e h _ _ he
      have : saves (log ++ [e]) = saves log := by rw [saves_append, hev zf e he, List.append_nil]
      simp only [P, this]
      exact h
    · intro i zf log ck a h _ _ _ hv s hs
      have : saves (log ++ [.sync none] ++ [.save ck a]) = saves log ++ [(ck, a)] := by
        simp [saves_append, saves]
      rw [this, List.mem_append] at hs
      rcases hs with hs | hs
      · exact h s hs
      · simp at hs; subst hs; exact hv
  obtain ⟨⟨i, h⟩, _⟩ := zipResume_plain hwf env P hP ck hck k u (by
    intro log hl s hs
    rw [saves_prealloc log hl] at hs; cases hs)
  exact h

/-- **C41.** If the archive's sizes are true and it holds any data, all progress values of a run — those stored in
checkpoints and those passed to the progress callback — are fractions in [0,1] of the total size, and never decrease. -/
theorem C41_progress {A : Archive} {D : Decomp} {F : Nat} (hwf : ZipWF A D F) (ht : ZipTruthful A D)
    (hpos : 0 < (A.files.map (·.usize)).sum) (env : ZEnv) (K : SinkM) (hK : K.Counting) (V : SaveCons)
    (ck : Option ECkpt) (hck : ZipStart A D F SinkM.Counting ck) (k : K.St) (u : V.St) :
    (∀ p ∈ progresses (zipResume A env D F K V ck k u).2.log, 0 ≤ p.1 ∧ p.1 ≤ p.2 ∧ 0 < p.2) ∧
    (progresses (zipResume A env D F K V ck k u).2.log).Pairwise fun p q => p.2 = q.2 ∧ p.1 ≤ q.1 := by
  obtain ⟨top, h⟩ := zipResume_progress (V := V) hwf ht env hK ck (by
    intro c hc
    obtain ⟨n, hn⟩ := hck c hc
    exact zipSaved_sane hwf ht hn) k u
  refine ⟨?_, ?_⟩
  · intro p hp
    obtain ⟨a, b, c, d, _⟩ := h.range p hp
    rw [d]; exact ⟨a, c, hpos⟩
  · refine h.sorted.imp_of_mem ?_
    intro p q hp hq hle
    exact ⟨by rw [(h.range p hp).2.2.2.1, (h.range q hq).2.2.2.1], hle⟩

/-- **C41**, across runs: a checkpoint's progress is the size of the members before the one it is within plus the bytes written of that one
(`WriteOffset`), of the total; and all progress values of a run resumed from it are at least that. -/
theorem C41_across {A : Archive} {D : Decomp} {F : Nat} (hwf : ZipWF A D F) (ht : ZipTruthful A D) {n : Nat} {c : ECkpt}
    (hc : ZipSaved A D F SinkM.Counting n c) :
    (∃ i e, c.entryIndex = (i : Nat) ∧ i < A.files.length ∧ c.entry = some e ∧
      c.progress = (((A.files.take i).map (·.usize)).sum + e.woff, (A.files.map (·.usize)).sum)) ∧
    ∀ (env : ZEnv) (K : SinkM) (_ : K.Counting) (V : SaveCons) (k : K.St) (u : V.St),
      ∀ p ∈ progresses (zipResume A env D F K V (some c) k u).2.log, p.2 = c.progress.2 ∧ c.progress.1 ≤ p.1 := by
  have hs := zipSaved_sane hwf ht hc
  obtain ⟨i, zf, o, x, h1, h2, h3, h4, h5, h6⟩ := hs
  refine ⟨⟨i, _, h1.index, (List.getElem?_eq_some_iff.1 h1.file).1, h3, h6⟩, ?_⟩
  intro env K hK V k u p hp
  obtain ⟨top, h⟩ := zipResume_progress (V := V) hwf ht env hK (some c) (by intro c' hc'; cases hc'; exact ⟨i, zf, o, x, h1, h2, h3, h4, h5, h6⟩) k u
  obtain ⟨_, _, _, d, e⟩ := h.range p hp
  exact ⟨by rw [d, h6], e⟩

/-- **C55**, consumer: if `ShouldSave` never asks for a save (as `NopSaveConsumer`), nothing is saved and the run is not
stopped. -/
theorem C55_never_saves {A : Archive} {D : Decomp} {F : Nat} {Q : SinkM → Prop} (hwf : ZipWF A D F) (env : ZEnv) (K : SinkM) (V : SaveCons)
    (hV : ∀ n u, (V.shouldSave n u).1 = false) (ck : Option ECkpt) (hck : ZipStart A D F Q ck) (k : K.St) (u : V.St) :
    saves (zipResume A env D F K V ck k u).2.log = [] ∧ (zipResume A env D F K V ck k u).1 ≠ .error .stop := by
  let P : Nat → Bool → List Ev → Prop := fun _ b log => b = false ∧ saves log = []
  have hP : LogInv A V P := by
    refine ⟨fun _ _ _ _ h _ _ => h, ?_, ?_⟩
    · rintro i zf b log e ⟨h1, h2⟩ _ _ he
      refine ⟨h1, ?_⟩
      rw [saves_append, h2]
      cases e <;> simp [saves, EvOf] at he ⊢
    · rintro i zf log ck a _ _ _ ⟨n, u, h⟩ _
      rw [hV] at h; cases h
  obtain ⟨⟨i, h⟩, h2, h3⟩ := zipResume_plain hwf env P hP ck hck k u (fun log hl => ⟨rfl, saves_prealloc log hl⟩)
  refine ⟨h.2, fun hs => ?_⟩
  have := h3 hs
  rw [h.1] at this; cases this

/-- **C55**, sink: every operation of `NopSink` succeeds, writes report their full length, and nothing is recorded. -/
theorem C55_nop_sink (e : Entry) (t : Str) (bs : List Byte) (s : nopSink.St) :
    (nopSink.mkdir e s).1 = none ∧ (nopSink.symlink e t s).1 = none ∧ (nopSink.preallocate e s).1 = none ∧
    (nopSink.getWriter e s).1 = none ∧ (nopSink.write bs s).1.1 = bs.length ∧ (nopSink.write bs s).1.2.2 = none ∧
    (nopSink.sync s).1 = none ∧ (nopSink.write bs s).2 = s := ⟨rfl, rfl, rfl, rfl, rfl, rfl, rfl, rfl⟩

example : ∀ n u, (nopCons.shouldSave n u).1 = false := fun _ _ => rfl

end Savior
