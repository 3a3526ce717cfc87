import Verif.ZipNice
import Verif.Props.Zip
/-!
# Properties of the zip extractor: healthy runs, stop/resume loops (C56, C36)
-/

namespace Savior

/-- **C56.** In a healthy environment — no read faults, a working sink, a consumer that does not fail, an archive without
encrypted members and with well-formed data — an extraction, fresh or resumed from a saved checkpoint, succeeds or was
asked to stop; in particular, it succeeds if the consumer never says "stop". -/
theorem C56_healthy {A : Archive} {D : Decomp} {F : Nat} (hwf : ZipWF A D F) (hpl : ZipPlain A) (hs : ZipSound A D)
    (env : ZEnv) (he : env.Good A) (K : SinkM) (G : GoodSink K) (V : SaveCons) (hV : V.Good)
    (ck : Option ECkpt) (hck : ZipStart A D F SinkM.Counting ck) (k : K.St) (hk : G.OK k) (u : V.St) :
    ((∃ res, (zipResume A env D F K V ck k u).1 = .ok res) ∨ (zipResume A env D F K V ck k u).1 = .error .stop) ∧
    ((∀ c u, (V.save c u).1 ≠ .ok .stop) → ∃ res, (zipResume A env D F K V ck k u).1 = .ok res) := by
  have hg := zipResume_good (u := u) hwf hpl hs he G hV ck (by
    intro c hc
    obtain ⟨n, hn⟩ := hck c hc
    exact zipSaved_saneCk hwf hn) k hk
  refine ⟨?_, fun hn => ?_⟩
  · rcases hg.1 with h | h
    · exact Or.inl ⟨_, h⟩
    · exact Or.inr h
  · rcases hg.1 with h | h
    · exact ⟨_, h⟩
    · exfalso
      obtain ⟨⟨c, hc⟩, _⟩ := (C38_stop_iff hwf env K V ck hck k u).1.mp h
      obtain ⟨v, hv⟩ := zipSaves_answers hwf env K V ck hck k u _ hc
      exact hn c v hv

/-- **C56**, stop/resume loops: if the same healthy environment's extraction is resumed from the last checkpoint saved
whenever it reports to have been stopped, then after finitely many runs — at most one more than the archive has
positions — it succeeds, with the sink in exactly the state described by the archive, however often the consumer says
"stop" and whether or not the process is restarted in between. -/
theorem C56_loop {A : Archive} {D : Decomp} {F : Nat} (hwf : ZipWF A D F) (hpl : ZipPlain A) (hs : ZipSound A D)
    (envs : Nat → ZEnv) (he : ∀ n, (envs n).Good A) (hh : ∀ n, (envs n).Honest A) (K : SinkM) (hK : K.Counting) (G : GoodSink K) (M : SinkLaw K)
    (V : SaveCons) (hV : V.Good) (us : Nat → V.St) (anew : Nat → Bool) (k0 : K.St) (hk : G.OK k0) (n : Nat) (hn : zipPositions A D < n) :
    (zipDrive A D F K V envs us anew n none k0).1 = .ok (A.files.map zipFileEntry) ∧
    M.view (zipDrive A D F K V envs us anew n none k0).2 = zipIdeal M A D (M.view k0) := by
  have key : ∀ n m ck k, zipPositions A D < n + m → ZipStops A D F K none k0 ck k → G.OK k →
      (ck = none ∧ m = 0 ∨ ∃ c, ck = some c ∧ ZipSaved A D F SinkM.Counting m c) →
      (zipDrive A D F K V envs us anew n ck k).1 = .ok (A.files.map zipFileEntry) ∧
      M.view (zipDrive A D F K V envs us anew n ck k).2 = zipIdeal M A D (M.view k0) := by
    intro n
    induction n with
    | zero =>
      intro m ck k hlt _ _ hc
      exfalso
      rcases hc with ⟨_, h⟩ | ⟨c, _, h⟩
      · omega
      · have := C39_bounded hwf hs.exact h
        omega
    | succ n ih =>
      intro m ck k hlt hstops hok hc
      have hck : ZipStart A D F SinkM.Counting ck := by
        intro c hcc
        rcases hc with ⟨h, _⟩ | ⟨c', h, h'⟩
        · rw [h] at hcc; cases hcc
        · rw [h] at hcc; cases hcc; exact ⟨_, h'⟩
      have hg := zipResume_good (u := us n) hwf hpl hs (he n) G hV ck (by
        intro c hc
        obtain ⟨n, hn⟩ := hck c hc
        exact zipSaved_saneCk hwf hn) k hok
      unfold zipDrive
      rcases hg.1 with h | h
      · rw [h]
        exact ⟨rfl, C33_zip_stop_resume hwf M k0 ck k hstops (envs n) (hh n) V (us n) _ h⟩
      · rw [h]
        obtain ⟨c, hl⟩ := (C38_stop_iff hwf (envs n) K V ck hck k (us n)).2.1 h
        have hlast : lastSave (zipResume A (envs n) D F K V ck k (us n)).2.log = some c := by
          unfold lastSave; rw [hl]; rfl
        have hmem : (c, (.ok .stop : Except Err Action)) ∈ saves (zipResume A (envs n) D F K V ck k (us n)).2.log :=
          List.mem_of_getLast? hl
        simp only [hlast, Option.some_or]
        refine ih (m + 1) (some c) _ (by omega) ?_ (G.next _ hg.2) (Or.inr ⟨c, rfl, ?_⟩)
        · exact ZipStops.step (envs n) V (us n) (hh n) hstops h hlast (K.next_spec _ _)
        · rcases hc with ⟨h1, h2⟩ | ⟨c', h1, h2⟩
          · subst h1; subst h2
            exact ZipSaved.first (envs n) K V k (us n) hK hmem
          · subst h1
            exact ZipSaved.again (envs n) K V k (us n) hK h2 hmem
  exact key n 0 none k0 (by omega) ZipStops.refl hk (Or.inl ⟨rfl, rfl⟩)

/-- **C36**, the error: in an otherwise healthy environment, a run that starts at or before an encrypted member (the first
one of the archive) ends with `ErrEncrypted` — unless it is stopped before that. -/
theorem C36_reported {A : Archive} {D : Decomp} {F : Nat} (hwf : ZipWF A D F) (hs : ZipSound A D)
    (env : ZEnv) (he : env.Good A) (K : SinkM) (G : GoodSink K) (V : SaveCons) (hV : V.Good)
    (ck : Option ECkpt) (hck : ZipStart A D F SinkM.Counting ck) (k : K.St) (hk : G.OK k) (u : V.St)
    (j : Nat) (zj : ZFile) (hj : A.files[j]? = some zj) (henc : zj.encrypted = true)
    (hbefore : ∀ i zf, i < j → A.files[i]? = some zf → zf.encrypted = false) (hsj : startIndex ck ≤ j) :
    (zipResume A env D F K V ck k u).1 = .error (.wrapped .encrypted) ∨ (zipResume A env D F K V ck k u).1 = .error .stop :=
  zipResume_enc hwf hs he G hV ck (by
    intro c hc
    obtain ⟨n, hn⟩ := hck c hc
    exact zipSaved_saneCk hwf hn) k u hk j zj hj henc hbefore hsj

/-! ## Non-vacuity -/

/-- Asks for a save after every chunk and always says "stop". -/
def stopCons : SaveCons where
  St := Unit
  shouldSave _ u := (true, u)
  save _ u := (.ok .stop, u)

/-- The in-memory sink without faults works. -/
def memGood : GoodSink (memSink noFaults) where
  OK _ := True
  Open s := s.cur ≠ none
  open_ok _ _ := trivial
  mkdir e s _ := ⟨rfl, trivial⟩
  symlink e t s _ := ⟨rfl, trivial⟩
  prealloc e s _ := ⟨rfl, trivial⟩
  getWriter e s _ h := by
    have : ¬ e.woff < 0 := by omega
    simp [memSink, this, noFaults, MemSt.open_]
  write bs s h := by
    cases hc : s.cur with
    | none => exact absurd hc h
    | some q => by_cases hb : bs = [] <;> simp [memSink, noFaults, MemSt.write, hc, hb]
  sync s h := ⟨rfl, h⟩
  close _ _ := trivial
  reborn _ _ := trivial

theorem memCounting : (memSink noFaults).Counting := by
  intro bs s h
  simp only [memSink, noFaults] at h ⊢
  split at h
  · simp at h
  · rename_i hc; simp [hc]

theorem toy_good : toyEnv.Good toyArchive where
  noFault _ _ := rfl
  lazy _ _ := rfl
  dataOff _ := rfl
  opens i h := by
    match i with
    | 0 | 1 | 2 | 3 | 4 => exact ⟨_, rfl⟩
    | n + 5 => simp [toyArchive] at h; omega

theorem toy_sound : ZipSound toyArchive (toy false false) where
  clean := by decide
  exact := toy_exact
  saveOK _ _ := rfl

/-- Stopping at every opportunity, the toy archive is still extracted within 15 runs. -/
example : (zipDrive toyArchive (toy false false) 100 (memSink noFaults) stopCons (fun _ => toyEnv) (fun _ => ()) (fun n => n % 2 == 0) 15 none memEmpty).1 =
    .ok (toyArchive.files.map zipFileEntry) :=
  (C56_loop toy_wf (by unfold ZipPlain; decide) toy_sound (fun _ => toyEnv) (fun _ => toy_good) (fun _ => toy_honest) _ memCounting memGood (memLaw noFaults)
    stopCons (fun _ _ => ⟨_, rfl⟩) (fun _ => ()) (fun n => n % 2 == 0) memEmpty trivial 15 (by decide)).1

/-- The toy archive with its deflated member encrypted. -/
def toyEncrypted : Archive := { toyArchive with files := toyArchive.files.set 3 { toyArchive.files[3] with encrypted := true } }

theorem toyEncrypted_wf : ZipWF toyEncrypted (toy false false) 100 where
  law := toy_law _ _
  csize := by decide
  budget := by decide

example : (zipResume toyEncrypted toyEnv (toy false false) 100 (memSink noFaults) nopCons none memEmpty ()).1 = .error (.wrapped .encrypted) := by
  rcases C36_reported toyEncrypted_wf ⟨by decide, toy_exact, fun _ _ => rfl⟩ toyEnv ⟨fun _ _ => rfl, fun _ _ => rfl, fun _ => rfl, by
      intro i h
      match i with
      | 0 | 1 | 2 | 3 | 4 => exact ⟨_, rfl⟩
      | n + 5 => simp [toyEncrypted, toyArchive] at h; omega⟩ _ memGood nopCons (fun _ _ => ⟨_, rfl⟩) none (by intro c h; cases h) memEmpty trivial () 3 _ rfl rfl (by
      intro i zf hi h
      match i with
      | 0 | 1 | 2 => simp [toyEncrypted, toyArchive] at h; subst h; rfl
      | n + 3 => omega) (Nat.zero_le _) with h | h
  · exact h
  · exact absurd h (C55_never_saves (Q := fun _ => True) toyEncrypted_wf _ _ _ (fun _ _ => rfl) none (by intro c h; cases h) _ _).2

/-- C36 and C38 apply to it. -/
example (u : listCons.St) : ∀ res, (zipResume toyEncrypted toyEnv (toy false false) 100 (memSink noFaults) listCons none memEmpty u).1 ≠ .ok res := by
  have hj : toyEncrypted.files[3]? = some { toyArchive.files[3] with encrypted := true } := rfl
  exact (C36_encrypted (Q := fun _ => True) toyEncrypted_wf toyEnv (memSink noFaults) listCons none (by intro c h; cases h) memEmpty u 3 _ hj rfl
    (Nat.zero_le _)).1

/-- The first toy run is stopped, and the last (only) save is the one that was answered with "stop". -/
example : ∃ c, (saves (toyRun noFaults none memEmpty [.ok .stop]).2.log).getLast? = some (c, .ok .stop) :=
  (C38_stop_iff (Q := fun _ => True) toy_wf toyEnv (memSink noFaults) listCons none (by intro c h; cases h) memEmpty [.ok .stop]).2.1 toy_run1

/-- C39: the first toy checkpoint was saved, so the run resumed from it saves only later ones (and does save some). -/
theorem toy_saves1 : saves (toyRun noFaults none memEmpty [.ok .stop]).2.log = [(toyCk1, .ok .stop)] := by rfl

theorem toy_saved1 : ZipSaved toyArchive (toy false false) 100 SinkM.Counting 1 toyCk1 := by
  have h : (toyCk1, .ok .stop) ∈ saves (toyRun noFaults none memEmpty [.ok .stop]).2.log := by
    rw [toy_saves1]; exact List.mem_singleton.mpr rfl
  unfold toyRun at h
  exact ZipSaved.first toyEnv (memSink noFaults) listCons memEmpty [.ok .stop] memCounting h

example : posLt (ckPos toyCk1) (ckPos toyCk2) := by
  refine (C39_strictly_later toy_wf toy_exact toy_saved1 toyEnv (memSink noFaults) listCons toySink1 [.ok .cont, .ok .stop]).1 (toyCk2, .ok .stop) ?_
  have h : (saves (toyRun noFaults (some toyCk1) toySink1 [.ok .cont, .ok .stop]).2.log).getLast? = some (toyCk2, .ok .stop) := by rfl
  exact List.mem_of_getLast? h

example : 1 ≤ zipPositions toyArchive (toy false false) := C39_bounded toy_wf toy_exact toy_saved1

/-- C41: the toy archive's sizes are true. -/
theorem toy_truthful : ZipTruthful toyArchive (toy false false) := ⟨by decide, by decide, by decide⟩

example : (progresses (toyRun noFaults (some toyCk1) toySink1 []).2.log).Pairwise fun p q => p.2 = q.2 ∧ p.1 ≤ q.1 :=
  (C41_progress toy_wf toy_truthful (by decide) toyEnv _ memCounting listCons (some toyCk1) (by
    intro c h; cases h; exact ⟨1, toy_saved1⟩) toySink1 []).2

example : ∀ p ∈ progresses (toyRun noFaults (some toyCk1) toySink1 []).2.log, p.2 = toyCk1.progress.2 ∧ toyCk1.progress.1 ≤ p.1 :=
  (C41_across toy_wf toy_truthful toy_saved1).2 toyEnv _ memCounting listCons toySink1 []

/-- C35 applies to the first toy run: its save comes directly after a sync. -/
example : ∃ pre' post, (toyRun noFaults none memEmpty [.ok .stop]).2.log = pre' ++ [.sync none] ++ .save toyCk1 (.ok .stop) :: post := by
  have h : (toyRun noFaults none memEmpty [.ok .stop]).2.log[7]? = some (.save toyCk1 (.ok .stop)) := by rfl
  obtain ⟨pre, post, h⟩ := List.append_of_mem (List.mem_of_getElem? h)
  obtain ⟨pre', h'⟩ := C35_sync_before_save_partial (Q := fun _ => True) toy_wf toyEnv (memSink noFaults) listCons none (by intro c h; cases h) memEmpty
    [.ok .stop] pre post toyCk1 (.ok .stop) h
  exact ⟨pre', post, by rw [h, h']⟩

/-- C37 applies to the twice stopped toy run: five entries, the second of which is the file `a`. -/
example : ∃ e, (toyArchive.files.map zipFileEntry)[1]? = some e ∧ e.path = cs ['a'] ∧ e.usize = 3 ∧ e.woff = 0 := by
  obtain ⟨e, h1, h2, _, _, h5, h6, _⟩ := (C37_results toyEnv (memSink noFaults) listCons (some toyCk2) toySink2 [] _ toy_success).2 1 _ rfl
  exact ⟨e, h1, h2, h5, h6⟩

/-- C56 applies to the run resumed from the first toy checkpoint. -/
example : ∃ res, (zipResume toyArchive toyEnv (toy false false) 100 (memSink noFaults) nopCons (some toyCk1) toySink1 ()).1 = .ok res :=
  (C56_healthy toy_wf (by unfold ZipPlain; decide) toy_sound toyEnv toy_good _ memGood nopCons (fun _ _ => ⟨_, rfl⟩) (some toyCk1)
    (by intro c h; cases h; exact ⟨1, toy_saved1⟩) toySink1 trivial ()).2 (by intro c u; simp [nopCons])

end Savior
