import Verif.Props.Ready
import Verif.Props.ZipRuns
import Verif.Props.Tar
/-!
# Stop/resume loops into a folder finish (C86)
-/

namespace Savior

open FSink

/-- The checkpoints of a run started from nothing, from a saved checkpoint or from one for the start of a member are of the first sort. -/
theorem zipResume_wf {K : SinkM} {V : SaveCons} {A : Archive} {D : Decomp} {F : Nat} (hwf : ZipWF A D F) {sh : Str → Bool} (env : ZEnv) (ck : Option ECkpt)
    (hck : ∀ c, ck = some c → ∃ i o, PathCk A D sh c i o) (k : K.St) (u : V.St) :
    ∀ s ∈ saves (zipResume A env D F K V ck k u).2.log, ∃ i zf o, SavedCk A D s.1 i zf o := by
  cases ck with
  | none =>
    obtain ⟨p, hl⟩ := zipResume_later (V := V) hwf env none nofun k u (-1, 0) (Or.inl ⟨rfl, rfl⟩)
    exact hl.wf
  | some c =>
    obtain ⟨i, o, ⟨zf, h⟩ | ⟨h1, h2, h3, _⟩⟩ := hck c rfl
    · obtain ⟨p, hl⟩ := zipResume_later (V := V) hwf env (some c) (by intro c' hc; cases hc; exact ⟨i, zf, o, h.saved⟩) k u _ (Or.inr ⟨_, rfl, rfl⟩)
      exact hl.wf
    · obtain ⟨p, hl⟩ : ∃ p, LogOK A D (-1, 0) (zipResume A env D F K V (some c) k u).2.log p := by
        refine (zipResume_steps hwf (laterSteps A D env (zipSum A.files) K V (-1, 0)) (some c) k u ?_).1
        intro r hr
        obtain ⟨g1, g2, g3, _⟩ := zipPrepare_log A (some c) k u r hr
        have hsv : saves r.2.log = [] := saves_prealloc _ g1
        have hlog : ∀ p, LogOK A D (-1, 0) r.2.log p := by
          intro p
          constructor <;> simp [hsv]
        refine ⟨⟨(0, 0), hlog _⟩, fun _ => ?_, g3⟩
        refine ⟨i, h1, (i, 0), hlog _, by unfold posLe; simp, Or.inl ⟨by simp only; omega, ?_, ?_⟩⟩
        · rw [g2]; exact h2
        · rw [g2]; exact h3
      exact hl.wf

section
variable {cfg : FCfg} {B : Path}

theorem mem_saves_savedCks {log : List Ev} {c : ECkpt} {a : Except Err Action} (h : (c, a) ∈ saves log) : c ∈ savedCks log := List.mem_map.2 ⟨_, h, rfl⟩

/-- If anything was saved, there is a last checkpoint. -/
theorem lastSave_of_mem {log : List Ev} {s : ECkpt × Except Err Action} (h : s ∈ saves log) : ∃ c a, lastSave log = some c ∧ (c, a) ∈ saves log := by
  unfold lastSave
  cases hl : (saves log).getLast? with
  | none => rw [List.getLast?_eq_none_iff] at hl; rw [hl] at h; cases h
  | some x => exact ⟨x.1, x.2, rfl, List.mem_of_getLast? hl⟩

theorem savedCks_split {log : List Ev} {c : ECkpt} (before : List ECkpt) (h : c ∈ savedCks log) : ∃ later, ChooseCk (before ++ savedCks log) (some c) later := by
  obtain ⟨x, y, h⟩ := List.append_of_mem h
  exact ⟨before ++ x ++ [c], .pick (b := y) (by rw [h]; simp)⟩

/-- **C86.** Whatever number of attempts were made before and however those ended: from then on, if nothing fails, extracting a sensible archive into a folder
of a disk with room for it — again and again, each time from the last checkpoint saved, as long as the extraction says that it was stopped — finishes after at most one
more run than the archive has positions, however often the consumer says "stop" and whether or not the process is restarted in between; then everything is in place. -/
theorem C86_zip {A : Archive} {D : Decomp} {F : Nat} (hwf : ZipWF A D F) (hpl : ZipPlain A) (hso : ZipSound A D) (hB : cfg.Base B) (hB0 : B ≠ [])
    (hs : Sensible cfg B A.plan) (hlinks : ∀ zf ∈ A.files, (zipFileEntry zf).kind = .symlink → shouldIgnore zf.name = false → LinkFine B zf.name zf.opened.1)
    (fs0 : FS) (hroom : Room B A.plan fs0) (hist : List ECkpt) (k : FSink) (hchain : ZipAttempts A D F (folderSink cfg) (onFS fs0) hist k)
    (ck : Option ECkpt) (before : List ECkpt) (hck : ChooseCk hist ck before) (hcalm : k.os.Calm cfg.flt)
    (envs : Nat → ZEnv) (he : ∀ n, (envs n).Good A) (hh : ∀ n, (envs n).Honest A) (V : SaveCons) (hV : V.Good) (us : Nat → V.St) (anew : Nat → Bool)
    (n : Nat) (hn : zipPositions A D < n) :
    (zipDrive A D F (folderSink cfg) V envs us anew n ck k).1 = .ok (A.files.map zipFileEntry) ∧
    ∀ p, shouldIgnore p = false → ∀ nd, zipNode A D p = some nd →
      (zipDrive A D F (folderSink cfg) V envs us anew n ck k).2.os.fs.holds (namePlace B p) = some nd := by
  have key : ∀ n m (hist : List ECkpt) (ck : Option ECkpt) (before : List ECkpt) (k : (folderSink cfg).St), zipPositions A D < n + m →
      ZipAttempts A D F (folderSink cfg) (onFS fs0) hist k → ChooseCk hist ck before → (k : FSink).os.Calm cfg.flt →
      (m = 0 ∨ ∃ c i zf o, ck = some c ∧ SavedCk A D c i zf o ∧ m ≤ posNum A D i o + 1) →
      (zipDrive A D F (folderSink cfg) V envs us anew n ck k).1 = .ok (A.files.map zipFileEntry) ∧
      ∀ p, shouldIgnore p = false → ∀ nd, zipNode A D p = some nd →
        ((zipDrive A D F (folderSink cfg) V envs us anew n ck k).2 : FSink).os.fs.holds (namePlace B p) = some nd := by
    intro n
    induction n with
    | zero =>
      intro m hist ck before k hlt _ _ _ hm
      exfalso
      rcases hm with rfl | ⟨c, i, zf, o, _, hs, hle⟩
      · omega
      · obtain ⟨c', _, hc⟩ := hs.src
        have := posNum_bound hs.file (fileCk_le hc)
        omega
    | succ n ih =>
      intro m hist ck before k hlt hchain hck hcalm hm
      unfold zipDrive
      rcases C82_zip hwf hpl hso hB hB0 hs hlinks fs0 hroom hist k hchain ck before hck hcalm (envs n) (he n) (hh n) V hV (us n) with ⟨h, hd⟩ | ⟨h, c0, hc0⟩
      · rw [h]; exact ⟨rfl, hd⟩
      · rw [h]
        obtain ⟨c, a, hlast, hmem⟩ := lastSave_of_mem hc0
        simp only [hlast, Option.some_or]
        have hcks : ∀ c, ck = some c → ∃ i o, PathCk A D (folderPath cfg hB A.plan hs.apart).shown c i o := fun c hc =>
          zipAttempts_ck hwf (folderPath cfg hB A.plan hs.apart) (plan_fits hB A hs.apart) (diskOK_of_fit hroom.toDiskFit) hchain (chooseCk_mem hck c hc)
        obtain ⟨later, hlater⟩ := savedCks_split before (mem_saves_savedCks hmem)
        have hnext := (folderSink cfg).next_spec (anew n) (zipResume A (envs n) D F (folderSink cfg) V ck k (us n)).2.sink
        obtain ⟨b, hcalls⟩ := zipResume_calls A (envs n) D F (folderSink cfg) V ck k (us n)
        have htick := (calls_ready hB hB0 hs (zipAttempts_room hB hB0 hs (roomy_of_room hroom) hchain) hcalls
          (planLog_lists (C73_zip hchain ck (chooseCk_mem hck) (envs n) V (us n)))).2.1
        obtain ⟨i, zf, o, hs1⟩ := zipResume_wf hwf (envs n) ck hcks k (us n) _ hmem
        replace hs1 : SavedCk A D c i zf o := hs1
        refine ih (m + 1) _ (some c) later _ (by omega) (.step (envs n) V (us n) (hh n) hchain hck hnext) hlater ?_ (Or.inr ⟨c, i, zf, o, rfl, hs1, ?_⟩)
        · rw [next_os hnext]
          exact fun t ht => hcalm t (Nat.le_trans htick ht)
        · rcases hm with rfl | ⟨c0, i0, zf0, o0, rfl, hs0, hle⟩
          · omega
          · obtain ⟨p, hl⟩ := zipResume_later (V := V) hwf (envs n) (some c0) (by intro c hc; cases hc; exact ⟨i0, zf0, o0, hs0⟩) k (us n) _ (Or.inr ⟨_, rfl, rfl⟩)
            have hlt := hl.after hso.exact _ hmem
            obtain ⟨c1, a1, b1⟩ := hs1.src
            obtain ⟨c0, a0, b0⟩ := hs0.src
            simp only [posLt, ckPos, hs1.index, hs0.index, a1, a0, fileCk_off b1, fileCk_off b0] at hlt
            have := posNum_lt (A := A) (D := D) (j := i) (o' := o) hs0.file (fileCk_le b0) (by omega)
            omega
  exact key n 0 hist ck before k (by omega) hchain hck hcalm (Or.inl rfl)

/-! ## tar -/

variable {Y : List Byte} {Ck : Ckpt → Nat → Prop} {F : Nat} {T : TarFmt}

/-- The saves of a run from a usable checkpoint, as far as they matter here. -/
theorem tarRun_ahead {clean : Bool} {K : SinkM} {V : SaveCons} (hT : T.Law) (X : TarSrc Y clean Ck F) (hq : X.L.Quiet X.src) (pr : Ckpt → Int × Int) (ck : Option ECkpt)
    (hck : ∀ c, ck = some c → TarCkOK T clean Y Ck c) (k : K.St) (u : V.St) {o0 : Nat} (hst : o0 = 0 ∨ ∃ c i, ck = some c ∧ TarAt T clean Y Ck c i o0) :
    ∀ s ∈ saves (tarRun X T pr K V ck k u).2.2.log, ∃ i o, TarAt T clean Y Ck s.1 i o ∧ o0 < o := by
  have main : ∀ (ck : Option ECkpt) (o1 : Nat), o0 ≤ o1 → TarFrom T clean Y Ck ck o1 →
      ∀ s ∈ saves (tarRun X T pr K V ck k u).2.2.log, ∃ i o, TarAt T clean Y Ck s.1 i o ∧ o0 < o := by
    intro ck o1 hle hf s hs
    obtain ⟨i, o, a, _, b⟩ := (tarRun_saves (V := V) hT X pr ck k u (Qt := True) (fun _ => hq) hf).at_ s hs
    exact ⟨i, o, a, by have := (b trivial).1; omega⟩
  rcases hst with rfl | ⟨c, i, rfl, h⟩
  · cases hc : ck with
    | none => exact main none 0 (Nat.le_refl _) (Or.inl ⟨rfl, rfl⟩)
    | some c =>
      rcases hck c hc with ⟨i, o, b⟩ | hnd
      · exact main (some c) o (Nat.zero_le _) (Or.inr ⟨c, i, rfl, b⟩)
      · rw [tarRun_no_data X pr hnd k u]
        exact main none 0 (Nat.le_refl _) (Or.inl ⟨rfl, rfl⟩)
  · exact main (some c) o0 (Nat.le_refl _) (Or.inr ⟨c, i, rfl, h⟩)

/-- **C86**, for tar streams, plain or compressed: at most one more run than the stream has bytes. Every run is given a source with no save request pending. -/
theorem C86_tar {clean : Bool} (hclean : clean = true) (hT : T.Law) (hX : T.Exact) (all : List (THdr × List Byte)) (hall : TarHas T clean Y all) (hF : Y.length + 3 ≤ F) (hB : cfg.Base B) (hB0 : B ≠ [])
    (hs : Sensible cfg B (tarPlan all)) (hlinks : ∀ m ∈ all, m.1.typ = .symlink → shouldIgnore m.1.name = false → LinkFine B m.1.name m.1.link)
    (fs0 : FS) (hroom : Room B (tarPlan all) fs0) (hist : List ECkpt) (k : FSink) (hchain : TarAttempts Y clean Ck F T (folderSink cfg) (onFS fs0) hist k)
    (ck : Option ECkpt) (before : List ECkpt) (hck : ChooseCk hist ck before) (hcalm : k.os.Calm cfg.flt)
    (Xs : Nat → TarSrc Y clean Ck F) (hh : ∀ n, (Xs n).Healthy) (hi : ∀ n, (Xs n).S.Indifferent) (hq : ∀ n, (Xs n).L.Quiet (Xs n).src)
    (pr : Ckpt → Int × Int) (V : SaveCons) (hV : V.Good) (us : Nat → V.St) (anew : Nat → Bool) (n : Nat) (hn : Y.length < n) :
    (∃ res, (tarDrive Xs T pr (folderSink cfg) V us anew n ck k).1 = .ok res ∧
      res.map (·.path) = (all.filter fun m => m.1.typ = .reg).map (·.1.name)) ∧
    ∀ p, shouldIgnore p = false → ∀ nd, tarNode all p = some nd →
      (tarDrive Xs T pr (folderSink cfg) V us anew n ck k).2.os.fs.holds (namePlace B p) = some nd := by
  have key : ∀ n m (hist : List ECkpt) (ck : Option ECkpt) (before : List ECkpt) (k : (folderSink cfg).St), Y.length < n + m →
      TarAttempts Y clean Ck F T (folderSink cfg) (onFS fs0) hist k → ChooseCk hist ck before → (k : FSink).os.Calm cfg.flt →
      (m = 0 ∨ ∃ c i, ck = some c ∧ TarAt T clean Y Ck c i m) →
      (∃ res, (tarDrive Xs T pr (folderSink cfg) V us anew n ck k).1 = .ok res ∧
        res.map (·.path) = (all.filter fun m => m.1.typ = .reg).map (·.1.name)) ∧
      ∀ p, shouldIgnore p = false → ∀ nd, tarNode all p = some nd →
        ((tarDrive Xs T pr (folderSink cfg) V us anew n ck k).2 : FSink).os.fs.holds (namePlace B p) = some nd := by
    intro n
    induction n with
    | zero =>
      intro m hist ck before k hlt _ _ _ hm
      exfalso
      rcases hm with rfl | ⟨c, i, _, a⟩
      · omega
      · obtain ⟨ms, h', R, z0, st0, e, d1, _⟩ := a
        obtain ⟨sck, _, hsck⟩ := d1.src
        have := (Xs 0).L.ck_le (((Xs 0).family _ _).mpr hsck)
        omega
    | succ n ih =>
      intro m hist ck before k hlt hchain hck hcalm hm
      unfold tarDrive
      rcases C82_tar (u := us n) hclean hT hX all hall hF hB hB0 hs hlinks fs0 hroom hist k hchain ck before hck hcalm (Xs n) (hh n) (hi n) pr V hV with ⟨⟨res, h, hr⟩, hd⟩ | ⟨h, c0, hc0⟩
      · rw [h]; exact ⟨⟨res, rfl, hr⟩, hd⟩
      · rw [h]
        obtain ⟨c, a, hlast, hmem⟩ := lastSave_of_mem hc0
        simp only [hlast, Option.some_or]
        obtain ⟨later, hlater⟩ := savedCks_split before (mem_saves_savedCks hmem)
        have hnext := (folderSink cfg).next_spec (anew n) (tarRun (Xs n) T pr (folderSink cfg) V ck k (us n)).2.2.sink
        have htick := (calls_ready hB hB0 hs (tarAttempts_room hT hall hB hB0 hs (roomy_of_room hroom) hchain)
          (tarResume_calls (Xs n).conduit pr F (folderSink cfg) V ck (Xs n).src k (us n))
          (planLog_tar (C73_tar_complete hT hall hchain ck (chooseCk_mem hck) (Xs n) pr V (us n)))).2.1
        obtain ⟨i, o, h1, h2⟩ := tarRun_ahead hT (Xs n) (hq n) pr ck (fun c hc => tarAttempts_ckOK hT hchain c (chooseCk_mem hck c hc)) k (us n) hm _ hmem
        refine ih o _ (some c) later _ (by omega) (.step (Xs n) pr V (us n) hchain hck hnext) hlater ?_ (Or.inr ⟨c, i, rfl, h1⟩)
        rw [next_os hnext]
        exact fun t ht => hcalm t (Nat.le_trans htick ht)
  exact key n 0 hist ck before k (by omega) hchain hck hcalm (Or.inl rfl)

/-- **C86**, for tar archives compressed in any number of layers, e.g. ".tar.gz", each run reading a newly opened file. -/
theorem C86_tar_compressed (hT : T.Law) (hX : T.Exact) (raw : List Byte) (ls : List Layer) (hw : WellStacked ls) (he : StackExact ls)
    (all : List (THdr × List Byte)) (hdec : stackDecode ls raw = (Y, true)) (hall : TarHas T true Y all) (hB : cfg.Base B) (hB0 : B ≠ [])
    (hs : Sensible cfg B (tarPlan all)) (hlinks : ∀ m ∈ all, m.1.typ = .symlink → shouldIgnore m.1.name = false → LinkFine B m.1.name m.1.link)
    (fs0 : FS) (hroom : Room B (tarPlan all) fs0) (hist : List ECkpt) (k : FSink)
    (hchain : TarAttempts (stackDecode ls raw).1 (stackDecode ls raw).2 (stackCk raw ls) F T (folderSink cfg) (onFS fs0) hist k)
    (ck : Option ECkpt) (before : List ECkpt) (hck : ChooseCk hist ck before) (hcalm : k.os.Calm cfg.flt)
    (g : Nat → Seek.Geo) (hg : ∀ n, (g n).stream = raw) (s : Nat → SeekSt) (hgood : ∀ n, Seek.GoodS (g n) (s n)) (hq : ∀ n, (s n).wantSave = false)
    (hn : ∀ n, StackNice (g n).sched ls) (hF : ∀ n, 2 * stackRank ls raw (g n).size + 3 ≤ F) (hF' : Y.length + 3 ≤ F)
    (pr : Ckpt → Int × Int) (V : SaveCons) (hV : V.Good) (us : Nat → V.St) (anew : Nat → Bool) (n : Nat) (hlt : Y.length < n) :
    (∃ res, (tarDrive (fun i => stackSrc raw ls F (g i) (hg i) (s i) (hgood i) (hq i) hw (hF i)) T pr (folderSink cfg) V us anew n ck k).1 = .ok res ∧
      res.map (·.path) = (all.filter fun m => m.1.typ = .reg).map (·.1.name)) ∧
    ∀ p, shouldIgnore p = false → ∀ nd, tarNode all p = some nd →
      (tarDrive (fun i => stackSrc raw ls F (g i) (hg i) (s i) (hgood i) (hq i) hw (hF i)) T pr (folderSink cfg) V us anew n ck k).2.os.fs.holds (namePlace B p) = some nd := by
  have hi : (stackM F ls).Indifferent := by
    cases ls with
    | nil => exact seek_indifferent
    | cons l ls => exact wrap_indifferent l.cfg l.D (stackM F ls) F
  have hY : (stackDecode ls raw).1 = Y := by rw [hdec]
  have hc : (stackDecode ls raw).2 = true := by rw [hdec]
  exact C86_tar hc hT hX all (by rw [hY, hc]; exact hall) (by rw [hY]; exact hF') hB hB0 hs hlinks fs0 hroom hist k hchain ck before hck hcalm
    _ (fun n => stackSrc_healthy (hn n) he) (fun _ => hi) (fun _ => stackSrc_quiet) pr V hV us anew n (by rw [hY]; exact hlt)

end

/-! ## Non-vacuity -/

/-- Two processes were killed; from the third one on, every run is stopped as soon as it has saved a checkpoint. Twenty runs are enough. -/
example (anew : Nat → Bool) : (zipDrive toyArchive (toy false false) 100 (folderSink (exCfg.withFaults (killedAt 29 3))) stopCons (fun _ => toyEnv) (fun _ => ()) anew 20
      (some toyCk1) diskKill3.2.sink).1 = .ok (toyArchive.files.map zipFileEntry) := by
  obtain ⟨hist, h, rfl⟩ := diskKill3_attempts
  refine (C86_zip toy_wf (by unfold ZipPlain; decide) toy_sound (base_faults exCfg_base _) (by decide) (toyPlan_sensible _) toy_links_fine diskEmpty
    (diskEmpty_room (by decide +kernel)) _ _ h _ _ (.pick (a := []) (b := []) rfl) ?_ _ (fun _ => toy_good) (fun _ => toy_honest) stopCons (fun _ _ => ⟨_, rfl⟩) _ anew 20
    (by decide +kernel)).1
  intro t ht
  have : diskKill3.2.sink.os.tick = 32 := by rfl
  rw [this] at ht
  show (if 29 ≤ t ∧ t < 29 + 3 then _ else none) = none
  rw [if_neg (by omega)]

/-- Not every one of these runs succeeds: the first is stopped. -/
example : (zipDrive toyArchive (toy false false) 100 (folderSink (exCfg.withFaults (killedAt 29 3))) stopCons (fun _ => toyEnv) (fun _ => ()) (fun _ => true) 1
      (some toyCk1) diskKill3.2.sink).1 = .error .stop := by rfl

example (anew : Nat → Bool) : ∃ res, (tarDrive (fun _ => toyTarSrc) (toyTar true) (fun _ => (0, 1)) (folderSink (exCfg.withFaults (killedAt 11 2))) stopCons (fun _ => ()) anew 23
      (some tarCk1) diskTarK2.2.2.sink).1 = .ok res := by
  have h := diskTarK2_attempts
  obtain ⟨⟨res, a, _⟩, _⟩ := C86_tar rfl (toyTar_law true) (toyTar_exact true) toyMembers toy_has (by decide) (base_faults exCfg_base _) (by decide) (toyTarPlan_sensible _)
    (by unfold LinkFine; decide +kernel) diskEmpty (diskEmpty_room (by decide +kernel)) _ _ h _ _ (.pick (a := []) (b := []) (by rw [diskTarK2_dead.2]; rfl))
    (by
      intro t ht
      have : diskTarK2.2.2.sink.os.tick = 13 := by rfl
      rw [this] at ht
      show (if 11 ≤ t ∧ t < 11 + 2 then _ else none) = none
      rw [if_neg (by omega)]) (fun _ => toyTarSrc) (fun _ => ⟨fun _ => rfl, trivial⟩) (fun _ => seek_indifferent) (fun _ => rfl) (fun _ => (0, 1)) stopCons (fun _ _ => ⟨_, rfl⟩)
      (fun _ => ()) anew 23 (by decide)
  exact ⟨res, a⟩

end Savior
