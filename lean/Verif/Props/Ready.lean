import Verif.Stopped
import Verif.ReadyOps
import Verif.Props.Members
import Verif.Props.FolderFaults
import Verif.Props.Alike
import Verif.Props.Extraction
import Verif.TarStack
import Verif.Ustar
import Verif.GzipEnc
/-!
# A healthy extraction into a folder succeeds (C82)
-/

namespace Savior

open FSink

section
variable {cfg : FCfg} {B : Path}

theorem folder_full (cfg : FCfg) : (folderSink cfg).Full := by
  intro bs s h
  show (writeAt cfg (s.ws.length - 1) bs s).1.1 = _
  have h' : (writeAt cfg (s.ws.length - 1) bs s).1.2.2 = none := h
  unfold writeAt at h' ⊢
  split <;> simp_all
  rename_i i o
  unfold OS.write at h' ⊢
  split <;> simp_all

theorem folder_climbs (cfg : FCfg) {P : Entry → Prop} (h : Unmoved P) : Climbs (folderSink cfg) fun e => P e ∧ 0 ≤ e.woff := by
  refine ⟨fun e he => ⟨h e 0 he.1, Int.le_refl _⟩, fun e bs s he => ⟨h e _ he.1, Int.add_nonneg he.2 ?_⟩⟩
  show 0 ≤ (writeAt cfg ((s : FSink).ws.length - 1) bs s).1.2.1
  unfold writeAt
  split <;> simp

/-- The checkpoints of a chain of attempts. -/
theorem zipAttempts_ck {A : Archive} {D : Decomp} {F : Nat} (hwf : ZipWF A D F) {K : SinkM} (P : PathLaw K) (hfit : P.FitsAll A) {k0 : K.St} (hk0 : P.Inv k0)
    {hist : List ECkpt} {k : K.St} (h : ZipAttempts A D F K k0 hist k) {c : ECkpt} (hc : c ∈ hist) : ∃ i o, PathCk A D P.shown c i o := by
  obtain ⟨_, i, o, hu, _⟩ := zipAttempts_ok hwf P hfit hk0 h
  obtain ⟨i', o', h1, _⟩ := hu.each c hc
  exact ⟨i', o', h1⟩

theorem pathCk_sane {A : Archive} {D : Decomp} {sh : Str → Bool} {c : ECkpt} {i o : Nat} (h : PathCk A D sh c i o) : c.entryIndex = i ∧ SaneAt A D i c := by
  rcases h with ⟨zf, h⟩ | ⟨h1, h2, h3, _⟩
  · refine ⟨h.saved.index, Or.inr ⟨zf, o, shownOff sh zf o, h.saved, h.kind, h.entry, Int.natCast_nonneg _, ?_⟩⟩
    unfold shownOff
    split <;> omega
  · exact ⟨h1, Or.inl ⟨h2, h3⟩⟩

theorem pathCk_entry {A : Archive} {D : Decomp} {sh : Str → Bool} {c : ECkpt} {i o : Nat} (h : PathCk A D sh c i o) {e : Entry} (he : c.entry = some e) :
    e.kind = .file ∧ A.Lists e ∧ 0 ≤ e.woff := by
  rcases h with ⟨zf, h⟩ | ⟨_, h2, _⟩
  · rw [h.entry] at he
    cases he
    exact ⟨h.kind, lists_unmoved A _ _ (lists_entry A zf (List.mem_of_getElem? h.saved.file)), Int.natCast_nonneg _⟩
  · rw [h2] at he; cases he

theorem chooseCk_mem {hist before : List ECkpt} {ck : Option ECkpt} (h : ChooseCk hist ck before) : ∀ c, ck = some c → c ∈ hist := by
  cases h with
  | fresh => nofun
  | pick he => intro c hc; cases hc; rw [he]; simp

theorem chooseCk_before {hist before : List ECkpt} {ck : Option ECkpt} (h : ChooseCk hist ck before) : ∀ c ∈ before, c ∈ hist := by
  cases h with
  | fresh => simp
  | pick he => intro c hc; subst he; simp at hc ⊢; rcases hc with hc | hc <;> simp [hc]

/-- Calls about members are about the plan. -/
theorem planLog_lists {A : Archive} {l : List Ev} (h : ∀ ev ∈ l, ∀ kd e, ev.about = some (kd, e) → e.kind = kd ∧ ∃ zf ∈ A.files, ZipMemberEntry zf e) : PlanLog A.plan l := by
  intro ev hm kd e ha
  obtain ⟨h1, zf, h2, h3⟩ := h ev hm kd e ha
  refine List.mem_map.2 ⟨zf, h2, ?_⟩
  rw [h3.path, ← h1, h3.kind]
  simp only [zipFileEntry]

theorem next_os {cfg : FCfg} {s s' : (folderSink cfg).St} (h : (folderSink cfg).Next s s') : (s' : FSink).os = (s : FSink).os := by
  rcases h with h | h <;> · rw [h]; first | done | rfl

/-- However many attempts were made, and however they ended, there is still room. -/
theorem zipAttempts_room {A : Archive} {D : Decomp} {F : Nat} (hB : cfg.Base B) (hB0 : B ≠ []) (hs : Sensible cfg B A.plan) {k0 k : (folderSink cfg).St} {hist : List ECkpt}
    (hk0 : Roomy (PlanPlace cfg B A.plan) (k0 : FSink).os.fs) (h : ZipAttempts A D F (folderSink cfg) k0 hist k) : Roomy (PlanPlace cfg B A.plan) (k : FSink).os.fs := by
  have key : ∀ {hist : List ECkpt} {k1 : (folderSink cfg).St} (env : ZEnv) (V : SaveCons) (u : V.St) (ck : Option ECkpt) (before : List ECkpt),
      ZipAttempts A D F (folderSink cfg) k0 hist k1 → ChooseCk hist ck before → Roomy (PlanPlace cfg B A.plan) (k1 : FSink).os.fs →
      Roomy (PlanPlace cfg B A.plan) ((zipResume A env D F (folderSink cfg) V ck k1 u).2.sink : FSink).os.fs := by
    intro hist k1 env V u ck before ha hc hr
    obtain ⟨b, hcalls⟩ := zipResume_calls A env D F (folderSink cfg) V ck k1 u
    exact (calls_ready hB hB0 hs hr hcalls (planLog_lists (C73_zip ha ck (chooseCk_mem hc) env V u))).1
  induction h with
  | refl => exact hk0
  | step env V u he ha hc hn ih => rw [next_os hn]; exact key env V u _ _ ha hc ih
  | kept env V u he ha hc hs' hn ih => rw [next_os hn]; exact key env V u _ _ ha hc ih

/-- **C82.** Extracting a sensible archive into a folder of a disk that has room for it works: whatever number of attempts were
made before and however those ended, an extraction that continues from one of the checkpoints they saved (or from nothing), reads
without faults and meets no failing system call reports success, or that its consumer told it to stop; it then really did. -/
theorem C82_zip {A : Archive} {D : Decomp} {F : Nat} (hwf : ZipWF A D F) (hpl : ZipPlain A) (hso : ZipSound A D) (hB : cfg.Base B) (hB0 : B ≠ [])
    (hs : Sensible cfg B A.plan) (hlinks : ∀ zf ∈ A.files, (zipFileEntry zf).kind = .symlink → shouldIgnore zf.name = false → LinkFine B zf.name zf.opened.1)
    (fs0 : FS) (hroom : Room B A.plan fs0) (hist : List ECkpt) (k : FSink) (hchain : ZipAttempts A D F (folderSink cfg) (onFS fs0) hist k)
    (ck : Option ECkpt) (before : List ECkpt) (hck : ChooseCk hist ck before) (hcalm : k.os.Calm cfg.flt)
    (env : ZEnv) (he : env.Good A) (hh : env.Honest A) (V : SaveCons) (hV : V.Good) (u : V.St) :
    ((zipResume A env D F (folderSink cfg) V ck k u).1 = .ok (A.files.map zipFileEntry) ∧
      ∀ p, shouldIgnore p = false → ∀ n, zipNode A D p = some n →
        (zipResume A env D F (folderSink cfg) V ck k u).2.sink.os.fs.holds (namePlace B p) = some n) ∨
    ((zipResume A env D F (folderSink cfg) V ck k u).1 = .error .stop ∧ ∃ c, (c, .ok .stop) ∈ saves (zipResume A env D F (folderSink cfg) V ck k u).2.log) := by
  have hmem := chooseCk_mem hck
  have hcks : ∀ c, ck = some c → ∃ i o, PathCk A D (folderPath cfg hB A.plan hs.apart).shown c i o := fun c hc =>
    zipAttempts_ck hwf (folderPath cfg hB A.plan hs.apart) (plan_fits hB A hs.apart) (diskOK_of_fit hroom.toDiskFit) hchain (hmem c hc)
  have hr := zipAttempts_room hB hB0 hs (roomy_of_room hroom) hchain
  obtain ⟨b, hcalls⟩ := zipResume_calls A env D F (folderSink cfg) V ck k u
  have hfine : FineLog B (zipResume A env D F (folderSink cfg) V ck k u).2.log := by
    refine ⟨fun ev hm kd e ha => ?_, fun e t r hm hi => ?_⟩
    · exact ((zipResume_member A env D F (folderSink cfg) (folder_climbs cfg (lists_unmoved A)) V ck k u (fun zf hz => ⟨lists_entry A zf hz, Int.le_refl _⟩)
        (fun c e hc hce => by obtain ⟨i, o, hp⟩ := hcks c hc; exact (pathCk_entry hp hce).2)).log ev hm kd e ha).2.2
    · obtain ⟨zf, h1, rfl, h2, rfl⟩ := (C62_zip_links A env hh D F (folderSink cfg) V ck k u
        (fun c e hc hce => by obtain ⟨i, o, hp⟩ := hcks c hc; exact (pathCk_entry hp hce).1)).1 e t r hm
      exact hlinks zf h1 h2 hi
  have hno := (calls_ready hB hB0 hs hr hcalls (planLog_lists (C73_zip hchain ck hmem env V u))).2.2.2 hcalm hfine
  rcases zipResume_alike (V := V) (forgiving_alike (folderSink cfg) (folder_full cfg)) A env D F ck k k rfl u with ⟨a, _⟩ | ⟨_, ev, b1, b2⟩
  · rcases (zipResume_good_at (u := u) hwf hpl hso he (forgiving_good (folderSink cfg)) hV ck (fun c hc => by
        obtain ⟨i, o, hp⟩ := hcks c hc
        exact ⟨i, pathCk_sane hp⟩) k trivial).1 with g | g
    · refine Or.inl ⟨a.trans g, fun p hp n hn => ?_⟩
      exact C60_folder_partial hwf hB hs.apart fs0 hroom.toDiskFit hist k hchain ck before hck env hh V u _ (a.trans g) p hp n hn
    · exact Or.inr ⟨a.trans g, zipResume_stopped A env D F (folderSink cfg) V ck k u (a.trans g)⟩
  · exact absurd (hno ev b1) b2

/-- A logged answer is one the consumer gave. -/
theorem Asks.answer {V : SaveCons} {u s : V.St} {l : List (ECkpt × Except Err Action)} (h : Asks V u l s) : ∀ x ∈ l, ∃ v, x.2 = (V.save x.1 v).1 := by
  induction h with
  | start => simp
  | should n _ ih => exact ih
  | @save l s c _ ih =>
    intro x hx
    rcases List.mem_append.1 hx with hx | hx
    · exact ih x hx
    · rw [List.mem_singleton.1 hx]; exact ⟨s, rfl⟩

/-- **C82**: with a consumer that does not stop it, the extraction succeeds and everything is in place. -/
theorem C82_zip_unstopped {A : Archive} {D : Decomp} {F : Nat} (hwf : ZipWF A D F) (hpl : ZipPlain A) (hso : ZipSound A D) (hB : cfg.Base B) (hB0 : B ≠ [])
    (hs : Sensible cfg B A.plan) (hlinks : ∀ zf ∈ A.files, (zipFileEntry zf).kind = .symlink → shouldIgnore zf.name = false → LinkFine B zf.name zf.opened.1)
    (fs0 : FS) (hroom : Room B A.plan fs0) (hist : List ECkpt) (k : FSink) (hchain : ZipAttempts A D F (folderSink cfg) (onFS fs0) hist k)
    (ck : Option ECkpt) (before : List ECkpt) (hck : ChooseCk hist ck before) (hcalm : k.os.Calm cfg.flt)
    (env : ZEnv) (he : env.Good A) (hh : env.Honest A) (V : SaveCons) (hV : ∀ c s, (V.save c s).1 = .ok .cont) (u : V.St) :
    (zipResume A env D F (folderSink cfg) V ck k u).1 = .ok (A.files.map zipFileEntry) ∧
    ∀ p, shouldIgnore p = false → ∀ n, zipNode A D p = some n →
      (zipResume A env D F (folderSink cfg) V ck k u).2.sink.os.fs.holds (namePlace B p) = some n := by
  rcases C82_zip hwf hpl hso hB hB0 hs hlinks fs0 hroom hist k hchain ck before hck hcalm env he hh V (fun c s => ⟨_, hV c s⟩) u with h | ⟨_, c, hc⟩
  · exact h
  · obtain ⟨v, hv⟩ := (zipResume_asks A env D F (folderSink cfg) V ck k u).answer _ hc
    simp only at hv
    rw [hV] at hv
    cases hv

/-! ## tar -/

variable {Y : List Byte} {Ck : Ckpt → Nat → Prop} {F : Nat} {T : TarFmt}

theorem tarRun_no_data {clean : Bool} {K : SinkM} {V : SaveCons} (X : TarSrc Y clean Ck F) (pr : Ckpt → Int × Int) {c : ECkpt} (h : c.data = none) (k : K.St) (u : V.St) :
    tarRun X T pr K V (some c) k u = tarRun X T pr K V none k u := by
  unfold tarRun tarResume
  have : tarBegin X.S T F (some c) X.src k u = tarBegin X.S T F none X.src k u := by simp only [tarBegin, h]
  rw [this]

/-- The entries of a chain's checkpoints have non-negative write offsets. -/
theorem tarAttempts_offs {clean : Bool} (hT : T.Law) {k0 k : (folderSink cfg).St} {hist : List ECkpt} (h : TarAttempts Y clean Ck F T (folderSink cfg) k0 hist k) :
    ∀ c ∈ hist, c.data ≠ none → ∀ e, c.entry = some e → tarLists T clean Y e ∧ 0 ≤ e.woff := by
  have hP := folder_climbs cfg (tarLists_unmoved T clean Y)
  have hall : ∀ h, TarHeader T clean Y h → h.typ ≠ .other → tarLists T clean Y (tarEntryOf h) ∧ 0 ≤ (tarEntryOf h).woff :=
    fun h hh ht => ⟨⟨h, hh, tarMember_entry ht⟩, Int.le_refl _⟩
  induction h with
  | refl => simp
  | @step hist ck before k1 k2 X pr V u ha hc hn ih =>
    intro c hm
    rcases List.mem_append.1 hm with hm | hm
    · exact ih c (chooseCk_before hc c hm)
    · intro _ e he
      exact (savedCks_about (tarRun_climbs hP hall hT X pr ck k1 u (fun c h => tarAttempts_ckOK hT ha c (chooseCk_mem hc c h))
        (fun c e h1 h2 h3 => ih c (chooseCk_mem hc c h1) h2 e h3)).1 hm he).2
  | @kept hist ck before k1 k2 X pr V u ha hc hs hn ih =>
    intro c hm hd
    rw [List.mem_singleton.1 hm] at hd
    exact absurd ((tarRun_climbs hP hall hT X pr ck k1 u (fun c h => tarAttempts_ckOK hT ha c (chooseCk_mem hc c h))
        (fun c e h1 h2 h3 => ih c (chooseCk_mem hc c h1) h2 e h3)).2 hs) hd

theorem planLog_tar {all : List (THdr × List Byte)} {l : List Ev}
    (h : ∀ ev ∈ l, ∀ kd e, ev.about = some (kd, e) → e.kind = kd ∧ ∃ m ∈ all, TarMemberEntry m.1 e) : PlanLog (tarPlan all) l := by
  intro ev hm kd e ha
  obtain ⟨h1, m, h2, h3⟩ := h ev hm kd e ha
  refine List.mem_map.2 ⟨m, List.mem_filter.2 ⟨h2, by simpa using h3.typ⟩, ?_⟩
  rw [h3.path, ← h1, h3.kind]
  have := h3.typ
  cases ht : m.1.typ <;> simp_all [tarEntryOf]

theorem tarAttempts_room {clean : Bool} (hT : T.Law) {all : List (THdr × List Byte)} (hall : TarHas T clean Y all) (hB : cfg.Base B) (hB0 : B ≠ [])
    (hs : Sensible cfg B (tarPlan all)) {k0 k : (folderSink cfg).St} {hist : List ECkpt}
    (hk0 : Roomy (PlanPlace cfg B (tarPlan all)) (k0 : FSink).os.fs) (h : TarAttempts Y clean Ck F T (folderSink cfg) k0 hist k) :
    Roomy (PlanPlace cfg B (tarPlan all)) (k : FSink).os.fs := by
  have key : ∀ {hist : List ECkpt} {k1 : (folderSink cfg).St} (X : TarSrc Y clean Ck F) (pr : Ckpt → Int × Int) (V : SaveCons) (u : V.St) (ck : Option ECkpt) (before : List ECkpt),
      TarAttempts Y clean Ck F T (folderSink cfg) k0 hist k1 → ChooseCk hist ck before → Roomy (PlanPlace cfg B (tarPlan all)) (k1 : FSink).os.fs →
      Roomy (PlanPlace cfg B (tarPlan all)) ((tarRun X T pr (folderSink cfg) V ck k1 u).2.2.sink : FSink).os.fs := by
    intro hist k1 X pr V u ck before ha hc hr
    exact (calls_ready hB hB0 hs hr (tarResume_calls X.conduit pr F (folderSink cfg) V ck X.src k1 u)
      (planLog_tar (C73_tar_complete hT hall ha ck (chooseCk_mem hc) X pr V u))).1
  induction h with
  | refl => exact hk0
  | step X pr V u ha hc hn ih => rw [next_os hn]; exact key X pr V u _ _ ha hc ih
  | kept X pr V u ha hc hs' hn ih => rw [next_os hn]; exact key X pr V u _ _ ha hc ih

/-- **C82**, for tar streams, plain or compressed. -/
theorem C82_tar {clean : Bool} (hclean : clean = true) (hT : T.Law) (hX : T.Exact) (all : List (THdr × List Byte)) (hall : TarHas T clean Y all) (hF : Y.length + 3 ≤ F) (hB : cfg.Base B) (hB0 : B ≠ [])
    (hs : Sensible cfg B (tarPlan all)) (hlinks : ∀ m ∈ all, m.1.typ = .symlink → shouldIgnore m.1.name = false → LinkFine B m.1.name m.1.link)
    (fs0 : FS) (hroom : Room B (tarPlan all) fs0) (hist : List ECkpt) (k : FSink) (hchain : TarAttempts Y clean Ck F T (folderSink cfg) (onFS fs0) hist k)
    (ck : Option ECkpt) (before : List ECkpt) (hck : ChooseCk hist ck before) (hcalm : k.os.Calm cfg.flt)
    (X : TarSrc Y clean Ck F) (hh : X.Healthy) (hi : X.S.Indifferent) (pr : Ckpt → Int × Int) (V : SaveCons) (hV : V.Good) (u : V.St) :
    ((∃ res, (tarRun X T pr (folderSink cfg) V ck k u).1 = .ok res ∧
        res.map (·.path) = (all.filter fun m => m.1.typ = .reg).map (·.1.name)) ∧
      ∀ p, shouldIgnore p = false → ∀ n, tarNode all p = some n →
        (tarRun X T pr (folderSink cfg) V ck k u).2.2.sink.os.fs.holds (namePlace B p) = some n) ∨
    ((tarRun X T pr (folderSink cfg) V ck k u).1 = .error .stop ∧ ∃ c, (c, .ok .stop) ∈ saves (tarRun X T pr (folderSink cfg) V ck k u).2.2.log) := by
  subst hclean
  have hmem := chooseCk_mem hck
  have hr := tarAttempts_room hT hall hB hB0 hs (roomy_of_room hroom) hchain
  have hcks : ∀ c, ck = some c → TarCkOK T true Y Ck c := fun c hc => tarAttempts_ckOK hT hchain c (hmem c hc)
  have hplan : PlanLog (tarPlan all) (tarRun X T pr (folderSink cfg) V ck k u).2.2.log := planLog_tar (C73_tar_complete hT hall hchain ck hmem X pr V u)
  have hoffs : ∀ ev ∈ (tarRun X T pr (folderSink cfg) V ck k u).2.2.log, ∀ kd e, ev.about = some (kd, e) → 0 ≤ e.woff := fun ev hm kd e ha =>
    ((tarRun_climbs (folder_climbs cfg (tarLists_unmoved T true Y)) (fun h hh ht => ⟨⟨h, hh, tarMember_entry ht⟩, Int.le_refl _⟩) hT X pr ck k u hcks
      (fun c e h1 h2 h3 => tarAttempts_offs hT hchain c (hmem c h1) h2 e h3)).1 ev hm kd e ha).2.2
  have hdone : ∀ res, (tarRun X T pr (folderSink cfg) V ck k u).1 = .ok res → ∀ p, shouldIgnore p = false → ∀ n, tarNode all p = some n →
        (tarRun X T pr (folderSink cfg) V ck k u).2.2.sink.os.fs.holds (namePlace B p) = some n := fun res hres p hp n hn =>
    C60_tar_folder_partial hT hall hB hs.apart fs0 hroom.toDiskFit hist k hchain ck before hck X pr V u res hres p hp n hn
  have main : ∀ (ck : Option ECkpt) (o0 : Nat), TarFrom T true Y Ck ck o0 → PlanLog (tarPlan all) (tarRun X T pr (folderSink cfg) V ck k u).2.2.log →
      (∀ ev ∈ (tarRun X T pr (folderSink cfg) V ck k u).2.2.log, ∀ kd e, ev.about = some (kd, e) → 0 ≤ e.woff) →
      (∃ res, (tarRun X T pr (folderSink cfg) V ck k u).1 = .ok res) ∨
      ((tarRun X T pr (folderSink cfg) V ck k u).1 = .error .stop ∧ ∃ c, (c, .ok .stop) ∈ saves (tarRun X T pr (folderSink cfg) V ck k u).2.2.log) := by
    intro ck o0 hst hplan hoffs
    have hno := (calls_ready hB hB0 hs hr (tarResume_calls X.conduit pr F (folderSink cfg) V ck X.src k u) hplan).2.2.2 hcalm ⟨hoffs, by
      intro e t r hm hi
      obtain ⟨hd, ms, st, Y', a, b, rfl, rfl⟩ := (tarRun_links (K := folderSink cfg) hT X pr ck k u hst).links e t r (by rw [List.length_nil, List.drop_zero]; exact hm)
      exact hlinks (hd, []) (List.mem_of_getElem? (tarPath_next hall a)) b hi⟩
    rcases tarResume_alike (V := V) (forgiving_alike (folderSink cfg) (folder_full cfg)) hi T pr F ck X.src k k rfl u with ⟨a, _⟩ | ⟨_, ev, b1, b2⟩
    · have a' : (tarRun X T pr (folderSink cfg) V ck k u).1 = (tarRun X T pr (forgiving (folderSink cfg)) V ck k u).1 := a
      rcases (tarRun_good_open (K := forgiving (folderSink cfg)) hT hX hall X hh hF pr (forgiving_good (folderSink cfg)) hV ck k trivial u hst
        fun _ _ _ _ => ⟨rfl, trivial⟩).1 with ⟨res, g⟩ | g
      · exact Or.inl ⟨res, a'.trans g⟩
      · refine Or.inr ⟨a'.trans g, ?_⟩
        have h2 := ((tarRun_stop (K := folderSink cfg) (V := V) hT X pr ck k u hst).2.1 (a'.trans g)).1
        unfold StopFits at h2
        rw [if_pos rfl] at h2
        obtain ⟨l, c, e, _⟩ := h2
        exact ⟨c, by rw [e]; simp⟩
    · exact absurd (hno ev b1) b2
  have hsum : (∃ res, (tarRun X T pr (folderSink cfg) V ck k u).1 = .ok res) ∨
      ((tarRun X T pr (folderSink cfg) V ck k u).1 = .error .stop ∧ ∃ c, (c, .ok .stop) ∈ saves (tarRun X T pr (folderSink cfg) V ck k u).2.2.log) := by
    cases hck' : ck with
    | none => subst hck'; exact main none 0 (Or.inl ⟨rfl, rfl⟩) hplan hoffs
    | some c =>
      subst hck'
      rcases hcks c rfl with ⟨i, o, b⟩ | hnd
      · exact main (some c) o (Or.inr ⟨c, i, rfl, b⟩) hplan hoffs
      · rw [tarRun_no_data (K := folderSink cfg) (T := T) X pr hnd k u] at hplan hoffs ⊢
        exact main none 0 (Or.inl ⟨rfl, rfl⟩) hplan hoffs
  rcases hsum with ⟨res, h⟩ | h
  · refine Or.inl ⟨⟨res, h, ?_⟩, hdone res h⟩
    rw [(C61_tar_failures_harmless hT hall (folderPath cfg hB (tarPlan all) hs.apart) (tarPlan_fits hB all hs.apart) (onFS fs0)
      (diskOK_of_fit hroom.toDiskFit) hist k hchain ck before hck X pr V u res h).2, List.map_map]
    rfl
  · exact Or.inr h

/-- **C82**, for tar archives compressed in any number of layers, e.g. ".tar.gz". -/
theorem C82_tar_compressed (hT : T.Law) (hX : T.Exact) (raw : List Byte) (ls : List Layer) (hw : WellStacked ls) (he : StackExact ls)
    (all : List (THdr × List Byte)) (hdec : stackDecode ls raw = (Y, true)) (hall : TarHas T true Y all) (hB : cfg.Base B) (hB0 : B ≠ [])
    (hs : Sensible cfg B (tarPlan all)) (hlinks : ∀ m ∈ all, m.1.typ = .symlink → shouldIgnore m.1.name = false → LinkFine B m.1.name m.1.link)
    (fs0 : FS) (hroom : Room B (tarPlan all) fs0) (hist : List ECkpt) (k : FSink)
    (hchain : TarAttempts (stackDecode ls raw).1 (stackDecode ls raw).2 (stackCk raw ls) F T (folderSink cfg) (onFS fs0) hist k)
    (ck : Option ECkpt) (before : List ECkpt) (hck : ChooseCk hist ck before) (hcalm : k.os.Calm cfg.flt)
    (g : Seek.Geo) (hg : g.stream = raw) (s : SeekSt) (hgood : Seek.GoodS g s) (hq : s.wantSave = false) (hn : StackNice g.sched ls)
    (hF : 2 * stackRank ls raw g.size + 3 ≤ F) (hF' : Y.length + 3 ≤ F)
    (pr : Ckpt → Int × Int) (V : SaveCons) (hV : ∀ c v, (V.save c v).1 = .ok .cont) (u : V.St) :
    ∃ res, (tarResume (stackM F ls) T pr F (folderSink cfg) V ck (stackNew F ls s) k u).1 = .ok res ∧
      res.map (·.path) = (all.filter fun m => m.1.typ = .reg).map (·.1.name) ∧
      ∀ p, shouldIgnore p = false → ∀ n, tarNode all p = some n →
        (tarResume (stackM F ls) T pr F (folderSink cfg) V ck (stackNew F ls s) k u).2.2.sink.os.fs.holds (namePlace B p) = some n := by
  have hi : (stackM F ls).Indifferent := by
    cases ls with
    | nil => exact seek_indifferent
    | cons l ls => exact wrap_indifferent l.cfg l.D (stackM F ls) F
  have hY : (stackDecode ls raw).1 = Y := by rw [hdec]
  have hc : (stackDecode ls raw).2 = true := by rw [hdec]
  rcases C82_tar (V := V) hc hT hX all (by rw [hY, hc]; exact hall) (by rw [hY]; exact hF') hB hB0 hs hlinks fs0 hroom hist k hchain ck before hck hcalm
    (stackSrc raw ls F g hg s hgood hq hw hF) (stackSrc_healthy hn he) hi pr (fun c v => ⟨_, hV c v⟩) u with ⟨⟨res, a, b⟩, c⟩ | ⟨_, c, hcm⟩
  · exact ⟨res, a, b, c⟩
  · obtain ⟨v, hv⟩ := (tarResume_asks (stack_conduit F ls) pr F (folderSink cfg) V ck (stackNew F ls s) k u).answer _ hcm
    simp only at hv
    rw [hV] at hv
    cases hv

/-- **C82**, for a ".tar.gz": a ustar archive, compressed by anything that the decompressor of `gunzip` (RFC 1952) gives the archive back for. -/
theorem C82_targz (eg et : Bool) (ms : List (THdr × List Byte)) (hok : ∀ m ∈ ms, UstarOK m) (raw : List Byte)
    (hraw : (gunzip eg).decode (gunzip eg).start raw true = (ustarWrite ms, true)) (hB : cfg.Base B) (hB0 : B ≠ [])
    (hs : Sensible cfg B (tarPlan ms)) (hlinks : ∀ m ∈ ms, m.1.typ = .symlink → shouldIgnore m.1.name = false → LinkFine B m.1.name m.1.link)
    (fs0 : FS) (hroom : Room B (tarPlan ms) fs0) (hist : List ECkpt) (k : FSink)
    (hchain : TarAttempts (stackDecode [⟨gzipCfg, gunzip eg⟩] raw).1 (stackDecode [⟨gzipCfg, gunzip eg⟩] raw).2 (stackCk raw [⟨gzipCfg, gunzip eg⟩]) F (ustar et)
      (folderSink cfg) (onFS fs0) hist k)
    (ck : Option ECkpt) (before : List ECkpt) (hck : ChooseCk hist ck before) (hcalm : k.os.Calm cfg.flt)
    (g : Seek.Geo) (hg : g.stream = raw) (s : SeekSt) (hgood : Seek.GoodS g s) (hq : s.wantSave = false) (hn : NoFault g.sched) (hlz : LazySched g.sched)
    (hF : 2 * (ustarWrite ms).length + 4 * g.size + 7 ≤ F)
    (pr : Ckpt → Int × Int) (V : SaveCons) (hV : ∀ c v, (V.save c v).1 = .ok .cont) (u : V.St) :
    ∃ res, (tarResume (wrapM gzipCfg (gunzip eg) seekM F) (ustar et) pr F (folderSink cfg) V ck (Wrap.new (gunzip eg) seekM s) k u).1 = .ok res ∧
      res.map (·.path) = (ms.filter fun m => m.1.typ = .reg).map (·.1.name) ∧
      ∀ p, shouldIgnore p = false → ∀ n, tarNode ms p = some n →
        (tarResume (wrapM gzipCfg (gunzip eg) seekM F) (ustar et) pr F (folderSink cfg) V ck (Wrap.new (gunzip eg) seekM s) k u).2.2.sink.os.fs.holds
          (namePlace B p) = some n := by
  have hr : stackRank [⟨gzipCfg, gunzip eg⟩] raw g.size = (ustarWrite ms).length + 2 * g.size + 2 := by
    show ((gunzip eg).decode (gunzip eg).start raw true).1.length + 2 * g.size + 2 = _
    rw [hraw]
  exact C82_tar_compressed (ustar_law et) (ustar_exact et) raw [⟨gzipCfg, gunzip eg⟩] ⟨gunzip_law eg, Or.inr (by simp), trivial⟩ (gunzip_exact eg) ms hraw
    (ustar_has ms hok) hB hB0 hs hlinks fs0 hroom hist k hchain ck before hck hcalm g hg s hgood hq ⟨⟨hn, hlz⟩, fun _ _ => rfl⟩ (by rw [hr]; omega) (by omega) pr V hV u

end

/-! ## Non-vacuity -/

theorem diskEmpty_room {plan : List (Str × Kind)} (hp : ∀ x ∈ plan, namePlace [[100]] x.1 ≠ []) : Room [[100]] plan diskEmpty := by
  have h0 : ∀ L, diskEmpty.nodes L = if L = [] then some .dir else none := fun _ => rfl
  refine { diskEmpty_fit plan hp with above := ?_, free := ?_ }
  · intro x _ _ r _ _
    rw [h0]
    split
    · exact Or.inr rfl
    · exact Or.inl rfl
  · intro x hx _ _
    rw [h0, if_neg (hp x hx)]
    simp

theorem toyPlan_sensible (flt : Faults) : Sensible (exCfg.withFaults flt) [[100]] toyArchive.plan where
  inside := by decide +kernel
  apart := toyPlan_independent flt
  kinds := by
    have : ∀ x ∈ toyArchive.plan, ∀ y ∈ toyArchive.plan, x.2 = .file → y.2 = .dir → x.1 ≠ y.1 := by decide +kernel
    exact fun p h1 h2 => absurd (Eq.refl p) (this (p, .file) h1 (p, .dir) h2 rfl rfl)

theorem toy_links_fine : ∀ zf ∈ toyArchive.files, (zipFileEntry zf).kind = .symlink → shouldIgnore zf.name = false → LinkFine [[100]] zf.name zf.opened.1 := by
  unfold LinkFine
  decide +kernel

/-- Two processes were killed; the third finds everything in order, and finishes the job. -/
example : (zipResume toyArchive toyEnv (toy false false) 100 (folderSink (exCfg.withFaults (killedAt 29 3))) nopCons (some toyCk1) diskKill3.2.sink ()).1 =
      .ok (toyArchive.files.map zipFileEntry) := by
  obtain ⟨hist, h, rfl⟩ := diskKill3_attempts
  refine (C82_zip_unstopped toy_wf (by unfold ZipPlain; decide) toy_sound (base_faults exCfg_base _) (by decide) (toyPlan_sensible _) toy_links_fine diskEmpty
    (diskEmpty_room (by decide +kernel)) _ _ h _ _ (.pick (a := []) (b := []) rfl) ?_ toyEnv toy_good toy_honest nopCons (fun _ _ => rfl) ()).1
  intro t ht
  have : diskKill3.2.sink.os.tick = 32 := by rfl
  rw [this] at ht
  show (if 29 ≤ t ∧ t < 29 + 3 then _ else none) = none
  rw [if_neg (by omega)]

theorem toyTarPlan_sensible (flt : Faults) : Sensible (exCfg.withFaults flt) [[100]] (tarPlan toyMembers) where
  inside := by decide +kernel
  apart := toyTarPlan_independent flt
  kinds := by
    have : ∀ x ∈ tarPlan toyMembers, ∀ y ∈ tarPlan toyMembers, x.2 = .file → y.2 = .dir → x.1 ≠ y.1 := by decide +kernel
    exact fun p h1 h2 => absurd (Eq.refl p) (this (p, .file) h1 (p, .dir) h2 rfl rfl)

example : (∃ res, (tarRun toyTarSrc (toyTar true) (fun _ => (0, 1)) (folderSink (exCfg.withFaults (killedAt 11 2))) nopCons (some tarCk1) diskTarK2.2.2.sink ()).1 = .ok res) ∨
    (tarRun toyTarSrc (toyTar true) (fun _ => (0, 1)) (folderSink (exCfg.withFaults (killedAt 11 2))) nopCons (some tarCk1) diskTarK2.2.2.sink ()).1 = .error .stop := by
  have h := diskTarK2_attempts
  rcases C82_tar rfl (toyTar_law true) (toyTar_exact true) toyMembers toy_has (by decide) (base_faults exCfg_base _) (by decide) (toyTarPlan_sensible _)
    (by unfold LinkFine; decide +kernel) diskEmpty (diskEmpty_room (by decide +kernel)) _ _ h _ _ (.pick (a := []) (b := []) (by rw [diskTarK2_dead.2]; rfl))
    (by
      intro t ht
      have : diskTarK2.2.2.sink.os.tick = 13 := by rfl
      rw [this] at ht
      show (if 11 ≤ t ∧ t < 11 + 2 then _ else none) = none
      rw [if_neg (by omega)]) toyTarSrc ⟨fun _ => rfl, trivial⟩ seek_indifferent (fun _ => (0, 1)) nopCons (fun _ _ => ⟨_, rfl⟩) () with ⟨⟨res, a, _⟩, _⟩ | ⟨a, _⟩
  · exact Or.inl ⟨res, a⟩
  · exact Or.inr a

/-- A folder, a file in it, and a link to that. -/
def gzMembers : List (THdr × List Byte) := [
  (⟨cs ['d', '/'], 0, 0o755, .dir, []⟩, []),
  (⟨cs ['d', '/', 'x'], 3, 0o644, .reg, []⟩, [7, 8, 9]),
  (⟨cs ['l'], 0, 0o777, .symlink, cs ['d', '/', 'x']⟩, [])]

theorem gzMembers_ok : ∀ m ∈ gzMembers, UstarOK m := by
  intro m hm
  simp only [gzMembers, List.mem_cons, List.not_mem_nil, or_false] at hm
  rcases hm with rfl | rfl | rfl <;> constructor <;> decide

theorem gzPlan_sensible : Sensible exCfg [[100]] (tarPlan gzMembers) where
  inside := by decide +kernel
  apart := by
    have : ∀ x ∈ tarPlan gzMembers, ∀ y ∈ tarPlan gzMembers, x.1 ≠ y.1 →
      namePlace [[100]] x.1 ≠ namePlace [[100]] y.1 ∧ (namePlace [[100]] x.1 <+: namePlace [[100]] y.1 → x.2 = .dir) := by decide +kernel
    exact fun x hx y hy _ _ _ _ h => this x hx y hy h
  kinds := by
    have : ∀ x ∈ tarPlan gzMembers, ∀ y ∈ tarPlan gzMembers, x.2 = .file → y.2 = .dir → x.1 ≠ y.1 := by decide +kernel
    exact fun p h1 h2 => absurd (Eq.refl p) (this (p, .file) h1 (p, .dir) h2 rfl rfl)

/-- A file with these bytes, read in pieces of any sizes. -/
def gzGeo (raw : List Byte) (sched : Nat → RsAct) : Seek.Geo := ⟨raw, sched, 0, raw.length⟩

/-- The archive, gzipped, in one process, from the start: everything is in place. -/
example (eg et : Bool) (sched : Nat → RsAct) (h1 : NoFault sched) (h2 : LazySched sched) : ∃ res,
    (tarResume (wrapM gzipCfg (gunzip eg) seekM 20000) (ustar et) (fun _ => (0, 1)) 20000 (folderSink exCfg) nopCons none
      (Wrap.new (gunzip eg) seekM (Seek.newWithSize ⟨gzStored (ustarWrite gzMembers), 0, sched, 0⟩ (gzStored (ustarWrite gzMembers)).length)) (onFS diskEmpty) ()).1 = .ok res ∧
    res.map (·.path) = [cs ['d', '/', 'x']] ∧
    (tarResume (wrapM gzipCfg (gunzip eg) seekM 20000) (ustar et) (fun _ => (0, 1)) 20000 (folderSink exCfg) nopCons none
      (Wrap.new (gunzip eg) seekM (Seek.newWithSize ⟨gzStored (ustarWrite gzMembers), 0, sched, 0⟩ (gzStored (ustarWrite gzMembers)).length)) (onFS diskEmpty) ()).2.2.sink.os.fs.holds
        [[100], cs ['d'], cs ['x']] = some (.file [7, 8, 9]) := by
  have hst : (gzGeo (gzStored (ustarWrite gzMembers)) sched).stream = gzStored (ustarWrite gzMembers) := by
    simp [gzGeo, Seek.Geo.stream, window]
  obtain ⟨res, a, b, c⟩ := C82_targz (cfg := exCfg) (B := [[100]]) (F := 20000) eg et gzMembers gzMembers_ok _ (gzStored_ok eg _) exCfg_base (by decide) gzPlan_sensible
    (by unfold LinkFine; decide +kernel) diskEmpty (diskEmpty_room (by decide +kernel)) [] (onFS diskEmpty) .refl none [] .fresh (fun _ _ => rfl)
    (gzGeo (gzStored (ustarWrite gzMembers)) sched) hst (Seek.newWithSize ⟨gzStored (ustarWrite gzMembers), 0, sched, 0⟩ (gzStored (ustarWrite gzMembers)).length)
    ⟨rfl, rfl, rfl, rfl⟩ rfl h1 h2 (by
      show 2 * (ustarWrite gzMembers).length + 4 * (gzStored (ustarWrite gzMembers)).length + 7 ≤ 20000
      have e' : (ustarWrite gzMembers).length = 3072 := by decide +kernel
      have e : (gzStored (ustarWrite gzMembers)).length = 3095 := by
        unfold gzStored
        rw [storedEnc, if_pos (by rw [e']; decide)]
        simp only [storedBlock, List.length_append, List.length_cons, e', le4, List.length_nil]
      rw [e, e']; decide) (fun _ => (0, 1)) nopCons (fun _ _ => rfl) ()
  exact ⟨res, a, b, c (cs ['d', '/', 'x']) (by rfl) _ (by rfl)⟩

/-! ## What the conditions are for -/

/-- A run into "/d" that meets no failing system call. -/
def calmRun (A : Archive) (env : ZEnv) (fs : FS) : Except Err (List Entry) × XW (folderSink exCfg) nopCons :=
  zipResume A env (toy false false) 100 (folderSink exCfg) nopCons none (onFS fs) ()

/-- There is a folder where the file "a" should go. -/
def folderInWay : FS := ⟨fun p => if p = [] ∨ p = [[100]] ∨ p = [[100], cs ['a']] then some .dir else none, fun _ => [], fun _ => 0, 0⟩

/-- There is a file where the folder "/d" should be. -/
def fileInWay : FS := ⟨fun p => if p = [] then some .dir else if p = [[100]] then some (.file 0) else none, fun _ => [], fun _ => 0, 1⟩

/-- One name for a file and for the folder of another. -/
def clashArchive : Archive where
  bytes := [1, 2]
  files := [⟨cs ['a'], .store, false, 1, 1, 0o644, 0, ([], true)⟩, ⟨cs ['a', '/', 'x'], .store, false, 1, 1, 0o644, 1, ([], true)⟩]

/-- One name for a folder and for a file. -/
def bothArchive : Archive where
  bytes := [1, 2]
  files := [⟨cs ['a'], .store, false, 0, 0, modeDir + 0o755, 0, ([], true)⟩, ⟨cs ['a'], .store, false, 1, 1, 0o644, 1, ([], true)⟩]

/-- A link that leads out. -/
def outArchive : Archive where
  bytes := [1, 2]
  files := [⟨cs ['x'], .store, false, 1, 1, 0o644, 0, ([], true)⟩, ⟨cs ['x'], .store, false, 1, 1, 0o644, 0, ([], true)⟩,
    ⟨cs ['l'], .store, false, 1, 1, modeLink + 0o777, 0, (cs ['.', '.', '/', 'e'], true)⟩]

def outEnv : ZEnv := ⟨fun _ _ => ⟨0, false, none⟩, fun _ => none, fun i => .ok (if i = 2 then [cs ['.', '.', '/', 'e']] else [], none)⟩

/-- **C82**: each of its conditions is needed. With nothing failing in the environment, the extraction fails when a folder is in a
file's place; when a file is in a folder's place; when the archive has a name for both a file and a file's folder, or for both a
file and a folder; and when it has a link leading out of the folder. -/
theorem C82_conditions_needed : (∃ e, (calmRun toyArchive toyEnv folderInWay).1 = .error e) ∧ (∃ e, (calmRun toyArchive toyEnv fileInWay).1 = .error e) ∧
    (∃ e, (calmRun clashArchive toyEnv diskEmpty).1 = .error e) ∧ (∃ e, (calmRun bothArchive toyEnv diskEmpty).1 = .error e) ∧
    (∃ e, (calmRun outArchive outEnv diskEmpty).1 = .error e) ∧ exCfg.flt = noFlt :=
  ⟨⟨_, by rfl⟩, ⟨_, by rfl⟩, ⟨_, by rfl⟩, ⟨_, by rfl⟩, ⟨_, by rfl⟩, rfl⟩

end Savior
