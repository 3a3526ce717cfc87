import Verif.Members
import Verif.TarHold
import Verif.Props.ZipFaults
import Verif.Props.TarFaults
/-!
# Only the archive's members (C73)
-/

namespace Savior

/-- An entry of a member of this archive. -/
def Archive.Lists (A : Archive) (e : Entry) : Prop := ∃ zf ∈ A.files, ZipMemberEntry zf e

theorem lists_unmoved (A : Archive) : Unmoved A.Lists := by
  rintro e n ⟨zf, hm, h⟩
  exact ⟨zf, hm, ⟨h.path, h.kind, h.mode, h.csize, h.usize, h.link⟩⟩

theorem lists_entry (A : Archive) : ∀ zf ∈ A.files, A.Lists (zipFileEntry zf) := by
  intro zf hm
  refine ⟨zf, hm, rfl, ?_, rfl, rfl, rfl, rfl⟩
  simp only [zipFileEntry]

theorem mem_savedCks {log : List Ev} {c : ECkpt} (hc : c ∈ savedCks log) : ∃ a, Ev.save c a ∈ log := by
  induction log with
  | nil => simp [savedCks, saves] at hc
  | cons ev log ih =>
    have step : c ∈ savedCks log → ∃ a, Ev.save c a ∈ ev :: log := fun h => (ih h).imp fun _ h => List.mem_cons_of_mem _ h
    cases ev with
    | save c' a =>
      simp [savedCks, saves] at hc step
      rcases hc with hc | hc
      · exact ⟨a, by rw [hc]; simp⟩
      · obtain ⟨a', ha⟩ := hc
        simpa using step a' ha
    | _ => exact step (by simpa [savedCks, saves] using hc)

theorem savedCks_about {P : Entry → Prop} {log : List Ev} (h : AboutOK P log) {c : ECkpt} (hc : c ∈ savedCks log) {e : Entry} (he : c.entry = some e) :
    e.kind = .file ∧ P e := by
  obtain ⟨a, hm⟩ := mem_savedCks hc
  exact h _ hm _ _ (by show c.entry.map _ = _; rw [he]; rfl)

theorem zipAttempts_lists {A : Archive} {D : Decomp} {F : Nat} {K : SinkM} {k0 k : K.St} {hist : List ECkpt} (h : ZipAttempts A D F K k0 hist k) :
    ∀ c ∈ hist, ∀ e, c.entry = some e → A.Lists e := by
  have pick : ∀ {hist before : List ECkpt} {ck : Option ECkpt}, (∀ c ∈ hist, ∀ e, c.entry = some e → A.Lists e) → ChooseCk hist ck before →
      (∀ c e, ck = some c → c.entry = some e → A.Lists e) ∧ ∀ c ∈ before, ∀ e, c.entry = some e → A.Lists e := by
    intro hist before ck h hc
    cases hc with
    | fresh => exact ⟨by simp, by simp⟩
    | @pick a b c he =>
      subst he
      refine ⟨fun c' e h' => by cases h'; exact h c (by simp) e, fun c' h' => h c' ?_⟩
      simp at h' ⊢
      rcases h' with h' | h'
      · exact Or.inl h'
      · exact Or.inr (Or.inl h')
  induction h with
  | refl => simp
  | step env V u he _ hc hn ih =>
    obtain ⟨p1, p2⟩ := pick ih hc
    intro c hm
    rcases List.mem_append.1 hm with hm | hm
    · exact p2 c hm
    · exact fun e he => (savedCks_about (zipResume_member A env D F K ((lists_unmoved A).climbs _) V _ _ u (lists_entry A) p1).log hm he).2
  | kept env V u he _ hc hs hn ih =>
    obtain ⟨p1, _⟩ := pick ih hc
    intro c hm
    rw [List.mem_singleton.1 hm]
    exact (zipResume_member A env D F K ((lists_unmoved A).climbs _) V _ _ u (lists_entry A) p1).cur

/-- **C73.** Whatever happened before, every `Preallocate`, `Mkdir`, `Symlink` and `GetWriter` call of a zip extraction and every
checkpoint it saves is about a member of the archive, of the kind that goes with the call, with the name, mode and sizes the
archive records: for any environment, sink and consumer, and from any checkpoint of a chain of attempts. -/
theorem C73_zip {A : Archive} {D : Decomp} {F : Nat} {K : SinkM} {k0 k : K.St} {hist : List ECkpt} (h : ZipAttempts A D F K k0 hist k) (ck : Option ECkpt)
    (hck : ∀ c, ck = some c → c ∈ hist) (env : ZEnv) (V : SaveCons) (u : V.St) :
    ∀ ev ∈ (zipResume A env D F K V ck k u).2.log, ∀ kd e, ev.about = some (kd, e) → e.kind = kd ∧ ∃ zf ∈ A.files, ZipMemberEntry zf e :=
  (zipResume_member A env D F K ((lists_unmoved A).climbs _) V ck k u (lists_entry A) fun c e h1 h2 => zipAttempts_lists h c (hck c h1) e h2).log

/-- An entry of a member of this tar stream. -/
def tarLists (T : TarFmt) (clean : Bool) (Y : List Byte) (e : Entry) : Prop := ∃ h, TarHeader T clean Y h ∧ TarMemberEntry h e

theorem tarLists_unmoved (T : TarFmt) (clean : Bool) (Y : List Byte) : Unmoved (tarLists T clean Y) := by
  rintro e n ⟨h, hm, g⟩
  exact ⟨h, hm, ⟨g.typ, g.path, g.kind, g.mode, g.usize, g.link⟩⟩

theorem tarMember_entry {h : THdr} (ht : h.typ ≠ .other) : TarMemberEntry h (tarEntryOf h) := by
  refine ⟨ht, rfl, ?_, rfl, rfl, ?_⟩ <;> · unfold tarEntryOf; cases ht' : h.typ <;> simp_all

/-- **C73**, for tar streams: of a member whose header the stream has, of a supported type. -/
theorem C73_tar {Y : List Byte} {clean : Bool} {Ck : Ckpt → Nat → Prop} {F : Nat} {T : TarFmt} (hT : T.Law) {K : SinkM} {k0 k : K.St} {hist : List ECkpt}
    (h : TarAttempts Y clean Ck F T K k0 hist k) (ck : Option ECkpt) (hck : ∀ c, ck = some c → c ∈ hist) (X : TarSrc Y clean Ck F) (pr : Ckpt → Int × Int)
    (V : SaveCons) (u : V.St) :
    ∀ ev ∈ (tarRun X T pr K V ck k u).2.2.log, ∀ kd e, ev.about = some (kd, e) → e.kind = kd ∧ ∃ h, TarHeader T clean Y h ∧ TarMemberEntry h e :=
  (tarRun_members (tarLists_unmoved T clean Y) (fun h hh ht => ⟨h, hh, tarMember_entry ht⟩) hT X pr ck k u
    fun c hc => tarAttempts_ckOK hT h c (hck c hc)).1

theorem tarHeader_listed {T : TarFmt} {clean : Bool} {Y : List Byte} {all : List (THdr × List Byte)} (hall : TarHas T clean Y all) {h : THdr}
    (hh : TarHeader T clean Y h) : ∃ c, (h, c) ∈ all := by
  obtain ⟨ms, st, Y', st', Y'', a, b⟩ := hh
  have key : ∀ c st2 Y2, TarPath T clean T.start Y (ms ++ [(h, c)]) st2 Y2 → ∃ c, (h, c) ∈ all :=
    fun c _ _ hp => ⟨c, List.mem_of_getElem? (tarPath_next hall hp)⟩
  by_cases hr : h.typ = .reg
  · rcases Nat.lt_or_ge Y''.length (T.rem st') with hl | hl
    · exact absurd ⟨ms, st, Y', a, Or.inr ⟨h, st', Y'', b, hr, hl⟩⟩ (tarHas_not_broken hall)
    · exact key _ _ _ (.file a b hr hl)
  · exact key _ _ _ (.other a b hr)

/-- **C73**, for a complete tar stream with the members `all`. -/
theorem C73_tar_complete {Y : List Byte} {clean : Bool} {Ck : Ckpt → Nat → Prop} {F : Nat} {T : TarFmt} (hT : T.Law) {all : List (THdr × List Byte)}
    (hall : TarHas T clean Y all) {K : SinkM} {k0 k : K.St} {hist : List ECkpt}
    (h : TarAttempts Y clean Ck F T K k0 hist k) (ck : Option ECkpt) (hck : ∀ c, ck = some c → c ∈ hist) (X : TarSrc Y clean Ck F) (pr : Ckpt → Int × Int)
    (V : SaveCons) (u : V.St) :
    ∀ ev ∈ (tarRun X T pr K V ck k u).2.2.log, ∀ kd e, ev.about = some (kd, e) → e.kind = kd ∧ ∃ m ∈ all, TarMemberEntry m.1 e := by
  intro ev hm kd e ha
  obtain ⟨h1, hd, h2, h3⟩ := C73_tar hT h ck hck X pr V u ev hm kd e ha
  obtain ⟨c, hc⟩ := tarHeader_listed hall h2
  exact ⟨h1, (hd, c), hc, h3⟩

/-! ## Non-vacuity -/

/-- A run that failed, one that was stopped, and the last one, from the checkpoint object of the second. -/
def membersRun := toyRun oneFault (some toyF2.2.ck) toyF2.2.sink []

/-- What the last run is about: "a" again from its start (a writer, two checkpoints), the link, "b" (a writer, a checkpoint), "c". -/
example : membersRun.2.log.filterMap (fun ev => ev.about.map fun x => (x.1, x.2.path, x.2.mode)) =
    [(.file, cs ['a'], 0o644), (.file, cs ['a'], 0o644), (.file, cs ['a'], 0o644), (.symlink, cs ['l'], modeLink + 0o777),
      (.file, cs ['b'], 0o644), (.file, cs ['b'], 0o644), (.file, cs ['c'], 0o644)] := by decide +kernel

example : ∀ ev ∈ membersRun.2.log, ∀ kd e, ev.about = some (kd, e) → e.kind = kd ∧ ∃ zf ∈ toyArchive.files, ZipMemberEntry zf e :=
  C73_zip toyF2_attempts (some toyF2.2.ck) (by intro c h; cases h; simp) toyEnv listCons []

/-- The checkpoint matters: resumed from one taken in another archive, the extractor creates what that archive has. -/
theorem C73_foreign_checkpoint : ∃ c : ECkpt, c.entry = some ⟨cs ['x'], .file, 0o4755, 0, 9, 0, []⟩ ∧
    Ev.openW ⟨cs ['x'], .file, 0o4755, 0, 9, 0, []⟩ none ∈ (toyRun (fun _ => none) (some c) memEmpty []).2.log ∧ ∀ zf ∈ toyArchive.files, zf.name ≠ cs ['x'] := by
  refine ⟨⟨none, 1, some ⟨cs ['x'], .file, 0o4755, 0, 9, 0, []⟩, (0, 1), none⟩, rfl, ?_, by decide⟩
  exact List.mem_of_mem_head? (by rfl)

def membersTar := memTar tarFault (some tarCk1) ((memSink tarFault).reborn tarF1.2.2.sink) []

example : ∀ ev ∈ membersTar.2.2.log, ∀ kd e, ev.about = some (kd, e) → e.kind = kd ∧ ∃ m ∈ toyMembers, TarMemberEntry m.1 e := by
  obtain ⟨c, hc⟩ := tarF1_fails.2.2.2
  exact C73_tar_complete (toyTar_law true) toy_has tarF1_attempts (some tarCk1) (by intro c' h; cases h; rw [hc]; simp) toyTarSrc (fun _ => (0, 1)) listCons []

end Savior
