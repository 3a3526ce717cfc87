import Verif.Spec.Members
import Verif.Calls
import Verif.TarSaves
import Verif.Spec.TarPath
/-!
# Sink calls and checkpoints are about the archive's members
-/

namespace Savior

/-- Every event is about an entry of the right kind that is `P`. -/
def AboutOK (P : Entry → Prop) (log : List Ev) : Prop := ∀ ev ∈ log, ∀ k e, ev.about = some (k, e) → e.kind = k ∧ P e

section
variable {K : SinkM} {V : SaveCons} {P : Entry → Prop}

theorem AboutOK.nil : AboutOK P [] := by intro ev h; cases h

theorem AboutOK.say {log : List Ev} {ev : Ev} (h : AboutOK P log) (h1 : ∀ k e, ev.about = some (k, e) → e.kind = k ∧ P e) : AboutOK P (log ++ [ev]) := by
  intro ev' hm
  rcases List.mem_append.1 hm with hm | hm
  · exact h ev' hm
  · rw [List.mem_singleton.1 hm]; exact h1

theorem AboutOK.note {log : List Ev} {ev : Ev} (h : AboutOK P log) (h1 : ev.about = none) : AboutOK P (log ++ [ev]) :=
  h.say (by rw [h1]; simp)

theorem AboutOK.with {log : List Ev} {ev : Ev} {k : Kind} {e : Entry} (h : AboutOK P log) (h1 : ev.about = some (k, e)) (h2 : e.kind = k) (h3 : P e) :
    AboutOK P (log ++ [ev]) := h.say (by intro k' e' h'; rw [h1] at h'; cases h'; exact ⟨h2, h3⟩)

/-- `P` does not depend on the write offset. -/
def Unmoved (P : Entry → Prop) : Prop := ∀ e n, P e → P { e with woff := n }

/-- `P` is kept when the write offset is reset, or advanced by what this sink's writers report. -/
def Climbs (K : SinkM) (P : Entry → Prop) : Prop :=
  (∀ e, P e → P { e with woff := 0 }) ∧ ∀ e bs s, P e → P { e with woff := e.woff + (K.write bs s).1.2.1 }

theorem Unmoved.climbs (K : SinkM) {P : Entry → Prop} (h : Unmoved P) : Climbs K P := ⟨fun e he => h e 0 he, fun e _ _ he => h e _ he⟩

/-- Within a regular file. -/
structure MemberFile (P : Entry → Prop) (w : XW K V) : Prop where
  log : AboutOK P w.log
  cur : ∃ e, w.ck.entry = some e ∧ e.kind = .file ∧ P e

theorem zipOnSave_member (total : Int) (ck : Ckpt) (w : XW K V) (h : MemberFile P w) : MemberFile P (zipOnSave total ck w).1 := by
  obtain ⟨e, he, hk, hp⟩ := h.cur
  have h1 := h.log.note (ev := .sync (K.sync w.sink).1) rfl
  unfold zipOnSave
  simp only []
  split
  · exact ⟨h1, h.cur⟩
  · have h2 : ∀ c a, c.entry = some e → AboutOK P ((w.log ++ [.sync (K.sync w.sink).1]) ++ [.save c a]) :=
      fun c a hc => h1.with (k := .file) (e := e) (by show c.entry.map _ = _; rw [hc]; rfl) hk hp
    split <;> exact ⟨h2 _ _ he, h.cur⟩

theorem write_member (hP : Climbs K P) (bs : List Byte) (w : XW K V) (h : MemberFile P w) : MemberFile P (w.write bs).2 := by
  refine ⟨h.log.note rfl, ?_⟩
  obtain ⟨e, he, hk, hp⟩ := h.cur
  refine ⟨{ e with woff := e.woff + (K.write bs w.sink).1.2.1 }, ?_, hk, hP.2 _ _ _ hp⟩
  show w.ck.entry.map _ = _
  rw [he]
  rfl

theorem zipOpen_member (w : XW K V) (h : MemberFile P w) : MemberFile P (zipOpen w).2 := by
  unfold zipOpen
  split
  · exact h
  · rename_i e he
    obtain ⟨e', he', hk, hp⟩ := h.cur
    rw [he] at he'
    cases he'
    exact ⟨h.log.with (k := .file) (e := e) rfl hk hp, h.cur⟩

theorem zipRunFile_member (hP : Climbs K P) (S : SourceM) (hS : S.Conduit) (F : Nat) (total : Int) (src : S.St) (w : XW K V) (h : MemberFile P w) :
    MemberFile P (zipRunFile S F total src w).2 := by
  unfold zipRunFile
  simp only []
  split
  · exact h
  · split
    · exact h
    · have g := zipOpen_member w h
      split
      · exact g
      · exact copyLoop_inv (zipIO S total) (fun q => MemberFile P q.2)
          (fun q hq => by
            show MemberFile P (S.read (zipOnSave total) 32768 q.1 q.2).2.2
            rcases hS _ (zipOnSave total) 32768 q.1 q.2 with a | ⟨ck, a⟩
            · rw [a]; exact hq
            · rw [a]; exact zipOnSave_member total ck q.2 hq)
          (fun bs q hq => write_member hP bs q.2 hq) (fun q hq => ⟨hq.log.note rfl, hq.cur⟩) (fun n q hq => ⟨hq.log, hq.cur⟩)
          (fun q hq => hq) F 0 _ ⟨g.log, g.cur⟩

theorem ioCopy_member (hP : Climbs K P) : ∀ (chunks : List (List Byte)) (e : Option Err) (w : XW K V), MemberFile P w → MemberFile P (ioCopy chunks e w).2 := by
  intro chunks
  induction chunks with
  | nil => intro e w h; exact h
  | cons c cs ih =>
    intro e w h
    unfold ioCopy
    split
    · exact ih e w h
    · simp only []
      have h1 := write_member hP c w h
      split
      · exact h1
      · split
        · exact h1
        · exact ih e _ h1

/-- Anywhere: the log, and the checkpoint object's entry. -/
structure MemberOK (P : Entry → Prop) (w : XW K V) : Prop where
  log : AboutOK P w.log
  cur : ∀ e, w.ck.entry = some e → P e

theorem MemberFile.ok {w : XW K V} (h : MemberFile P w) : MemberOK P w := by
  refine ⟨h.log, fun e he => ?_⟩
  obtain ⟨e', he', _, hp⟩ := h.cur
  rw [he] at he'
  cases he'
  exact hp

theorem zipEntry_member (hP : Climbs K P) (A : Archive) (env : ZEnv) (D : Decomp) (F : Nat) (total : Int) (i : Nat) (zf : ZFile) (hz : P (zipFileEntry zf))
    (w : XW K V) (h : MemberOK P w) : MemberOK P (zipEntry A env D F total i zf w).2 := by
  have key : ∀ (r : Option Err × XW K V), MemberOK P r.2 → MemberOK P (match r.1 with
      | some e => (some e, r.2)
      | none => (none, { r.2 with done := wrap64 (r.2.done + zf.usize) })).2 := by
    rintro ⟨r1, r2⟩ hr
    cases r1 <;> exact ⟨hr.log, hr.cur⟩
  have hent : P (w.ck.entry.getD (zipFileEntry zf)) := by
    cases hx : w.ck.entry with
    | none => exact hz
    | some e => exact h.cur e hx
  have hcur : ∀ e, some (w.ck.entry.getD (zipFileEntry zf)) = some e → P e := by intro e he; cases he; exact hent
  unfold zipEntry
  simp only []
  split
  · exact ⟨h.log, hcur⟩
  · refine key _ ?_
    split
    · rename_i hk
      exact ⟨h.log.with (k := .dir) rfl hk hent, hcur⟩
    · rename_i hk
      split
      · exact ⟨h.log, hcur⟩
      · exact ⟨h.log, hcur⟩
      · exact ⟨h.log.with (k := .symlink) rfl hk hent, hcur⟩
    · rename_i hk
      have hf : MemberFile P ({ w with ck := { w.ck with entryIndex := i, entry := some (w.ck.entry.getD (zipFileEntry zf)) } } : XW K V) :=
        ⟨h.log, _, rfl, hk, hent⟩
      unfold zipFile
      split
      · split
        · exact hf.ok
        · exact (zipRunFile_member hP seekM seek_conduit F total _ _ hf).ok
      · split
        · exact hf.ok
        · exact (zipRunFile_member hP _ (wrap_reports _ _ _ _).conduit F total _ _ hf).ok
      · unfold zipCopyFile
        simp only []
        have hf0 : MemberFile P ({ w with ck := { w.ck with entryIndex := i, entry := (some (w.ck.entry.getD (zipFileEntry zf))).map fun e => { e with woff := 0 } } } : XW K V) :=
          ⟨h.log, _, rfl, hk, hP.1 _ hent⟩
        split
        · exact hf0.ok
        · rename_i chunks e _
          have g := zipOpen_member (K := K) (V := V) _ hf0
          split
          · exact g.ok
          · exact (ioCopy_member hP _ _ _ g).ok

theorem zipLoop_member (hP : Climbs K P) (A : Archive) (env : ZEnv) (D : Decomp) (F : Nat) (total : Int) : ∀ (fs : List ZFile) (i : Nat)
    (w : XW K V), (∀ zf ∈ fs, P (zipFileEntry zf)) → MemberOK P w → MemberOK P (zipLoop A env D F total fs i w).2 := by
  intro fs
  induction fs with
  | nil => intro i w _ h; exact h
  | cons zf fs ih =>
    intro i w hfs h
    unfold zipLoop
    split
    · exact h
    · have he := zipEntry_member hP A env D F total i zf (hfs zf (by simp)) w h
      simp only []
      split
      · exact he
      · exact ih _ _ (fun z hz => hfs z (by simp [hz])) ⟨he.log, by simp⟩

theorem zipPrealloc_member : ∀ (fs : List ZFile) (w : XW K V), (∀ zf ∈ fs, P (zipFileEntry zf)) → MemberOK P w → MemberOK P (zipPrealloc fs w).2 := by
  intro fs
  induction fs with
  | nil => intro w _ h; exact h
  | cons zf fs ih =>
    intro w hfs h
    unfold zipPrealloc
    split
    · rename_i hk
      have h1 : AboutOK P (w.log ++ [.prealloc (zipFileEntry zf) (K.preallocate (zipFileEntry zf) w.sink).1]) :=
        h.log.with (k := .file) rfl hk (hfs zf (by simp))
      simp only []
      split
      · exact ⟨h1, h.cur⟩
      · exact ih _ (fun z hz => hfs z (by simp [hz])) ⟨h1, h.cur⟩
    · exact ih w (fun z hz => hfs z (by simp [hz])) h

/-- A zip extraction's calls and checkpoints are about the archive's members, if the checkpoint it starts from is. -/
theorem zipResume_member (A : Archive) (env : ZEnv) (D : Decomp) (F : Nat) (K : SinkM) (hP : Climbs K P) (V : SaveCons) (ck : Option ECkpt) (k : K.St) (u : V.St)
    (hA : ∀ zf ∈ A.files, P (zipFileEntry zf)) (hck : ∀ c e, ck = some c → c.entry = some e → P e) : MemberOK P (zipResume A env D F K V ck k u).2 := by
  have h0 : MemberOK P (zipInit A ck k u : XW K V) := by
    refine ⟨.nil, ?_⟩
    intro e he
    cases ck with
    | none => cases he
    | some c => exact hck c e rfl he
  have hp : MemberOK P (zipPrepare A ck (zipInit A ck k u : XW K V)).2 := by
    unfold zipPrepare
    split
    · exact zipPrealloc_member _ _ hA h0
    · exact h0
  unfold zipResume
  simp only []
  split
  · exact hp
  · split
    · exact hp
    · have hl := zipLoop_member hP A env D F (zipSum A.files) (A.files.drop (ck.getD freshCk).entryIndex.toNat) (ck.getD freshCk).entryIndex.toNat _
        (fun zf hz => hA zf (List.mem_of_mem_drop hz)) hp
      split
      · exact hl
      · split <;> exact hl

/-! ## tar -/

variable {S : SourceM} {Y : List Byte} {clean : Bool} {T : TarFmt}

/-- `h` is the header of some member of the stream, complete or not. -/
def TarHeader (T : TarFmt) (clean : Bool) (Y : List Byte) (h : THdr) : Prop :=
  ∃ ms st Y' st' Y'', TarPath T clean T.start Y ms st Y' ∧ nextSpec T clean st Y' = some (some (h, st', Y''))

theorem tarHeader_path {h : THdr} {ms : Members} {c : List Byte} {st : T.St} {Y' : List Byte} (hp : TarPath T clean T.start Y (ms ++ [(h, c)]) st Y') :
    TarHeader T clean Y h := by
  generalize hms : ms ++ [(h, c)] = l at hp
  cases hp with
  | nil => simp at hms
  | file a b _ _ =>
    obtain ⟨_, h2⟩ := List.append_inj' hms rfl
    cases h2
    exact ⟨_, _, _, _, _, a, b⟩
  | other a b _ =>
    obtain ⟨_, h2⟩ := List.append_inj' hms rfl
    cases h2
    exact ⟨_, _, _, _, _, a, b⟩

theorem tarHeader_file {ms : Members} {h : THdr} {z0 : Nat} {st0 : T.St} (hf : FileAt T clean Y ms h z0 st0) : TarHeader T clean Y h := by
  obtain ⟨_, _, st1, Y1, a, b⟩ := hf
  exact ⟨_, _, _, _, _, a, b⟩

theorem tarMembers_inv (hP : Climbs K P) (hall : ∀ h, TarHeader T clean Y h → h.typ ≠ .other → P (tarEntryOf h)) (L : Lawful S Y clean) (pr : Ckpt → Int × Int) (o0 : Nat) :
    TarInv L T pr V K False o0 (fun _ _ w => AboutOK P w.log) (fun _ _ _ _ _ _ w => MemberFile P w) (fun w => AboutOK P w.log)
      (fun w => AboutOK P w.log ∧ w.ck.data = none) where
  p_end _ h := h.1
  b_index _ _ _ _ h := h
  b_end _ _ _ h := h
  dir ms R w h hb ht hp := by
    obtain ⟨st, Y', hp⟩ := hp
    have : ∀ r, AboutOK P (w.log ++ [.mkdir (tarEntryOf h) r]) := fun r => hb.with (k := .dir) rfl (by simp [tarEntryOf, ht])
      (hall h (tarHeader_path hp) (by rw [ht]; simp))
    exact ⟨fun _ => this _, fun _ => this _⟩
  link ms R w h hb ht hp := by
    obtain ⟨st, Y', hp⟩ := hp
    have : ∀ r, AboutOK P (w.log ++ [.symlink (tarEntryOf h) h.link r]) := fun r => hb.with (k := .symlink) rfl (by simp [tarEntryOf, ht])
      (hall h (tarHeader_path hp) (by rw [ht]; simp))
    exact ⟨fun _ => this _, fun _ => this _⟩
  other ms R w h hb ht _ := hb
  file ms R w h z0 st0 hb _ hf := by
    have hk : (tarEntryOf h).kind = .file := by simp [tarEntryOf, hf.2.1]
    have hp := hall h (tarHeader_file hf) (by rw [hf.2.1]; simp)
    have : ∀ r, AboutOK P (w.log ++ [.openW (tarEntryOf h) r]) := fun r => hb.with (k := .file) rfl hk hp
    exact ⟨fun _ => ⟨this _, tarEntryOf h, rfl, hk, hp⟩, fun _ => this _⟩
  i_entry _ _ _ _ _ _ _ h := by obtain ⟨_, e, he, _⟩ := h; rw [he]; simp
  save ms h R z0 st0 o c sck hf hi him ho0 hqt hck hst hse hix := by
    unfold tarOnSave
    split
    · exact hi
    · split
      · exact hi
      · rename_i im _
        obtain ⟨e, he, hk, hp⟩ := hi.cur
        have h2 : ∀ (ck : ECkpt) a, ck.entry = c.xw.ck.entry → AboutOK P (c.xw.log ++ [.save ck a]) := by
          intro ck a hce
          exact hi.log.with (k := .file) (e := e) (by show ck.entry.map _ = _; rw [hce, he]; rfl) hk hp
        simp only []
        split <;> exact ⟨h2 _ _ rfl, hi.cur⟩
  write ms h R z0 st0 o w bs hf hi _ _ _ _ := ⟨fun _ => write_member hP bs w hi, fun _ => (write_member hP bs w hi).log⟩
  should _ _ _ _ _ _ _ _ h := ⟨h.log, h.cur⟩
  emit ms h R z0 st0 o w p hi := ⟨hi.log.note rfl, hi.cur⟩
  i_end ms h _ z0 _ o _ hi := hi.log
  i_stop ms h R z0 st0 o w p hi _ _ := ⟨hi.log.note rfl, rfl⟩
  finish ms h R z0 st0 w p e hf hi _ _ _ he := hi.log.note rfl

/-- A checkpoint a chain of runs may be resumed from. -/
def TarCkOK (T : TarFmt) (clean : Bool) (Y : List Byte) (Ck : Ckpt → Nat → Prop) (c : ECkpt) : Prop := (∃ i o, TarAt T clean Y Ck c i o) ∨ c.data = none

theorem tarRun_climbs {Ck : Ckpt → Nat → Prop} {F : Nat} (hP : Climbs K P) (hall : ∀ h, TarHeader T clean Y h → h.typ ≠ .other → P (tarEntryOf h)) (hT : T.Law)
    (X : TarSrc Y clean Ck F) (pr : Ckpt → Int × Int) (ck : Option ECkpt) (k : K.St) (u : V.St) (hck : ∀ c, ck = some c → TarCkOK T clean Y Ck c)
    (hce : ∀ c e, ck = some c → c.data ≠ none → c.entry = some e → P e) :
    AboutOK P (tarRun X T pr K V ck k u).2.2.log ∧ ((tarRun X T pr K V ck k u).1 = .error .stop → (tarRun X T pr K V ck k u).2.2.ck.data = none) := by
  have hs : ∃ o0, TarStart (K := K) X.L T F V k u (fun _ _ w => AboutOK P w.log) (fun _ _ _ _ _ _ w => MemberFile P w) (fun w => AboutOK P w.log) ck o0 := by
    cases ck with
    | none => exact ⟨0, .fresh (by simp) .nil⟩
    | some c =>
      rcases hck c rfl with ⟨i, o, b⟩ | hnd
      · obtain ⟨ms, h, R, z0, st0, e, d1, d2, d3⟩ := b.mono fun c o => (X.family c o).mpr
        have hp : P e := hce c e rfl (by obtain ⟨im, hd, _⟩ := d1.data; rw [hd]; simp) d1.entry
        have hl : ∀ r, AboutOK P [.openW e r] := fun r => AboutOK.nil.with (ev := .openW e r) (k := .file) rfl d1.kind hp
        exact ⟨o, .again d1 .nil (fun _ => ⟨hl none, e, d1.entry, d1.kind, hp⟩) (fun _ => hl _)⟩
      · exact ⟨0, .fresh (by intro c' h R t; cases h; rw [hnd]; simp) .nil⟩
  obtain ⟨o0, hs⟩ := hs
  obtain ⟨r, s', w', g1, g2, _⟩ := tarResume_rule hT X.L (tarMembers_inv hP hall X.L pr o0) X.budget X.good (fun h => h.elim) hs
  unfold tarRun
  rw [g1]
  rcases g2 with ⟨x, a, b, c⟩ | ⟨res, a, ms, b, c⟩
  · subst a
    refine ⟨b, fun h => ?_⟩
    simp only [Except.error.injEq] at h
    exact (c h).2.2
  · subst a
    exact ⟨c, by simp⟩

theorem tarRun_members {Ck : Ckpt → Nat → Prop} {F : Nat} (hP : Unmoved P) (hall : ∀ h, TarHeader T clean Y h → h.typ ≠ .other → P (tarEntryOf h)) (hT : T.Law)
    (X : TarSrc Y clean Ck F) (pr : Ckpt → Int × Int) (ck : Option ECkpt) (k : K.St) (u : V.St) (hck : ∀ c, ck = some c → TarCkOK T clean Y Ck c) :
    AboutOK P (tarRun X T pr K V ck k u).2.2.log ∧ ((tarRun X T pr K V ck k u).1 = .error .stop → (tarRun X T pr K V ck k u).2.2.ck.data = none) := by
  refine tarRun_climbs (hP.climbs K) hall hT X pr ck k u hck ?_
  intro c e hc hd he
  rcases hck c hc with ⟨i, o, b⟩ | hnd
  · obtain ⟨ms, h, R, z0, st0, e', d1, d2, d3⟩ := b.mono fun c o => (X.family c o).mpr
    have : e = e' := by have := d1.entry; rw [he] at this; cases this; rfl
    subst this
    obtain ⟨x, hx⟩ := d2
    rw [hx]
    exact hP _ _ (hall h (tarHeader_file d1.file) (by rw [d1.file.2.1]; simp))
  · exact absurd hnd hd

/-- The checkpoints of a chain of tar runs. -/
theorem tarRun_ckOK {Ck : Ckpt → Nat → Prop} {F : Nat} (hT : T.Law) (X : TarSrc Y clean Ck F) (pr : Ckpt → Int × Int) (ck : Option ECkpt) (k : K.St) (u : V.St)
    (hck : ∀ c, ck = some c → TarCkOK T clean Y Ck c) : ∀ c ∈ savedCks (tarRun X T pr K V ck k u).2.2.log, TarCkOK T clean Y Ck c := by
  have key : ∀ (ck : Option ECkpt) (o0 : Nat), TarFrom T clean Y Ck ck o0 → ∀ c ∈ savedCks (tarRun X T pr K V ck k u).2.2.log, TarCkOK T clean Y Ck c := by
    intro ck o0 hst c hc
    obtain ⟨s, hs, rfl⟩ := List.mem_map.1 (show c ∈ (saves (tarRun X T pr K V ck k u).2.2.log).map Prod.fst from hc)
    obtain ⟨i, o, a, _⟩ := (tarRun_saves (V := V) (Qt := False) hT X pr ck k u (fun h => h.elim) hst).at_ s hs
    exact Or.inl ⟨i, o, a⟩
  cases ck with
  | none => exact key none 0 (Or.inl ⟨rfl, rfl⟩)
  | some c =>
    rcases hck c rfl with ⟨i, o, b⟩ | hnd
    · exact key (some c) o (Or.inr ⟨c, i, rfl, b⟩)
    · have : tarRun X T pr K V (some c) k u = tarRun X T pr K V none k u := by
        unfold tarRun tarResume
        have : tarBegin X.S T F (some c) X.src k u = tarBegin X.S T F none X.src k u := by simp only [tarBegin, hnd]
        rw [this]
      rw [this]
      exact key none 0 (Or.inl ⟨rfl, rfl⟩)

theorem tarAttempts_ckOK {Ck : Ckpt → Nat → Prop} {F : Nat} (hT : T.Law) {k0 k : K.St} {hist : List ECkpt} (h : TarAttempts Y clean Ck F T K k0 hist k) :
    ∀ c ∈ hist, TarCkOK T clean Y Ck c := by
  have pick : ∀ {hist before : List ECkpt} {ck : Option ECkpt}, (∀ c ∈ hist, TarCkOK T clean Y Ck c) → ChooseCk hist ck before →
      (∀ c, ck = some c → TarCkOK T clean Y Ck c) ∧ ∀ c ∈ before, TarCkOK T clean Y Ck c := by
    intro hist before ck h hc
    cases hc with
    | fresh => exact ⟨by simp, by simp⟩
    | @pick a b c he =>
      subst he
      refine ⟨fun c' h' => by cases h'; exact h c (by simp), fun c' h' => h c' ?_⟩
      simp at h' ⊢
      rcases h' with h' | h'
      · exact Or.inl h'
      · exact Or.inr (Or.inl h')
  induction h with
  | refl => simp
  | step X pr V u _ hc hn ih =>
    obtain ⟨p1, p2⟩ := pick ih hc
    intro c hm
    rcases List.mem_append.1 hm with hm | hm
    · exact p2 c hm
    · exact tarRun_ckOK hT X pr _ _ u p1 c hm
  | kept X pr V u _ hc hs hn ih =>
    obtain ⟨p1, _⟩ := pick ih hc
    intro c hm
    rw [List.mem_singleton.1 hm]
    exact Or.inr ((tarRun_members (P := fun _ => True) (fun _ _ _ => trivial) (fun _ _ _ => trivial) hT X pr _ _ u p1).2 hs)

end
end Savior
