import Verif.Calls
/-!
# Which members of a zip archive have been opened in the sink
-/

namespace Savior

/-- A writer for this name was asked for and given. -/
def OpenedIn (log : List Ev) (p : Str) : Prop := ∃ e, Ev.openW e none ∈ log ∧ e.path = p

theorem OpenedIn.mono {log : List Ev} {p : Str} (h : OpenedIn log p) (ev : Ev) : OpenedIn (log ++ [ev]) p := by
  obtain ⟨e, h1, h2⟩ := h
  exact ⟨e, List.mem_append_left _ h1, h2⟩

/-- The regular files with indices from `s` up to `n` have been opened. -/
def OpenedUpTo (A : Archive) (s n : Nat) (log : List Ev) : Prop :=
  ∀ j zf, s ≤ j → j < n → A.files[j]? = some zf → (zipFileEntry zf).kind = .file → OpenedIn log zf.name

theorem OpenedUpTo.mono {A : Archive} {s n : Nat} {log : List Ev} (h : OpenedUpTo A s n log) (ev : Ev) : OpenedUpTo A s n (log ++ [ev]) :=
  fun j zf a b c d => (h j zf a b c d).mono ev

/-- A checkpoint within some member, those between `s` and it having been opened. -/
def CkWith (A : Archive) (s : Nat) (c : ECkpt) (log : List Ev) : Prop :=
  ∃ n : Nat, c.entryIndex = n ∧ (∀ e, c.entry = some e → ∃ zf, A.files[n]? = some zf ∧ e.path = zf.name ∧ e.kind = (zipFileEntry zf).kind) ∧ OpenedUpTo A s n log

section
variable {K : SinkM} {V : SaveCons} {A : Archive} {s i : Nat}

/-- The checkpoints in the log. -/
def CksWith (A : Archive) (s : Nat) (log : List Ev) : Prop := ∀ c a, Ev.save c a ∈ log → CkWith A s c log

theorem CksWith.mono {log : List Ev} (h : CksWith A s log) (ev : Ev) (hev : ∀ c a, ev = .save c a → CkWith A s c (log ++ [ev])) : CksWith A s (log ++ [ev]) := by
  intro c a hm
  rcases List.mem_append.1 hm with hm | hm
  · obtain ⟨n, h1, h2, h3⟩ := h c a hm
    exact ⟨n, h1, h2, h3.mono ev⟩
  · exact hev c a (List.mem_singleton.1 hm).symm

/-- Within member `i`. -/
structure AtMember (A : Archive) (s i : Nat) (zf : ZFile) (w : XW K V) : Prop where
  cks : CksWith A s w.log
  idx : w.ck.entryIndex = i
  cur : ∃ e, w.ck.entry = some e ∧ e.path = zf.name ∧ e.kind = (zipFileEntry zf).kind
  upTo : OpenedUpTo A s i w.log

variable {zf : ZFile}

theorem AtMember.say {w : XW K V} (h : AtMember A s i zf w) (ev : Ev) (hev : ∀ c a, ev ≠ .save c a) (k : K.St) :
    AtMember A s i zf (({ w with sink := k } : XW K V).say ev) :=
  ⟨h.cks.mono ev (fun c a e => absurd e (hev c a)), h.idx, h.cur, h.upTo.mono ev⟩

theorem AtMember.ck {w : XW K V} (hzf : A.files[i]? = some zf) (h : AtMember A s i zf w) : CkWith A s w.ck w.log := by
  obtain ⟨e, he, hp, hk⟩ := h.cur
  exact ⟨i, h.idx, fun e' he' => by rw [he] at he'; cases he'; exact ⟨zf, hzf, hp, hk⟩, h.upTo⟩

theorem zipOnSave_at (hzf : A.files[i]? = some zf) (total : Int) (ck : Ckpt) (w : XW K V) (h : AtMember A s i zf w) : AtMember A s i zf (zipOnSave total ck w).1 := by
  have h1 := h.say (.sync (K.sync w.sink).1) (by simp) (K.sync w.sink).2
  unfold zipOnSave
  simp only []
  split
  · exact ⟨h1.cks, h1.idx, h1.cur, h1.upTo⟩
  · have h2 : ∀ c a, c.entryIndex = w.ck.entryIndex → c.entry = w.ck.entry → CksWith A s ((w.log ++ [.sync (K.sync w.sink).1]) ++ [.save c a]) := by
      intro c a hi he
      refine h1.cks.mono _ ?_
      intro c' a' heq
      cases heq
      obtain ⟨n, g1, g2, g3⟩ := h1.ck hzf
      exact ⟨n, hi.trans g1, fun e hce => g2 e (he ▸ hce), g3.mono _⟩
    split <;> exact ⟨h2 _ _ rfl rfl, h.idx, h.cur, h1.upTo.mono _⟩

theorem write_at (bs : List Byte) (w : XW K V) (h : AtMember A s i zf w) : AtMember A s i zf (w.write bs).2 := by
  have h1 := h.say (.write bs (K.write bs w.sink).1.1 (K.write bs w.sink).1.2.2) (by simp) (K.write bs w.sink).2
  refine ⟨h1.cks, h1.idx, ?_, h1.upTo⟩
  obtain ⟨e, he, hp, hk⟩ := h.cur
  refine ⟨{ e with woff := e.woff + (K.write bs w.sink).1.2.1 }, ?_, hp, hk⟩
  show w.ck.entry.map _ = _
  rw [he]
  rfl

theorem zipOpen_at (w : XW K V) (h : AtMember A s i zf w) :
    AtMember A s i zf (zipOpen w).2 ∧ ((zipOpen w).1 = none → OpenedIn (zipOpen w).2.log zf.name) := by
  obtain ⟨e, he, hp, hk⟩ := h.cur
  unfold zipOpen
  rw [he]
  have h1 := h.say (.openW e (K.getWriter e w.sink).1) (by simp) (K.getWriter e w.sink).2
  refine ⟨⟨h1.cks, h1.idx, h1.cur, h1.upTo⟩, fun hn => ⟨e, ?_, hp⟩⟩
  have hn' : (K.getWriter e w.sink).1 = none := by simpa using hn
  exact List.mem_append_right _ (by rw [hn']; simp)

/-- Within member `i`, which has been opened. -/
def OpenMember (A : Archive) (s i : Nat) (zf : ZFile) (w : XW K V) : Prop := AtMember A s i zf w ∧ OpenedIn w.log zf.name

theorem zipRunFile_at (hzf : A.files[i]? = some zf) (S : SourceM) (hS : S.Conduit) (F : Nat) (total : Int) (src : S.St) (w : XW K V) (h : AtMember A s i zf w) :
    AtMember A s i zf (zipRunFile S F total src w).2 ∧ ((zipRunFile S F total src w).1 = none → OpenedIn (zipRunFile S F total src w).2.log zf.name) := by
  unfold zipRunFile
  simp only []
  split
  · exact ⟨h, by simp⟩
  · split
    · exact ⟨h, by simp⟩
    · obtain ⟨g1, g2⟩ := zipOpen_at w h
      split
      · rename_i hx
        exact ⟨g1, fun hn => by simp at hn⟩
      · rename_i hx
        have h0 : OpenMember A s i zf ({ (zipOpen w).2 with stop := false } : XW K V) := ⟨⟨g1.cks, g1.idx, g1.cur, g1.upTo⟩, g2 hx⟩
        have := fun q0 => copyLoop_inv (zipIO S total) (fun q => OpenMember A s i zf q.2)
          (fun q hq => by
            show OpenMember A s i zf (S.read (zipOnSave total) 32768 q.1 q.2).2.2
            rcases hS _ (zipOnSave total) 32768 q.1 q.2 with a | ⟨ck, a⟩
            · rw [a]; exact hq
            · rw [a]
              refine ⟨zipOnSave_at hzf total ck q.2 hq.1, ?_⟩
              obtain ⟨e, he, hp⟩ := hq.2
              refine ⟨e, ?_, hp⟩
              unfold zipOnSave
              simp only []
              split
              · exact List.mem_append_left _ he
              · split <;> exact List.mem_append_left _ (List.mem_append_left _ he))
          (fun bs q hq => ⟨write_at bs q.2 hq.1, hq.2.mono _⟩)
          (fun q hq => ⟨hq.1.say _ (by simp) _, hq.2.mono _⟩) (fun n q hq => ⟨⟨hq.1.cks, hq.1.idx, hq.1.cur, hq.1.upTo⟩, hq.2⟩)
          (fun q hq => hq) F 0 (q0, ({ (zipOpen w).2 with stop := false } : XW K V)) h0
        exact ⟨(this _).1, fun _ => (this _).2⟩

theorem ioCopy_at : ∀ (chunks : List (List Byte)) (e : Option Err) (w : XW K V), OpenMember A s i zf w → OpenMember A s i zf (ioCopy chunks e w).2 := by
  intro chunks
  induction chunks with
  | nil => intro e w h; exact h
  | cons c cs ih =>
    intro e w h
    unfold ioCopy
    split
    · exact ih e w h
    · simp only []
      have h1 : OpenMember A s i zf (w.write c).2 := ⟨write_at c w h.1, h.2.mono _⟩
      split
      · exact h1
      · split
        · exact h1
        · exact ih e _ h1

/-- One member. -/
theorem zipEntry_at (hzf : A.files[i]? = some zf) (env : ZEnv) (D : Decomp) (F : Nat) (total : Int) (w : XW K V) (h1 : CksWith A s w.log) (h2 : OpenedUpTo A s i w.log)
    (h3 : ∀ e, w.ck.entry = some e → e.path = zf.name ∧ e.kind = (zipFileEntry zf).kind) :
    AtMember A s i zf (zipEntry A env D F total i zf w).2 ∧
    ((zipEntry A env D F total i zf w).1 = none → (zipFileEntry zf).kind = .file → OpenedIn (zipEntry A env D F total i zf w).2.log zf.name) := by
  have key : ∀ (r : Option Err × XW K V), (AtMember A s i zf r.2 ∧ (r.1 = none → (zipFileEntry zf).kind = .file → OpenedIn r.2.log zf.name)) →
      AtMember A s i zf (match r.1 with
      | some e => (some e, r.2)
      | none => (none, { r.2 with done := wrap64 (r.2.done + zf.usize) })).2 ∧
      ((match r.1 with
      | some e => (some e, r.2)
      | none => (none, { r.2 with done := wrap64 (r.2.done + zf.usize) })).1 = none → (zipFileEntry zf).kind = .file → OpenedIn (match r.1 with
      | some e => (some e, r.2)
      | none => (none, { r.2 with done := wrap64 (r.2.done + zf.usize) })).2.log zf.name) := by
    rintro ⟨r1, r2⟩ ⟨hr, ho⟩
    cases r1 with
    | some x => exact ⟨hr, by simp⟩
    | none => exact ⟨⟨hr.cks, hr.idx, hr.cur, hr.upTo⟩, fun _ => ho rfl⟩
  have hent : (w.ck.entry.getD (zipFileEntry zf)).path = zf.name ∧ (w.ck.entry.getD (zipFileEntry zf)).kind = (zipFileEntry zf).kind := by
    cases hx : w.ck.entry with
    | none => exact ⟨rfl, rfl⟩
    | some e => exact h3 e hx
  have hf : AtMember A s i zf ({ w with ck := { w.ck with entryIndex := i, entry := some (w.ck.entry.getD (zipFileEntry zf)) } } : XW K V) :=
    ⟨h1, rfl, ⟨_, rfl, hent.1, hent.2⟩, h2⟩
  unfold zipEntry
  simp only []
  split
  · exact ⟨hf, by simp⟩
  · refine key _ ?_
    split
    · rename_i hk
      exact ⟨hf.say _ (by simp) _, fun _ hk' => by rw [hent.2, hk'] at hk; cases hk⟩
    · rename_i hk
      have no : (zipFileEntry zf).kind ≠ .file := by rw [← hent.2, hk]; simp
      split
      · exact ⟨hf, by simp⟩
      · exact ⟨hf, by simp⟩
      · exact ⟨hf.say _ (by simp) _, fun _ hk' => absurd hk' no⟩
    · unfold zipFile
      split
      · split
        · exact ⟨hf, by simp⟩
        · have := zipRunFile_at hzf seekM seek_conduit F total (Seek.newWithSize (zipRaw A env i zf) zf.csize) _ hf
          exact ⟨this.1, fun h _ => this.2 h⟩
      · split
        · exact ⟨hf, by simp⟩
        · have := zipRunFile_at hzf _ (wrap_reports flateCfg D seekM F).conduit F total (Wrap.new D seekM (Seek.newWithSize (zipRaw A env i zf) zf.csize)) _ hf
          exact ⟨this.1, fun h _ => this.2 h⟩
      · unfold zipCopyFile
        simp only []
        have hf0 : AtMember A s i zf ({ w with ck := { w.ck with entryIndex := i, entry := (some (w.ck.entry.getD (zipFileEntry zf))).map fun e => { e with woff := 0 } } } : XW K V) :=
          ⟨h1, rfl, ⟨_, rfl, hent.1, hent.2⟩, h2⟩
        split
        · exact ⟨hf0, by simp⟩
        · rename_i chunks e _
          obtain ⟨g1, g2⟩ := zipOpen_at (K := K) (V := V) _ hf0
          split
          · exact ⟨g1, by simp⟩
          · rename_i hx
            have := ioCopy_at chunks e _ ⟨g1, g2 hx⟩
            exact ⟨this.1, fun _ _ => this.2⟩

theorem zipLoop_at (env : ZEnv) (D : Decomp) (F : Nat) (total : Int) : ∀ (fs : List ZFile) (i : Nat) (w : XW K V), fs = A.files.drop i →
    CksWith A s w.log → OpenedUpTo A s i w.log → (∀ zf e, A.files[i]? = some zf → w.ck.entry = some e → e.path = zf.name ∧ e.kind = (zipFileEntry zf).kind) →
    (CkWith A s w.ck w.log) →
    CksWith A s (zipLoop A env D F total fs i w).2.log ∧ CkWith A s (zipLoop A env D F total fs i w).2.ck (zipLoop A env D F total fs i w).2.log ∧
    ((zipLoop A env D F total fs i w).1 = none → (zipLoop A env D F total fs i w).2.stopErr = false →
      OpenedUpTo A s A.files.length (zipLoop A env D F total fs i w).2.log) := by
  intro fs
  induction fs with
  | nil =>
    intro i w hfs h1 h2 _ h4
    refine ⟨h1, h4, fun _ _ j zf a b c d => h2 j zf a ?_ c d⟩
    have : A.files.length ≤ i := List.drop_eq_nil_iff.1 hfs.symm
    omega
  | cons zf fs ih =>
    intro i w hfs h1 h2 h3 h4
    have hzf : A.files[i]? = some zf := by
      have := congrArg List.head? hfs
      rw [List.head?_drop] at this
      exact this.symm
    have htl : fs = A.files.drop (i + 1) := by
      have := congrArg List.tail hfs
      rw [List.tail_drop] at this
      exact this
    unfold zipLoop
    split
    · rename_i hs
      exact ⟨h1, h4, fun _ hs' => by simp only at hs'; rw [hs] at hs'; cases hs'⟩
    · obtain ⟨g1, g2⟩ := zipEntry_at hzf env D F total w h1 h2 (fun e he => h3 zf e hzf he)
      simp only []
      split
      · exact ⟨g1.cks, g1.ck hzf, fun h => (by cases h)⟩
      · rename_i hx
        refine ih (i + 1) _ htl g1.cks ?_ (by simp) ⟨i, g1.idx, by simp, g1.upTo⟩
        intro j zf' a b c d
        rcases Nat.lt_or_ge j i with hj | hj
        · exact g1.upTo j zf' a hj c d
        · obtain rfl : j = i := by omega
          rw [hzf] at c
          cases c
          exact g2 hx d

theorem zipPrealloc_noSaves : ∀ (fs : List ZFile) (w : XW K V), (∀ c a, Ev.save c a ∉ w.log) →
    (∀ c a, Ev.save c a ∉ (zipPrealloc fs w).2.log) ∧ (zipPrealloc fs w).2.ck = w.ck := by
  intro fs
  induction fs with
  | nil => intro w h; exact ⟨h, rfl⟩
  | cons zf fs ih =>
    intro w h
    unfold zipPrealloc
    split
    · have h1 : ∀ c a, Ev.save c a ∉ (({ w with sink := (K.preallocate (zipFileEntry zf) w.sink).2 } : XW K V).say (.prealloc (zipFileEntry zf) (K.preallocate (zipFileEntry zf) w.sink).1)).log := by
        intro c a hm
        rcases List.mem_append.1 hm with hm | hm
        · exact h c a hm
        · simp at hm
      simp only []
      split
      · exact ⟨h1, rfl⟩
      · exact ih _ h1
    · exact ih w h

/-- Where a run starts. -/
def startIdx (ck : Option ECkpt) : Nat := (ck.getD freshCk).entryIndex.toNat

/-- A zip run: its checkpoints are within members, the regular files before them having been opened since the run's start (in
this run or before); if it succeeds, all regular files from its start on were opened. -/
theorem zipResume_opened (A : Archive) (env : ZEnv) (D : Decomp) (F : Nat) (K : SinkM) (V : SaveCons) (ck : Option ECkpt) (k : K.St) (u : V.St)
    (hck : ∀ c, ck = some c → ∃ n : Nat, c.entryIndex = n ∧ ∀ e, c.entry = some e → ∃ zf, A.files[n]? = some zf ∧ e.path = zf.name ∧ e.kind = (zipFileEntry zf).kind) :
    CksWith A (startIdx ck) (zipResume A env D F K V ck k u).2.log ∧ CkWith A (startIdx ck) (zipResume A env D F K V ck k u).2.ck (zipResume A env D F K V ck k u).2.log ∧
    (∀ res, (zipResume A env D F K V ck k u).1 = .ok res → OpenedUpTo A (startIdx ck) A.files.length (zipResume A env D F K V ck k u).2.log) := by
  have start : ∃ n : Nat, (ck.getD freshCk).entryIndex = n ∧ n = startIdx ck ∧
      ∀ e, (ck.getD freshCk).entry = some e → ∃ zf, A.files[n]? = some zf ∧ e.path = zf.name ∧ e.kind = (zipFileEntry zf).kind := by
    cases ck with
    | none => exact ⟨0, rfl, rfl, by simp [freshCk]⟩
    | some c =>
      obtain ⟨n, h1, h2⟩ := hck c rfl
      exact ⟨n, h1, by unfold startIdx; simp only [Option.getD_some]; omega, h2⟩
  obtain ⟨n, hn, hns, hent⟩ := start
  obtain ⟨p1, p2⟩ : (∀ c a, Ev.save c a ∉ (zipPrepare A ck (zipInit A ck k u : XW K V)).2.log) ∧ (zipPrepare A ck (zipInit A ck k u : XW K V)).2.ck = ck.getD freshCk := by
    unfold zipPrepare
    split
    · exact zipPrealloc_noSaves A.files _ (by simp [zipInit])
    · exact ⟨by simp [zipInit], rfl⟩
  have hnone : OpenedUpTo A (startIdx ck) n (zipPrepare A ck (zipInit A ck k u : XW K V)).2.log := fun j _ a b => by omega
  have q1 : CksWith A (startIdx ck) (zipPrepare A ck (zipInit A ck k u : XW K V)).2.log := fun c a hm => absurd hm (p1 c a)
  have q2 : CkWith A (startIdx ck) (zipPrepare A ck (zipInit A ck k u : XW K V)).2.ck (zipPrepare A ck (zipInit A ck k u : XW K V)).2.log := by
    rw [p2]
    exact ⟨n, hn, hent, hnone⟩
  unfold zipResume
  simp only []
  split
  · exact ⟨q1, q2, fun _ h => by cases h⟩
  · split
    · exact ⟨q1, q2, fun _ h => by cases h⟩
    · have e : (ck.getD freshCk).entryIndex.toNat = startIdx ck := rfl
      rw [e]
      obtain ⟨g1, g2, g3⟩ := zipLoop_at (s := startIdx ck) env D F (zipSum A.files) (A.files.drop (startIdx ck)) (startIdx ck)
        (zipPrepare A ck (zipInit A ck k u : XW K V)).2 rfl q1 (fun j _ a b => by omega) (by
          intro zf e hzf he
          rw [p2] at he
          obtain ⟨zf', h1, h2, h3⟩ := hent e he
          rw [hns] at h1
          rw [hzf] at h1
          cases h1
          exact ⟨h2, h3⟩) q2
      split
      · exact ⟨g1, g2, fun _ h => by cases h⟩
      · rename_i hx
        split
        · exact ⟨g1, g2, fun _ h => by cases h⟩
        · rename_i hs
          exact ⟨g1, g2, fun _ _ => g3 hx (by simpa using hs)⟩

end
end Savior
