import Verif.Spacing
import Verif.Spec.Zip
/-!
# Archives of small files are never checkpointed (for C91)
-/

namespace Savior

theorem saves_append (a b : List Ev) : saves (a ++ b) = saves a ++ saves b := by
  induction a with
  | nil => rfl
  | cons x a ih => cases x <;> simp [saves, ih]

section
variable {K : SinkM} {V : SaveCons}

/-- Copying from a source whose reads do not save (`Q1`) saves nothing. -/
theorem zipCopy_quiet {S : SourceM} (total : Int) (Q1 Q2 : S.St → Prop) (h12 : ∀ s, Q2 s → Q1 s) (hw : ∀ s, Q2 s → Q2 (S.wantSave s))
    (hr : ∀ s (w : XW K V), Q1 s → (S.read (zipOnSave total) 32768 s w).2.2 = w ∧ ((S.read (zipOnSave total) 32768 s w).1.2 = none →
      Q2 (S.read (zipOnSave total) 32768 s w).2.1)) :
    ∀ (fuel counter : Nat) (s : S.St) (w : XW K V), Q1 s → saves (copyLoop (zipIO S total) fuel counter (s, w)).2.1.2.log = saves w.log := by
  intro fuel
  induction fuel with
  | zero => intro counter s w _; rfl
  | succ fuel ih =>
    intro counter s w hs
    unfold copyLoop
    split
    · rfl
    · obtain ⟨a, b⟩ := hr s w hs
      have e1 : (zipIO (K := K) (V := V) S total).read (s, w) = ((S.read (zipOnSave total) 32768 s w).1, (S.read (zipOnSave total) 32768 s w).2) := rfl
      rw [e1]
      generalize S.read (zipOnSave total) 32768 s w = R at *
      obtain ⟨⟨bs, e⟩, s1, w1⟩ := R
      simp only at a b ⊢
      subst a
      have e2 : (zipIO (K := K) (V := V) S total).write bs (s1, w1) = ((w1.write bs).1, (s1, (w1.write bs).2)) := rfl
      rw [e2]
      have l2 : saves (w1.write bs).2.log = saves w1.log := by
        show saves (w1.log ++ [.write bs _ _]) = _
        rw [saves_append]; simp [saves]
      generalize w1.write bs = M at *
      obtain ⟨⟨m, we⟩, w2⟩ := M
      simp only at l2 ⊢
      cases we with
      | some x => exact l2
      | none =>
        simp only
        obtain ⟨w3, hw3, l3⟩ : ∃ w3, (if decide (progressThreshold < counter + m) = true then (zipIO (K := K) (V := V) S total).emit (s1, w2) else (s1, w2)) = (s1, w3) ∧
            saves w3.log = saves w1.log := by
          split
          · refine ⟨_, rfl, ?_⟩
            show saves (w2.log ++ [.progress _]) = _
            rw [saves_append, l2]; simp [saves]
          · exact ⟨_, rfl, l2⟩
        rw [hw3]
        cases e with
        | some y => exact l3
        | none =>
          simp only
          have q := b rfl
          have e4 : (zipIO (K := K) (V := V) S total).shouldSave bs.length (s1, w3) =
            ((V.shouldSave bs.length w3.cons).1, (s1, { w3 with cons := (V.shouldSave bs.length w3.cons).2 })) := rfl
          rw [e4]
          simp only
          cases (V.shouldSave (bs.length : Int) w3.cons).1 with
          | true => rw [← l3]; exact ih _ (S.wantSave s1) _ (h12 _ (hw _ q))
          | false => rw [← l3]; exact ih _ s1 _ (h12 _ q)

/-- At the end of the section. -/
def SeekDone (ss : SeekSt) : Prop := ss.br ≠ none ∧ ss.offset = ss.size

/-- At the beginning of a section which one read will deliver as a whole. -/
def SeekWhole (ss : SeekSt) : Prop := ss.br = some .fresh ∧ ss.offset = 0 ∧ ss.wantSave = false ∧ ss.rs.pos = 0 ∧ (∀ t, ss.rs.sched t = .full) ∧
  ss.size = ss.rs.content.length ∧ ss.rs.content.length ≤ 32768

theorem seekDone_read {C : Type} (cb : Callback C) {ss : SeekSt} (c : C) (h : SeekDone ss) : Seek.read cb 32768 ss c = (([], some .eof), ss, c) := by
  obtain ⟨h1, h2⟩ := h
  unfold Seek.read
  split
  · rename_i e; exact absurd e h1
  · have : ss.size - ss.offset = 0 := by omega
    simp [this]

theorem seekWhole_read {C : Type} (cb : Callback C) {ss : SeekSt} (c : C) (h : SeekWhole ss) (hne : ss.rs.content ≠ []) :
    ∃ ss', Seek.read cb 32768 ss c = ((ss.rs.content, none), ss', c) ∧ SeekDone ss' := by
  obtain ⟨h1, h2, h3, h4, h5, h6, h7⟩ := h
  obtain ⟨rs, br, ssc, ws, st, off, size⟩ := ss
  obtain ⟨ct, pos, sched, tick⟩ := rs
  simp only at *
  subst h1 h2 h3 h4 h6
  have hpos : 0 < ct.length := List.length_pos_iff.mpr hne
  have hrd : ∀ k, ct.length ≤ k → k ≤ 32768 → (Rs.read ⟨ct, 0, sched, tick⟩ k) = ((ct, none), ⟨ct, ct.length, sched, tick + 1⟩) := by
    intro k hk hk2
    unfold Rs.read
    simp only [h5, RsAct.full, List.drop_zero]
    have he : ct.isEmpty = false := by cases ct with | nil => exact absurd rfl hne | cons _ _ => rfl
    have ht : List.take (min k (1000000000 + 1)) ct = ct := List.take_of_length_le (by omega)
    rw [he, ht]
    simp
  unfold Seek.read
  simp only
  have e0 : ¬ ((ct.length : Int) - 0 = 0) := by omega
  have e1 : ¬ (((32768 : Nat) : Int) > (ct.length : Int) - 0 ∧ (ct.length : Int) - 0 < 0) := by omega
  have e2 : (if ((32768 : Nat) : Int) > (ct.length : Int) - 0 then ((ct.length : Int) - 0).toNat else 32768) = ct.length := by split <;> omega
  rw [if_neg (by decide), if_neg e0, if_neg e1, e2]
  simp only [Seek.handleSave, Bool.false_eq_true, if_false, Bufio.read, Bufio.fresh, List.isEmpty_nil, if_true]
  have hb : ∃ b' rs', (if bufioSize ≤ ct.length then ((Rs.read ⟨ct, 0, sched, tick⟩ ct.length).1, Bufio.fresh, (Rs.read ⟨ct, 0, sched, tick⟩ ct.length).2)
      else if (Rs.read ⟨ct, 0, sched, tick⟩ bufioSize).1.1.isEmpty = true then
        (([], (Rs.read ⟨ct, 0, sched, tick⟩ bufioSize).1.2), ⟨[], none⟩, (Rs.read ⟨ct, 0, sched, tick⟩ bufioSize).2)
      else (((Rs.read ⟨ct, 0, sched, tick⟩ bufioSize).1.1.take ct.length, none), ⟨(Rs.read ⟨ct, 0, sched, tick⟩ bufioSize).1.1.drop ct.length,
        (Rs.read ⟨ct, 0, sched, tick⟩ bufioSize).1.2⟩, (Rs.read ⟨ct, 0, sched, tick⟩ bufioSize).2) : (List Byte × Option Err) × Bufio × Rs) = ((ct, none), b', rs') := by
    split
    · rw [hrd _ (Nat.le_refl _) h7]; exact ⟨_, _, rfl⟩
    · rename_i hlt
      have : ct.length ≤ bufioSize := by omega
      rw [hrd _ this (by decide)]
      have he : ct.isEmpty = false := by cases ct with | nil => exact absurd rfl hne | cons _ _ => rfl
      simp only [he, Bool.false_eq_true, if_false, List.take_length]
      exact ⟨_, _, rfl⟩
  obtain ⟨b', rs', hb⟩ := hb
  simp only [Bufio.fresh] at hb
  rw [hb]
  exact ⟨_, rfl, by simp, by simp⟩

/-- A stored member that is delivered in one read. -/
def SmallFile (A : Archive) (zf : ZFile) : Prop := 0 ≤ zf.csize ∧ zf.csize ≤ 32768 ∧ zf.dataOff + zf.csize ≤ (A.bytes.length : Int)

theorem seekWhole_start {A : Archive} {env : ZEnv} {i : Nat} {zf : ZFile} (hs : SmallFile A zf) (hf : ∀ t, env.sched i t = .full) :
    ∃ ss, Seek.resume none (Seek.newWithSize (zipRaw A env i zf) zf.csize) = (.ok 0, ss) ∧ SeekWhole (seekM.setSSC true ss) ∧
      (SeekSt.rs (seekM.setSSC true ss)).content = (A.bytes.drop zf.dataOff).take zf.csize.toNat := by
  obtain ⟨h1, h2, h3⟩ := hs
  have hlen : ((A.bytes.drop zf.dataOff).take zf.csize.toNat).length = zf.csize.toNat := by
    simp only [List.length_take, List.length_drop]; omega
  refine ⟨⟨⟨(A.bytes.drop zf.dataOff).take zf.csize.toNat, 0, env.sched i, 1⟩, some .fresh, false, false, 0, 0, zf.csize⟩, ?_, ?_, rfl⟩
  · simp [Seek.resume, Seek.resume.go, Seek.newWithSize, zipRaw, Rs.seek, hf, RsAct.full]
  · refine ⟨rfl, rfl, rfl, rfl, hf, ?_, ?_⟩
    · show zf.csize = (((A.bytes.drop zf.dataOff).take zf.csize.toNat).length : Int)
      rw [hlen]; omega
    · show ((A.bytes.drop zf.dataOff).take zf.csize.toNat).length ≤ 32768
      rw [hlen]; omega

theorem zipRunFile_small {A : Archive} {env : ZEnv} {i : Nat} {zf : ZFile} (hs : SmallFile A zf) (hf : ∀ t, env.sched i t = .full) (F : Nat) (total : Int)
    (w : XW K V) (hsc : w.ck.srcCk = none) (hwo : ∀ e, w.ck.entry = some e → e.woff ≤ 0) :
    saves (zipRunFile seekM F total (Seek.newWithSize (zipRaw A env i zf) zf.csize) w).2.log = saves w.log := by
  obtain ⟨ss, r1, r2, r3⟩ := seekWhole_start hs hf
  have r1' : seekM.resume none (Seek.newWithSize (zipRaw A env i zf) zf.csize) = (.ok 0, ss) := r1
  unfold zipRunFile
  dsimp only
  rw [hsc, r1']
  simp only
  have hd : ∀ (x : Int) (a b : Option Err × seekM.St × Unit), x ≤ 0 → (if (0 : Int) < x then a else b) = b := fun x a b hx => if_neg (by omega)
  rw [hd _ _ _ (by
    split
    · rename_i e he; exact hwo e he
    · omega)]
  simp only
  have hg : saves (zipOpen w).2.log = saves w.log := by
    unfold zipOpen
    split
    · rfl
    · show saves (w.log ++ [.openW _ _]) = _
      rw [saves_append]; simp [saves]
  generalize zipOpen w = G at *
  obtain ⟨ge, w1⟩ := G
  cases ge with
  | some e => exact hg
  | none =>
    simp only at hg ⊢
    rw [← hg]
    refine zipCopy_quiet (S := seekM) total (fun s => SeekWhole s ∨ SeekDone s) SeekDone (fun _ => Or.inr) (fun s h => h) ?_ F 0 (seekM.setSSC true ss) _ (Or.inl r2)
    intro s w h
    show (Seek.read (zipOnSave total) 32768 s w).2.2 = w ∧ ((Seek.read (zipOnSave total) 32768 s w).1.2 = none → SeekDone (Seek.read (zipOnSave total) 32768 s w).2.1)
    rcases h with h | h
    · by_cases hne : (SeekSt.rs s).content = []
      · have : SeekDone s := ⟨by rw [h.1]; simp, by rw [h.2.1, h.2.2.2.2.2.1, hne]; rfl⟩
        rw [seekDone_read _ w this]
        exact ⟨rfl, nofun⟩
      · obtain ⟨s', a, b⟩ := seekWhole_read (zipOnSave total) w h hne
        rw [a]
        exact ⟨rfl, fun _ => b⟩
    · rw [seekDone_read _ w h]
      exact ⟨rfl, nofun⟩

/-- A member extracting which never saves. -/
def NeverSaved (A : Archive) (zf : ZFile) : Prop := (zipFileEntry zf).kind = .file → zf.method ≠ .deflate ∧ (zf.method = .store → SmallFile A zf)

theorem ioCopy_saves : ∀ (cs : List (List Byte)) (e : Option Err) (w : XW K V), saves (ioCopy cs e w).2.log = saves w.log
  | [], _, _ => rfl
  | c :: cs, e, w => by
    have l2 : saves (w.write c).2.log = saves w.log := by
      show saves (w.log ++ [.write c _ _]) = _
      rw [saves_append]; simp [saves]
    unfold ioCopy
    split
    · exact ioCopy_saves cs e w
    · dsimp only
      split
      · exact l2
      · split
        · exact l2
        · rw [ioCopy_saves cs e]; exact l2

theorem zipCopyFile_saves (env : ZEnv) (i : Nat) (w : XW K V) : saves (zipCopyFile env i w).2.log = saves w.log := by
  unfold zipCopyFile
  dsimp only
  split
  · rfl
  · have hg : ∀ w : XW K V, saves (zipOpen w).2.log = saves w.log := by
      intro w
      unfold zipOpen
      split
      · rfl
      · show saves (w.log ++ [.openW _ _]) = _
        rw [saves_append]; simp [saves]
    split
    · exact hg _
    · dsimp only; rw [ioCopy_saves]; exact hg _

theorem zipEntry_small {A : Archive} {env : ZEnv} (D : Decomp) (F : Nat) (total : Int) {i : Nat} {zf : ZFile} (hs : NeverSaved A zf) (hf : ∀ t, env.sched i t = .full)
    (w : XW K V) (hsc : w.ck.srcCk = none) (hent : w.ck.entry = none) : saves (zipEntry A env D F total i zf w).2.log = saves w.log := by
  unfold zipEntry
  dsimp only
  rw [hent]
  simp only [Option.getD_none]
  split
  · rfl
  · have key : ∀ r : Option Err × XW K V, saves r.2.log = saves w.log →
        saves (match r.1 with | some e => (some e, r.2) | none => (none, { r.2 with done := wrap64 (r.2.done + zf.usize) }) : Option Err × XW K V).2.log = saves w.log := by
      intro r hr
      split <;> exact hr
    refine key _ ?_
    split
    · show saves (w.log ++ [.mkdir _ _]) = _
      rw [saves_append]; simp [saves]
    · split
      · rfl
      · rfl
      · show saves (w.log ++ [.symlink _ _ _]) = _
        rw [saves_append]; simp [saves]
    · rename_i hk
      obtain ⟨h1, h2⟩ := hs hk
      unfold zipFile
      split
      · rename_i hm
        split
        · rfl
        · exact zipRunFile_small (h2 hm) hf F total _ hsc (fun e he => by cases he; exact Int.le_refl 0)
      · rename_i hm; exact absurd hm h1
      · exact zipCopyFile_saves env i _

theorem zipLoop_small {A : Archive} {env : ZEnv} (D : Decomp) (F : Nat) (total : Int) (hf : ∀ i t, env.sched i t = .full) : ∀ (fs : List ZFile) (i : Nat) (w : XW K V),
    (∀ zf ∈ fs, NeverSaved A zf) → w.ck.srcCk = none → w.ck.entry = none → saves (zipLoop A env D F total fs i w).2.log = saves w.log
  | [], _, _, _, _, _ => rfl
  | zf :: fs, i, w, hst, hsc, hent => by
    unfold zipLoop
    split
    · rfl
    · have := zipEntry_small D F total (hst zf List.mem_cons_self) (hf i) w hsc hent
      dsimp only
      split
      · exact this
      · rw [zipLoop_small D F total hf fs (i + 1) _ (fun z hz => hst z (List.mem_cons_of_mem _ hz)) rfl rfl]; exact this

theorem zipPrealloc_saves : ∀ (fs : List ZFile) (w : XW K V), saves (zipPrealloc fs w).2.log = saves w.log ∧ (zipPrealloc fs w).2.ck = w.ck
  | [], _ => ⟨rfl, rfl⟩
  | zf :: fs, w => by
    unfold zipPrealloc
    have l : ∀ e x, saves (w.log ++ [Ev.prealloc e x]) = saves w.log := by intro e x; rw [saves_append]; simp [saves]
    split
    · dsimp only
      split
      · exact ⟨l _ _, rfl⟩
      · obtain ⟨a, b⟩ := zipPrealloc_saves fs (({ w with sink := (K.preallocate (zipFileEntry zf) w.sink).2 }).say (.prealloc (zipFileEntry zf) (K.preallocate (zipFileEntry zf) w.sink).1))
        exact ⟨a.trans (l _ _), b⟩
    · exact zipPrealloc_saves fs w

theorem zipResume_small {A : Archive} {env : ZEnv} (D : Decomp) (F : Nat) (hf : ∀ i t, env.sched i t = .full) (hs : ∀ zf ∈ A.files, NeverSaved A zf) (k : K.St) (u : V.St) :
    saves (zipResume A env D F K V none k u).2.log = [] := by
  obtain ⟨a, b⟩ := zipPrealloc_saves A.files (zipInit (K := K) (V := V) A none k u)
  have a' : saves (zipPrepare A none (zipInit (K := K) (V := V) A none k u)).2.log = [] := a
  have b' : (zipPrepare A none (zipInit (K := K) (V := V) A none k u)).2.ck = freshCk := b
  unfold zipResume
  dsimp only
  generalize zipPrepare A none (zipInit (K := K) (V := V) A none k u) = p at *
  split
  · exact a'
  · split
    · exact a'
    · have := zipLoop_small (K := K) (V := V) D F (zipSum A.files) hf (A.files.drop ((none : Option ECkpt).getD freshCk).entryIndex.toNat)
        ((none : Option ECkpt).getD freshCk).entryIndex.toNat p.2 (fun z hz => hs z (List.mem_of_mem_drop hz)) (by rw [b']; rfl) (by rw [b']; rfl)
      rw [a'] at this
      split
      · exact this
      · split <;> exact this

end

/-- A one-byte stored file. -/
def tinyFile (i : Nat) : ZFile := ⟨List.replicate (i + 1) 97, .store, false, 1, 1, 0o644, 0, ([7], true)⟩

/-- `n` of them. -/
def tinyArchive (n : Nat) : Archive := ⟨[7], (List.range n).map tinyFile⟩

/-- Nothing fails, and reads deliver what was asked for. -/
def fullEnv : ZEnv := ⟨fun _ _ => .full, fun _ => none, fun _ => .ok ([[7]], none)⟩

theorem nop_copy {V : SaveCons} (total : Int) (w : XW nopSink V) (ss : seekM.St) (h : SeekWhole ss) (hne : (SeekSt.rs ss).content ≠ []) (n : Nat) :
    ∃ u' ck' st r, (copyDo (zipIO (K := nopSink) (V := V) seekM total) (n + 2) (ss, w)).1 = none ∧ (copyDo (zipIO (K := nopSink) (V := V) seekM total) (n + 2) (ss, w)).2.1 =
      (r, ⟨w.sink, u', ck', st, w.stopErr, w.done, w.log ++ [.write (SeekSt.rs ss).content (SeekSt.rs ss).content.length none, .write [] 0 none]⟩) := by
  have hlen : ¬ progressThreshold < 0 + (SeekSt.rs ss).content.length := by have := h.2.2.2.2.2.2; simp only [progressThreshold]; omega
  have hlen2 : ¬ progressThreshold < 0 + (SeekSt.rs ss).content.length + 0 := by have := h.2.2.2.2.2.2; simp only [progressThreshold]; omega
  obtain ⟨ss0, a, b⟩ := seekWhole_read (zipOnSave (K := nopSink) (V := V) total) ({ w with stop := false } : XW nopSink V) h hne
  obtain ⟨ss', hss⟩ : ∃ s : seekM.St, s = ss0 := ⟨_, rfl⟩
  rw [← hss] at a b
  have e1 : (zipIO (K := nopSink) (V := V) seekM total).read (ss, { w with stop := false }) = (((SeekSt.rs ss).content, none), (ss', { w with stop := false })) := by
    show ((Seek.read (zipOnSave total) 32768 ss _).1, (Seek.read (zipOnSave total) 32768 ss _).2) = _
    rw [a]
    rfl
  have e0 : copyDo (zipIO (K := nopSink) (V := V) seekM total) (n + 2) (ss, w) = copyLoop (zipIO (K := nopSink) (V := V) seekM total) (n + 2) 0 (ss, { w with stop := false }) := rfl
  rw [e0]
  generalize (SeekSt.rs ss).content = bs at *
  have key : ∀ s2 : seekM.St, SeekDone s2 → ∀ w2 : XW nopSink V, w2.stop = false → ∀ cn, ¬ progressThreshold < cn + 0 → ∃ ck' ev, copyLoop (zipIO (K := nopSink) (V := V) seekM total) (n + 1) cn (s2, w2) =
      (none, (s2, ⟨w2.sink, w2.cons, ck', w2.stop, w2.stopErr, w2.done, w2.log ++ [.write [] 0 none]⟩), ev) := by
    intro s2 h2 w2 hst cn hcn
    unfold copyLoop
    have : (zipIO (K := nopSink) (V := V) seekM total).stopped (s2, w2) = false := hst
    rw [if_neg (by rw [this]; simp)]
    have e2 : (zipIO (K := nopSink) (V := V) seekM total).read (s2, w2) = (([], some .eof), (s2, w2)) := by
      show ((Seek.read (zipOnSave total) 32768 s2 _).1, (Seek.read (zipOnSave total) 32768 s2 _).2) = _
      rw [seekDone_read _ w2 h2]
      rfl
    rw [e2]
    have e3 : (zipIO (K := nopSink) (V := V) seekM total).write [] (s2, w2) = ((0, none), (s2, ({ w2 with sink := w2.sink }.advance 0).say (.write [] 0 none))) := rfl
    dsimp only
    rw [e3]
    have : decide (progressThreshold < cn + 0) = false := by simpa using hcn
    simp only [this, Bool.false_eq_true, if_false, if_true]
    exact ⟨_, _, rfl⟩
  rw [copyLoop]
  have : (zipIO (K := nopSink) (V := V) seekM total).stopped (ss, { w with stop := false }) = false := rfl
  rw [if_neg (by rw [this]; simp), e1]
  have e3 : (zipIO (K := nopSink) (V := V) seekM total).write bs (ss', { w with stop := false }) =
    ((bs.length, none), (ss', ({ ({ w with stop := false } : XW nopSink V) with sink := w.sink }.advance 0).say (.write bs bs.length none))) := rfl
  simp only [e3]
  have : decide (progressThreshold < 0 + bs.length) = false := by simpa using hlen
  simp only [this, Bool.false_eq_true, if_false]
  generalize hw2 : ({ ({ w with stop := false } : XW nopSink V) with sink := w.sink }.advance 0).say (.write bs bs.length none) = w2
  have e4 : (zipIO (K := nopSink) (V := V) seekM total).shouldSave bs.length (ss', w2) =
    ((V.shouldSave bs.length w2.cons).1, (ss', { w2 with cons := (V.shouldSave bs.length w2.cons).2 })) := rfl
  simp only [e4]
  have hst2 : w2.stop = false := by subst hw2; rfl
  cases (V.shouldSave (bs.length : Int) w2.cons).1 with
  | true =>
    simp only [if_true]
    obtain ⟨ck', ev, g⟩ := key (seekM.wantSave ss') b { w2 with cons := (V.shouldSave bs.length w2.cons).2 } hst2 (0 + bs.length) hlen2
    have e5 : (zipIO (K := nopSink) (V := V) seekM total).wantSave (ss', { w2 with cons := (V.shouldSave bs.length w2.cons).2 }) =
      (seekM.wantSave ss', { w2 with cons := (V.shouldSave bs.length w2.cons).2 }) := rfl
    rw [e5, g]
    subst hw2
    exact ⟨_, _, _, _, rfl, by simp [XW.say, XW.advance]; exact ⟨rfl, rfl, rfl, rfl⟩⟩
  | false =>
    simp only [Bool.false_eq_true, if_false]
    obtain ⟨ck', ev, g⟩ := key ss' b { w2 with cons := (V.shouldSave bs.length w2.cons).2 } hst2 (0 + bs.length) hlen2
    rw [g]
    subst hw2
    exact ⟨_, _, _, _, rfl, by simp [XW.say, XW.advance]; exact ⟨rfl, rfl, rfl, rfl⟩⟩

theorem tiny_kind (j : Nat) : (zipFileEntry (tinyFile j)).kind = .file := by
  have h1 : Nat.testBit 0o644 31 = false := by decide
  have h2 : Nat.testBit 0o644 27 = false := by decide
  simp only [zipFileEntry, tinyFile, h1, h2, Bool.false_eq_true, if_false]

theorem tiny_small (n j : Nat) : SmallFile (tinyArchive n) (tinyFile j) := by
  simp [SmallFile, tinyFile, tinyArchive]

theorem tiny_entry {V : SaveCons} (n : Nat) (D : Decomp) (F : Nat) (total : Int) (i j : Nat) (w : XW nopSink V) (hsc : w.ck.srcCk = none) (hent : w.ck.entry = none) :
    ∃ u' ck' dn st, zipEntry (tinyArchive n) fullEnv D (F + 2) total i (tinyFile j) w =
      (none, ⟨w.sink, u', ck', st, w.stopErr, dn, w.log ++ [.openW (zipFileEntry (tinyFile j)) none] ++ [.write [7] 1 none, .write [] 0 none]⟩) := by
  have hk : (zipFileEntry (tinyFile j)).kind = .file := tiny_kind j
  unfold zipEntry
  dsimp only
  rw [hent]
  simp only [Option.getD_none]
  have hen : (tinyFile j).encrypted = false := rfl
  simp only [hen, Bool.false_eq_true, if_false, hk]
  have hm : (tinyFile j).method = .store := rfl
  unfold zipFile
  simp only [hm, fullEnv]
  obtain ⟨ss, r1, r2, r3⟩ := seekWhole_start (A := tinyArchive n) (env := fullEnv) (i := i) (zf := tinyFile j) (tiny_small n j) (fun _ => rfl)
  have r1' : seekM.resume none (Seek.newWithSize (zipRaw (tinyArchive n) fullEnv i (tinyFile j)) (tinyFile j).csize) = (.ok 0, ss) := r1
  unfold zipRunFile
  dsimp only
  rw [hsc]
  simp only [fullEnv] at r1'
  rw [r1']
  simp only
  have hwo : ¬ ((0 : Int) < (zipFileEntry (tinyFile j)).woff) := by simp [zipFileEntry]
  rw [if_neg hwo]
  simp only [zipOpen]
  have h7 : (SeekSt.rs (seekM.setSSC true ss)).content = [7] := r3
  obtain ⟨u', ck', st, r, g1, g2⟩ := nop_copy (V := V) total
    (({ w with ck := { w.ck with srcCk := none, entryIndex := i, entry := some (zipFileEntry (tinyFile j)) } } : XW nopSink V).say (.openW (zipFileEntry (tinyFile j)) none))
    (seekM.setSSC true ss) r2 (by rw [h7]; simp) F
  rw [h7] at g2
  have e0 : ∀ x : XW nopSink V, nopSink.getWriter (zipFileEntry (tinyFile j)) x.sink = (none, x.sink) := fun _ => rfl
  simp only [e0]
  simp only [XW.say] at g1 g2 ⊢
  rw [hsc] at *
  rw [g1, g2]
  exact ⟨_, _, _, _, rfl⟩

theorem tiny_loop {V : SaveCons} (n : Nat) (D : Decomp) (F : Nat) (total : Int) : ∀ (js : List Nat) (i : Nat) (w : XW nopSink V), w.ck.srcCk = none → w.ck.entry = none → w.stopErr = false →
    (zipLoop (tinyArchive n) fullEnv D (F + 2) total (js.map tinyFile) i w).1 = none ∧
    (zipLoop (tinyArchive n) fullEnv D (F + 2) total (js.map tinyFile) i w).2.stopErr = false ∧
    unsaved (zipLoop (tinyArchive n) fullEnv D (F + 2) total (js.map tinyFile) i w).2.log = unsaved w.log + js.length
  | [], _, _, _, _, h => ⟨rfl, h, rfl⟩
  | j :: js, i, w, h1, h2, h3 => by
    obtain ⟨u', ck', dn, st, g⟩ := tiny_entry n D F total i j w h1 h2
    simp only [List.map_cons, zipLoop]
    rw [if_neg (by rw [h3]; simp), g]
    simp only
    obtain ⟨a, b, c⟩ := tiny_loop n D F total js (i + 1) ⟨w.sink, u', { ck' with srcCk := none, entry := none }, st, w.stopErr, dn,
      w.log ++ [.openW (zipFileEntry (tinyFile j)) none] ++ [.write [7] 1 none, .write [] 0 none]⟩ rfl rfl h3
    refine ⟨a, b, ?_⟩
    rw [c]
    simp only [unsaved, List.foldl_append, List.foldl_cons, List.foldl_nil, List.length_cons, List.length_nil]
    omega

theorem nop_prealloc {V : SaveCons} : ∀ (fs : List ZFile) (w : XW nopSink V), (zipPrealloc fs w).1 = none ∧ (zipPrealloc fs w).2.ck = w.ck ∧
    (zipPrealloc fs w).2.stopErr = w.stopErr ∧ unsaved (zipPrealloc fs w).2.log = unsaved w.log
  | [], _ => ⟨rfl, rfl, rfl, rfl⟩
  | zf :: fs, w => by
    unfold zipPrealloc
    split
    · obtain ⟨a, b, c, d⟩ := nop_prealloc fs (({ w with sink := w.sink }).say (.prealloc (zipFileEntry zf) none))
      exact ⟨a, b, c, d.trans (unsaved_snoc _ _)⟩
    · exact nop_prealloc fs w

theorem tiny_run {V : SaveCons} (n : Nat) (D : Decomp) (F : Nat) (u : V.St) :
    (∃ es, (zipResume (tinyArchive n) fullEnv D (F + 2) nopSink V none () u).1 = .ok es) ∧
    unsaved (zipResume (tinyArchive n) fullEnv D (F + 2) nopSink V none () u).2.log = n := by
  obtain ⟨a, b, c, d⟩ := nop_prealloc (V := V) (tinyArchive n).files (zipInit (K := nopSink) (V := V) (tinyArchive n) none () u)
  have a' : (zipPrepare (tinyArchive n) none (zipInit (K := nopSink) (V := V) (tinyArchive n) none () u)).1 = none := a
  have b' : (zipPrepare (tinyArchive n) none (zipInit (K := nopSink) (V := V) (tinyArchive n) none () u)).2.ck = freshCk := b
  have c' : (zipPrepare (tinyArchive n) none (zipInit (K := nopSink) (V := V) (tinyArchive n) none () u)).2.stopErr = false := c
  have d' : unsaved (zipPrepare (tinyArchive n) none (zipInit (K := nopSink) (V := V) (tinyArchive n) none () u)).2.log = 0 := d
  unfold zipResume
  dsimp only
  generalize zipPrepare (tinyArchive n) none (zipInit (K := nopSink) (V := V) (tinyArchive n) none () u) = p at *
  obtain ⟨pe, w⟩ := p
  simp only at a' b' c' d'
  subst a'
  simp only
  obtain ⟨e, f, g⟩ := tiny_loop n D F (zipSum (tinyArchive n).files) (List.range n) 0 w (by rw [b']; rfl) (by rw [b']; rfl) c'
  have hz : (tinyArchive n).files.drop ((none : Option ECkpt).getD freshCk).entryIndex.toNat = (List.range n).map tinyFile := rfl
  have hi : ((none : Option ECkpt).getD freshCk).entryIndex.toNat = 0 := rfl
  have hn : ¬ ((none : Option ECkpt).getD freshCk).entryIndex < 0 := by decide
  rw [if_neg hn, hz, hi]
  generalize zipLoop (tinyArchive n) fullEnv D (F + 2) (zipSum (tinyArchive n).files) ((List.range n).map tinyFile) 0 w = R at *
  obtain ⟨re, w2⟩ := R
  simp only at e f g
  subst e
  simp only [f, Bool.false_eq_true, if_false]
  exact ⟨⟨_, rfl⟩, by rw [g, d']; simp⟩

end Savior
