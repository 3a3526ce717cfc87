import Verif.TarMore
import Verif.TarStack
import Verif.TarToy
import Verif.Props.ZipRuns
/-!
# Properties of the tar extractor (C43–C48, tar parts of C38, C49, C54, C55; C57, C58)
-/

namespace Savior

section
variable {Y : List Byte} {clean : Bool} {Ck : Ckpt → Nat → Prop} {F : Nat} {T : TarFmt}

/-- **C43.** However often a tar extraction was stopped and resumed from the last checkpoint saved — with different
consumers, over any sources obeying the source contract (plain, or any stack of decompressing ones), with any read
schedules — once it succeeds, the stream is a complete archive and the sink is in exactly the state described by it; in
particular the same as after an uninterrupted extraction. -/
theorem C43_tar_stop_resume (hT : T.Law) {K : SinkM} (M : SinkLaw K) (k0 : K.St) (ck : Option ECkpt) (k : K.St)
    (hstops : TarStops Y clean Ck F T K none k0 ck k) (X : TarSrc Y clean Ck F) (pr : Ckpt → Int × Int) (V : SaveCons) (u : V.St)
    (res : List Entry) (h : (tarRun X T pr K V ck k u).1 = .ok res) :
    (∃ ms, TarHas T clean Y ms) ∧
    ∀ ms, TarHas T clean Y ms → M.view (tarRun X T pr K V ck k u).2.2.sink = tarIdeal M ms (M.view k0) := by
  obtain ⟨a, b⟩ := tarStops_ok hT M hstops
  obtain ⟨ms, h1, h2, _⟩ := (tarRun_ok hT M (M.view k0) X pr ck k u a b).1 res h
  refine ⟨⟨ms, h1⟩, fun ms' h' => ?_⟩
  rw [tarHas_det h' h1]; exact h2

/-- **C43**, the comparison: two extractions of the same stream into the same sink, stopped and resumed in whatever way,
end in the same state and with the same result. -/
theorem C43_same (hT : T.Law) {K : SinkM} (M : SinkLaw K) (k0 : K.St) (ck1 ck2 : Option ECkpt) (k1 k2 : K.St)
    (hs1 : TarStops Y clean Ck F T K none k0 ck1 k1) (hs2 : TarStops Y clean Ck F T K none k0 ck2 k2) (X1 X2 : TarSrc Y clean Ck F)
    (pr1 pr2 : Ckpt → Int × Int) (V1 V2 : SaveCons) (u1 : V1.St) (u2 : V2.St) (res1 res2 : List Entry)
    (h1 : (tarRun X1 T pr1 K V1 ck1 k1 u1).1 = .ok res1) (h2 : (tarRun X2 T pr2 K V2 ck2 k2 u2).1 = .ok res2) :
    M.view (tarRun X1 T pr1 K V1 ck1 k1 u1).2.2.sink = M.view (tarRun X2 T pr2 K V2 ck2 k2 u2).2.2.sink ∧ res1 = res2 := by
  obtain ⟨a1, b1⟩ := tarStops_ok hT M hs1
  obtain ⟨a2, b2⟩ := tarStops_ok hT M hs2
  obtain ⟨ms1, h11, h12, h13⟩ := (tarRun_ok hT M (M.view k0) X1 pr1 ck1 k1 u1 a1 b1).1 res1 h1
  obtain ⟨ms2, h21, h22, h23⟩ := (tarRun_ok hT M (M.view k0) X2 pr2 ck2 k2 u2 a2 b2).1 res2 h2
  have := tarHas_det h11 h21
  subst this
  exact ⟨by rw [h12, h22], by rw [h13, h23]⟩

/-- **C44**, what holds: the result lists the regular files of the archive, each exactly once, in archive order, with
what was written to it, whatever the resume history. Missing for the full property: directories and links are not
listed, see `C44_false`. -/
theorem C44_files_listed_partial (hT : T.Law) {K : SinkM} (M : SinkLaw K) (k0 : K.St) (ck : Option ECkpt) (k : K.St)
    (hstops : TarStops Y clean Ck F T K none k0 ck k) (X : TarSrc Y clean Ck F) (pr : Ckpt → Int × Int) (V : SaveCons) (u : V.St)
    (res : List Entry) (h : (tarRun X T pr K V ck k u).1 = .ok res) (ms : List (THdr × List Byte)) (hms : TarHas T clean Y ms) :
    res = (ms.filter fun m => m.1.typ = .reg).map fun m =>
      { path := m.1.name, kind := .file, mode := m.1.mode, csize := 0, usize := m.1.size,
        woff := if M.counts (tarEntryOf m.1) then (m.2.length : Int) else 0, link := [] } := by
  obtain ⟨a, b⟩ := tarStops_ok hT M hstops
  obtain ⟨ms', h1, _, h3⟩ := (tarRun_ok hT M (M.view k0) X pr ck k u a b).1 res h
  rw [tarHas_det hms h1, h3]
  unfold tarListed
  apply List.map_congr_left
  intro m hm
  have : m.1.typ = .reg := by simpa using (List.mem_filter.mp hm).2
  simp [tarEntryAt, tarEntryOf, this]

/-- **C45**, what actually holds: in no tar run, fresh or resumed, is any data ever synced. So the property is false as
soon as something is written before a save; see `C45_false`. -/
theorem C45_never_syncs (hT : T.Law) (X : TarSrc Y clean Ck F) (pr : Ckpt → Int × Int) (K : SinkM) (V : SaveCons) (ck : Option ECkpt)
    (hck : TarCanStart Y clean Ck F T ck) (k : K.St) (u : V.St) (r : Option Err) : Ev.sync r ∉ (tarRun X T pr K V ck k u).2.2.log := by
  let P : List Ev → Prop := fun log => ∀ r, Ev.sync r ∉ log
  have hP : ∀ log ev, P log → (∀ r, ev ≠ .sync r) → P (log ++ [ev]) := by
    intro log ev h1 h2 r hm
    rcases List.mem_append.mp hm with hm | hm
    · exact h1 r hm
    · simp at hm; exact h2 r hm.symm
  have H : ∀ o0, TarLogInv X.L T V False o0 (fun _ => P) (fun _ _ _ _ => P) P := by
    intro o0
    refine ⟨fun _ _ h => h, fun _ _ _ _ _ h => h, ?_, ?_, ?_, fun _ _ _ h _ => h, ?_, ?_, ?_⟩
    · intro ms h z0 o o' log ev hl _ hp
      refine hP _ _ hl ?_
      rintro r rfl
      exact hp
    · intro ms log h hl _; exact ⟨hP _ _ hl (by simp), fun x => hP _ _ hl (by simp)⟩
    · intro ms log h hl _; exact ⟨hP _ _ hl (by simp), fun x => hP _ _ hl (by simp)⟩
    · intro ms log h z0 st0 hl _; exact ⟨hP _ _ hl (by simp), fun x => hP _ _ hl (by simp)⟩
    · intro ms h z0 st0 o log ck R e a hl _ _ _ _ _; exact hP _ _ hl (by simp)
    · intro ms h z0 st0 log p hl _; exact hP _ _ hl (by simp)
  have hnil : P [] := by intro r h; cases h
  obtain ⟨o0, hst⟩ := tarCanStart_from hT hck
  refine (tarResume_log hT X.L (H o0) pr X.budget X.good (by simp) k u ck ?_).1 r
  rcases hst with ⟨a, b⟩ | ⟨c, i, a, b⟩
  · exact Or.inl ⟨by simp [a], b, hnil⟩
  · obtain ⟨ms, h, R, z0, st0, e, d1, d2, d3⟩ := b.mono fun c o => (X.family c o).mpr
    exact Or.inr ⟨c, ms, h, R, z0, st0, e, a, d1, d2, hnil, hP _ _ hnil (by simp), fun x => hP _ _ hnil (by simp)⟩

/-- **C46**, what holds: if the stream is not a complete archive — it ends within a header or a member, or is malformed,
or breaks off with an error before the end-of-archive marker — no extraction of it succeeds, whatever the history.
Missing for the full property: a stream cut exactly between two members passes for a complete archive, see `C46_false`;
by `C46_truncated` that is all that can be lost. -/
theorem C46_incomplete_partial (hT : T.Law) {K : SinkM} (ck : Option ECkpt) (hck : TarCanStart Y clean Ck F T ck) (k : K.St)
    (X : TarSrc Y clean Ck F) (pr : Ckpt → Int × Int) (V : SaveCons) (u : V.St) (hbad : ¬ ∃ ms, TarHas T clean Y ms) (res : List Entry) :
    (tarRun X T pr K V ck k u).1 ≠ .ok res := by
  intro h
  obtain ⟨o0, hst⟩ := tarCanStart_from hT hck
  obtain ⟨ms, h1, _⟩ := (tarResume_log (LB := fun _ _ => True) (LI := fun _ _ _ _ _ => True) (LE := fun _ => True) hT X.L
    ⟨fun _ _ _ => trivial, fun _ _ _ _ _ _ => trivial, fun _ _ _ _ _ _ _ _ _ _ => trivial, fun _ _ _ _ _ => ⟨trivial, fun _ => trivial⟩,
      fun _ _ _ _ _ => ⟨trivial, fun _ => trivial⟩, fun _ _ _ _ _ => trivial, fun _ _ _ _ _ _ _ => ⟨trivial, fun _ => trivial⟩,
      fun _ _ _ _ _ _ _ _ _ _ _ _ _ _ _ _ => trivial, fun _ _ _ _ _ _ _ _ => trivial⟩ (Qt := False) (o0 := o0) pr X.budget X.good (by simp) k u ck (by
    rcases hst with ⟨a, b⟩ | ⟨c, i, a, b⟩
    · exact Or.inl ⟨by simp [a], b, trivial⟩
    · obtain ⟨ms, h, R, z0, st0, e, d1, d2, d3⟩ := b.mono fun c o => (X.family c o).mpr
      exact Or.inr ⟨c, ms, h, R, z0, st0, e, a, d1, d2, trivial, trivial, fun _ => trivial⟩)).2 res h
  exact hbad ⟨ms, h1⟩

theorem nextSpec_append {clean' : Bool} : ∀ (Y : List Byte) (st : T.St) (W : List Byte) (x : THdr × T.St × List Byte),
    nextSpec T clean st Y = some (some x) → nextSpec T clean' st (Y ++ W) = some (some (x.1, x.2.1, x.2.2 ++ W)) := by
  intro Y
  induction Y with
  | nil =>
    intro st W x h
    rw [nextSpec.eq_def] at h ⊢
    cases hw : T.want st with
    | more n => simp only [hw] at h; split at h <;> cases h
    | hdr h' => simp only [hw] at h ⊢; cases h; rfl
    | done => simp only [hw] at h; cases h
    | bad => simp only [hw] at h; cases h
  | cons b Y ih =>
    intro st W x h
    rw [nextSpec.eq_def] at h ⊢
    cases hw : T.want st with
    | more n =>
      simp only [hw, List.cons_append] at h ⊢
      exact ih _ _ _ h
    | hdr h' => simp only [hw] at h ⊢; cases h; rfl
    | done => simp only [hw] at h; cases h
    | bad => simp only [hw] at h; cases h

theorem tarPath_append {clean' : Bool} {st : T.St} (W : List Byte) : ∀ {ms st1 Y1}, TarPath T clean st Y ms st1 Y1 →
    TarPath T clean' st (Y ++ W) ms st1 (Y1 ++ W) := by
  intro ms st1 Y1 h
  induction h with
  | nil => exact .nil
  | @file ms st1 Y1 h st2 Y2 h1 h2 h3 h4 ih =>
    have := TarPath.file ih (nextSpec_append (clean' := clean') _ _ W _ h2) h3 (by simp; omega)
    simp only at this
    rw [List.take_append_of_le_length h4, List.drop_append_of_le_length h4] at this
    exact this
  | @other ms st1 Y1 h st2 Y2 h1 h2 h3 ih => exact TarPath.other ih (nextSpec_append (clean' := clean') _ _ W _ h2) h3

/-- **C46**, what a cut can do at worst: if a cut stream is extracted successfully although the whole stream is an archive
with members `ms`, then what is extracted are the first few members, each complete. -/
theorem C46_truncated (hT : T.Law) {K : SinkM} (M : SinkLaw K) (k0 : K.St) (ck : Option ECkpt) (k : K.St)
    (hstops : TarStops Y clean Ck F T K none k0 ck k) (X : TarSrc Y clean Ck F) (pr : Ckpt → Int × Int) (V : SaveCons) (u : V.St)
    (res : List Entry) (h : (tarRun X T pr K V ck k u).1 = .ok res) (W : List Byte) (ms : List (THdr × List Byte)) (hms : TarHas T true (Y ++ W) ms) :
    ∃ n, M.view (tarRun X T pr K V ck k u).2.2.sink = tarIdeal M (ms.take n) (M.view k0) := by
  obtain ⟨⟨ms', h1⟩, h2⟩ := C43_tar_stop_resume hT M k0 ck k hstops X pr V u res h
  rw [h2 ms' h1]
  obtain ⟨st', Y', p', e'⟩ := h1
  obtain ⟨st, Z, p, e⟩ := hms
  have q := tarPath_append (clean' := true) W p'
  rcases Nat.lt_or_ge ms.length ms'.length with hl | hl
  · obtain ⟨st2, Y2, h, st3, Y3, g1, g2, _⟩ := tarPath_prefix q ms.length hl
    obtain ⟨_, b, c⟩ := tarPath_det p g1 (by simp; omega)
    rw [← b, ← c, e] at g2
    cases g2
  · refine ⟨ms'.length, ?_⟩
    rcases Nat.lt_or_ge ms'.length ms.length with hl' | hl'
    · obtain ⟨st2, Y2, h, st3, Y3, g1, g2, _⟩ := tarPath_prefix p ms'.length hl'
      obtain ⟨a, _, _⟩ := tarPath_det q g1 (by simp; omega)
      rw [← a]
    · obtain ⟨a, _, _⟩ := tarPath_det q p (by omega)
      rw [a, List.take_length]

/-- **C47**, what holds: a run given a source without a pending save request only saves checkpoints strictly later in
the stream than the one it was resumed from (and, from the start, than the start), each not before the previous one.
Missing: the source may be reused after a stopped run with a save request still pending, see `C47_false`. -/
theorem C47_strictly_later_partial (hT : T.Law) {q : Prop} {n : Nat} {c0 : ECkpt} (h0 : TarSaved Y clean Ck F T q n c0)
    (X : TarSrc Y clean Ck F) (hq : X.L.Quiet X.src) (pr : Ckpt → Int × Int) (K : SinkM) (V : SaveCons) (k : K.St) (u : V.St) :
    (∀ s ∈ saves (tarRun X T pr K V (some c0) k u).2.2.log, tarOffset c0 < tarOffset s.1) ∧
    ((saves (tarRun X T pr K V (some c0) k u).2.2.log).map (·.1)).Pairwise fun c d => tarOffset c ≤ tarOffset d := by
  obtain ⟨i0, o0, a0, _⟩ := tarSaved_at hT h0
  have h := tarRun_saves (V := V) hT X pr (some c0) k u (Qt := True) (fun _ => hq) (Or.inr ⟨c0, i0, rfl, a0⟩)
  refine ⟨fun s hs => ?_, h.sorted⟩
  obtain ⟨i, o, a, _, b⟩ := h.at_ s hs
  rw [a0.offset, a.offset]
  have := (b trivial).1
  omega

/-- **C47**, bound: a chain of resumed runs with such sources saves at most as often as the stream has bytes. -/
theorem C47_bounded_partial (hT : T.Law) {n : Nat} {c : ECkpt} (h : TarSaved Y clean Ck F T True n c) : n ≤ tarOffset c ∧ tarOffset c ≤ Y.length := by
  obtain ⟨i, o, a, b⟩ := tarSaved_at hT h
  rw [a.offset]
  have := b trivial
  obtain ⟨ms, h', R, z0, st0, e, d1, _⟩ := a
  obtain ⟨sck, _, hsck⟩ := d1.src
  refine ⟨by omega, ?_⟩
  have : ∃ X : TarSrc Y clean Ck F, True := by cases h <;> exact ⟨by assumption, trivial⟩
  obtain ⟨X, _⟩ := this
  have := X.L.ck_le ((X.family _ _).mpr hsck)
  omega

/-- **C48.** A successful uninterrupted run makes exactly one call for each directory, link and regular file of the
archive, in archive order, with the recorded name, kind, mode, size and link target, and none for any other member. -/
theorem C48_others_skipped (hT : T.Law) (X : TarSrc Y clean Ck F) (pr : Ckpt → Int × Int) (K : SinkM) (V : SaveCons) (k : K.St) (u : V.St)
    (res : List Entry) (h : (tarRun X T pr K V none k u).1 = .ok res) (ms : List (THdr × List Byte)) (hms : TarHas T clean Y ms) :
    (tarRun X T pr K V none k u).2.2.log.filterMap Ev.touched = (ms.filter fun m => m.1.typ ≠ .other).map fun m => m.1.recorded := by
  have hent : ∀ h : THdr, h.recorded = tarEntryOf h := by
    intro h; cases ht : h.typ <;> simp [THdr.recorded, tarEntryOf, ht]
  simp only [hent]
  let G : Members → List Ev → Prop := fun ms log => log.filterMap Ev.touched = (ms.filter fun m => m.1.typ ≠ .other).map fun m => tarEntryOf m.1
  have H : TarLogInv X.L T V False 0 G
      (fun ms h _ _ log => log.filterMap Ev.touched = ((ms.filter fun m => m.1.typ ≠ .other).map fun m => tarEntryOf m.1) ++ [tarEntryOf h]) (fun _ => True) := by
    refine ⟨fun _ _ _ => trivial, fun _ _ _ _ _ _ => trivial, ?_, ?_, ?_, ?_, ?_, ?_, ?_⟩
    · intro ms h z0 o o' log ev hl _ hp
      rw [List.filterMap_append, hl]
      cases ev <;> simp [Ev.plain, Ev.touched] at hp ⊢
    · intro ms log h hl ht
      refine ⟨?_, fun _ => trivial⟩
      have hl : log.filterMap Ev.touched = _ := hl
      simp only [G, List.filterMap_append, hl]
      simp [Ev.touched, ht]
    · intro ms log h hl ht
      refine ⟨?_, fun _ => trivial⟩
      have hl : log.filterMap Ev.touched = _ := hl
      simp only [G, List.filterMap_append, hl]
      simp [Ev.touched, ht]
    · intro ms log h hl ht
      have hl : log.filterMap Ev.touched = _ := hl
      simp only [G, hl]
      simp [ht]
    · intro ms log h z0 st0 hl hf
      refine ⟨?_, fun _ => trivial⟩
      have hl : log.filterMap Ev.touched = _ := hl
      simp only [List.filterMap_append, hl]
      simp [Ev.touched]
    · intro ms h z0 st0 o log ck R e a hl _ _ _ _ _
      rw [List.filterMap_append, hl]
      simp [Ev.touched]
    · intro ms h z0 st0 log p hl hf
      simp only [G, List.filterMap_append, hl]
      simp [Ev.touched, hf.2.1]
  obtain ⟨ms', h1, h2⟩ := (tarResume_log hT X.L H pr X.budget X.good (by simp) k u none (Or.inl ⟨by simp, rfl, rfl⟩)).2 res h
  rw [tarHas_det hms h1]; exact h2

/-- **C48**, the rest: dropping such members from an archive changes neither what is extracted nor what is listed. -/
theorem C48_no_effect {K : SinkM} (M : SinkLaw K) (ms : List (THdr × List Byte)) (v : M.W) :
    tarIdeal M ms v = tarIdeal M (ms.filter fun m => m.1.typ ≠ .other) v ∧ tarListed M ms = tarListed M (ms.filter fun m => m.1.typ ≠ .other) := by
  constructor
  · unfold tarIdeal
    induction ms generalizing v with
    | nil => rfl
    | cons m ms ih =>
      by_cases h : m.1.typ = .other
      · simp only [List.foldl_cons, List.filter_cons, h]
        simp only [ne_eq, not_true_eq_false, decide_false, Bool.false_eq_true, if_false]
        rw [← ih]
        simp [tarPut, h]
      · simp only [List.foldl_cons, List.filter_cons, h, ne_eq, not_false_eq_true, decide_true, if_true]
        exact ih _
  · unfold tarListed
    rw [List.filter_filter]
    congr 1
    apply List.filter_congr
    intro m _
    by_cases h : m.1.typ = .reg <;> simp [h]

/-- **C38** (tar). `ErrStop` is returned exactly when some save was answered with "stop" and no other error is reported;
then the last save is the one answered with "stop", and the only one. -/
theorem C38_tar_stop_iff (hT : T.Law) (X : TarSrc Y clean Ck F) (pr : Ckpt → Int × Int) (K : SinkM) (V : SaveCons) (ck : Option ECkpt)
    (hck : TarCanStart Y clean Ck F T ck) (k : K.St) (u : V.St) :
    ((tarRun X T pr K V ck k u).1 = .error .stop ↔
      (∃ c, (c, .ok .stop) ∈ saves (tarRun X T pr K V ck k u).2.2.log) ∧ ¬ ∃ x, x ≠ .stop ∧ (tarRun X T pr K V ck k u).1 = .error x) ∧
    ((tarRun X T pr K V ck k u).1 = .error .stop →
      ∃ c, (saves (tarRun X T pr K V ck k u).2.2.log).getLast? = some (c, .ok .stop)) ∧
    (∀ s ∈ (saves (tarRun X T pr K V ck k u).2.2.log).dropLast, ∀ c, s ≠ (c, .ok .stop)) := by
  obtain ⟨o0, hst⟩ := tarCanStart_from hT hck
  obtain ⟨h1, h2, h3⟩ := tarRun_stop (V := V) hT X pr ck k u hst
  have hlast : ∀ log, StopFits true log → ∃ l c, saves log = l ++ [(c, .ok .stop)] ∧ ∀ c, (c, .ok .stop) ∉ l := by
    intro log h; unfold StopFits at h; rw [if_pos rfl] at h; exact h
  refine ⟨⟨fun h => ?_, ?_⟩, fun h => ?_, ?_⟩
  · obtain ⟨l, c, e, _⟩ := hlast _ (h2 h).1
    exact ⟨⟨c, by rw [e]; simp⟩, by rintro ⟨x, hx, he⟩; rw [h] at he; cases he; exact hx rfl⟩
  · rintro ⟨⟨c, hc⟩, hn⟩
    cases hr : (tarRun X T pr K V ck k u).1 with
    | ok res => exact absurd hc (h1 res hr c)
    | error x =>
      by_cases hx : x = .stop
      · rw [hx]
      · exact absurd ⟨x, hx, hr⟩ hn
  · obtain ⟨l, c, e, _⟩ := hlast _ (h2 h).1
    exact ⟨c, by rw [e]; simp⟩
  · intro s hs c he
    subst he
    rcases h3 with h3 | h3
    · exact h3 c ((List.dropLast_subset _ hs))
    · obtain ⟨l, c', e, hl⟩ := hlast _ h3
      rw [e] at hs
      simp at hs
      exact hl c hs

/-- **C49** (tar), what holds: in every checkpoint handed to a save consumer by a chain of tar extractions, the source
checkpoint is for exactly the offset the tar reader had reached. Not covered: other checkpoints, where the code checks
nothing, see `C49_false_tar`. -/
theorem C49_tar_aligned_partial (hT : T.Law) {q : Prop} {n : Nat} {c : ECkpt} (h : TarSaved Y clean Ck F T q n c) :
    ∃ sc, c.srcCk = some sc ∧ sc.offset = tarOffset c := by
  obtain ⟨i, o, a, _⟩ := tarSaved_at hT h
  rw [a.offset]
  obtain ⟨ms, h', R, z0, st0, e, d1, _⟩ := a
  obtain ⟨sck, e1, hsck⟩ := d1.src
  have : ∃ X : TarSrc Y clean Ck F, True := by cases h <;> exact ⟨by assumption, trivial⟩
  obtain ⟨X, _⟩ := this
  exact ⟨sck, e1, X.L.ck_off ((X.family _ _).mpr hsck)⟩

/-- **C54** (tar). After a stopped run the checkpoint object that was passed to `Save` has lost everything it is resumed
by: resuming from the retained object is the same as extracting from the start. -/
theorem C54_tar_retained (hT : T.Law) (X : TarSrc Y clean Ck F) (pr : Ckpt → Int × Int) (K : SinkM) (V : SaveCons) (ck : Option ECkpt)
    (hck : TarCanStart Y clean Ck F T ck) (k : K.St) (u : V.St) (h : (tarRun X T pr K V ck k u).1 = .error .stop)
    (X' : TarSrc Y clean Ck F) (pr' : Ckpt → Int × Int) (K' : SinkM) (V' : SaveCons) (k' : K'.St) (u' : V'.St) :
    tarRun X' T pr' K' V' (some (tarRun X T pr K V ck k u).2.2.ck) k' u' = tarRun X' T pr' K' V' none k' u' := by
  obtain ⟨o0, hst⟩ := tarCanStart_from hT hck
  obtain ⟨_, h2, _⟩ := tarRun_stop (V := V) hT X pr ck k u hst
  obtain ⟨_, _, _, hd⟩ := h2 h
  generalize (tarRun X T pr K V ck k u).2.2.ck = c at hd
  unfold tarRun tarResume
  rw [tarResume_fresh, tarResume_fresh]
  · simp
  · intro c' hc R t
    cases hc
    rw [hd]; simp

/-- **C55** (tar), consumer: if `ShouldSave` never asks for a save and the source has none pending, nothing is saved and
the run is not stopped. -/
theorem C55_tar_never_saves (hT : T.Law) (X : TarSrc Y clean Ck F) (hq : X.L.Quiet X.src) (pr : Ckpt → Int × Int) (K : SinkM) (V : SaveCons)
    (hV : ∀ n u, (V.shouldSave n u).1 = false) (ck : Option ECkpt) (hck : TarCanStart Y clean Ck F T ck) (k : K.St) (u : V.St) :
    saves (tarRun X T pr K V ck k u).2.2.log = [] ∧ (tarRun X T pr K V ck k u).1 ≠ .error .stop := by
  obtain ⟨o0, hst⟩ := tarCanStart_from hT hck
  have h := tarRun_saves (V := V) hT X pr ck k u (Qt := True) (fun _ => hq) hst
  have hnil : saves (tarRun X T pr K V ck k u).2.2.log = [] := by
    rw [List.eq_nil_iff_forall_not_mem]
    intro s hs
    obtain ⟨_, _, _, _, b⟩ := h.at_ s hs
    obtain ⟨_, n, v, hv⟩ := b trivial
    rw [hV] at hv; cases hv
  refine ⟨hnil, fun hs => ?_⟩
  obtain ⟨c, hc⟩ := ((C38_tar_stop_iff hT X pr K V ck hck k u).1.mp hs).1
  rw [hnil] at hc; cases hc

end

section
variable {Y : List Byte} {Ck : Ckpt → Nat → Prop} {F : Nat} {T : TarFmt}

theorem tarStops_from {K : SinkM} (hT : T.Law) (M : SinkLaw K) {k0 : K.St} {ck : Option ECkpt} {k : K.St} (h : TarStops Y true Ck F T K none k0 ck k) :
    (∃ o0, TarFrom T true Y Ck ck o0) ∧ ∀ c e, ck = some c → c.entry = some e → 0 ≤ e.woff := by
  obtain ⟨_, b⟩ := tarStops_ok hT M h
  cases ck with
  | none => exact ⟨⟨0, Or.inl ⟨rfl, rfl⟩⟩, by simp⟩
  | some c =>
    obtain ⟨ms, h, z0, st0, os, o, b1, b2, b3, b4⟩ := b c rfl
    refine ⟨⟨os, Or.inr ⟨c, ms.length, rfl, ms, h, _, z0, st0, _, b3, ⟨_, rfl⟩, rfl⟩⟩, ?_⟩
    intro c' e hc he
    cases hc
    rw [b3.entry] at he
    cases he
    simp only [tarEntryAt]
    split <;> omega

/-- **C57.** In a healthy environment — the stream is a complete archive, sources do not fail or refuse their own
checkpoints, the sink works, the consumer does not fail, tar checkpoints can be made and restored — an extraction, fresh
or resumed after any number of stops, succeeds or was asked to stop; it succeeds if the consumer never says "stop". -/
theorem C57_tar_healthy (hT : T.Law) (hX : T.Exact) (ms : List (THdr × List Byte)) (hY : TarHas T true Y ms) (hF : Y.length + 3 ≤ F)
    {K : SinkM} (M : SinkLaw K) (G : GoodSink K) (k0 : K.St) (ck : Option ECkpt) (k : K.St) (hstops : TarStops Y true Ck F T K none k0 ck k) (hk : G.OK k)
    (X : TarSrc Y true Ck F) (hh : X.Healthy) (pr : Ckpt → Int × Int) (V : SaveCons) (hV : V.Good) (u : V.St) :
    ((∃ res, (tarRun X T pr K V ck k u).1 = .ok res) ∨ (tarRun X T pr K V ck k u).1 = .error .stop) ∧
    ((∀ c u, (V.save c u).1 ≠ .ok .stop) → ∃ res, (tarRun X T pr K V ck k u).1 = .ok res) := by
  obtain ⟨⟨o0, hfrom⟩, hw⟩ := tarStops_from hT M hstops
  have h := (tarRun_good hT hX hY X hh hF pr G hV ck k hk u hfrom hw).1
  refine ⟨h, fun hn => ?_⟩
  rcases h with h | h
  · exact h
  · exfalso
    have h2 := ((tarRun_stop (V := V) hT X pr ck k u hfrom).2.1 h).1
    unfold StopFits at h2
    rw [if_pos rfl] at h2
    obtain ⟨l, c, e, _⟩ := h2
    obtain ⟨v, hv⟩ := (tarRun_saves (V := V) hT X pr ck k u (Qt := False) (by simp) hfrom).answer (c, .ok .stop) (by rw [e]; simp)
    exact hn c v hv

/-- **C57**, stop/resume loops: resumed from the last checkpoint saved whenever it reports to have been stopped — with a
new source each time — a tar extraction succeeds after at most as many runs as the stream has bytes, plus one, with the
sink in exactly the state described by the archive, however often the consumer says "stop" and whether or not the process
is restarted in between. -/
theorem C57_tar_loop (hT : T.Law) (hX : T.Exact) (ms : List (THdr × List Byte)) (hY : TarHas T true Y ms) (hF : Y.length + 3 ≤ F)
    {K : SinkM} (M : SinkLaw K) (G : GoodSink K) (k0 : K.St) (hk : G.OK k0)
    (Xs : Nat → TarSrc Y true Ck F) (hh : ∀ n, (Xs n).Healthy) (hq : ∀ n, (Xs n).L.Quiet (Xs n).src) (pr : Ckpt → Int × Int)
    (V : SaveCons) (hV : V.Good) (us : Nat → V.St) (anew : Nat → Bool) (n : Nat) (hn : Y.length < n) :
    (tarDrive Xs T pr K V us anew n none k0).1 = .ok (tarListed M ms) ∧ M.view (tarDrive Xs T pr K V us anew n none k0).2 = tarIdeal M ms (M.view k0) := by
  have key : ∀ n m ck k, Y.length < n + m → TarStops Y true Ck F T K none k0 ck k → G.OK k →
      (ck = none ∧ m = 0 ∨ ∃ c, ck = some c ∧ TarSaved Y true Ck F T True m c) →
      (tarDrive Xs T pr K V us anew n ck k).1 = .ok (tarListed M ms) ∧ M.view (tarDrive Xs T pr K V us anew n ck k).2 = tarIdeal M ms (M.view k0) := by
    intro n
    induction n with
    | zero =>
      intro m ck k hlt _ _ hc
      exfalso
      rcases hc with ⟨_, h⟩ | ⟨c, _, h⟩
      · omega
      · have := C47_bounded_partial hT h
        omega
    | succ n ih =>
      intro m ck k hlt hstops hok hc
      obtain ⟨⟨o0, hfrom⟩, hw⟩ := tarStops_from hT M hstops
      obtain ⟨hg, hok'⟩ := tarRun_good hT hX hY (Xs n) (hh n) hF pr G hV ck k hok (us n) hfrom hw
      unfold tarDrive
      rcases hg with ⟨res, h⟩ | h
      · rw [h]
        obtain ⟨a, b⟩ := tarStops_ok hT M hstops
        obtain ⟨ms', h1, h2, h3⟩ := (tarRun_ok hT M (M.view k0) (Xs n) pr ck k (us n) a b).1 res h
        rw [tarHas_det hY h1]
        exact ⟨by rw [h3], h2⟩
      · rw [h]
        obtain ⟨a, b⟩ := tarStops_ok hT M hstops
        obtain ⟨c, hlast, _⟩ := (tarRun_ok hT M (M.view k0) (Xs n) pr ck k (us n) a b).2 h
        simp only [hlast, Option.some_or]
        have hmem : ∃ a, (c, a) ∈ saves (tarRun (Xs n) T pr K V ck k (us n)).2.2.log := by
          unfold lastSave at hlast
          cases hl : (saves (tarRun (Xs n) T pr K V ck k (us n)).2.2.log).getLast? with
          | none => rw [hl] at hlast; cases hlast
          | some s =>
            rw [hl] at hlast
            simp only [Option.map_some, Option.some.injEq] at hlast
            exact ⟨s.2, by rw [← hlast]; exact List.mem_of_getLast? hl⟩
        obtain ⟨ans, hmem⟩ := hmem
        refine ih (m + 1) (some c) _ (by omega) (TarStops.step (Xs n) pr V (us n) hstops h hlast (K.next_spec _ _)) (G.next _ hok') (Or.inr ⟨c, rfl, ?_⟩)
        rcases hc with ⟨h1, h2⟩ | ⟨c', h1, h2⟩
        · subst h1; subst h2
          exact TarSaved.first (Xs n) pr K V k (us n) (fun _ => hq n) hmem
        · subst h1
          exact TarSaved.again (Xs n) pr K V k (us n) (fun _ => hq n) h2 hmem
  exact key n 0 none k0 (by omega) TarStops.refl hk (Or.inl ⟨rfl, rfl⟩)

end
end Savior
