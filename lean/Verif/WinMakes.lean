import Verif.Spec.WinMakes
import Verif.WinDisk
import Verif.Makes
import Verif.WinBystander
/-!
# Extractions make nothing else on Windows
-/

namespace Savior
open FSink

theorem winMade_kind (k : Kind) : winMade k = winKind k := by cases k <;> rfl

theorem getWriterW_newer (w : WCfg) (e : Entry) (s : FSink) (ht : s.os.fs.Tree) : Newer s.os.fs (s.getWriterW w e).2.os.fs := by
  unfold getWriterW
  split
  · exact .refl _
  have hc := createFileW_newer w e s.os ht
  generalize createFileW w e s.os = c at *
  obtain ⟨ce, C⟩ := c
  cases ce with
  | error x => exact hc
  | ok i =>
    simp only at hc ⊢
    have tn : (C.truncate w.flt i e.woff).2.fs.nodes = C.fs.nodes ∧ (C.truncate w.flt i e.woff).2.fs.next = C.fs.next := by
      rcases truncate_cases w.flt i e.woff C with ⟨x, _, t2⟩ | ⟨_, _, t2⟩ <;> rw [t2] <;> exact ⟨rfl, rfl⟩
    generalize C.truncate w.flt i e.woff = t at *
    obtain ⟨te, T⟩ := t
    simp only at tn
    cases te with
    | some x => exact hc.same tn.1 tn.2
    | none =>
      simp only
      rw [(close_fs w.toFCfg { s with os := T }).1]
      exact hc.same tn.1 tn.2

theorem symlinkW_newer (w : WCfg) (e : Entry) (t : Str) (s : FSink) (ht : s.os.fs.Tree) : Newer s.os.fs (s.symlinkW w e t).2.os.fs := by
  unfold symlinkW
  split
  · exact .refl _
  simp only
  have g := getWriterW_newer w e s ht
  generalize s.getWriterW w e = g' at *
  obtain ⟨ge, G⟩ := g'
  cases ge with
  | some x => exact g
  | none =>
    simp only at g ⊢
    rw [(closeAt_fs w.toFCfg _ _).1]
    obtain ⟨q1, _, q3⟩ := (writer_quiet w.toFCfg G).1 (G.ws.length - 1) t
    exact g.same q1 q3

section
variable {S : Path → Kind → Prop}

theorem createFileW_makes (hS : Planned S) {w : WCfg} {e : Entry} {s : OS} (h : DiskOK S s.fs) {dst : Str} (hd : w.destPath e.path = .ok dst) {Q : Path}
    (hq : w.names dst = Q) (hQ : S Q .file) : Makes Q .file s.fs (createFileW w e s).2.fs := by
  unfold createFileW
  simp only [hd, hq]
  obtain ⟨m1, _, _⟩ := h.mkdirAll w.flt Q.dropLast Q
  have hm := above_makes hS hQ h w.flt
  generalize s.mkdirAll w.flt Q.dropLast = m at *
  obtain ⟨me, M⟩ := m
  simp only at m1 hm ⊢
  cases me with
  | some x => exact hm
  | none =>
    simp only
    have dl : DiskOK S (dropLink w.flt Q M).2.fs ∧ Makes Q .file s.fs (dropLink w.flt Q M).2.fs ∧
        ((dropLink w.flt Q M).1 = none → ∀ t, (dropLink w.flt Q M).2.fs.nodes Q ≠ some (.link t)) := by
      unfold dropLink
      split
      · rename_i q t hlst
        obtain ⟨rfl, hn⟩ := m1.found hS hQ hlst
        obtain ⟨r1, _, r3⟩ := m1.removeAll hS w.flt hQ (by simp)
        refine ⟨r1, hm.trans (removeAll_makes _ _ _ _ _), fun hok t ht => ?_⟩
        rw [r3 hok] at ht; cases ht
      · rename_i hno
        exact ⟨m1, hm, fun _ t ht => hno Q t (lstat_node m1.tree (hS.ord Q .file hQ) ht)⟩
    generalize dropLink w.flt Q M = r at *
    obtain ⟨re, R⟩ := r
    simp only at dl ⊢
    obtain ⟨r1, r2, r3⟩ := dl
    cases re with
    | some x => exact r2
    | none =>
      simp only
      have o1 := r2.trans (open_makes hS r1 hQ (r3 rfl) w.flt w.umask (fileMode e))
      generalize R.openCreate w.flt w.umask Q (fileMode e) = o at *
      obtain ⟨oe, O⟩ := o
      cases oe <;> exact o1

theorem preallocateW_makes (hS : Planned S) {w : WCfg} {e : Entry} {s : FSink} (h : DiskOK S s.os.fs) {dst : Str} (hd : w.destPath e.path = .ok dst) {Q : Path}
    (hq : w.names dst = Q) (hQ : S Q .file) : Makes Q .file s.os.fs (s.preallocateW w e).2.os.fs := by
  unfold preallocateW
  split
  · exact .refl _ _ _
  have hc := createFileW_makes hS h hd hq hQ
  generalize createFileW w e s.os = c at *
  obtain ⟨ce, C⟩ := c
  cases ce with
  | error x => exact hc
  | ok i =>
    simp only at hc ⊢
    rw [quietCall_fs]
    split
    · split
      · obtain ⟨k, hf, _⟩ := legacy_cases w.toFCfg i e.usize C
        rw [hf]; exact hc.same rfl
      · rcases ox_cases w.toFCfg i e.usize C with ⟨hf, _⟩ | ⟨hf, _⟩
        · rw [hf]; exact hc
        · rw [hf]; exact hc.same rfl
    · exact hc

theorem getWriterW_makes (hS : Planned S) {w : WCfg} {e : Entry} {s : FSink} (h : DiskOK S s.os.fs) {dst : Str} (hd : w.destPath e.path = .ok dst) {Q : Path}
    (hq : w.names dst = Q) (hQ : S Q .file) : Makes Q .file s.os.fs (s.getWriterW w e).2.os.fs := by
  unfold getWriterW
  split
  · exact .refl _ _ _
  have hc := createFileW_makes hS h hd hq hQ
  generalize createFileW w e s.os = c at *
  obtain ⟨ce, C⟩ := c
  cases ce with
  | error x => exact hc
  | ok i =>
    simp only at hc ⊢
    have tn : (C.truncate w.flt i e.woff).2.fs.nodes = C.fs.nodes := by
      rcases truncate_cases w.flt i e.woff C with ⟨x, _, t2⟩ | ⟨_, _, t2⟩ <;> rw [t2] <;> rfl
    generalize C.truncate w.flt i e.woff = t at *
    obtain ⟨te, T⟩ := t
    simp only at tn
    cases te with
    | some x => exact hc.same tn
    | none =>
      simp only
      have hcl := close_fs w.toFCfg { s with os := T }
      generalize FSink.close w.toFCfg { s with os := T } = cl at *
      obtain ⟨cle, CL⟩ := cl
      simp only at hcl ⊢
      rw [hcl.1]
      exact hc.same tn

theorem mkdirW_makes (hS : Planned S) {w : WCfg} {e : Entry} {s : FSink} (hi : shouldIgnore e.path = false) (h : DiskOK S s.os.fs) {dst : Str}
    (hd : w.destPath e.path = .ok dst) {Q : Path} (hq : w.names dst = Q) (hQ : S Q .dir) : Makes Q .dir s.os.fs (s.mkdirW w e).2.os.fs := by
  unfold mkdirW
  simp only [hi, Bool.false_eq_true, if_false, hd, hq]
  cases hlst : s.os.fs.lstat Q with
  | absent q =>
    exact here_makes hS hQ h (by
      intro t ht
      rw [lstat_node h.tree (hS.ord Q .dir hQ) ht] at hlst; cases hlst) w.flt
  | bad x =>
    exact here_makes hS hQ h (by
      intro t ht
      rw [lstat_node h.tree (hS.ord Q .dir hQ) ht] at hlst; cases hlst) w.flt
  | found q n =>
    obtain ⟨rfl, hn⟩ := h.found hS hQ hlst
    have other : Makes q .dir s.os.fs (match (s.os.remove w.flt q).1 with
          | some x => (some (Err.wrapped x), ({ s with os := (s.os.remove w.flt q).2 } : FSink))
          | none => (((s.os.remove w.flt q).2.mkdirAll w.flt q).1.map Err.wrapped, { s with os := ((s.os.remove w.flt q).2.mkdirAll w.flt q).2 })).2.os.fs := by
      obtain ⟨r1, _, r3⟩ := h.remove hS w.flt hQ
      have hr := remove_makes q .dir w.flt q s.os
      generalize s.os.remove w.flt q = r at *
      obtain ⟨re, R⟩ := r
      simp only at r1 r3 hr
      cases re with
      | some x => exact hr
      | none => exact hr.trans (here_makes hS hQ r1 (by intro t ht; rw [r3 rfl] at ht; cases ht) w.flt)
    cases n with
    | dir => exact .refl _ _ _
    | file i => exact other
    | link t => exact other

theorem symlinkW_makes (hS : Planned S) {w : WCfg} {e : Entry} {t : Str} {s : FSink} (h : DiskOK S s.os.fs) {dst : Str}
    (hd : w.destPath e.path = .ok dst) {Q : Path} (hq : w.names dst = Q) (hQ : S Q .file) : Makes Q .file s.os.fs (s.symlinkW w e t).2.os.fs := by
  unfold symlinkW
  split
  · exact .refl _ _ _
  simp only
  have g := getWriterW_makes hS h hd hq hQ
  generalize s.getWriterW w e = g' at *
  obtain ⟨ge, G⟩ := g'
  cases ge with
  | some x => exact g
  | none =>
    simp only at g ⊢
    rw [(closeAt_fs w.toFCfg _ _).1]
    exact g.same ((writer_quiet w.toFCfg G).1 (G.ws.length - 1) t).1

end

section
variable {w : WCfg} {V : Str} {B : Path} {plan : List (Str × Kind)} {fs0 : FS}

/-- A disk on which nothing is but what was there and what members account for. -/
structure MadeW (w : WCfg) (plan : List (Str × Kind)) (fs0 : FS) (s : FSink) : Prop where
  disk : DiskOK (PlanPlaceW w plan) s.os.fs
  only : MadeOnlyForW w plan fs0 s.os.fs
  newer : Newer fs0 s.os.fs

/-- What the calls of an extraction make: members, and folders above them. -/
theorem calls_makeW (hB : w.Base V B) (hq : w.Qualifies) (hf : w.FoldOK) (hind : w.Independent plan) {tidy b : Bool} {k s : (winSink w).St} {log : List Ev}
    (h : Calls (winSink w) tidy k b log s) (hk : MadeW w plan fs0 k) (ha : AboutOK (fun e => (e.path, e.kind) ∈ plan) log) : MadeW w plan fs0 s := by
  have hS : Planned (PlanPlaceW w plan) := plannedW hB hq hf hind
  have sub : ∀ {l : List Ev} {ev : Ev}, AboutOK (fun e => (e.path, e.kind) ∈ plan) (l ++ [ev]) → AboutOK (fun e => (e.path, e.kind) ∈ plan) l :=
    fun h ev hm => h ev (List.mem_append_left _ hm)
  have lastOne : ∀ {l : List Ev} {ev : Ev}, AboutOK (fun e => (e.path, e.kind) ∈ plan) (l ++ [ev]) → ∀ kd e, ev.about = some (kd, e) → e.kind = kd ∧ (e.path, e.kind) ∈ plan :=
    fun h => h _ (List.mem_append_right _ (List.mem_singleton.2 rfl))
  have place : ∀ {e : Entry} {kk : Kind} {dst : Str}, shouldIgnore e.path = false → w.destPath e.path = .ok dst → e.kind = kk ∧ (e.path, e.kind) ∈ plan →
      PlanPlaceW w plan (w.names dst) (winKind kk) := by
    intro e kk dst hi hd hp
    exact ⟨_, kk, hp.1 ▸ hp.2, hi, placeOf_ok hd, rfl⟩
  have step : ∀ {s s' : FSink} {Q : Path} {kk : Kind}, MadeW w plan fs0 s → DiskOK (PlanPlaceW w plan) s'.os.fs → PlanPlaceW w plan Q kk → Makes Q kk s.os.fs s'.os.fs →
      Newer s.os.fs s'.os.fs → MadeW w plan fs0 s' := by
    intro s s' Q kk h hd hQ hm hnew
    refine ⟨hd, fun L n hn => ?_, h.newer.trans hnew⟩
    obtain ⟨p, kp, h1, h2, h3, rfl⟩ := hQ
    rcases hm L n hn with g | ⟨g1, g2⟩ | g
    · exact h.only L n g
    · exact Or.inr ⟨_, h1, h2, Q, h3, Or.inl ⟨g1, by rw [winMade_kind]; exact g2⟩⟩
    · exact Or.inr ⟨_, h1, h2, Q, h3, Or.inr g⟩
  have quiet : ∀ {s s' : FSink}, MadeW w plan fs0 s → s'.os.fs.nodes = s.os.fs.nodes → s'.os.fs.next = s.os.fs.next → MadeW w plan fs0 s' := by
    intro s s' h hn hx
    refine ⟨h.disk.same hn hx, fun L n hL => h.only L n (by rw [← hn]; exact hL), h.newer.same hn hx⟩
  have opened : ∀ (e : Entry) (s : FSink), MadeW w plan fs0 s → e.kind = .file ∧ (e.path, e.kind) ∈ plan → MadeW w plan fs0 (s.getWriterW w e).2 := by
    intro e s ih hp
    cases hi : shouldIgnore e.path with
    | true => rw [getWriterW_ignored (s := s) hi]; exact ⟨ih.disk, ih.only, ih.newer⟩
    | false =>
      cases hd : w.destPath e.path with
      | error x => rw [getWriterW_refused (s := s) hi hd]; exact ih
      | ok dst =>
        have hQ := place hi hd hp
        exact step ih (getWriterW_disk hS hi ih.disk hd rfl hQ).1 hQ (getWriterW_makes hS ih.disk hd rfl hQ) (getWriterW_newer w e s ih.disk.tree)
  induction h with
  | start => exact hk
  | note ev _ _ ih => exact ih (sub ha)
  | @prealloc b l s e _ ih =>
    have ih := ih (sub ha)
    show MadeW w plan fs0 (FSink.preallocateW w e s).2
    cases hi : shouldIgnore e.path with
    | true => unfold preallocateW; rw [hi]; exact ih
    | false =>
      cases hd : w.destPath e.path with
      | error x =>
        unfold preallocateW
        simp only [hi, Bool.false_eq_true, if_false]
        rw [createFileW_refused hd]; exact ih
      | ok dst =>
        have hQ := place hi hd (lastOne ha .file e rfl)
        exact step ih (preallocateW_disk hS ih.disk hd rfl hQ) hQ (preallocateW_makes hS ih.disk hd rfl hQ) (preallocateW_newer w e s ih.disk.tree)
  | @mkdir b l s e _ ih =>
    have ih := ih (sub ha)
    show MadeW w plan fs0 (FSink.mkdirW w e s).2
    cases hi : shouldIgnore e.path with
    | true => unfold mkdirW; rw [hi]; exact ih
    | false =>
      cases hd : w.destPath e.path with
      | error x => unfold mkdirW; rw [hi, hd]; exact ih
      | ok dst =>
        have hQ := place hi hd (lastOne ha .dir e rfl)
        exact step ih (mkdirW_disk hS hi ih.disk hd rfl hQ).1 hQ (mkdirW_makes hS hi ih.disk hd rfl hQ) (mkdirW_newer w e s ih.disk.tree)
  | @symlink b l s e t _ ih =>
    have ih := ih (sub ha)
    show MadeW w plan fs0 (FSink.symlinkW w e t s).2
    cases hi : shouldIgnore e.path with
    | true => unfold symlinkW; rw [hi]; exact ih
    | false =>
      cases hd : w.destPath e.path with
      | error x => rw [symlinkW_refused (s := s) hi hd]; exact ih
      | ok dst =>
        have hQ := place hi hd (lastOne ha .symlink e rfl)
        exact step ih (symlinkW_disk hS hi ih.disk hd rfl hQ).1 hQ (symlinkW_makes hS ih.disk hd rfl hQ) (symlinkW_newer w e t s ih.disk.tree)
  | @opened b l s e _ _ hg ih => exact opened e s (ih (sub ha)) (lastOne ha .file e rfl)
  | @refused b l s e x _ _ hg ih => exact opened e s (ih (sub ha)) (lastOne ha .file e rfl)
  | @write l s bs _ ih =>
    obtain ⟨w1, _, w3⟩ := (writer_quiet w.toFCfg s).1 ((FSink.ws s).length - 1) bs
    exact quiet (s' := (FSink.writeAt w.toFCfg ((FSink.ws s).length - 1) bs s).2) (ih (sub ha)) w1 w3
  | @sync l s _ ih =>
    have g := (writer_quiet w.toFCfg s).2.1 ((FSink.ws s).length - 1)
    exact quiet (s' := (FSink.syncAt w.toFCfg ((FSink.ws s).length - 1) s).2) (ih (sub ha)) (by rw [g]) (by rw [g])
  | @close l s _ ih =>
    have g := (writer_quiet w.toFCfg s).2.2 ((FSink.ws s).length - 1)
    exact quiet (s' := (FSink.closeAt w.toFCfg ((FSink.ws s).length - 1) s).2) (ih ha) (by rw [g]) (by rw [g])

end
end Savior
