import Verif.WinOps
/-!
# FolderSink on Windows: every operation is a sequence of contained changes, none of which makes a link
-/

namespace Savior
namespace FSink
variable {V : Str} {B : Path} {fs0 : FS} {top : Prop}

/-- Nowhere. -/
abbrev NoPath : Path → Prop := fun _ => False

theorem createFileW_steps {w : WCfg} (hB : w.Base V B) (hq : w.Qualifies) (hf : w.FoldOK) (e : Entry) (s : OS) (h : Inside (w.place V B) fs0 s.fs) :
    Steps (w.place V B) (fs0.Outside (w.place V B)) top NoPath s.fs (createFileW w e s).2.fs ∧
    ∀ i, (createFileW w e s).1 = .ok i → ¬ fs0.Outside (w.place V B) i := by
  unfold createFileW
  cases hd : w.destPath e.path with
  | error x => exact ⟨.refl _, fun i hi => by cases hi⟩
  | ok dst =>
    obtain ⟨N, ho, h3⟩ := destW_place hB hq hf hd
    simp only [h3]
    generalize w.place V B = P at *
    have hod : AllOrd (P ++ N).dropLast := fun x hx => ho x (List.dropLast_subset _ hx)
    have hm := mkdirAll_steps (top := top) (lk := NoPath) w.flt hod (dropLast_rel P N) s h
    generalize s.mkdirAll w.flt (P ++ N).dropLast = m at *
    obtain ⟨m1, m2⟩ := m
    simp only at hm ⊢
    have h2 := h.steps hm
    cases m1 with
    | some x => exact ⟨hm, fun i hi => by cases hi⟩
    | none =>
      simp only
      have rest : ∀ (r2 : OS), Steps P (fs0.Outside P) top NoPath s.fs r2.fs →
          Steps P (fs0.Outside P) top NoPath s.fs (match (r2.openCreate w.flt w.umask (P ++ N) (fileMode e)).1 with
            | .error x => ((.error (.wrapped x), (r2.openCreate w.flt w.umask (P ++ N) (fileMode e)).2) : Except Err Nat × OS)
            | .ok i => (.ok i, (r2.openCreate w.flt w.umask (P ++ N) (fileMode e)).2)).2.fs ∧
          ∀ i, (match (r2.openCreate w.flt w.umask (P ++ N) (fileMode e)).1 with
            | .error x => ((.error (.wrapped x), (r2.openCreate w.flt w.umask (P ++ N) (fileMode e)).2) : Except Err Nat × OS)
            | .ok i => (.ok i, (r2.openCreate w.flt w.umask (P ++ N) (fileMode e)).2)).1 = .ok i → ¬ fs0.Outside P i := by
        intro r2 hr
        have h3 := h.steps hr
        have ins := stat_inside h3.good ho (List.prefix_append P N)
        have oc := OS.openCreate_cases w.flt w.umask (P ++ N) (fileMode e) r2
        generalize r2.openCreate w.flt w.umask (P ++ N) (fileMode e) = o at oc ⊢
        obtain ⟨o1, o2⟩ := o
        simp only at oc ⊢
        rcases oc with ⟨x, a, b⟩ | ⟨q, j, a, b, d⟩ | ⟨q, a, b, d⟩
        · subst a; simp only; rw [b]; exact ⟨hr, fun i hi => by cases hi⟩
        · subst b
          simp only
          have hj : ¬ fs0.Outside P j := h3.sep q j (ins.1 q _ a) (FS.stat_real h3.tree a)
          exact ⟨by rw [d]; exact hr, fun i hi => by cases hi; exact hj⟩
        · subst b
          simp only
          have hj : ¬ fs0.Outside P r2.fs.next := fun hx => by have := h3.next _ hx; omega
          obtain ⟨hn, hp⟩ := FS.stat_absent h3.tree a
          refine ⟨?_, fun i hi => by cases hi; exact hj⟩
          rw [d]
          exact .step hr (.create q _ hn hp (ins.2 q a))
      have hr : Steps P (fs0.Outside P) top NoPath s.fs (dropLink w.flt (P ++ N) m2).2.fs := by
        unfold dropLink
        split
        · rename_i q t hl
          have ins := lstat_inside h2.good ho (List.prefix_append P N)
          refine hm.trans (removeAll_steps w.flt (p := P ++ N) m2 (by
            intro q' n' hq'
            refine ⟨ins.1 q' n' hq', fun e => Or.inr ?_⟩
            rw [hl] at hq'
            simp only [WR.found.injEq] at hq'
            rw [← e, ← hq'.1, FS.lstat_real h2.tree hl]
            simp))
        · exact hm
      generalize dropLink w.flt (P ++ N) m2 = r at hr ⊢
      obtain ⟨r1, r2⟩ := r
      simp only at hr ⊢
      cases r1 with
      | some x => exact ⟨hr, fun i hi => by cases hi⟩
      | none => exact rest r2 hr

theorem mkdirW_steps {w : WCfg} (hB : w.Base V B) (hq : w.Qualifies) (hf : w.FoldOK) (e : Entry) (s : FSink) (h : Inside (w.place V B) fs0 s.os.fs) :
    Steps (w.place V B) (fs0.Outside (w.place V B)) top NoPath s.os.fs (s.mkdirW w e).2.os.fs ∧ (s.mkdirW w e).2.ws = s.ws := by
  unfold mkdirW
  split
  · exact ⟨.refl _, rfl⟩
  cases hd : w.destPath e.path with
  | error x => exact ⟨.refl _, rfl⟩
  | ok dst =>
    obtain ⟨N, ho, h3⟩ := destW_place hB hq hf hd
    simp only [h3]
    generalize w.place V B = P at *
    have ins := lstat_inside h.good ho (List.prefix_append P N)
    have mk : ∀ s' : OS, Steps P (fs0.Outside P) top NoPath s.os.fs s'.fs → Steps P (fs0.Outside P) top NoPath s.os.fs (s'.mkdirAll w.flt (P ++ N)).2.fs :=
      fun s' hs' => hs'.trans (mkdirAll_steps w.flt ho (Or.inl (List.prefix_append P N)) s' (h.steps hs'))
    split
    · exact ⟨.refl _, rfl⟩
    · rename_i q n hnd hl
      have hr : Steps P (fs0.Outside P) top NoPath s.os.fs (s.os.remove w.flt (P ++ N)).2.fs := by
        rcases OS.remove_cases w.flt (P ++ N) s.os with ⟨_, _, b⟩ | ⟨q', n', a, b, _, d⟩
        · rw [b]; exact .refl _
        · rw [d]
          have hreal := FS.lstat_real h.tree a
          refine .one (.cut q' (ins.1 _ _ a) ?_ (fun e => Or.inr ?_))
          · rintro rfl; rw [h.tree.1] at hreal; cases hreal; exact b rfl
          · rw [← e, hreal]; simpa using b
      generalize s.os.remove w.flt (P ++ N) = r at hr ⊢
      obtain ⟨r1, r2⟩ := r
      cases r1 with
      | some x => exact ⟨hr, rfl⟩
      | none => exact ⟨mk r2 hr, rfl⟩
    · exact ⟨mk s.os (.refl _), rfl⟩

theorem tidy_app {prot : Nat → Prop} {l : List Wr} {x : Wr} (hl : ∀ (k i o : Nat) (b : Bool), l[k]? = some (Wr.real i o b) → ¬ prot i)
    (hx : ∀ i o b, x = Wr.real i o b → ¬ prot i) : ∀ (k i o : Nat) (b : Bool), (l ++ [x])[k]? = some (Wr.real i o b) → ¬ prot i := by
  intro k i o b hk
  rw [List.getElem?_append] at hk
  split at hk
  · exact hl _ _ _ _ hk
  · cases hkk : k - l.length with
    | zero => rw [hkk] at hk; simp at hk; exact hx _ _ _ hk
    | succ n => rw [hkk] at hk; simp at hk

theorem getWriterW_steps {w : WCfg} (hB : w.Base V B) (hq : w.Qualifies) (hf : w.FoldOK) (e : Entry) (s : FSink) (h : Inside (w.place V B) fs0 s.os.fs)
    (ht : s.Tidy (fs0.Outside (w.place V B))) :
    Steps (w.place V B) (fs0.Outside (w.place V B)) top NoPath s.os.fs (s.getWriterW w e).2.os.fs ∧ (s.getWriterW w e).2.Tidy (fs0.Outside (w.place V B)) := by
  unfold getWriterW
  split
  · exact ⟨.refl _, tidy_app ht (by intro i o b hh; cases hh)⟩
  obtain ⟨c1, c2⟩ := createFileW_steps (top := top) hB hq hf e s.os h
  simp only
  generalize createFileW w e s.os = c at c1 c2 ⊢
  obtain ⟨ca, cb⟩ := c
  simp only at c1 c2 ⊢
  cases ca with
  | error x => exact ⟨c1, ht⟩
  | ok i =>
    simp only
    have hi := c2 i rfl
    have hts : Steps (w.place V B) (fs0.Outside (w.place V B)) top NoPath s.os.fs (cb.truncate w.flt i e.woff).2.fs := by
      rcases truncate_cases w.flt i e.woff cb with ⟨_, _, b⟩ | ⟨_, _, b⟩
      · rw [b]; exact c1
      · rw [b]; exact .step c1 (.data i _ hi)
    generalize cb.truncate w.flt i e.woff = t at hts ⊢
    obtain ⟨t1, t2⟩ := t
    cases t1 with
    | some x => exact ⟨hts, ht⟩
    | none =>
      simp only at hts ⊢
      refine ⟨by rw [(close_fs w.toFCfg _).1]; exact hts, ?_⟩
      have := close_tidy (prot := fs0.Outside (w.place V B)) w.toFCfg (s := { s with os := t2 }) ht
      exact tidy_app this (by intro i' o b hh; simp only [Wr.real.injEq] at hh; rw [← hh.1]; exact hi)

theorem preallocateW_steps {w : WCfg} (hB : w.Base V B) (hq : w.Qualifies) (hf : w.FoldOK) (e : Entry) (s : FSink) (h : Inside (w.place V B) fs0 s.os.fs) :
    Steps (w.place V B) (fs0.Outside (w.place V B)) top NoPath s.os.fs (s.preallocateW w e).2.os.fs ∧ (s.preallocateW w e).2.ws = s.ws := by
  unfold preallocateW
  split
  · exact ⟨.refl _, rfl⟩
  obtain ⟨c1, c2⟩ := createFileW_steps (top := top) hB hq hf e s.os h
  simp only
  generalize createFileW w e s.os = c at c1 c2 ⊢
  obtain ⟨ca, cb⟩ := c
  simp only at c1 c2 ⊢
  cases ca with
  | error x => exact ⟨c1, rfl⟩
  | ok i =>
    simp only [quietCall_fs]
    refine ⟨?_, trivial⟩
    have hi := c2 i rfl
    split
    · split
      · obtain ⟨k, a, _⟩ := legacy_cases w.toFCfg i e.usize cb
        rw [a]; exact .step c1 (.data i _ hi)
      · rcases ox_cases w.toFCfg i e.usize cb with ⟨a, _⟩ | ⟨a, _⟩
        · rw [a]; exact c1
        · rw [a]; exact .step c1 (.data i _ hi)
    · exact c1

theorem symlinkW_steps {w : WCfg} (hB : w.Base V B) (hq : w.Qualifies) (hf : w.FoldOK) (e : Entry) (t : Str) (s : FSink)
    (h : Inside (w.place V B) fs0 s.os.fs) (ht : s.Tidy (fs0.Outside (w.place V B))) :
    Steps (w.place V B) (fs0.Outside (w.place V B)) top NoPath s.os.fs (s.symlinkW w e t).2.os.fs ∧ (s.symlinkW w e t).2.Tidy (fs0.Outside (w.place V B)) := by
  unfold symlinkW
  split
  · exact ⟨.refl _, ht⟩
  obtain ⟨g1, g2⟩ := getWriterW_steps (top := top) hB hq hf e s h ht
  simp only
  generalize s.getWriterW w e = g at g1 g2 ⊢
  obtain ⟨ga, gb⟩ := g
  simp only at g1 g2 ⊢
  cases ga with
  | some x => exact ⟨g1, g2⟩
  | none =>
    simp only
    obtain ⟨a, b⟩ := writeAt_steps (B := w.place V B) (fs0 := fs0) (top := top) (lk := NoPath) (cfg := w.toFCfg) (gb.ws.length - 1) t gb g2
    rw [(closeAt_fs w.toFCfg _ _).1]
    exact ⟨g1.trans a, closeAt_tidy _ _ b⟩

/-- What the kernel takes `Directory` for is the folder. -/
theorem baseW_names {w : WCfg} (hB : w.Base V B) (hne : w.dir ≠ []) {y : Str} (hy : w.full w.dir = .ok y) : w.names (cleanWin y) = w.place V B := by
  obtain ⟨hV, hW, hb⟩ := winBase_abs hB
  have e : w.abs w.dir = .ok (cleanWin y) := by unfold WCfg.abs; rw [if_neg hne, hy]
  rcases hb with hb | ⟨hb, rfl, hd⟩
  · rw [hb] at e
    simp only [Except.ok.injEq] at e
    rw [← e, names_text hV hW]
  · rw [hb] at e
    simp only [Except.ok.injEq] at e
    rw [← e, names_vol hV hd]

theorem nukeW_steps {w : WCfg} (hB : w.Base V B) (hf : w.FoldOK) (s : FSink) (h : Inside (w.place V B) fs0 s.os.fs)
    (ts : s.Tidy (fs0.Outside (w.place V B))) (ht : top) :
    Steps (w.place V B) (fs0.Outside (w.place V B)) top NoPath s.os.fs (s.nukeW w).2.os.fs ∧ (s.nukeW w).2.Tidy (fs0.Outside (w.place V B)) := by
  have hc := close_fs w.toFCfg s
  have ct := close_tidy w.toFCfg ts
  unfold nukeW
  simp only
  generalize s.close w.toFCfg = q at hc ct ⊢
  obtain ⟨q1, q2⟩ := q
  simp only at hc ct ⊢
  have hq : Steps (w.place V B) (fs0.Outside (w.place V B)) top NoPath s.os.fs q2.os.fs := by rw [hc.1]; exact .refl _
  cases q1 with
  | some x => exact ⟨hq, ct⟩
  | none =>
    simp only
    split
    · exact ⟨hq, ct⟩
    rename_i hne
    split
    · exact ⟨hq, ct⟩
    cases hy : w.full w.dir with
    | error x => exact ⟨hq, ct⟩
    | ok y =>
      simp only [baseW_names hB hne hy]
      refine ⟨hq.trans (removeAll_steps w.flt q2.os (fun p n hp => ⟨?_, fun _ => Or.inl ht⟩)), ct⟩
      exact (lstat_inside (h.steps hq).good (place_ordW hf (winBase_abs hB).1 (winBase_abs hB).2.1) List.prefix_rfl).1 p n hp

theorem runW_steps {w : WCfg} (hB : w.Base V B) (hq : w.Qualifies) (hf : w.FoldOK) (op : FOp) (s : FSink) (h : Inside (w.place V B) fs0 s.os.fs)
    (ts : s.Tidy (fs0.Outside (w.place V B))) :
    Steps (w.place V B) (fs0.Outside (w.place V B)) (op = .nuke) NoPath s.os.fs (op.runW w s).2.os.fs ∧ (op.runW w s).2.Tidy (fs0.Outside (w.place V B)) := by
  have tw : ∀ {s' : FSink}, s'.ws = s.ws → s'.Tidy (fs0.Outside (w.place V B)) := by intro s' e; unfold Tidy; rw [e]; exact ts
  cases op with
  | mkdir e => have := mkdirW_steps (top := FOp.mkdir e = .nuke) hB hq hf e s h; exact ⟨this.1, tw this.2⟩
  | symlink e t => exact symlinkW_steps hB hq hf e t s h ts
  | prealloc e => have := preallocateW_steps (top := FOp.prealloc e = .nuke) hB hq hf e s h; exact ⟨this.1, tw this.2⟩
  | getWriter e => exact getWriterW_steps hB hq hf e s h ts
  | write k bs => exact writeAt_steps k bs s ts
  | sync k =>
    simp only [FOp.runW]
    unfold syncAt
    split
    · exact ⟨by simp only [quietCall_fs]; exact .refl _, tw rfl⟩
    · exact ⟨.refl _, ts⟩
    · exact ⟨.refl _, ts⟩
    · exact ⟨.refl _, ts⟩
  | closeWriter k => simp only [FOp.runW]; rw [(closeAt_fs w.toFCfg k s).1]; exact ⟨.refl _, closeAt_tidy w.toFCfg k ts⟩
  | close => simp only [FOp.runW]; rw [(close_fs w.toFCfg s).1]; exact ⟨.refl _, close_tidy w.toFCfg ts⟩
  | nuke => exact nukeW_steps hB hf s h ts rfl

end FSink
end Savior
