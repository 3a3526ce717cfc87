import Verif.Spec.Makes
import Verif.Bystander
import Verif.Ready
/-!
# Extractions make nothing else
-/

namespace Savior
open FSink

/-- Everything was there before, or is at `Q` and of kind `kd`, or is a folder above `Q`. -/
def Makes (Q : Path) (kd : Kind) (fs fs' : FS) : Prop :=
  ∀ L n, fs'.nodes L = some n → fs.nodes L = some n ∨ (L = Q ∧ n.kind = kd) ∨ (L <+: Q ∧ L ≠ Q ∧ n = .dir)

theorem Makes.refl (Q : Path) (kd : Kind) (fs : FS) : Makes Q kd fs fs := fun _ _ h => Or.inl h

theorem Makes.trans {Q : Path} {kd : Kind} {a b c : FS} (h : Makes Q kd a b) (k : Makes Q kd b c) : Makes Q kd a c := by
  intro L n hn
  rcases k L n hn with g | g
  · exact h L n g
  · exact Or.inr g

theorem Makes.same {Q : Path} {kd : Kind} {a b c : FS} (h : Makes Q kd a b) (hn : c.nodes = b.nodes) : Makes Q kd a c := by
  intro L n hc; rw [hn] at hc; exact h L n hc

theorem Makes.cut {Q q : Path} {kd : Kind} {a b : FS} (hn : ∀ p, b.nodes p = a.nodes p ∨ (b.nodes p = none ∧ q <+: p)) : Makes Q kd a b := by
  intro L n h
  rcases hn L with e | ⟨e, _⟩
  · left; rw [← e]; exact h
  · rw [e] at h; cases h

theorem removeAll_makes (Q : Path) (kd : Kind) (flt : Faults) (p : Path) (s : OS) : Makes Q kd s.fs (s.removeAll flt p).2.fs := by
  rcases OS.removeAll_cases flt p s with ⟨h, _⟩ | ⟨q, n, rm, _, _, h0, h⟩ | ⟨q, n, _, h0, _, h⟩
  · rw [h]; exact .refl _ _ _
  · rw [h]; exact .cut (cutSome_nodes _ _ _)
  · rw [h]; exact .cut (cut_nodes _ _)

theorem remove_makes (Q : Path) (kd : Kind) (flt : Faults) (p : Path) (s : OS) : Makes Q kd s.fs (s.remove flt p).2.fs := by
  rcases OS.remove_cases flt p s with ⟨e, _, h⟩ | ⟨q, n, _, _, _, h⟩
  · rw [h]; exact .refl _ _ _
  · rw [h]; exact .cut (cut_nodes _ _)

section
variable {S : Path → Kind → Prop}

/-- `MkdirAll` of the folder of a place. -/
theorem above_makes (hS : Planned S) {Q : Path} {kd : Kind} (hQ : S Q kd) {s : OS} (h : DiskOK S s.fs) (flt : Faults) :
    Makes Q kd s.fs (s.mkdirAll flt Q.dropLast).2.fs := by
  intro L n hn
  have ho : AllOrd Q.dropLast := fun x hx => hS.ord Q kd hQ x (List.dropLast_subset Q hx)
  have hpre : Q.dropLast <+: Q := List.dropLast_prefix Q
  by_cases hq : Q = []
  · subst hq; exact Or.inl hn
  have hlen : Q.dropLast.length < Q.length := by
    rw [List.length_dropLast]
    have := List.length_pos_iff.2 hq
    omega
  have hne : ∀ r, r <+: Q.dropLast → r ≠ Q := by
    rintro r hr rfl
    have := hr.length_le
    omega
  rcases mkdirAllN_where flt ho Q.dropLast.length h.tree (fun r t hr => h.straight Q kd r t hQ (hr.trans hpre) (hne r hr)) L with e | ⟨e1, e2⟩
  · left; rw [← e]; exact hn
  · right; right
    have : (s.mkdirAll flt Q.dropLast).2.fs.nodes L = some .dir := e2
    rw [this] at hn
    cases hn
    exact ⟨e1.trans hpre, hne L e1, rfl⟩

/-- `MkdirAll` of a place that is no link. -/
theorem here_makes (hS : Planned S) {Q : Path} (hQ : S Q .dir) {s : OS} (h : DiskOK S s.fs) (hl : ∀ t, s.fs.nodes Q ≠ some (.link t)) (flt : Faults) :
    Makes Q .dir s.fs (s.mkdirAll flt Q).2.fs := by
  intro L n hn
  have hw : ∀ r t, r <+: Q → s.fs.nodes r ≠ some (.link t) := by
    intro r t hr
    by_cases e : r = Q
    · subst e; exact hl t
    · exact h.straight Q .dir r t hQ hr e
  rcases mkdirAllN_where flt (hS.ord Q .dir hQ) Q.length h.tree hw L with e | ⟨e1, e2⟩
  · left; rw [← e]; exact hn
  · right
    have : (s.mkdirAll flt Q).2.fs.nodes L = some .dir := e2
    rw [this] at hn
    cases hn
    by_cases e : L = Q
    · exact Or.inl ⟨e, rfl⟩
    · exact Or.inr ⟨e1, e, rfl⟩

theorem open_makes (hS : Planned S) {s : OS} (h : DiskOK S s.fs) {Q : Path} (hQ : S Q .file) (hl : ∀ t, s.fs.nodes Q ≠ some (.link t)) (flt : Faults) (um m : Nat) :
    Makes Q .file s.fs (s.openCreate flt um Q m).2.fs := by
  have hst : s.fs.stat Q = s.fs.lstat Q := FS.stat_eq (fun q t hf => hl t (h.found hS hQ hf).2)
  rcases OS.openCreate_cases flt um Q m s with ⟨e, e1, e2⟩ | ⟨q, i, hf, e1, e2⟩ | ⟨q, ha, e1, e2⟩
  · rw [e2]; exact .refl _ _ _
  · rw [e2]; exact .refl _ _ _
  · rw [e2]
    rw [hst] at ha
    obtain rfl := h.absent hS hQ ha
    intro L n hn
    by_cases e : L = q
    · subst e
      simp [FS.create] at hn
      subst hn
      exact Or.inr (Or.inl ⟨rfl, rfl⟩)
    · exact Or.inl (by simpa [FS.create, e] using hn)

theorem createFile_makes (hS : Planned S) {cfg : FCfg} {e : Entry} {s : OS} (h : DiskOK S s.fs) {dst : Str} (hd : cfg.destPath e.path = .ok dst) {Q : Path}
    (hq : cleanComps dst = Q) (hQ : S Q .file) : Makes Q .file s.fs (createFile cfg e s).2.fs := by
  unfold createFile
  simp only [hd, names, hq]
  obtain ⟨m1, _, _⟩ := h.mkdirAll cfg.flt Q.dropLast Q
  have hm := above_makes hS hQ h cfg.flt
  generalize s.mkdirAll cfg.flt Q.dropLast = m at *
  obtain ⟨me, M⟩ := m
  simp only at m1 hm ⊢
  cases me with
  | some x => exact hm
  | none =>
    simp only
    have rest : ∀ (R : OS) (chm : Bool), DiskOK S R.fs → Makes Q .file s.fs R.fs → (∀ t, R.fs.nodes Q ≠ some (.link t)) →
        ∀ X : Except Err Nat × OS, X = (match (R.openCreate cfg.flt cfg.umask Q (fileMode e)).1 with
          | .error x => (.error (.wrapped x), (R.openCreate cfg.flt cfg.umask Q (fileMode e)).2)
          | .ok i => if chm then (match ((R.openCreate cfg.flt cfg.umask Q (fileMode e)).2.chmod cfg.flt i (fileMode e)).1 with
              | some x => (.error (.wrapped x), ((R.openCreate cfg.flt cfg.umask Q (fileMode e)).2.chmod cfg.flt i (fileMode e)).2)
              | none => (.ok i, ((R.openCreate cfg.flt cfg.umask Q (fileMode e)).2.chmod cfg.flt i (fileMode e)).2))
            else (.ok i, (R.openCreate cfg.flt cfg.umask Q (fileMode e)).2)) →
        Makes Q .file s.fs X.2.fs := by
      intro R chm r1 r2 r3 X hX
      have o1 := r2.trans (open_makes hS r1 hQ r3 cfg.flt cfg.umask (fileMode e))
      generalize R.openCreate cfg.flt cfg.umask Q (fileMode e) = o at *
      obtain ⟨oe, O⟩ := o
      simp only at o1 hX
      cases oe with
      | error x => subst hX; exact o1
      | ok i =>
        simp only at hX
        cases chm with
        | false =>
          simp only [Bool.false_eq_true, if_false] at hX
          subst hX
          exact o1
        | true =>
          simp only [if_true] at hX
          rcases chmod_cases cfg.flt i (fileMode e) O with ⟨x, c1, c2⟩ | ⟨c1, c2⟩
          · rw [c1] at hX
            subst hX
            simp only [c2]
            exact o1
          · rw [c1] at hX
            subst hX
            simp only [c2]
            exact o1.same rfl
    cases hlst : M.fs.lstat Q with
    | absent q =>
      exact rest M false m1 hm (by
        intro t ht
        rw [lstat_node m1.tree (hS.ord Q .file hQ) ht] at hlst; cases hlst) _ rfl
    | bad x =>
      exact rest M false m1 hm (by
        intro t ht
        rw [lstat_node m1.tree (hS.ord Q .file hQ) ht] at hlst; cases hlst) _ rfl
    | found q n =>
      obtain ⟨rfl, hn⟩ := m1.found hS hQ hlst
      cases n with
      | dir => exact rest M true m1 hm (by intro t ht; rw [hn] at ht; cases ht) _ rfl
      | file i => exact rest M true m1 hm (by intro t ht; rw [hn] at ht; cases ht) _ rfl
      | link t =>
        simp only
        obtain ⟨r1, _, r3⟩ := m1.removeAll hS cfg.flt hQ (by simp)
        have hr := hm.trans (removeAll_makes q .file cfg.flt q M)
        generalize M.removeAll cfg.flt q = r at *
        obtain ⟨re, R⟩ := r
        simp only at r1 r3 hr ⊢
        cases re with
        | some x => exact hr
        | none =>
          simp only
          exact rest R true r1 hr (by intro t ht; rw [r3 rfl] at ht; cases ht) _ rfl

theorem preallocate_makes (hS : Planned S) {cfg : FCfg} {e : Entry} {s : FSink} (h : DiskOK S s.os.fs) {dst : Str} (hd : cfg.destPath e.path = .ok dst) {Q : Path}
    (hq : cleanComps dst = Q) (hQ : S Q .file) : Makes Q .file s.os.fs (s.preallocate cfg e).2.os.fs := by
  unfold preallocate
  split
  · exact .refl _ _ _
  have hc := createFile_makes hS h hd hq hQ
  generalize createFile cfg e s.os = c at *
  obtain ⟨ce, C⟩ := c
  cases ce with
  | error x => exact hc
  | ok i =>
    simp only at hc ⊢
    rw [quietCall_fs]
    split
    · split
      · obtain ⟨k, hf, _⟩ := legacy_cases cfg i e.usize C
        rw [hf]; exact hc.same rfl
      · rcases ox_cases cfg i e.usize C with ⟨hf, _⟩ | ⟨hf, _⟩
        · rw [hf]; exact hc
        · rw [hf]; exact hc.same rfl
    · exact hc

theorem getWriter_makes (hS : Planned S) {cfg : FCfg} {e : Entry} {s : FSink} (h : DiskOK S s.os.fs) {dst : Str} (hd : cfg.destPath e.path = .ok dst) {Q : Path}
    (hq : cleanComps dst = Q) (hQ : S Q .file) : Makes Q .file s.os.fs (s.getWriter cfg e).2.os.fs := by
  unfold getWriter
  split
  · exact .refl _ _ _
  have hc := createFile_makes hS h hd hq hQ
  generalize createFile cfg e s.os = c at *
  obtain ⟨ce, C⟩ := c
  cases ce with
  | error x => exact hc
  | ok i =>
    simp only at hc ⊢
    have tn : (C.truncate cfg.flt i e.woff).2.fs.nodes = C.fs.nodes := by
      rcases truncate_cases cfg.flt i e.woff C with ⟨x, _, t2⟩ | ⟨_, _, t2⟩ <;> rw [t2] <;> rfl
    generalize C.truncate cfg.flt i e.woff = t at *
    obtain ⟨te, T⟩ := t
    simp only at tn
    cases te with
    | some x => exact hc.same tn
    | none =>
      simp only
      have hcl := close_fs cfg { s with os := T }
      generalize FSink.close cfg { s with os := T } = cl at *
      obtain ⟨cle, CL⟩ := cl
      simp only at hcl ⊢
      rw [hcl.1]
      exact hc.same tn

theorem getWriter_newer (cfg : FCfg) (e : Entry) (s : FSink) (ht : s.os.fs.Tree) : Newer s.os.fs (s.getWriter cfg e).2.os.fs := by
  have hnew := createFile_newer cfg e s.os ht
  unfold getWriter
  split
  · exact .refl _
  generalize createFile cfg e s.os = c at *
  obtain ⟨ce, C⟩ := c
  cases ce with
  | error x => exact hnew
  | ok i =>
    simp only at hnew ⊢
    have tn : (C.truncate cfg.flt i e.woff).2.fs.nodes = C.fs.nodes ∧ (C.truncate cfg.flt i e.woff).2.fs.next = C.fs.next := by
      rcases truncate_cases cfg.flt i e.woff C with ⟨x, _, t2⟩ | ⟨_, _, t2⟩ <;> rw [t2] <;> exact ⟨rfl, rfl⟩
    generalize C.truncate cfg.flt i e.woff = t at *
    obtain ⟨te, T⟩ := t
    simp only at tn
    have hT : Newer s.os.fs T.fs := hnew.same tn.1 tn.2
    cases te with
    | some x => exact hT
    | none =>
      simp only
      have hcl := close_fs cfg { s with os := T }
      generalize FSink.close cfg { s with os := T } = cl at *
      obtain ⟨cle, CL⟩ := cl
      simp only at hcl ⊢
      rw [hcl.1]
      exact hT

theorem mkdir_makes (hS : Planned S) {cfg : FCfg} {e : Entry} {s : FSink} (hi : shouldIgnore e.path = false) (h : DiskOK S s.os.fs) {dst : Str}
    (hd : cfg.destPath e.path = .ok dst) {Q : Path} (hq : cleanComps dst = Q) (hQ : S Q .dir) : Makes Q .dir s.os.fs (s.mkdir cfg e).2.os.fs := by
  unfold mkdir
  simp only [hi, Bool.false_eq_true, if_false, hd, names, hq]
  cases hlst : s.os.fs.lstat Q with
  | absent q =>
    exact here_makes hS hQ h (by
      intro t ht
      rw [lstat_node h.tree (hS.ord Q .dir hQ) ht] at hlst; cases hlst) cfg.flt
  | bad x =>
    exact here_makes hS hQ h (by
      intro t ht
      rw [lstat_node h.tree (hS.ord Q .dir hQ) ht] at hlst; cases hlst) cfg.flt
  | found q n =>
    obtain ⟨rfl, hn⟩ := h.found hS hQ hlst
    have other : Makes q .dir s.os.fs (match (s.os.remove cfg.flt q).1 with
          | some x => (some (Err.wrapped x), ({ s with os := (s.os.remove cfg.flt q).2 } : FSink))
          | none => (((s.os.remove cfg.flt q).2.mkdirAll cfg.flt q).1.map Err.wrapped, { s with os := ((s.os.remove cfg.flt q).2.mkdirAll cfg.flt q).2 })).2.os.fs := by
      obtain ⟨r1, _, r3⟩ := h.remove hS cfg.flt hQ
      have hr := remove_makes q .dir cfg.flt q s.os
      generalize s.os.remove cfg.flt q = r at *
      obtain ⟨re, R⟩ := r
      simp only at r1 r3 hr
      cases re with
      | some x => exact hr
      | none => exact hr.trans (here_makes hS hQ r1 (by intro t ht; rw [r3 rfl] at ht; cases ht) cfg.flt)
    cases n with
    | dir => exact .refl _ _ _
    | file i => exact other
    | link t => exact other

theorem symlink_makes (hS : Planned S) {cfg : FCfg} {e : Entry} {t : Str} {s : FSink} (hi : shouldIgnore e.path = false) (h : DiskOK S s.os.fs) {dst : Str}
    (hd : cfg.destPath e.path = .ok dst) {Q : Path} (hq : cleanComps dst = Q) (hQ : S Q .symlink) : Makes Q .symlink s.os.fs (s.symlink cfg e t).2.os.fs := by
  unfold symlink
  simp only [hi, Bool.false_eq_true, if_false, hd, names, hq]
  split
  · exact .refl _ _ _
  split
  · exact .refl _ _ _
  split
  · exact .refl _ _ _
  split
  · exact .refl _ _ _
  obtain ⟨r1, _, _⟩ := h.removeAll hS cfg.flt hQ (by simp)
  have hr := removeAll_makes Q .symlink cfg.flt Q s.os
  generalize s.os.removeAll cfg.flt Q = r at *
  obtain ⟨re, R⟩ := r
  simp only at r1 hr ⊢
  cases re with
  | some x => exact hr
  | none =>
    simp only
    obtain ⟨m1, _, _⟩ := r1.mkdirAll cfg.flt Q.dropLast Q
    have hm := hr.trans (above_makes hS hQ r1 cfg.flt)
    generalize R.mkdirAll cfg.flt Q.dropLast = m at *
    obtain ⟨me, M⟩ := m
    simp only at m1 hm ⊢
    cases me with
    | some x => exact hm
    | none =>
      simp only
      rcases OS.symlink1_cases cfg.flt t Q M with ⟨x, l1, l2⟩ | ⟨q, ha, _, l1, l2⟩
      · rw [l2]; exact hm
      · rw [l2]
        obtain rfl := m1.absent hS hQ ha
        refine hm.trans fun L n hn => ?_
        by_cases e : L = q
        · subst e
          simp [FS.put] at hn
          subst hn
          exact Or.inr (Or.inl ⟨rfl, rfl⟩)
        · exact Or.inl (by simpa [FS.put, e] using hn)

end

section
variable {cfg : FCfg} {B : Path} {plan : List (Str × Kind)} {fs0 : FS}

/-- A disk on which nothing is but what was there and what members account for. -/
structure Made (cfg : FCfg) (B : Path) (plan : List (Str × Kind)) (fs0 : FS) (s : FSink) : Prop where
  disk : DiskOK (PlanPlace cfg B plan) s.os.fs
  only : MadeOnlyFor B plan fs0 s.os.fs
  newer : Newer fs0 s.os.fs

/-- What the calls of an extraction make: members, and folders above them. -/
theorem calls_make (hB : cfg.Base B) (hind : Independent cfg B plan) {tidy b : Bool} {k s : (folderSink cfg).St} {log : List Ev}
    (h : Calls (folderSink cfg) tidy k b log s) (hk : Made cfg B plan fs0 k) (ha : AboutOK (fun e => (e.path, e.kind) ∈ plan) log) : Made cfg B plan fs0 s := by
  have hS : Planned (PlanPlace cfg B plan) := planned hB hind
  have sub : ∀ {l : List Ev} {ev : Ev}, AboutOK (fun e => (e.path, e.kind) ∈ plan) (l ++ [ev]) → AboutOK (fun e => (e.path, e.kind) ∈ plan) l :=
    fun h ev hm => h ev (List.mem_append_left _ hm)
  have lastOne : ∀ {l : List Ev} {ev : Ev}, AboutOK (fun e => (e.path, e.kind) ∈ plan) (l ++ [ev]) → ∀ kd e, ev.about = some (kd, e) → e.kind = kd ∧ (e.path, e.kind) ∈ plan :=
    fun h => h _ (List.mem_append_right _ (List.mem_singleton.2 rfl))
  have place : ∀ {e : Entry} {kk : Kind} {dst : Str}, shouldIgnore e.path = false → cfg.destPath e.path = .ok dst → e.kind = kk ∧ (e.path, e.kind) ∈ plan →
      cleanComps dst = namePlace B e.path ∧ PlanPlace cfg B plan (namePlace B e.path) kk := by
    intro e kk dst hi hd hp
    obtain ⟨a, c⟩ := dest_place hB hd
    exact ⟨a, _, hp.1 ▸ hp.2, hi, c, rfl⟩
  have step : ∀ {s s' : FSink} {Q : Path} {kk : Kind}, Made cfg B plan fs0 s → DiskOK (PlanPlace cfg B plan) s'.os.fs → PlanPlace cfg B plan Q kk → Makes Q kk s.os.fs s'.os.fs →
      Newer s.os.fs s'.os.fs → Made cfg B plan fs0 s' := by
    intro s s' Q kk h hd hQ hm hw
    refine ⟨hd, fun L n hn => ?_, h.newer.trans hw⟩
    obtain ⟨p, h1, h2, h3, rfl⟩ := hQ
    rcases hm L n hn with g | g
    · exact h.only L n g
    · exact Or.inr ⟨_, h1, h2, h3, g⟩
  have quiet : ∀ {s s' : FSink}, Made cfg B plan fs0 s → s'.os.fs.nodes = s.os.fs.nodes → s'.os.fs.next = s.os.fs.next → Made cfg B plan fs0 s' := by
    intro s s' h hn hx
    refine ⟨h.disk.same hn hx, fun L n hL => h.only L n (by rw [← hn]; exact hL), h.newer.same hn hx⟩
  have opened : ∀ (e : Entry) (s : FSink), Made cfg B plan fs0 s → e.kind = .file ∧ (e.path, e.kind) ∈ plan → Made cfg B plan fs0 (s.getWriter cfg e).2 := by
    intro e s ih hp
    cases hi : shouldIgnore e.path with
    | true => rw [getWriter_ignored (s := s) hi]; exact ⟨ih.disk, ih.only, ih.newer⟩
    | false =>
      cases hd : cfg.destPath e.path with
      | error x => rw [getWriter_refused (s := s) hi hd]; exact ih
      | ok dst =>
        obtain ⟨a, hQ⟩ := place hi hd hp
        exact step ih (getWriter_disk hS hi ih.disk hd a hQ).1 hQ (getWriter_makes hS ih.disk hd a hQ) (getWriter_newer cfg e s ih.disk.tree)
  induction h with
  | start => exact hk
  | note ev _ _ ih => exact ih (sub ha)
  | @prealloc b l s e _ ih =>
    have ih := ih (sub ha)
    show Made cfg B plan fs0 (FSink.preallocate cfg e s).2
    cases hi : shouldIgnore e.path with
    | true => rw [(ignored_untouched (cfg := cfg) [] s hi).1]; exact ih
    | false =>
      cases hd : cfg.destPath e.path with
      | error x => rw [(refused_untouched (cfg := cfg) [] s hi hd).1]; exact ih
      | ok dst =>
        obtain ⟨a, hQ⟩ := place hi hd (lastOne ha .file e rfl)
        exact step ih (preallocate_disk hS ih.disk hd a hQ) hQ (preallocate_makes hS ih.disk hd a hQ) (preallocate_newer cfg e s ih.disk.tree)
  | @mkdir b l s e _ ih =>
    have ih := ih (sub ha)
    show Made cfg B plan fs0 (FSink.mkdir cfg e s).2
    cases hi : shouldIgnore e.path with
    | true => rw [(ignored_untouched (cfg := cfg) [] s hi).2.1]; exact ih
    | false =>
      cases hd : cfg.destPath e.path with
      | error x => rw [(refused_untouched (cfg := cfg) [] s hi hd).2.1]; exact ih
      | ok dst =>
        obtain ⟨a, hQ⟩ := place hi hd (lastOne ha .dir e rfl)
        exact step ih (mkdir_disk hS hi ih.disk hd a hQ).1 hQ (mkdir_makes hS hi ih.disk hd a hQ) (mkdir_newer cfg e s ih.disk.tree)
  | @symlink b l s e t _ ih =>
    have ih := ih (sub ha)
    show Made cfg B plan fs0 (FSink.symlink cfg e t s).2
    cases hi : shouldIgnore e.path with
    | true => rw [(ignored_untouched (cfg := cfg) t s hi).2.2]; exact ih
    | false =>
      cases hd : cfg.destPath e.path with
      | error x => rw [(refused_untouched (cfg := cfg) t s hi hd).2.2]; exact ih
      | ok dst =>
        obtain ⟨a, hQ⟩ := place hi hd (lastOne ha .symlink e rfl)
        exact step ih (symlink_disk hS hi ih.disk hd a hQ).1 hQ (symlink_makes hS hi ih.disk hd a hQ) (symlink_newer cfg e t s ih.disk.tree)
  | @opened b l s e _ _ hg ih => exact opened e s (ih (sub ha)) (lastOne ha .file e rfl)
  | @refused b l s e x _ _ hg ih => exact opened e s (ih (sub ha)) (lastOne ha .file e rfl)
  | @write l s bs _ ih =>
    obtain ⟨w1, _, w3⟩ := (writer_quiet cfg s).1 ((FSink.ws s).length - 1) bs
    exact quiet (s' := (FSink.writeAt cfg ((FSink.ws s).length - 1) bs s).2) (ih (sub ha)) w1 w3
  | @sync l s _ ih =>
    have w := (writer_quiet cfg s).2.1 ((FSink.ws s).length - 1)
    exact quiet (s' := (FSink.syncAt cfg ((FSink.ws s).length - 1) s).2) (ih (sub ha)) (by rw [w]) (by rw [w])
  | @close l s _ ih =>
    have w := (writer_quiet cfg s).2.2 ((FSink.ws s).length - 1)
    exact quiet (s' := (FSink.closeAt cfg ((FSink.ws s).length - 1) s).2) (ih ha) (by rw [w]) (by rw [w])

end
end Savior
