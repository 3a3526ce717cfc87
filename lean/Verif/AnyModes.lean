import Verif.ModeRuns
/-!
# Where the permissions of files come from, on any disk
-/

namespace Savior
namespace FSink

/-- Every file's permissions are as before, or one of two values. -/
def Origin (x l : Nat) (fs fs' : FS) : Prop := ∀ L m, fs'.permAt L = some m → fs.permAt L = some m ∨ m = x ∨ m = l

theorem Fewer.origin {fs fs' : FS} {x l : Nat} (h : Fewer fs fs') : Origin x l fs fs' := by
  intro L m hm
  obtain ⟨i, hi, hmi⟩ := permAt_some hm
  left
  rw [permAt_file (h.2 L i hi), ← h.1, hmi]

theorem Origin.refl {fs : FS} {x l : Nat} : Origin x l fs fs := Fewer.refl.origin

theorem Origin.trans {a b c : FS} {x l : Nat} (h : Origin x l a b) (k : Origin x l b c) : Origin x l a c := by
  intro L m hm
  rcases k L m hm with g | g
  · exact h L m g
  · exact Or.inr g

theorem Origin.setMode {fs : FS} {x l i : Nat} : Origin x l fs (fs.setMode i x) := by
  intro L m hm
  obtain ⟨j, hj, hmj⟩ := permAt_some hm
  by_cases e : j = i
  · subst e
    right; left
    simpa [FS.setMode] using hmj.symm
  · left
    rw [permAt_file (fs := fs) hj]
    simpa [FS.setMode, e] using hmj

theorem Origin.create {fs : FS} {x l : Nat} {q : Path} : Origin x l fs (fs.create q l) := by
  intro L m hm
  obtain ⟨j, hj, hmj⟩ := permAt_some hm
  by_cases e : j = fs.next
  · subst e
    right; right
    simpa [FS.create] using hmj.symm
  · left
    have hn : fs.nodes L = some (.file j) := by
      by_cases h : L = q
      · subst h
        simp [FS.create] at hj
        exact absurd hj.symm e
      · simpa [FS.create, h] using hj
    rw [permAt_file hn]
    simpa [FS.create, e] using hmj

theorem createFile_origin (cfg : FCfg) (e : Entry) (s : OS) : Origin (fileMode e) (looseMode cfg e) s.fs (createFile cfg e s).2.fs := by
  unfold createFile
  split
  · exact Origin.refl
  simp only
  rename_i dst _
  have hm := (mkdirAll_fewer cfg.flt (names dst).dropLast s).origin (x := fileMode e) (l := looseMode cfg e)
  generalize s.mkdirAll cfg.flt (names dst).dropLast = m at *
  obtain ⟨me, M⟩ := m
  simp only at hm
  cases me with
  | some x => exact hm
  | none =>
    simp only
    have rest : ∀ (R : OS) (chm : Bool), Origin (fileMode e) (looseMode cfg e) s.fs R.fs →
        ∀ X : Except Err Nat × OS, X = (match (R.openCreate cfg.flt cfg.umask (names dst) (fileMode e)).1 with
          | .error x => (.error (.wrapped x), (R.openCreate cfg.flt cfg.umask (names dst) (fileMode e)).2)
          | .ok i => if chm then (match ((R.openCreate cfg.flt cfg.umask (names dst) (fileMode e)).2.chmod cfg.flt i (fileMode e)).1 with
              | some x => (.error (.wrapped x), ((R.openCreate cfg.flt cfg.umask (names dst) (fileMode e)).2.chmod cfg.flt i (fileMode e)).2)
              | none => (.ok i, ((R.openCreate cfg.flt cfg.umask (names dst) (fileMode e)).2.chmod cfg.flt i (fileMode e)).2))
            else (.ok i, (R.openCreate cfg.flt cfg.umask (names dst) (fileMode e)).2)) →
        Origin (fileMode e) (looseMode cfg e) s.fs X.2.fs := by
      intro R chm hr X hX
      have ho : Origin (fileMode e) (looseMode cfg e) s.fs (R.openCreate cfg.flt cfg.umask (names dst) (fileMode e)).2.fs := by
        rcases OS.openCreate_cases cfg.flt cfg.umask (names dst) (fileMode e) R with ⟨_, _, h⟩ | ⟨_, _, _, _, h⟩ | ⟨_, _, _, h⟩
        · rw [h]; exact hr
        · rw [h]; exact hr
        · rw [h]; exact hr.trans Origin.create
      subst hX
      generalize R.openCreate cfg.flt cfg.umask (names dst) (fileMode e) = o at *
      obtain ⟨oe, O⟩ := o
      simp only at ho
      cases oe with
      | error x => exact ho
      | ok i =>
        simp only
        split
        · rcases chmod_cases cfg.flt i (fileMode e) O with ⟨x, c1, c2⟩ | ⟨c1, c2⟩
          · rw [c1]; simp only; rw [c2]; exact ho
          · rw [c1]; simp only; rw [c2]; exact ho.trans Origin.setMode
        · exact ho
    cases M.fs.lstat (names dst) with
    | absent q => exact rest M false hm _ rfl
    | bad x => exact rest M false hm _ rfl
    | found q n =>
      cases n with
      | dir => exact rest M true hm _ rfl
      | file i => exact rest M true hm _ rfl
      | link t =>
        simp only
        have hr := hm.trans (removeAll_fewer cfg.flt (names dst) M).origin
        generalize M.removeAll cfg.flt (names dst) = r at *
        obtain ⟨re, R⟩ := r
        simp only at hr
        cases re with
        | some x => exact hr
        | none => exact rest R true hr _ rfl

theorem Origin.data {a b c : FS} {x l : Nat} (h : Origin x l a b) (hn : c.nodes = b.nodes) (hm : c.mode = b.mode) : Origin x l a c := by
  have : c.permAt = b.permAt := permAt_congr hn hm
  intro L m
  rw [this]
  exact h L m

theorem getWriter_origin (cfg : FCfg) (e : Entry) (s : FSink) : Origin (fileMode e) (looseMode cfg e) s.os.fs (s.getWriter cfg e).2.os.fs := by
  unfold getWriter
  split
  · exact Origin.refl
  simp only
  have hc := createFile_origin cfg e s.os
  generalize createFile cfg e s.os = c at *
  obtain ⟨ce, C⟩ := c
  simp only at hc
  cases ce with
  | error x => exact hc
  | ok i =>
    simp only
    have ht : Origin (fileMode e) (looseMode cfg e) s.os.fs (C.truncate cfg.flt i e.woff).2.fs := by
      rcases truncate_cases cfg.flt i e.woff C with ⟨x, t1, t2⟩ | ⟨t0, t1, t2⟩
      · rw [t2]; exact hc
      · rw [t2]; exact hc.data rfl rfl
    generalize C.truncate cfg.flt i e.woff = t at *
    obtain ⟨te, T⟩ := t
    simp only at ht
    cases te with
    | some x => exact ht
    | none =>
      simp only
      rw [(close_fs cfg { s with os := T }).1]
      exact ht

theorem preallocate_origin (cfg : FCfg) (e : Entry) (s : FSink) : Origin (fileMode e) (looseMode cfg e) s.os.fs (s.preallocate cfg e).2.os.fs := by
  unfold preallocate
  split
  · exact Origin.refl
  simp only
  have hc := createFile_origin cfg e s.os
  generalize createFile cfg e s.os = c at *
  obtain ⟨ce, C⟩ := c
  simp only at hc
  cases ce with
  | error x => exact hc
  | ok i =>
    simp only
    rw [quietCall_fs]
    split
    · split
      · obtain ⟨k, hf, _⟩ := legacy_cases cfg i e.usize C
        rw [hf]
        exact hc.data rfl rfl
      · rcases ox_cases cfg i e.usize C with ⟨hf, _⟩ | ⟨hf, _⟩
        · rw [hf]; exact hc
        · rw [hf]; exact hc.data rfl rfl
    · exact hc

theorem removeAllRaw_fewer (flt : Faults) (p : List Str) (s : OS) : Fewer s.fs (s.removeAllRaw flt p).2.fs := by
  unfold OS.removeAllRaw
  simp only
  split
  · split
    · rename_i q _ _
      have h : ∀ rm, Fewer s.fs (s.fs.cutSome q rm) := fun rm => Fewer.cut rfl (cutSome_nodes s.fs q rm)
      exact h _
    · exact Fewer.refl
    · split <;> exact Fewer.refl
  · exact removeAll_fewer _ _ _

theorem nuke_fewer (cfg : FCfg) (s : FSink) : Fewer s.os.fs (s.nuke cfg).2.os.fs := by
  unfold nuke
  simp only
  have hc := close_fs cfg s
  generalize s.close cfg = q at *
  obtain ⟨qe, Q⟩ := q
  simp only at hc
  rw [← hc.1]
  cases qe with
  | some x => exact Fewer.refl
  | none =>
    simp only
    repeat' (first | exact Fewer.refl | exact removeAllRaw_fewer _ _ _ | split)

/-- The entry an operation opens or creates a file for. -/
def asked : FOp → Option Entry
  | .prealloc e => some e
  | .getWriter e => some e
  | _ => none

theorem op_origin (cfg : FCfg) (op : FOp) (s : FSink) (L : Path) (m : Nat) (h : (op.run cfg s).2.os.fs.permAt L = some m) :
    s.os.fs.permAt L = some m ∨ ∃ e, asked op = some e ∧ (m = fileMode e ∨ m = looseMode cfg e) := by
  have few : Fewer s.os.fs (op.run cfg s).2.os.fs → s.os.fs.permAt L = some m := by
    intro hf
    obtain ⟨i, hi, hmi⟩ := permAt_some h
    rw [permAt_file (hf.2 L i hi), ← hf.1, hmi]
  have same : (op.run cfg s).2.os.fs.permAt = s.os.fs.permAt → s.os.fs.permAt L = some m := fun hp => by rw [← hp]; exact h
  cases op with
  | mkdir e => exact Or.inl (few (mkdir_fewer cfg e s))
  | symlink e t => exact Or.inl (few (symlink_fewer cfg e t s))
  | prealloc e => exact (preallocate_origin cfg e s L m h).imp id fun g => ⟨e, rfl, g⟩
  | getWriter e => exact (getWriter_origin cfg e s L m h).imp id fun g => ⟨e, rfl, g⟩
  | write k bs => exact Or.inl (same (permAt_congr ((writer_quiet cfg s).1 k bs).1 ((writer_quiet cfg s).1 k bs).2.1))
  | sync k => exact Or.inl (same (by show (s.syncAt cfg k).2.os.fs.permAt = _; rw [(writer_quiet cfg s).2.1 k]))
  | closeWriter k => exact Or.inl (same (by show (s.closeAt cfg k).2.os.fs.permAt = _; rw [(writer_quiet cfg s).2.2 k]))
  | close => exact Or.inl (same (by show (s.close cfg).2.os.fs.permAt = _; rw [(close_fs cfg s).1]))
  | nuke => exact Or.inl (few (nuke_fewer cfg s))

theorem ops_origin (cfg : FCfg) : ∀ (ops : List FOp) (s : FSink) (L : Path) (m : Nat), (runOps cfg ops s).os.fs.permAt L = some m →
    s.os.fs.permAt L = some m ∨ ∃ op ∈ ops, ∃ e, asked op = some e ∧ (m = fileMode e ∨ m = looseMode cfg e) := by
  intro ops
  induction ops with
  | nil => intro s L m h; exact Or.inl h
  | cons op ops ih =>
    intro s L m h
    rcases ih (op.run cfg s).2 L m h with g | ⟨o, ho, g⟩
    · exact (op_origin cfg op s L m g).imp id fun g => ⟨op, by simp, g⟩
    · exact Or.inr ⟨o, by simp [ho], g⟩

end FSink
end Savior
