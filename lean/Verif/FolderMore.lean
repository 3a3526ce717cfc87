import Verif.FolderOps
import Verif.Spec.Folder
/-!
# FolderSink: more lemmas
-/

namespace Savior

theorem FS.content_found {fs : FS} {p q : Path} {i : Nat} (h : fs.lstat p = .found q (.file i)) : fs.content p = some (fs.data i) := by
  simp [FS.content, h]

theorem FS.modeOf_found {fs : FS} {p q : Path} {i : Nat} (h : fs.lstat p = .found q (.file i)) : fs.modeOf p = some (fs.mode i) := by
  simp [FS.modeOf, h]

theorem FS.lstat_congr {fs fs' : FS} (h : fs'.nodes = fs.nodes) (p : Path) : fs'.lstat p = fs.lstat p := by simp [FS.lstat, h]
theorem FS.stat_congr {fs fs' : FS} (h : fs'.nodes = fs.nodes) (p : Path) : fs'.stat p = fs.stat p := by simp [FS.stat, h]

theorem FS.setData_self (fs : FS) (i : Nat) : fs.setData i (fs.data i) = fs := by
  unfold FS.setData
  have : (fun j => if j = i then fs.data i else fs.data j) = fs.data := by funext j; split <;> simp_all
  rw [this]

theorem FS.setData_setData (fs : FS) (i : Nat) (a b : List Byte) : (fs.setData i a).setData i b = fs.setData i b := by
  unfold FS.setData
  simp only [FS.mk.injEq, true_and, and_true]
  funext j; split <;> simp_all

theorem FS.setData_data (fs : FS) (i : Nat) (a : List Byte) : (fs.setData i a).data i = a := by simp [FS.setData]

theorem writeMany_spec (cfg : FCfg) (k i : Nat) (cs : List (List Byte)) (s : FSink) (o : Nat) (h : s.ws[k]? = some (.real i o true))
    (ho : (s.os.fs.data i).length = o) :
    (writeMany cfg k cs s).2.os.fs = s.os.fs.setData i (s.os.fs.data i ++ (writeMany cfg k cs s).1.1) ∧
    (writeMany cfg k cs s).1.2 = ((writeMany cfg k cs s).1.1.length : Int) ∧
    (writeMany cfg k cs s).2.ws[k]? = some (.real i (o + (writeMany cfg k cs s).1.1.length) true) := by
  induction cs generalizing s o with
  | nil => simp [writeMany, FS.setData_self, h]
  | cons c cs ih =>
    simp only [writeMany]
    have hk : k < s.ws.length := by
      rw [List.getElem?_eq_some_iff] at h; exact h.1
    have step : ∃ n, n ≤ c.length ∧ (s.writeAt cfg k c).1.1 = n ∧ (s.writeAt cfg k c).1.2.1 = n ∧
        (s.writeAt cfg k c).2.os.fs = s.os.fs.setData i (s.os.fs.data i ++ c.take n) ∧
        (s.writeAt cfg k c).2.ws = s.ws.set k (.real i (o + n) true) := by
      rcases FSink.write_cases cfg k c s i o h with ⟨e, n, _, a, b, d, f, g, _⟩ | ⟨a, b, d, _⟩
      · refine ⟨n, a, b, d, ?_, g⟩
        rw [f, ← ho, pwrite_end]
      · refine ⟨c.length, by omega, by rw [a], by rw [a], ?_, d⟩
        rw [b, ← ho, pwrite_end, List.take_length]
    obtain ⟨n, hn, h1, h2, h3, h4⟩ := step
    generalize s.writeAt cfg k c = w at *
    obtain ⟨⟨w1, w2, w3⟩, w'⟩ := w
    simp only at h1 h2 h3 h4 ⊢
    subst h1 h2
    have hw : w'.ws[k]? = some (.real i (o + w1) true) := by rw [h4]; simp [hk]
    have hd : (w'.os.fs.data i).length = o + w1 := by
      rw [h3, FS.setData_data, List.length_append, ho, List.length_take]; omega
    obtain ⟨i1, i2, i3⟩ := ih w' (o + w1) hw hd
    refine ⟨?_, ?_, ?_⟩
    · rw [i1, h3, FS.setData_setData, FS.setData_data, List.append_assoc]
    · rw [i2]; simp; omega
    · rw [i3]; simp; omega

namespace FSink

theorem quietCall_fs (flt : Faults) (s : OS) : (s.quietCall flt).2.fs = s.fs := by
  unfold OS.quietCall; split <;> rfl

theorem legacy_cases (cfg : FCfg) (i : Nat) (size : Int) (s : OS) :
    ∃ k, (legacyPrealloc cfg i size s).2.fs = s.fs.setData i (s.fs.data i ++ List.replicate k 0) ∧
      (k = 0 ∨ ((s.fs.data i).length : Int) + k ≤ size) ∧
      ((legacyPrealloc cfg i size s).1 = none → k = (size - (s.fs.data i).length).toNat) := by
  unfold legacyPrealloc
  simp only
  split
  · rename_i hpos
    unfold OS.write
    cases cfg.flt s.tick with
    | some f =>
      refine ⟨min f.part (size - (s.fs.data i).length).toNat, ?_, by omega, by simp⟩
      simp [pwrite_end, List.take_replicate]
    | none =>
      refine ⟨(size - (s.fs.data i).length).toNat, ?_, by omega, fun _ => rfl⟩
      simp [pwrite_end]
  · refine ⟨0, by simp [FS.setData_self], Or.inl rfl, fun _ => by omega⟩

theorem ox_cases (cfg : FCfg) (i : Nat) (size : Int) (s : OS) :
    ((oxPrealloc cfg i size s).2.fs = s.fs ∧ (oxPrealloc cfg i size s).1 ≠ none) ∨
    ((oxPrealloc cfg i size s).2.fs = s.fs.setData i (cfg.ox (s.fs.data i) size.toNat) ∧ (oxPrealloc cfg i size s).1 = none) := by
  unfold oxPrealloc
  split
  · exact Or.inl ⟨rfl, by simp⟩
  · exact Or.inr ⟨rfl, rfl⟩

/-- A successful `Preallocate`. -/
theorem preallocate_spec {cfg : FCfg} {B : Path} (hB : cfg.Base B) {e : Entry} (hi : shouldIgnore e.path = false) {s : FSink} (ht : s.os.fs.Tree)
    (h : (s.preallocate cfg e).1 = none) :
    ∃ P q i fs1 c, P = lexWalk B (splitSlash e.path) ∧ Opened cfg e P q i s.os.fs fs1 ∧
      (s.preallocate cfg e).2.os.fs = fs1.setData i c ∧ (s.preallocate cfg e).2.ws = s.ws ∧ (s.preallocate cfg e).2.reg = s.reg ∧
      (cfg.legacy = true → c = fs1.data i ++ List.replicate (e.usize - (fs1.data i).length).toNat 0) := by
  unfold preallocate at h ⊢
  simp only [hi, Bool.false_eq_true, if_false] at h ⊢
  cases hc : createFile cfg e s.os with
  | mk c1 c2 =>
    rw [hc] at h
    cases c1 with
    | error x => cases h
    | ok i =>
      obtain ⟨dst, D, c, N, hd, hP, ho, hN, hL⟩ := createFile_dest hB hc
      obtain ⟨q, hq⟩ := createFile_spec hd hP ho ht hc
      simp only [quietCall_fs] at h ⊢
      by_cases hu : 0 < e.usize
      · rw [if_pos hu] at h ⊢
        by_cases hl : cfg.legacy = true
        · rw [if_pos hl] at h ⊢
          obtain ⟨k, h1, h2, h3⟩ := legacy_cases cfg i e.usize c2
          exact ⟨_, q, i, c2.fs, _, by rw [hL, hN], hq, h1, trivial, trivial, fun _ => by rw [h3 h]⟩
        · rw [if_neg hl] at h ⊢
          rcases ox_cases cfg i e.usize c2 with ⟨_, h2⟩ | ⟨h1, h2⟩
          · exact absurd h h2
          · exact ⟨_, q, i, c2.fs, _, by rw [hL, hN], hq, h1, trivial, trivial, fun hl' => absurd hl' hl⟩
      · rw [if_neg hu]
        refine ⟨_, q, i, c2.fs, c2.fs.data i, by rw [hL, hN], hq, by rw [FS.setData_self], trivial, trivial, fun _ => ?_⟩
        have : (e.usize - ((c2.fs.data i).length : Int)).toNat = 0 := by omega
        rw [this]; simp

/-- If something is there, its folder needs no creating. -/
theorem mkdirAll_parent (flt : Faults) {D : Path} {c : Str} (hc : Ordinary c) {s : OS} {q : Path} {n : Node} (h : s.fs.lstat (D ++ [c]) = .found q n) :
    ∃ r, q = r ++ [c] ∧ s.fs.stat D = .found r .dir ∧ s.mkdirAll flt D = (none, s) := by
  have hl := FS.lstat_snoc (fs := s.fs) hc D
  rw [h] at hl
  cases hs : s.fs.stat D with
  | found r n' =>
    rw [hs] at hl
    cases n' with
    | dir =>
      simp only at hl
      split at hl
      · cases hl
      · simp only [WR.found.injEq] at hl
        exact ⟨r, hl.1, rfl, OS.mkdirAll_exists flt hs⟩
    | _ => cases hl
  | absent _ => rw [hs] at hl; cases hl
  | bad _ => rw [hs] at hl; cases hl

/-- A folder in the way: opening fails and nothing changes. -/
theorem createFile_dir {cfg : FCfg} {B : Path} (hB : cfg.Base B) {e : Entry} {s : OS} {q : Path}
    (h : s.fs.lstat (lexWalk B (splitSlash e.path)) = .found q .dir) :
    ∃ x, (createFile cfg e s).1 = .error x ∧ (createFile cfg e s).2.fs = s.fs ∧ (cfg.flt s.tick = none → B ≠ [] → B <+: lexWalk B (splitSlash e.path) → x.cause = EISDIR) := by
  unfold createFile
  cases hd : cfg.destPath e.path with
  | error x =>
    refine ⟨x, rfl, rfl, ?_⟩
    intro _ h0 hp
    rw [destPath_eq hB, if_pos ⟨hp, Or.inl h0⟩] at hd
    cases hd
  | ok dst =>
    obtain ⟨N, h1, h2, h3, h4⟩ := destPath_ok hB hd
    simp only [names, h3]
    rw [h4] at h
    have hm : s.mkdirAll cfg.flt (B ++ N).dropLast = (none, s) := by
      rcases List.eq_nil_or_concat (B ++ N) with h0 | ⟨D, c, hc⟩
      · rw [h0]; rfl
      · rw [List.concat_eq_append] at hc
        have ho : Ordinary c := by
          have : c ∈ B ++ N := by rw [hc]; simp
          rcases List.mem_append.mp this with hx | hx
          · exact base_ord hB c hx
          · exact h1 c hx
        rw [hc] at h ⊢
        rw [List.dropLast_concat]
        exact (mkdirAll_parent cfg.flt ho h).choose_spec.2.2
    simp only [hm, h]
    have hst : s.fs.stat (B ++ N) = .found q .dir := by rw [FS.stat_eq (by intro q' t'; rw [h]; simp)]; exact h
    unfold OS.openCreate
    cases hf : cfg.flt s.tick with
    | some f => simp
    | none => simp [hst, Err.cause, EISDIR]

/-- A file is there: opening it changes nothing but its permissions, whatever happens. -/
theorem createFile_existing {cfg : FCfg} {B : Path} (hB : cfg.Base B) {e : Entry} {s : OS} {q : Path} {i : Nat}
    (h : s.fs.lstat (lexWalk B (splitSlash e.path)) = .found q (.file i)) :
    (createFile cfg e s).2.fs.nodes = s.fs.nodes ∧ (createFile cfg e s).2.fs.data = s.fs.data ∧ (createFile cfg e s).2.fs.next = s.fs.next ∧
    (∀ j, j ≠ i → (createFile cfg e s).2.fs.mode j = s.fs.mode j) ∧ ∀ j, (createFile cfg e s).1 = .ok j → j = i := by
  unfold createFile
  cases hd : cfg.destPath e.path with
  | error x => exact ⟨rfl, rfl, rfl, fun _ _ => rfl, fun j hj => by cases hj⟩
  | ok dst =>
    obtain ⟨N, h1, h2, h3, h4⟩ := destPath_ok hB hd
    simp only [names, h3]
    rw [h4] at h
    have hm : s.mkdirAll cfg.flt (B ++ N).dropLast = (none, s) := by
      rcases List.eq_nil_or_concat (B ++ N) with h0 | ⟨D, c, hc⟩
      · rw [h0]; rfl
      · rw [List.concat_eq_append] at hc
        have ho : Ordinary c := by
          have : c ∈ B ++ N := by rw [hc]; simp
          rcases List.mem_append.mp this with hx | hx
          · exact base_ord hB c hx
          · exact h1 c hx
        rw [hc] at h ⊢
        rw [List.dropLast_concat]
        exact (mkdirAll_parent cfg.flt ho h).choose_spec.2.2
    simp only [hm, h]
    have hst : s.fs.stat (B ++ N) = .found q (.file i) := by rw [FS.stat_eq (by intro q' t'; rw [h]; simp)]; exact h
    have oc := OS.openCreate_cases cfg.flt cfg.umask (B ++ N) (fileMode e) s
    generalize s.openCreate cfg.flt cfg.umask (B ++ N) (fileMode e) = o at oc ⊢
    obtain ⟨o1, o2⟩ := o
    simp only at oc ⊢
    rcases oc with ⟨x, a, b⟩ | ⟨q', j, a, b, d⟩ | ⟨q', a, b, d⟩
    · subst a; simp [b]
    · rw [hst] at a; cases a
      subst b
      simp only
      have cc := chmod_cases cfg.flt i (fileMode e) o2
      generalize o2.chmod cfg.flt i (fileMode e) = z at cc ⊢
      obtain ⟨z1, z2⟩ := z
      simp only at cc ⊢
      rcases cc with ⟨x, a, b⟩ | ⟨a, b⟩
      · subst a; simp [b, d]
      · subst a
        simp only [b, d]
        exact ⟨rfl, rfl, rfl, fun j hj => by simp [FS.setMode, hj], fun j hj => by cases hj; rfl⟩
    · rw [hst] at a; cases a

end FSink
end Savior
