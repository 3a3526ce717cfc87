import Verif.Props.Folder
/-!
# Mkdir, and the life of writers and sinks (C09, C11, C12)
-/

namespace Savior
open FSink

/-- `MkdirAll` of something that was not a directory made one, there. -/
theorem OS.mkdirAllN_lstat (flt : Faults) (p : Path) (n : Nat) (s : OS) (ht : s.fs.Tree) (h : (mkdirAllN flt p n s).1 = none)
    (hs : ∀ q, s.fs.stat (p.take n) ≠ .found q .dir) : ∃ q, (mkdirAllN flt p n s).2.fs.lstat (p.take n) = .found q .dir := by
  cases n with
  | zero => exact absurd walk_nil (hs [])
  | succ n =>
    have spec := mkdirAllN_spec flt p n s ht
    simp only [mkdirAllN] at h ⊢
    split at h
    · rename_i q hq; exact absurd hq (hs q)
    · cases h
    · rename_i h1 h2
      generalize mkdirAllN flt p n s = r at *
      obtain ⟨r1, r2⟩ := r
      simp only at h spec ⊢
      cases r1 with
      | some e => cases h
      | none =>
        simp only at h ⊢
        rcases mkdir1_cases flt (p.take (n + 1)) r2 with ⟨e, a, b⟩ | ⟨q, a, b, d⟩
        · generalize mkdir1 flt (p.take (n + 1)) r2 = m at *
          obtain ⟨m1, m2⟩ := m
          simp only at a b h ⊢
          subst a
          simp only at h ⊢
          split at h
          · rename_i q hq; simp only [hq]; exact ⟨q, rfl⟩
          · cases h
        · obtain ⟨hn, hp⟩ := FS.lstat_absent spec.2.1 b
          generalize mkdir1 flt (p.take (n + 1)) r2 = m at *
          obtain ⟨m1, m2⟩ := m
          simp only at a d ⊢
          subst a
          simp only
          refine ⟨q, ?_⟩
          rw [d]
          exact walk_add (nodes' := (r2.fs.put q .dir).nodes) (grown_put hn).mono (by simp [FS.put]) (by simp) 40 [] _ b

/-- **C09.** A successful `Mkdir` leaves a directory at the entry's place. If one was there, nothing has changed; if a file or
link was there, exactly that node is gone and directories have been added; otherwise only directories have been added. File
contents are untouched. -/
theorem C09_mkdir {cfg : FCfg} {B : Path} (hB : cfg.Base B) (e : Entry) (hi : shouldIgnore e.path = false) (s : FSink) (ht : s.os.fs.Tree)
    (h : (s.mkdir cfg e).1 = none) :
    (∃ q, (s.mkdir cfg e).2.os.fs.lstat (entryPlace B e) = .found q .dir) ∧
    (∀ q, s.os.fs.lstat (entryPlace B e) = .found q .dir → (s.mkdir cfg e).2 = s) ∧
    (∀ q n, s.os.fs.lstat (entryPlace B e) = .found q n → OnlyAt q s.os.fs (s.mkdir cfg e).2.os.fs) ∧
    (s.os.fs.Missing (entryPlace B e) → ∀ p, (s.mkdir cfg e).2.os.fs.nodes p = s.os.fs.nodes p ∨
      (s.os.fs.nodes p = none ∧ (s.mkdir cfg e).2.os.fs.nodes p = some .dir)) ∧
    (s.mkdir cfg e).2.os.fs.data = s.os.fs.data ∧ (s.mkdir cfg e).2.ws = s.ws ∧ (s.mkdir cfg e).2.reg = s.reg := by
  unfold FSink.mkdir at h ⊢
  simp only [hi, Bool.false_eq_true, if_false] at h ⊢
  cases hd : cfg.destPath e.path with
  | error x => rw [hd] at h; cases h
  | ok dst =>
    obtain ⟨N, h1, h2, h3, h4⟩ := destPath_ok hB hd
    have hP : entryPlace B e = B ++ N := h4
    rw [hP]
    simp only [hd, names, h3] at h ⊢
    have viaMkdirAll : ∀ (s' : OS), s'.fs.Tree → (∀ q, s'.fs.stat (B ++ N) ≠ .found q .dir) → (s'.mkdirAll cfg.flt (B ++ N)).1 = none →
        (∃ q, (s'.mkdirAll cfg.flt (B ++ N)).2.fs.lstat (B ++ N) = .found q .dir) ∧ s'.fs.Grown (s'.mkdirAll cfg.flt (B ++ N)).2.fs := by
      intro s' t' hs' hm
      refine ⟨?_, (OS.mkdirAll_spec cfg.flt (B ++ N) s' t').1⟩
      have := OS.mkdirAllN_lstat cfg.flt (B ++ N) (B ++ N).length s' t' hm (by rw [List.take_length]; exact hs')
      rw [List.take_length] at this
      exact this
    have rest : (∀ q n, s.os.fs.lstat (B ++ N) ≠ .found q n) → (s.os.mkdirAll cfg.flt (B ++ N)).1 = none →
        (∃ q, (s.os.mkdirAll cfg.flt (B ++ N)).2.fs.lstat (B ++ N) = .found q .dir) ∧ s.os.fs.Grown (s.os.mkdirAll cfg.flt (B ++ N)).2.fs := by
      intro hnf hm
      exact viaMkdirAll s.os ht (by intro q; rw [FS.stat_eq (fun q t => hnf q _)]; exact hnf q _) hm
    have fin : ∀ (m : Option Err × OS), (∃ q, m.2.fs.lstat (B ++ N) = .found q .dir) ∧ s.os.fs.Grown m.2.fs → (∀ q n, s.os.fs.lstat (B ++ N) ≠ .found q n) →
        (∃ q, m.2.fs.lstat (B ++ N) = .found q .dir) ∧
        (∀ q, s.os.fs.lstat (B ++ N) = .found q .dir → ({ s with os := m.2 } : FSink) = s) ∧
        (∀ q n, s.os.fs.lstat (B ++ N) = .found q n → OnlyAt q s.os.fs m.2.fs) ∧
        (s.os.fs.Missing (B ++ N) → ∀ p, m.2.fs.nodes p = s.os.fs.nodes p ∨ (s.os.fs.nodes p = none ∧ m.2.fs.nodes p = some .dir)) ∧
        m.2.fs.data = s.os.fs.data ∧ s.ws = s.ws ∧ s.reg = s.reg := by
      intro m ⟨a, g⟩ hnf
      exact ⟨a, fun q hq => absurd hq (hnf q _), fun q n hq => absurd hq (hnf q n), fun _ p => g.nodes p, g.data, rfl, rfl⟩
    cases hl : s.os.fs.lstat (B ++ N) with
    | absent q =>
      simp only [hl, Option.map_eq_none_iff] at h
      have hnf : ∀ q n, s.os.fs.lstat (B ++ N) ≠ .found q n := by intro q n; rw [hl]; simp
      have := fin _ (rest hnf h) hnf
      rw [hl] at this
      exact this
    | bad x =>
      simp only [hl, Option.map_eq_none_iff] at h
      have hnf : ∀ q n, s.os.fs.lstat (B ++ N) ≠ .found q n := by intro q n; rw [hl]; simp
      have := fin _ (rest hnf h) hnf
      rw [hl] at this
      exact this
    | found q n =>
      have nd : n ≠ .dir → ∀ (r : Option Err × OS), r = s.os.remove cfg.flt (B ++ N) → r.1 = none → (r.2.mkdirAll cfg.flt (B ++ N)).1 = none →
          (∃ q, (r.2.mkdirAll cfg.flt (B ++ N)).2.fs.lstat (B ++ N) = .found q .dir) ∧ OnlyAt q s.os.fs (r.2.mkdirAll cfg.flt (B ++ N)).2.fs ∧
          (r.2.mkdirAll cfg.flt (B ++ N)).2.fs.data = s.os.fs.data := by
        intro hn r hr hr1 hm
        rcases OS.remove_cases cfg.flt (B ++ N) s.os with ⟨x, a, _⟩ | ⟨q', n', a, b, _, d⟩
        · rw [← hr, hr1] at a; cases a
        · rw [hl] at a
          simp only [WR.found.injEq] at a
          obtain ⟨rfl, rfl⟩ := a
          have hq0 : q ≠ [] := by
            intro e0; have := FS.lstat_real ht hl; rw [e0, ht.1] at this
            simp only [Option.some.injEq] at this; exact hn this.symm
          have hnq := FS.lstat_real ht hl
          have t2 : r.2.fs.Tree := by rw [hr, d]; exact FS.tree_cut ht hq0
          have hcut : ∀ p, r.2.fs.nodes p = if p = q then none else s.os.fs.nodes p := by
            intro p; rw [hr, d]; exact cut_leaf ht (by rw [hnq]; simpa using hn) p
          have hmono : ∀ p n, r.2.fs.nodes p = some n → s.os.fs.nodes p = some n := by
            intro p n hp; rw [hcut] at hp; split at hp
            · cases hp
            · exact hp
          have hns : ∀ q', r.2.fs.stat (B ++ N) ≠ .found q' .dir := by
            intro q' hq'
            have h5 : s.os.fs.stat (B ++ N) = .found q' .dir := walk_mono hmono 40 [] _ hq'
            by_cases hlk : ∃ t, n = .link t
            · obtain ⟨t, rfl⟩ := hlk
              -- the link is gone, so it cannot have been followed
              have hl2 : ∀ a m, r.2.fs.lstat (B ++ N) ≠ .found a m := by
                intro a m ha
                have h6 : s.os.fs.lstat (B ++ N) = .found a m := walk_mono hmono 40 [] _ ha
                rw [hl] at h6
                simp only [WR.found.injEq] at h6
                have := FS.lstat_real t2 ha
                rw [← h6.1, hcut, if_pos rfl] at this; cases this
              rw [FS.stat_eq (fun a t => hl2 a _)] at hq'
              exact hl2 _ _ hq'
            · rw [FS.stat_eq (by intro a t ha; rw [hl] at ha; simp only [WR.found.injEq] at ha; exact hlk ⟨t, ha.2⟩), hl] at h5
              simp only [WR.found.injEq] at h5
              exact hn h5.2
          obtain ⟨a, g⟩ := viaMkdirAll r.2 t2 hns hm
          refine ⟨a, ?_, ?_⟩
          · intro p hp
            rcases g.nodes p with f | ⟨f1, f2⟩
            · left; rw [f, hcut, if_neg hp]
            · right; rw [hcut, if_neg hp] at f1; exact ⟨f1, f2⟩
          · rw [g.data, hr, d]; rfl
      have mk : n ≠ .dir → ∀ (m : OS), (∃ q, m.fs.lstat (B ++ N) = .found q .dir) ∧ OnlyAt q s.os.fs m.fs ∧ m.fs.data = s.os.fs.data →
          (∃ q, m.fs.lstat (B ++ N) = .found q .dir) ∧
          (∀ q', WR.found q n = .found q' .dir → ({ s with os := m } : FSink) = s) ∧
          (∀ q' n', WR.found q n = .found q' n' → OnlyAt q' s.os.fs m.fs) ∧
          (s.os.fs.Missing (B ++ N) → ∀ p, m.fs.nodes p = s.os.fs.nodes p ∨ (s.os.fs.nodes p = none ∧ m.fs.nodes p = some .dir)) ∧
          m.fs.data = s.os.fs.data ∧ s.ws = s.ws ∧ s.reg = s.reg := by
        intro hn m ⟨a, b, c⟩
        refine ⟨a, ?_, ?_, fun hmis => absurd hl (hmis _ _), c, rfl, rfl⟩
        · intro q' hq'; simp only [WR.found.injEq] at hq'; exact absurd hq'.2 hn
        · intro q' n' hq'; simp only [WR.found.injEq] at hq'; rw [← hq'.1]; exact b
      cases n with
      | dir =>
        simp only
        exact ⟨⟨q, hl⟩, fun _ _ => trivial, fun q' n' _ p _ => Or.inl rfl, fun _ p => Or.inl trivial, trivial, trivial, trivial⟩
      | file i =>
        simp only [hl] at h ⊢
        have nd := nd (by simp) _ rfl
        have mk := mk (by simp)
        generalize s.os.remove cfg.flt (B ++ N) = r at *
        obtain ⟨r1, r2⟩ := r
        cases r1 with
        | some x => cases h
        | none =>
          simp only [Option.map_eq_none_iff] at h nd ⊢
          obtain ⟨a, b, c, d, f, _⟩ := mk _ (nd trivial h)
          exact ⟨a, b, c, d, f, trivial, trivial⟩
      | link t =>
        simp only [hl] at h ⊢
        have nd := nd (by simp) _ rfl
        have mk := mk (by simp)
        generalize s.os.remove cfg.flt (B ++ N) = r at *
        obtain ⟨r1, r2⟩ := r
        cases r1 with
        | some x => cases h
        | none =>
          simp only [Option.map_eq_none_iff] at h nd ⊢
          obtain ⟨a, b, c, d, f, _⟩ := mk _ (nd trivial h)
          exact ⟨a, b, c, d, f, trivial, trivial⟩


/-- A file turned into a folder. -/
example : ((exSink (exFS (cs ['f']) (.file 0) [1])).mkdir exCfg exFile).1 = none ∧
    ((exSink (exFS (cs ['f']) (.file 0) [1])).mkdir exCfg exFile).2.os.fs.nodes [[100], cs ['f']] = some .dir := ⟨by rfl, by rfl⟩

/-! ### Writers -/

/-- A writer that can no longer change anything: closed, or for an ignored entry. -/
def FSink.Dead (s : FSink) (k : Nat) : Prop := s.ws[k]? = some .nop ∨ ∃ i o, s.ws[k]? = some (.real i o false)

/-- Only the registered writer may be open. -/
def FSink.OneOpen (s : FSink) : Prop := ∀ k i o, s.ws[k]? = some (.real i o true) → s.reg = some k

theorem closeAt_ws (cfg : FCfg) (k : Nat) (s : FSink) : (s.closeAt cfg k).2.ws = (match s.ws[k]? with
    | some (.real i o true) => s.ws.set k (.real i o false) | _ => s.ws) := by
  unfold closeAt
  split
  · rename_i h; simp only [h]
  · rename_i h
    split
    · rename_i i o h'; exact absurd h' (h i o)
    · rfl

theorem closeAt_dead (cfg : FCfg) (k j : Nat) (s : FSink) (h : s.Dead j) : (s.closeAt cfg k).2.Dead j := by
  unfold Dead at h ⊢
  rw [closeAt_ws]
  split
  · rename_i i o hk
    by_cases e : k = j
    · subst e
      rcases h with h | ⟨i', o', h⟩ <;> (rw [h] at hk; cases hk)
    · simpa [List.getElem?_set_ne e] using h
  · exact h

theorem closeAt_oneOpen (cfg : FCfg) (k : Nat) (s : FSink) (h : s.OneOpen) :
    (s.closeAt cfg k).2.OneOpen ∧ ∀ i o, (s.closeAt cfg k).2.ws[k]? ≠ some (.real i o true) := by
  unfold OneOpen at h ⊢
  rw [closeAt_ws, (closeAt_fs cfg k s).2.2]
  split
  · rename_i i o hk
    have hlt : k < s.ws.length := by rw [List.getElem?_eq_some_iff] at hk; exact hk.1
    constructor
    · intro j i' o' hj
      by_cases e : k = j
      · subst e; simp [hlt] at hj
      · rw [List.getElem?_set_ne e] at hj; exact h j i' o' hj
    · intro i' o' hj; simp [hlt] at hj
  · rename_i hk
    exact ⟨h, fun i o => hk i o⟩

/-- After `Close`, no writer is open. -/
theorem close_allDead (cfg : FCfg) (s : FSink) (h : s.OneOpen) :
    (s.close cfg).2.reg = none ∧ ∀ (k i o : Nat), (s.close cfg).2.ws[k]? ≠ some (Wr.real i o true) := by
  unfold close
  cases hr : s.reg with
  | none => exact ⟨hr, fun k i o hk => by have := h k i o hk; rw [hr] at this; cases this⟩
  | some r =>
    refine ⟨rfl, fun k i o hk => ?_⟩
    simp only at hk
    obtain ⟨h1, h2⟩ := closeAt_oneOpen cfg r s h
    have := h1 k i o hk
    rw [(closeAt_fs cfg r s).2.2, hr] at this
    cases this
    exact h2 i o hk

theorem close_dead (cfg : FCfg) (j : Nat) (s : FSink) (h : s.Dead j) : (s.close cfg).2.Dead j := by
  unfold close
  split
  · exact h
  · exact closeAt_dead cfg _ j s h

theorem mkdir_ws (cfg : FCfg) (e : Entry) (s : FSink) : (s.mkdir cfg e).2.ws = s.ws ∧ (s.mkdir cfg e).2.reg = s.reg := by
  unfold FSink.mkdir
  split
  · exact ⟨rfl, rfl⟩
  · split
    · exact ⟨rfl, rfl⟩
    · simp only
      split
      · exact ⟨rfl, rfl⟩
      · split <;> exact ⟨rfl, rfl⟩
      · exact ⟨rfl, rfl⟩

theorem symlink_ws (cfg : FCfg) (e : Entry) (t : Str) (s : FSink) : (s.symlink cfg e t).2.ws = s.ws ∧ (s.symlink cfg e t).2.reg = s.reg := by
  unfold FSink.symlink
  repeat' split
  all_goals first | exact ⟨rfl, rfl⟩ | (simp only; repeat' split) <;> exact ⟨rfl, rfl⟩

theorem preallocate_ws (cfg : FCfg) (e : Entry) (s : FSink) : (s.preallocate cfg e).2.ws = s.ws ∧ (s.preallocate cfg e).2.reg = s.reg := by
  unfold FSink.preallocate
  repeat' split
  all_goals first | exact ⟨rfl, rfl⟩ | (simp only; repeat' split) <;> exact ⟨rfl, rfl⟩

theorem syncAt_ws (cfg : FCfg) (k : Nat) (s : FSink) : (s.syncAt cfg k).2.ws = s.ws ∧ (s.syncAt cfg k).2.reg = s.reg := by
  unfold FSink.syncAt
  split <;> exact ⟨rfl, rfl⟩

theorem nuke_ws (cfg : FCfg) (s : FSink) : (s.nuke cfg).2.ws = (s.close cfg).2.ws ∧ (s.nuke cfg).2.reg = (s.close cfg).2.reg := by
  unfold FSink.nuke
  repeat' split
  all_goals first | exact ⟨rfl, rfl⟩ | (simp only; repeat' split) <;> exact ⟨rfl, rfl⟩

theorem dead_congr {s s' : FSink} (h : s'.ws = s.ws) (k : Nat) (hd : s.Dead k) : s'.Dead k := by unfold Dead at *; rwa [h]

theorem oneOpen_congr {s s' : FSink} (h : s'.ws = s.ws ∧ s'.reg = s.reg) (hd : s.OneOpen) : s'.OneOpen := by
  unfold OneOpen at *; rwa [h.1, h.2]

theorem close_len (cfg : FCfg) (s : FSink) : (s.close cfg).2.ws.length = s.ws.length := (close_fs cfg s).2

/-- What `GetWriter` does to the writers. -/
theorem getWriter_ws (cfg : FCfg) (e : Entry) (s : FSink) :
    ((s.getWriter cfg e).1 ≠ none ∧ (s.getWriter cfg e).2.ws = s.ws ∧ (s.getWriter cfg e).2.reg = s.reg) ∨
    (shouldIgnore e.path = true ∧ (s.getWriter cfg e).1 = none ∧ (s.getWriter cfg e).2.ws = s.ws ++ [.nop] ∧ (s.getWriter cfg e).2.reg = s.reg) ∨
    (shouldIgnore e.path = false ∧ (s.getWriter cfg e).1 = none ∧ ∃ os' i o, (s.getWriter cfg e).2.ws = (({ s with os := os' } : FSink).close cfg).2.ws ++ [.real i o true] ∧
      (s.getWriter cfg e).2.reg = some s.ws.length) := by
  unfold FSink.getWriter
  split
  · rename_i h; exact Or.inr (Or.inl ⟨h, rfl, rfl, rfl⟩)
  · rename_i h
    simp only
    split
    · exact Or.inl ⟨by simp, rfl, rfl⟩
    · split
      · exact Or.inl ⟨by simp, rfl, rfl⟩
      · exact Or.inr (Or.inr ⟨by simpa using h, rfl, _, _, _, rfl, by simp [close_len]⟩)

theorem run_dead (cfg : FCfg) (op : FOp) (s : FSink) (k : Nat) (h : s.Dead k) : (op.run cfg s).2.Dead k := by
  have hlt : k < s.ws.length := by
    unfold Dead at h
    rcases h with h | ⟨i, o, h⟩ <;> (rw [List.getElem?_eq_some_iff] at h; exact h.1)
  cases op with
  | mkdir e => exact dead_congr (mkdir_ws cfg e s).1 k h
  | symlink e t => exact dead_congr (symlink_ws cfg e t s).1 k h
  | prealloc e => exact dead_congr (preallocate_ws cfg e s).1 k h
  | getWriter e =>
    simp only [FOp.run]
    rcases getWriter_ws cfg e s with ⟨_, a, _⟩ | ⟨_, _, a, _⟩ | ⟨_, _, os', i, o, a, _⟩
    · exact dead_congr a k h
    · unfold Dead at h ⊢; rw [a, List.getElem?_append_left hlt]; exact h
    · have h2 := close_dead cfg k ({ s with os := os' } : FSink) h
      unfold Dead at h2 ⊢
      rw [a, List.getElem?_append_left (by rw [close_len]; exact hlt)]
      exact h2
  | write j bs =>
    simp only [FOp.run]
    unfold Dead at h ⊢
    unfold writeAt
    split
    · rename_i i o hj
      by_cases e : j = k
      · subst e; rcases h with h | ⟨i', o', h⟩ <;> (rw [h] at hj; cases hj)
      · simpa [List.getElem?_set_ne e] using h
    · exact h
    · exact h
    · exact h
  | sync j => exact dead_congr (syncAt_ws cfg j s).1 k h
  | closeWriter j => exact closeAt_dead cfg j k s h
  | close => exact close_dead cfg k s h
  | nuke => exact dead_congr (nuke_ws cfg s).1 k (close_dead cfg k s h)

theorem run_oneOpen (cfg : FCfg) (op : FOp) (s : FSink) (h : s.OneOpen) : (op.run cfg s).2.OneOpen := by
  cases op with
  | mkdir e => exact oneOpen_congr (mkdir_ws cfg e s) h
  | symlink e t => exact oneOpen_congr (symlink_ws cfg e t s) h
  | prealloc e => exact oneOpen_congr (preallocate_ws cfg e s) h
  | getWriter e =>
    simp only [FOp.run]
    rcases getWriter_ws cfg e s with ⟨_, a, b⟩ | ⟨_, _, a, b⟩ | ⟨_, _, os', i, o, a, b⟩
    · exact oneOpen_congr ⟨a, b⟩ h
    · unfold OneOpen at h ⊢
      intro k i o hk
      rw [b]; rw [a] at hk
      by_cases hlt : k < s.ws.length
      · rw [List.getElem?_append_left hlt] at hk; exact h k i o hk
      · rw [List.getElem?_append_right (by omega)] at hk
        cases hx : k - s.ws.length with
        | zero => rw [hx] at hk; simp at hk
        | succ n => rw [hx] at hk; simp at hk
    · have hx := (close_allDead cfg ({ s with os := os' } : FSink) h).2
      unfold OneOpen
      intro k i' o' hk
      rw [b]; rw [a] at hk
      have hl : (({ s with os := os' } : FSink).close cfg).2.ws.length = s.ws.length := close_len cfg _
      by_cases hlt : k < s.ws.length
      · rw [List.getElem?_append_left (by omega)] at hk; exact absurd hk (hx k i' o')
      · rw [List.getElem?_append_right (by omega), hl] at hk
        cases hn : k - s.ws.length with
        | zero => rw [show k = s.ws.length by omega]
        | succ n => rw [hn] at hk; simp at hk
  | write j bs =>
    simp only [FOp.run]
    unfold OneOpen at h ⊢
    unfold writeAt
    split
    · rename_i i o hj
      intro k i' o' hk
      simp only at hk ⊢
      by_cases e : j = k
      · subst e; exact h j i o hj
      · rw [List.getElem?_set_ne e] at hk; exact h k i' o' hk
    · exact h
    · exact h
    · exact h
  | sync j => exact oneOpen_congr (syncAt_ws cfg j s) h
  | closeWriter j => exact (closeAt_oneOpen cfg j s h).1
  | close =>
    intro k i o hk
    exact absurd hk ((close_allDead cfg s h).2 k i o)
  | nuke =>
    intro k i o hk
    simp only [FOp.run, (nuke_ws cfg s).1] at hk
    exact absurd hk ((close_allDead cfg s h).2 k i o)

theorem runOps_dead (cfg : FCfg) (ops : List FOp) (s : FSink) (k : Nat) (h : s.Dead k) : (runOps cfg ops s).Dead k := by
  unfold runOps
  induction ops generalizing s with
  | nil => exact h
  | cons op ops ih => exact ih _ (run_dead cfg op s k h)

theorem runOps_oneOpen (cfg : FCfg) (ops : List FOp) (s : FSink) (h : s.OneOpen) : (runOps cfg ops s).OneOpen := by
  unfold runOps
  induction ops generalizing s with
  | nil => exact h
  | cons op ops ih => exact ih _ (run_oneOpen cfg op s h)

/-- A dead writer refuses (or, for an ignored entry, swallows) writes and syncs; nothing changes. -/
theorem dead_write (cfg : FCfg) (k : Nat) (use : FOp) (hu : use = .sync k ∨ ∃ bs, use = .write k bs) (s : FSink) (h : s.Dead k) :
    (use.run cfg s).2 = s ∧ (s.ws[k]? ≠ some .nop → (use.run cfg s).1 = some .closed) := by
  unfold Dead at h
  rcases hu with rfl | ⟨bs, rfl⟩ <;> rcases h with h | ⟨i, o, h⟩ <;> simp [FOp.run, writeAt, syncAt, h]

theorem dead_of_notOpen (s : FSink) (k : Nat) (hk : k < s.ws.length) (h : ∀ i o, s.ws[k]? ≠ some (.real i o true)) : s.Dead k := by
  unfold Dead
  cases hw : s.ws[k] with
  | nop => left; simp [hk, hw]
  | real i o b =>
    cases b with
    | false => right; exact ⟨i, o, by simp [hk, hw]⟩
    | true => exact absurd (by simp [hk, hw]) (h i o)

/-- The kind of a writer never changes. -/
theorem nop_stable (cfg : FCfg) (op : FOp) (s : FSink) (k : Nat) (hk : k < s.ws.length) :
    ((op.run cfg s).2.ws[k]? = some .nop ↔ s.ws[k]? = some .nop) ∧ k < (op.run cfg s).2.ws.length := by
  have closeNop : ∀ (s : FSink) (j : Nat), ((s.closeAt cfg j).2.ws[k]? = some .nop ↔ s.ws[k]? = some .nop) := by
    intro s j
    rw [closeAt_ws]
    split
    · rename_i i o hj
      by_cases e : j = k
      · subst e
        have hlt : j < s.ws.length := by rw [List.getElem?_eq_some_iff] at hj; exact hj.1
        rw [hj]; simp [hlt]
      · rw [List.getElem?_set_ne e]
    · exact Iff.rfl
  have closeNop' : ∀ (s : FSink), ((s.close cfg).2.ws[k]? = some .nop ↔ s.ws[k]? = some .nop) := by
    intro s
    unfold close
    split
    · exact Iff.rfl
    · exact closeNop s _
  cases op with
  | mkdir e => simp only [FOp.run, (mkdir_ws cfg e s).1]; exact ⟨trivial, hk⟩
  | symlink e t => simp only [FOp.run, (symlink_ws cfg e t s).1]; exact ⟨trivial, hk⟩
  | prealloc e => simp only [FOp.run, (preallocate_ws cfg e s).1]; exact ⟨trivial, hk⟩
  | getWriter e =>
    simp only [FOp.run]
    rcases getWriter_ws cfg e s with ⟨_, a, _⟩ | ⟨_, _, a, _⟩ | ⟨_, _, os', i, o, a, _⟩
    · rw [a]; exact ⟨Iff.rfl, hk⟩
    · rw [a, List.getElem?_append_left hk]; exact ⟨Iff.rfl, by simp; omega⟩
    · have hl : (({ s with os := os' } : FSink).close cfg).2.ws.length = s.ws.length := close_len cfg _
      rw [a, List.getElem?_append_left (by omega)]
      exact ⟨closeNop' _, by simp only [List.length_append]; omega⟩
  | write j bs =>
    simp only [FOp.run]
    unfold writeAt
    split
    · rename_i i o hj
      by_cases e : j = k
      · subst e; rw [hj]; simp [hk]
      · simp only; rw [List.getElem?_set_ne e]; exact ⟨Iff.rfl, by simpa using hk⟩
    · exact ⟨Iff.rfl, hk⟩
    · exact ⟨Iff.rfl, hk⟩
    · exact ⟨Iff.rfl, hk⟩
  | sync j => simp only [FOp.run, (syncAt_ws cfg j s).1]; exact ⟨trivial, hk⟩
  | closeWriter j => exact ⟨closeNop s j, by simp only [FOp.run]; rw [(closeAt_fs cfg j s).2.1]; exact hk⟩
  | close => exact ⟨closeNop' s, by simp only [FOp.run]; rw [close_len]; exact hk⟩
  | nuke => simp only [FOp.run, (nuke_ws cfg s).1]; exact ⟨closeNop' s, by rw [close_len]; exact hk⟩

theorem runOps_nop (cfg : FCfg) (ops : List FOp) (s : FSink) (k : Nat) (hk : k < s.ws.length) :
    (runOps cfg ops s).ws[k]? = some .nop ↔ s.ws[k]? = some .nop := by
  unfold runOps
  induction ops generalizing s with
  | nil => exact Iff.rfl
  | cons op ops ih =>
    obtain ⟨a, b⟩ := nop_stable cfg op s k hk
    exact (ih _ b).trans a

/-- A sink as the program creates it: no writers yet. -/
def FSink.fresh (os : OS) : FSink := ⟨os, [], none⟩

theorem fresh_oneOpen (os : OS) : (FSink.fresh os).OneOpen := by intro k i o h; simp [FSink.fresh] at h

/-- **C11** (the new entry is not an ignored one). Whatever happened before and happens later: once `GetWriter` has returned a
new writer, a `Write` to or `Sync` of any writer returned earlier changes nothing at all and, unless that one was for an ignored
entry, reports `os.ErrClosed`. -/
theorem C11_only_last_partial (cfg : FCfg) (os : OS) (before after : List FOp) (e : Entry) (hi : shouldIgnore e.path = false) (k : Nat)
    (use : FOp) (hu : use = .sync k ∨ ∃ bs, use = .write k bs) :
    let s := runOps cfg before (.fresh os)
    let s' := runOps cfg after ((FOp.getWriter e).run cfg s).2
    ((FOp.getWriter e).run cfg s).1 = none → k < s.ws.length →
    (use.run cfg s').2 = s' ∧ (s.ws[k]? ≠ some .nop → (use.run cfg s').1 = some .closed) := by
  intro s s' hok hk
  have h1 : s.OneOpen := runOps_oneOpen cfg before _ (fresh_oneOpen os)
  have h2 := run_oneOpen cfg (.getWriter e) s h1
  have hx := nop_stable cfg (.getWriter e) s k hk
  have hd : ((FOp.getWriter e).run cfg s).2.Dead k := by
    apply dead_of_notOpen _ _ hx.2
    intro i o h
    have := h2 k i o h
    rcases getWriter_ws cfg e s with ⟨a, _⟩ | ⟨a, _⟩ | ⟨_, _, _, _, _, _, a⟩
    · exact absurd hok a
    · rw [hi] at a; cases a
    · simp only [FOp.run] at this
      rw [a] at this
      simp only [Option.some.injEq] at this
      omega
  obtain ⟨a, b⟩ := dead_write cfg k use hu s' (runOps_dead cfg after _ k hd)
  refine ⟨a, fun hn => b ?_⟩
  intro h
  exact hn (hx.1.mp ((runOps_nop cfg after _ k hx.2).mp h))

/-- **C11 is false for ignored entries**: after a writer for "f", asking for one for "Icon\r" leaves the first one open. -/
theorem C11_false_ignored :
    let s := runOps exCfg [.getWriter { exFile with woff := 0 }, .getWriter { exFile with path := iconName }] (exSink (exFS (cs ['x']) .dir []))
    s.ws.length = 2 ∧ ((FOp.write 0 [42]).run exCfg s).1 = none ∧
      ((FOp.write 0 [42]).run exCfg s).2.os.fs.content [[100], cs ['f']] = some [42] := ⟨by rfl, by rfl, by rfl⟩

/-- **C11, exactly.** Asking for a writer for an ignored entry never affects any other writer: a `Write` to each does what it
would have done without. So the property fails whenever a writer is open and the next entry is an ignored one. -/
theorem C11_false_always (cfg : FCfg) (s : FSink) (e : Entry) (hi : shouldIgnore e.path = true) (k : Nat) (hk : k < s.ws.length) (bs : List Byte) :
    ((FOp.getWriter e).run cfg s).1 = none ∧
    ((FOp.write k bs).run cfg ((FOp.getWriter e).run cfg s).2).1 = ((FOp.write k bs).run cfg s).1 ∧
    ((FOp.write k bs).run cfg ((FOp.getWriter e).run cfg s).2).2.os = ((FOp.write k bs).run cfg s).2.os := by
  have hg : getWriter cfg e s = (none, { s with ws := s.ws ++ [.nop] }) := by
    unfold getWriter
    rw [if_pos hi]
  have hw : (s.ws ++ [Wr.nop])[k]? = s.ws[k]? := List.getElem?_append_left hk
  refine ⟨by simp only [FOp.run, hg], ?_, ?_⟩
  all_goals
    simp only [FOp.run, hg, writeAt]
    rw [hw]
    generalize s.ws[k]? = w
    rcases w with _ | (_ | ⟨_, _, (_ | _)⟩) <;> rfl

/-- Two ordinary writers: the first is refused. -/
example : (((FOp.write 0 [42]).run exCfg (runOps exCfg [.getWriter { exFile with woff := 0 }, .getWriter { exFile with path := cs ['g'] }]
    (exSink (exFS (cs ['x']) .dir [])))).1 = some .closed) := by rfl

/-- **C12.** After `Close` or `Nuke` (even a failing one), whatever happens later: a `Write` to or `Sync` of any writer returned before
changes nothing and, unless that one was for an ignored entry, reports `os.ErrClosed`. -/
theorem C12_final (cfg : FCfg) (os : OS) (before after : List FOp) (op : FOp) (hop : op = .close ∨ op = .nuke) (k : Nat)
    (use : FOp) (hu : use = .sync k ∨ ∃ bs, use = .write k bs) :
    let s := runOps cfg before (.fresh os)
    let s' := runOps cfg after (op.run cfg s).2
    k < s.ws.length →
    (use.run cfg s').2 = s' ∧ (s.ws[k]? ≠ some .nop → (use.run cfg s').1 = some .closed) := by
  intro s s' hk
  have h1 : s.OneOpen := runOps_oneOpen cfg before _ (fresh_oneOpen os)
  have hx := nop_stable cfg op s k hk
  have hd : (op.run cfg s).2.Dead k := by
    apply dead_of_notOpen _ _ hx.2
    intro i o h
    have h2 := (close_allDead cfg s h1).2 k i o
    rcases hop with rfl | rfl
    · exact h2 h
    · simp only [FOp.run, (nuke_ws cfg s).1] at h; exact h2 h
  obtain ⟨a, b⟩ := dead_write cfg k use hu s' (runOps_dead cfg after _ k hd)
  refine ⟨a, fun hn => b ?_⟩
  intro h
  exact hn (hx.1.mp ((runOps_nop cfg after _ k hx.2).mp h))

/-- **C12.** `Close` is idempotent: the second call reports success and changes nothing. -/
theorem C12_close_idempotent (cfg : FCfg) (s : FSink) : (s.close cfg).2.close cfg = (none, (s.close cfg).2) ∧ (s.close cfg).2.os.fs = s.os.fs := by
  refine ⟨?_, (close_fs cfg s).1⟩
  cases hr : s.reg with
  | none => simp [close, hr]
  | some r => simp [close, hr]

end Savior
