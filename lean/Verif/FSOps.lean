import Verif.FSLemmas
import Verif.DestLemmas
/-!
# System calls: lemmas
-/

namespace Savior

/-- Only directories were added. -/
structure FS.Grown (fs fs' : FS) : Prop where
  data : fs'.data = fs.data
  mode : fs'.mode = fs.mode
  next : fs'.next = fs.next
  nodes : ∀ p, fs'.nodes p = fs.nodes p ∨ (fs.nodes p = none ∧ fs'.nodes p = some .dir)

namespace FS.Grown

theorem refl (fs : FS) : fs.Grown fs := ⟨rfl, rfl, rfl, fun _ => Or.inl rfl⟩

theorem trans {a b c : FS} (h : a.Grown b) (h' : b.Grown c) : a.Grown c := by
  refine ⟨h'.data.trans h.data, h'.mode.trans h.mode, h'.next.trans h.next, fun p => ?_⟩
  rcases h'.nodes p with e | ⟨e1, e2⟩
  · rcases h.nodes p with f | ⟨f1, f2⟩
    · exact Or.inl (e.trans f)
    · exact Or.inr ⟨f1, e.trans f2⟩
  · rcases h.nodes p with f | ⟨f1, f2⟩
    · exact Or.inr ⟨f ▸ e1, e2⟩
    · rw [f2] at e1; cases e1

theorem mono {a b : FS} (h : a.Grown b) : ∀ p n, a.nodes p = some n → b.nodes p = some n := by
  intro p n hn
  rcases h.nodes p with e | ⟨e1, _⟩
  · rw [e, hn]
  · rw [hn] at e1; cases e1

end FS.Grown

theorem FS.tree_put {fs : FS} (ht : fs.Tree) {q : Path} {n : Node} (hq : fs.nodes q = none) (hp : ∃ r c, q = r ++ [c] ∧ fs.nodes r = some .dir) :
    (fs.put q n).Tree := by
  have h0 : q ≠ [] := by intro e; rw [e, ht.1] at hq; cases hq
  refine ⟨by simp only [FS.put]; rw [if_neg (Ne.symm h0)]; exact ht.1, ?_⟩
  intro p c h
  simp only [FS.put] at h ⊢
  by_cases e : p ++ [c] = q
  · obtain ⟨r, c', rfl, hr⟩ := hp
    have := List.append_inj' e rfl
    rw [this.1]
    rw [if_neg (by intro e; have := congrArg List.length e; simp at this)]
    exact hr
  · rw [if_neg e] at h
    have hd := ht.2 p c h
    rw [if_neg (by intro e; rw [e, hq] at hd; cases hd)]
    exact hd

theorem FS.tree_cut {fs : FS} (ht : fs.Tree) {q : Path} (hq : q ≠ []) : (fs.cut q).Tree := by
  constructor
  · simp only [FS.cut]
    have : q.isPrefixOf [] = false := by cases q with | nil => exact absurd rfl hq | cons => rfl
    rw [this]; exact ht.1
  · intro p c h
    simp only [FS.cut] at h ⊢
    by_cases e : q.isPrefixOf (p ++ [c]) = true
    · rw [if_pos e] at h; exact absurd rfl h
    · rw [if_neg e] at h
      have : ¬ q.isPrefixOf p = true := by
        intro hp
        rw [List.isPrefixOf_iff_prefix] at e hp
        exact e (hp.trans (List.prefix_append _ _))
      rw [if_neg this]
      exact ht.2 p c h

theorem FS.tree_cutSome {fs : FS} (ht : fs.Tree) {q : Path} {rm : Path → Bool} (h0 : rm [] = false) : (fs.cutSome q rm).Tree := by
  constructor
  · simp [FS.cutSome, h0, ht.1]
  · intro p c h
    simp only [FS.cutSome] at h ⊢
    split at h
    · exact absurd rfl h
    · rename_i hn
      rw [if_neg]
      · exact ht.2 p c h
      · intro hp
        apply hn
        simp only [List.any_eq_true, List.mem_range, Bool.and_eq_true] at hp ⊢
        obtain ⟨k, hk, a, b⟩ := hp
        refine ⟨k, by simp; omega, ?_, ?_⟩
        · rwa [List.take_append_of_le_length (by omega)]
        · rwa [List.take_append_of_le_length (by omega)]

theorem FS.tree_create {fs : FS} (ht : fs.Tree) {q : Path} {m : Nat} (hq : fs.nodes q = none) (hp : ∃ r c, q = r ++ [c] ∧ fs.nodes r = some .dir) :
    (fs.create q m).Tree := FS.tree_put (n := .file fs.next) ht hq hp

namespace OS

/-- `mkdir(2)`: either nothing, or the missing directory. -/
theorem mkdir1_cases (flt : Faults) (p : Path) (s : OS) :
    (∃ e, (mkdir1 flt p s).1 = some e ∧ (mkdir1 flt p s).2.fs = s.fs) ∨
    (∃ q, (mkdir1 flt p s).1 = none ∧ s.fs.lstat p = .absent q ∧ (mkdir1 flt p s).2.fs = s.fs.put q .dir) := by
  unfold mkdir1
  cases flt s.tick with
  | some f => exact Or.inl ⟨_, rfl, rfl⟩
  | none =>
    simp only
    cases h : s.fs.lstat p with
    | absent q => exact Or.inr ⟨q, rfl, rfl, rfl⟩
    | found q n => exact Or.inl ⟨_, rfl, rfl⟩
    | bad e => exact Or.inl ⟨_, rfl, rfl⟩

theorem grown_put {fs : FS} {q : Path} (hq : fs.nodes q = none) : fs.Grown (fs.put q .dir) := by
  refine ⟨rfl, rfl, rfl, fun p => ?_⟩
  simp only [FS.put]
  by_cases e : p = q
  · right; subst e; exact ⟨hq, by simp⟩
  · left; rw [if_neg e]

theorem mkdirAllN_spec (flt : Faults) (p : Path) (n : Nat) (s : OS) (ht : s.fs.Tree) :
    s.fs.Grown (mkdirAllN flt p n s).2.fs ∧ (mkdirAllN flt p n s).2.fs.Tree ∧
    ((mkdirAllN flt p n s).1 = none → ∃ q, (mkdirAllN flt p n s).2.fs.stat (p.take n) = .found q .dir) := by
  induction n with
  | zero =>
    refine ⟨.refl _, ht, fun _ => ⟨[], ?_⟩⟩
    simp only [mkdirAllN, List.take_zero, FS.stat]
    exact walk_nil
  | succ n ih =>
    simp only [mkdirAllN]
    split
    · rename_i q h; exact ⟨.refl _, ht, fun _ => ⟨q, h⟩⟩
    · exact ⟨.refl _, ht, fun h => by cases h⟩
    · rename_i h1 h2
      obtain ⟨g, t, _⟩ := ih
      generalize mkdirAllN flt p n s = r at *
      obtain ⟨r1, r2⟩ := r
      simp only at g t ⊢
      cases r1 with
      | some e => exact ⟨g, t, fun h => by cases h⟩
      | none =>
        simp only
        rcases mkdir1_cases flt (p.take (n + 1)) r2 with ⟨e, a, b⟩ | ⟨q, a, b, d⟩
        · generalize mkdir1 flt (p.take (n + 1)) r2 = m at *
          obtain ⟨m1, m2⟩ := m
          simp only at a b ⊢
          subst a
          simp only
          split
          · rename_i q hq
            rw [b] at hq ⊢
            refine ⟨g, t, fun _ => ⟨q, ?_⟩⟩
            rw [FS.stat_eq (by intro q' t'; rw [hq]; simp)]
            exact hq
          · rw [b]; exact ⟨g, t, fun h => by cases h⟩
        · obtain ⟨hn, hp⟩ := FS.lstat_absent t b
          generalize mkdir1 flt (p.take (n + 1)) r2 = m at *
          obtain ⟨m1, m2⟩ := m
          simp only at a d ⊢
          subst a
          simp only
          rw [d]
          refine ⟨g.trans (grown_put hn), FS.tree_put t hn hp, fun _ => ⟨q, ?_⟩⟩
          have hs : r2.fs.stat (p.take (n + 1)) = .absent q := by
            rw [FS.stat_eq (by intro q' t'; rw [b]; simp)]; exact b
          exact walk_add (nodes' := (r2.fs.put q .dir).nodes) (grown_put hn).mono (by simp [FS.put]) (by simp) 40 [] _ hs

theorem mkdirAll_spec (flt : Faults) (p : Path) (s : OS) (ht : s.fs.Tree) :
    s.fs.Grown (mkdirAll flt p s).2.fs ∧ (mkdirAll flt p s).2.fs.Tree ∧
    ((mkdirAll flt p s).1 = none → ∃ q, (mkdirAll flt p s).2.fs.stat p = .found q .dir) := by
  have := mkdirAllN_spec flt p p.length s ht
  rw [List.take_length] at this
  exact this

/-- If the directory exists, nothing happens. -/
theorem mkdirAll_exists (flt : Faults) {p q : Path} {s : OS} (h : s.fs.stat p = .found q .dir) : mkdirAll flt p s = (none, s) := by
  unfold mkdirAll
  cases hp : p.length with
  | zero => rfl
  | succ n =>
    have : p.take (n + 1) = p := by rw [← hp, List.take_length]
    simp only [mkdirAllN, this, h]

/-- What `RemoveAll` can do: nothing, or remove (some of) the subtree. -/
theorem removeAll_cases (flt : Faults) (p : Path) (s : OS) :
    ((removeAll flt p s).2.fs = s.fs ∧ ((removeAll flt p s).1 = none → ∀ q n, s.fs.lstat p ≠ .found q n)) ∨
    (∃ q n rm, s.fs.lstat p = .found q n ∧ (removeAll flt p s).1 ≠ none ∧ rm [] = false ∧ (removeAll flt p s).2.fs = s.fs.cutSome q rm) ∨
    (∃ q n, s.fs.lstat p = .found q n ∧ q ≠ [] ∧ (removeAll flt p s).1 = none ∧ (removeAll flt p s).2.fs = s.fs.cut q) := by
  unfold removeAll
  cases h : s.fs.lstat p with
  | absent q => exact Or.inl ⟨rfl, fun _ q n => by simp⟩
  | bad e =>
    simp only
    split
    · exact Or.inl ⟨rfl, fun _ q n => by simp⟩
    · exact Or.inl ⟨rfl, fun _ q n => by simp⟩
  | found q n =>
    simp only
    cases flt s.tick with
    | some f => exact Or.inr (Or.inl ⟨q, n, fun r => f.rm r && r ≠ [], rfl, by simp, by simp, rfl⟩)
    | none =>
      simp only
      split
      · exact Or.inr (Or.inl ⟨q, n, fun r => r ≠ [], rfl, by simp, by simp, rfl⟩)
      · rename_i hq; exact Or.inr (Or.inr ⟨q, n, rfl, hq, rfl, rfl⟩)

theorem removeAll_tree (flt : Faults) (p : Path) (s : OS) (ht : s.fs.Tree) : (removeAll flt p s).2.fs.Tree := by
  rcases removeAll_cases flt p s with ⟨h, _⟩ | ⟨q, n, rm, _, _, h0, h⟩ | ⟨q, n, _, h0, _, h⟩
  · rw [h]; exact ht
  · rw [h]; exact FS.tree_cutSome ht h0
  · rw [h]; exact FS.tree_cut ht h0

theorem openCreate_cases (flt : Faults) (umask : Nat) (p : Path) (mode : Nat) (s : OS) :
    (∃ e, (openCreate flt umask p mode s).1 = .error e ∧ (openCreate flt umask p mode s).2.fs = s.fs) ∨
    (∃ q i, s.fs.stat p = .found q (.file i) ∧ (openCreate flt umask p mode s).1 = .ok i ∧ (openCreate flt umask p mode s).2.fs = s.fs) ∨
    (∃ q, s.fs.stat p = .absent q ∧ (openCreate flt umask p mode s).1 = .ok s.fs.next ∧
      (openCreate flt umask p mode s).2.fs = s.fs.create q (mode ^^^ (mode &&& umask))) := by
  unfold openCreate
  cases flt s.tick with
  | some f => exact Or.inl ⟨_, rfl, rfl⟩
  | none =>
    simp only
    cases h : s.fs.stat p with
    | found q n =>
      cases n with
      | file i => exact Or.inr (Or.inl ⟨q, i, rfl, rfl, rfl⟩)
      | dir => exact Or.inl ⟨_, rfl, rfl⟩
      | link t => exact Or.inl ⟨_, rfl, rfl⟩
    | absent q => exact Or.inr (Or.inr ⟨q, rfl, rfl, rfl⟩)
    | bad e => exact Or.inl ⟨_, rfl, rfl⟩

theorem symlink1_cases (flt : Faults) (t : Str) (p : Path) (s : OS) :
    (∃ e, (symlink1 flt t p s).1 = some e ∧ (symlink1 flt t p s).2.fs = s.fs) ∨
    (∃ q, s.fs.lstat p = .absent q ∧ t ≠ [] ∧ (symlink1 flt t p s).1 = none ∧ (symlink1 flt t p s).2.fs = s.fs.put q (.link t)) := by
  unfold symlink1
  cases flt s.tick with
  | some f => exact Or.inl ⟨_, rfl, rfl⟩
  | none =>
    simp only
    split
    · exact Or.inl ⟨_, rfl, rfl⟩
    · rename_i ht
      cases h : s.fs.lstat p with
      | absent q => exact Or.inr ⟨q, rfl, ht, rfl, rfl⟩
      | found q n => exact Or.inl ⟨_, rfl, rfl⟩
      | bad e => exact Or.inl ⟨_, rfl, rfl⟩

theorem remove_cases (flt : Faults) (p : Path) (s : OS) :
    (∃ e, (remove flt p s).1 = some e ∧ (remove flt p s).2.fs = s.fs) ∨
    (∃ q n, s.fs.lstat p = .found q n ∧ n ≠ .dir ∧ (remove flt p s).1 = none ∧ (remove flt p s).2.fs = s.fs.cut q) := by
  unfold remove
  cases flt s.tick with
  | some f => exact Or.inl ⟨_, rfl, rfl⟩
  | none =>
    simp only
    cases h : s.fs.lstat p with
    | absent q => exact Or.inl ⟨_, rfl, rfl⟩
    | bad e => exact Or.inl ⟨_, rfl, rfl⟩
    | found q n =>
      cases n with
      | dir => exact Or.inl ⟨_, rfl, rfl⟩
      | file i => exact Or.inr ⟨q, .file i, rfl, by simp, rfl, rfl⟩
      | link t => exact Or.inr ⟨q, .link t, rfl, by simp, rfl, rfl⟩

end OS
end Savior
