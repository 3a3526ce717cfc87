import Verif.FSOps
/-!
# FolderSink: lemmas about opening files
-/

namespace Savior

theorem tree_below {fs : FS} (ht : fs.Tree) {q : Path} (hq : fs.nodes q ≠ some .dir) (x : Path) (hx : x ≠ []) : fs.nodes (q ++ x) = none := by
  induction hlen : x.length generalizing x with
  | zero => exact absurd (List.length_eq_zero_iff.mp hlen) hx
  | succ k ih =>
    rcases List.eq_nil_or_concat x with rfl | ⟨l, c, rfl⟩
    · exact absurd rfl hx
    rw [List.concat_eq_append] at hlen hx ⊢
    cases h : fs.nodes (q ++ (l ++ [c])) with
    | none => rfl
    | some n =>
      rw [← List.append_assoc] at h
      have := ht.2 (q ++ l) c (by rw [h]; simp)
      by_cases hl : l = []
      · subst hl; rw [List.append_nil] at this; exact absurd this hq
      · rw [ih l hl (by simpa using hlen)] at this; cases this

/-- Cutting something that is not a directory removes just that. -/
theorem cut_leaf {fs : FS} (ht : fs.Tree) {q : Path} (hq : fs.nodes q ≠ some .dir) (p : Path) :
    (fs.cut q).nodes p = if p = q then none else fs.nodes p := by
  simp only [FS.cut]
  by_cases h : q.isPrefixOf p = true
  · rw [if_pos h]
    rw [List.isPrefixOf_iff_prefix] at h
    obtain ⟨x, rfl⟩ := h
    by_cases hx : x = []
    · subst hx; simp
    · rw [if_neg (by simp [hx]), tree_below ht hq x hx]
  · rw [if_neg h, if_neg]
    rintro rfl
    simp at h

namespace OS

/-- `MkdirAll`: the directory was there and nothing happened, or it is a new place. -/
theorem mkdirAllN_new (flt : Faults) {p : Path} (hp : AllOrd p) (n : Nat) (hn : n ≤ p.length) (s : OS) (ht : s.fs.Tree)
    (h : (mkdirAllN flt p n s).1 = none) :
    ((mkdirAllN flt p n s).2 = s ∧ ∃ q, s.fs.stat (p.take n) = .found q .dir) ∨
    (∃ q, (mkdirAllN flt p n s).2.fs.stat (p.take n) = .found q .dir ∧ s.fs.nodes q = none) := by
  induction n with
  | zero => left; exact ⟨rfl, [], walk_nil⟩
  | succ n ih =>
    have spec := mkdirAllN_spec flt p n s ht
    simp only [mkdirAllN] at h ⊢
    split at h
    · rename_i q hq; simp only [hq]; left; exact ⟨trivial, q, rfl⟩
    · cases h
    · rename_i h1 h2
      have ih := ih (by omega)
      generalize mkdirAllN flt p n s = r at *
      obtain ⟨r1, r2⟩ := r
      simp only at spec ih h ⊢
      cases r1 with
      | some e => cases h
      | none =>
        simp only at h ⊢
        have ih := ih rfl
        obtain ⟨g, t, _⟩ := spec
        right
        rcases mkdir1_cases flt (p.take (n + 1)) r2 with ⟨e, a, b⟩ | ⟨q, a, b, d⟩
        · generalize mkdir1 flt (p.take (n + 1)) r2 = m at *
          obtain ⟨m1, m2⟩ := m
          simp only at a b h ⊢
          subst a
          simp only at h ⊢
          split at h
          · rename_i q hq
            simp only [hq]
            have hst : m2.fs.stat (p.take (n + 1)) = .found q .dir := by
              rw [FS.stat_eq (by intro q' t'; rw [hq]; simp)]; exact hq
            refine ⟨q, hst, ?_⟩
            rcases ih with ⟨e1, _⟩ | ⟨q', hq', hs'⟩
            · rw [b, e1] at hst; exact absurd hst (h1 q)
            · have hc : p.take (n + 1) = p.take n ++ [p[n]] := by rw [List.take_succ_eq_append_getElem (by omega)]
              rw [b, hc, FS.lstat_snoc (hp _ (List.getElem_mem _)), hq'] at hq
              simp only at hq
              split at hq
              · cases hq
              · simp only [WR.found.injEq] at hq
                rw [← hq.1]
                exact tree_below ht (by rw [hs']; simp) _ (by simp)
          · cases h
        · obtain ⟨hn', hp'⟩ := FS.lstat_absent t b
          generalize mkdir1 flt (p.take (n + 1)) r2 = m at *
          obtain ⟨m1, m2⟩ := m
          simp only at a d ⊢
          subst a
          simp only
          have hs : r2.fs.stat (p.take (n + 1)) = .absent q := by
            rw [FS.stat_eq (by intro q' t'; rw [b]; simp)]; exact b
          refine ⟨q, ?_, ?_⟩
          · rw [d]
            exact walk_add (nodes' := (r2.fs.put q .dir).nodes) (grown_put hn').mono (by simp [FS.put]) (by simp) 40 [] _ hs
          · rcases g.nodes q with e | ⟨e, _⟩
            · rw [← e]; exact hn'
            · exact e

theorem mkdirAll_new (flt : Faults) {p : Path} (hp : AllOrd p) (s : OS) (ht : s.fs.Tree) (h : (mkdirAll flt p s).1 = none) :
    ((mkdirAll flt p s).2 = s ∧ ∃ q, s.fs.stat p = .found q .dir) ∨
    (∃ q, (mkdirAll flt p s).2.fs.stat p = .found q .dir ∧ s.fs.nodes q = none) := by
  have := mkdirAllN_new flt hp p.length (by omega) s ht h
  rw [List.take_length] at this
  exact this

end OS

namespace FSink

/-- What a successful `createFile` did: opened the file that was there, or created a new one (in place of a link). -/
structure Opened (cfg : FCfg) (e : Entry) (P q : Path) (i : Nat) (fs fs' : FS) : Prop where
  tree : fs'.Tree
  here : fs'.lstat P = .found q (.file i)
  other : ∀ p, p ≠ q → fs'.nodes p = fs.nodes p ∨ (fs.nodes p = none ∧ fs'.nodes p = some .dir)
  data : ∀ j, j ≠ i → fs'.data j = fs.data j
  modes : ∀ j, j ≠ i → fs'.mode j = fs.mode j
  kind : (fs.lstat P = .found q (.file i) ∧ fs'.data = fs.data ∧ fs'.nodes = fs.nodes ∧ fs'.mode i = fileMode e ∧ fs'.next = fs.next) ∨
    (i = fs.next ∧ fs'.next = fs.next + 1 ∧ fs'.data i = [] ∧
      ((∃ t, fs.lstat P = .found q (.link t) ∧ fs'.mode i = fileMode e) ∨
       ((∀ r n, fs.lstat P ≠ .found r n) ∧ fs.nodes q = none ∧ fs'.mode i = fileMode e ^^^ (fileMode e &&& cfg.umask))))

theorem chmod_cases (flt : Faults) (i m : Nat) (s : OS) :
    (∃ e, (s.chmod flt i m).1 = some e ∧ (s.chmod flt i m).2.fs = s.fs) ∨ ((s.chmod flt i m).1 = none ∧ (s.chmod flt i m).2.fs = s.fs.setMode i m) := by
  unfold OS.chmod
  cases flt s.tick with
  | some f => exact Or.inl ⟨_, rfl, rfl⟩
  | none => exact Or.inr ⟨rfl, rfl⟩

theorem createFile_spec {cfg : FCfg} {e : Entry} {s s' : OS} {i : Nat} {dst : Str} {D : Path} {c : Str} (hd : cfg.destPath e.path = .ok dst)
    (hP : cleanComps dst = D ++ [c]) (ho : AllOrd (D ++ [c])) (ht : s.fs.Tree) (h : createFile cfg e s = (.ok i, s')) :
    ∃ q, Opened cfg e (D ++ [c]) q i s.fs s'.fs := by
  have hD : AllOrd D := fun x hx => ho x (by simp [hx])
  have hc : Ordinary c := ho c (by simp)
  unfold createFile at h
  simp only [hd, hP, names, List.dropLast_concat] at h
  have spec := OS.mkdirAll_spec cfg.flt D s ht
  have new := OS.mkdirAll_new cfg.flt hD s ht
  generalize s.mkdirAll cfg.flt D = m at h spec new
  obtain ⟨m1, m2⟩ := m
  simp only at h spec new
  cases m1 with
  | some x => cases h
  | none =>
    obtain ⟨g, t, sp⟩ := spec
    obtain ⟨r, hr⟩ := sp rfl
    have new := new rfl
    simp only at h
    have hl := FS.lstat_snoc (fs := m2.fs) hc D
    rw [hr] at hl
    simp only at hl
    cases hn : m2.fs.nodes (r ++ [c]) with
    | none =>
      rw [hn] at hl
      simp only at hl
      simp only [hl] at h
      have hsn : s.fs.nodes (r ++ [c]) = none := by
        rcases g.nodes (r ++ [c]) with e | ⟨e, _⟩
        · rw [← e]; exact hn
        · exact e
      have hst : m2.fs.stat (D ++ [c]) = .absent (r ++ [c]) := by rw [FS.stat_eq (by intro q' t'; rw [hl]; simp)]; exact hl
      have oc := OS.openCreate_cases cfg.flt cfg.umask (D ++ [c]) (fileMode e) m2
      generalize m2.openCreate cfg.flt cfg.umask (D ++ [c]) (fileMode e) = o at h oc
      obtain ⟨o1, o2⟩ := o
      simp only at h oc
      rcases oc with ⟨x, a, b⟩ | ⟨q, j, a, b, d⟩ | ⟨q, a, b, d⟩
      · subst a; cases h
      · rw [hst] at a; cases a
      · rw [hst] at a; cases a
        subst b
        simp only [Prod.mk.injEq, Except.ok.injEq] at h
        obtain ⟨rfl, rfl⟩ := h
        refine ⟨r ++ [c], ?_, ?_, ?_, ?_, ?_, ?_⟩
        · rw [d]; exact FS.tree_create t hn ⟨r, c, rfl, FS.stat_real t hr⟩
        · rw [d]
          refine walk_add (nodes := m2.fs.nodes) (nodes' := (m2.fs.create (r ++ [c]) _).nodes) ?_ (by simp [FS.create]) (by simp) 40 [] _ hl
          intro p n hp
          simp only [FS.create]
          rw [if_neg (by rintro rfl; rw [hn] at hp; cases hp)]
          exact hp
        · intro p hp
          rw [d]
          simp only [FS.create, hp, if_false]
          exact g.nodes p
        · intro j hj; rw [d]; simp only [FS.create, hj, if_false]; rw [g.data]
        · intro j hj; rw [d]; simp only [FS.create, hj, if_false]; rw [g.mode]
        · right
          refine ⟨g.next, by rw [d]; simp only [FS.create]; rw [g.next], by rw [d]; simp [FS.create], Or.inr ⟨?_, hsn, by rw [d]; simp [FS.create]⟩⟩
          intro q n hf
          have := walk_mono g.mono 40 [] _ hf
          have hl' : m2.fs.lstat (D ++ [c]) = .found q n := this
          rw [hl] at hl'; cases hl'
    | some n =>
      have hms : m2 = s := by
        rcases new with ⟨e, _⟩ | ⟨q, hq, hs⟩
        · exact e
        · rw [hr] at hq
          simp only [WR.found.injEq, and_true] at hq
          subst hq
          have : s.fs.nodes (r ++ [c]) = none := tree_below ht (by rw [hs]; simp) [c] (by simp)
          rcases g.nodes (r ++ [c]) with e | ⟨_, e⟩
          · rw [this, hn] at e; cases e
          · -- a directory added inside a new directory: not by `MkdirAll` of its parent
            rw [hn] at e
            simp only [Option.some.injEq] at e
            subst e
            rw [hn] at hl
            simp only at hl
            simp only [hl] at h
            have hst : m2.fs.stat (D ++ [c]) = .found (r ++ [c]) .dir := by rw [FS.stat_eq (by intro q' t'; rw [hl]; simp)]; exact hl
            have oc := OS.openCreate_cases cfg.flt cfg.umask (D ++ [c]) (fileMode e) m2
            generalize m2.openCreate cfg.flt cfg.umask (D ++ [c]) (fileMode e) = o at h oc
            obtain ⟨o1, o2⟩ := o
            simp only at h oc
            rcases oc with ⟨x, a, b⟩ | ⟨q, j, a, b, d⟩ | ⟨q, a, b, d⟩
            · subst a; cases h
            · rw [hst] at a; cases a
            · rw [hst] at a; cases a
      subst hms
      rw [hn] at hl
      simp only at hl
      cases n with
      | dir =>
        simp only [hl] at h
        have hst : m2.fs.stat (D ++ [c]) = .found (r ++ [c]) .dir := by rw [FS.stat_eq (by intro q' t'; rw [hl]; simp)]; exact hl
        have oc := OS.openCreate_cases cfg.flt cfg.umask (D ++ [c]) (fileMode e) m2
        generalize m2.openCreate cfg.flt cfg.umask (D ++ [c]) (fileMode e) = o at h oc
        obtain ⟨o1, o2⟩ := o
        simp only at h oc
        rcases oc with ⟨x, a, b⟩ | ⟨q, j, a, b, d⟩ | ⟨q, a, b, d⟩
        · subst a; cases h
        · rw [hst] at a; cases a
        · rw [hst] at a; cases a
      | file k =>
        simp only [hl] at h
        have hst : m2.fs.stat (D ++ [c]) = .found (r ++ [c]) (.file k) := by rw [FS.stat_eq (by intro q' t'; rw [hl]; simp)]; exact hl
        have oc := OS.openCreate_cases cfg.flt cfg.umask (D ++ [c]) (fileMode e) m2
        generalize m2.openCreate cfg.flt cfg.umask (D ++ [c]) (fileMode e) = o at h oc
        obtain ⟨o1, o2⟩ := o
        simp only at h oc
        rcases oc with ⟨x, a, b⟩ | ⟨q, j, a, b, d⟩ | ⟨q, a, b, d⟩
        · subst a; cases h
        · rw [hst] at a; cases a
          subst b
          simp only at h
          have cc := chmod_cases cfg.flt k (fileMode e) o2
          generalize o2.chmod cfg.flt k (fileMode e) = z at h cc
          obtain ⟨z1, z2⟩ := z
          simp only at h cc
          rcases cc with ⟨x, a, b⟩ | ⟨a, b⟩
          · subst a; cases h
          · subst a
            simp only [Prod.mk.injEq, Except.ok.injEq] at h
            obtain ⟨rfl, rfl⟩ := h
            have hfs : z2.fs = m2.fs.setMode k (fileMode e) := by rw [b, d]
            rw [hfs]
            refine ⟨r ++ [c], ht, hl, fun p _ => Or.inl rfl, fun j _ => rfl, fun j hj => by simp [FS.setMode, hj], Or.inl ⟨hl, rfl, rfl, by simp [FS.setMode], rfl⟩⟩
        · rw [hst] at a; cases a
      | link t' =>
        simp only [hl] at h
        have rc := OS.removeAll_cases cfg.flt (D ++ [c]) m2
        generalize m2.removeAll cfg.flt (D ++ [c]) = rr at h rc
        obtain ⟨r1, r2⟩ := rr
        simp only at h rc
        cases r1 with
        | some x => cases h
        | none =>
          simp only at h
          rcases rc with ⟨_, b⟩ | ⟨_, _, _, _, b, _⟩ | ⟨q, n, a, b, _, d⟩
          · exact absurd hl (b rfl _ _)
          · exact absurd rfl b
          · rw [hl] at a
            simp only [WR.found.injEq] at a
            obtain ⟨rfl, rfl⟩ := a
            have hcut : ∀ p, r2.fs.nodes p = if p = r ++ [c] then none else m2.fs.nodes p := by
              intro p; rw [d]; exact cut_leaf ht (by rw [hn]; simp) p
            have hmono : ∀ p n, r2.fs.nodes p = some n → m2.fs.nodes p = some n := by
              intro p n hp; rw [hcut] at hp; split at hp
              · cases hp
              · exact hp
            have t2 : r2.fs.Tree := by rw [d]; exact FS.tree_cut ht (by simp)
            have hst : r2.fs.stat (D ++ [c]) = .absent (r ++ [c]) ∨ ∃ x, r2.fs.stat (D ++ [c]) = .bad x := by
              have hl2 := FS.lstat_snoc (fs := r2.fs) hc D
              cases hs2 : r2.fs.stat D with
              | found r' n' =>
                have := walk_mono hmono 40 [] _ hs2
                have h3 : m2.fs.stat D = .found r' n' := this
                rw [hr] at h3
                simp only [WR.found.injEq] at h3
                obtain ⟨rfl, rfl⟩ := h3
                rw [hs2] at hl2
                simp only [hcut, if_true] at hl2
                left
                rw [FS.stat_eq (by intro q' t'; rw [hl2]; simp)]; exact hl2
              | absent p' =>
                rw [hs2] at hl2
                simp only at hl2
                right; exact ⟨_, by rw [FS.stat_eq (by intro q' t'; rw [hl2]; simp)]; exact hl2⟩
              | bad x =>
                rw [hs2] at hl2
                simp only at hl2
                right; exact ⟨_, by rw [FS.stat_eq (by intro q' t'; rw [hl2]; simp)]; exact hl2⟩
            have oc := OS.openCreate_cases cfg.flt cfg.umask (D ++ [c]) (fileMode e) r2
            generalize r2.openCreate cfg.flt cfg.umask (D ++ [c]) (fileMode e) = o at h oc
            obtain ⟨o1, o2⟩ := o
            simp only at h oc
            rcases oc with ⟨x, a, b⟩ | ⟨q, j, a, b, d'⟩ | ⟨q, a, b, d'⟩
            · subst a; cases h
            · rcases hst with hst | ⟨x, hst⟩ <;> (rw [hst] at a; cases a)
            · have hq : q = r ++ [c] := by
                rcases hst with hst | ⟨x, hst⟩
                · rw [hst] at a; cases a; rfl
                · rw [hst] at a; cases a
              subst hq
              subst b
              simp only at h
              have cc := chmod_cases cfg.flt r2.fs.next (fileMode e) o2
              generalize o2.chmod cfg.flt r2.fs.next (fileMode e) = z at h cc
              obtain ⟨z1, z2⟩ := z
              simp only at h cc
              rcases cc with ⟨x, a', b⟩ | ⟨a', b⟩
              · subst a'; cases h
              · subst a'
                simp only [Prod.mk.injEq, Except.ok.injEq] at h
                obtain ⟨rfl, rfl⟩ := h
                have hnq : r2.fs.nodes (r ++ [c]) = none := by rw [hcut]; simp
                have hnext : r2.fs.next = m2.fs.next := by rw [d]; rfl
                have hdata : r2.fs.data = m2.fs.data := by rw [d]; rfl
                have hmode : r2.fs.mode = m2.fs.mode := by rw [d]; rfl
                rw [b, d']
                refine ⟨r ++ [c], ?_, ?_, ?_, ?_, ?_, ?_⟩
                · obtain ⟨_, hp⟩ := FS.stat_absent t2 a
                  exact FS.tree_create (m := fileMode e ^^^ (fileMode e &&& cfg.umask)) t2 hnq hp
                · have hla : r2.fs.lstat (D ++ [c]) = .absent (r ++ [c]) := by
                    have hl2 := FS.lstat_snoc (fs := r2.fs) hc D
                    by_cases hx : ∃ q t, r2.fs.lstat (D ++ [c]) = .found q (.link t)
                    · obtain ⟨q, t, hx⟩ := hx
                      have := walk_mono hmono 40 [] _ hx
                      have h3 : m2.fs.lstat (D ++ [c]) = .found q (.link t) := this
                      rw [hl] at h3
                      simp only [WR.found.injEq] at h3
                      have := FS.lstat_real t2 hx
                      rw [← h3.1, hnq] at this; cases this
                    · rw [← FS.stat_eq (by intro q t hx'; exact hx ⟨q, t, hx'⟩)]; exact a
                  refine walk_add (nodes := r2.fs.nodes) (nodes' := (r2.fs.create (r ++ [c]) 0).nodes) ?_ (by simp [FS.create]) (by simp) 40 [] _ hla
                  intro p n hp
                  simp only [FS.create]
                  rw [if_neg (by rintro rfl; rw [hnq] at hp; cases hp)]
                  exact hp
                · intro p hp
                  left
                  simp only [FS.create, FS.setMode, hp, if_false, hcut]
                · intro j hj; simp only [FS.create, FS.setMode, hj, if_false, hdata]
                · intro j hj; simp only [FS.create, FS.setMode, hj, if_false, hmode]
                · right
                  exact ⟨hnext, by simp [FS.create, FS.setMode, hnext], by simp [FS.create, FS.setMode], Or.inl ⟨t', hl, by simp [FS.setMode]⟩⟩

end FSink
end Savior
