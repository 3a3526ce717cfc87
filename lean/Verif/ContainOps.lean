import Verif.Contain
/-!
# Every operation of FolderSink is a sequence of contained changes
-/

namespace Savior

section
variable {B : Path} {fs0 : FS} {top : Prop} {lk : Path → Prop}

/-- A path through `B`, and its prefixes: where they resolve. -/
theorem lstat_prefix {fs : FS} (hg : Harmless B fs) {p : Path} (ho : AllOrd p) (hp : B <+: p ∨ p <+: B) :
    (∀ q n, fs.lstat p = .found q n → B <+: q ∨ q <+: B) ∧ (∀ q, fs.lstat p = .absent q → B <+: q ∨ q <+: B) := by
  by_cases hB : B <+: p
  · have h1 : dot2 ∉ p := fun h => (ho _ h).2.2.1 rfl
    have := walk_inside hg (follow := false) 40 [] p (upsFirst_of_not h1) (by rw [lexWalk_ord ho]; exact hB)
    exact ⟨fun q n h => Or.inl (this.1 q n h), fun q h => Or.inl (this.2 q h)⟩
  · have hp := hp.resolve_left hB
    have := walk_straight (fs := fs) (follow := false) 40 [] p ho (by
      intro p' t hp' _ hl
      have e := (hg p' t hl).1 (hp'.trans hp)
      exact hB (e ▸ hp'))
    refine ⟨fun q n h => Or.inr ?_, fun q h => Or.inr ?_⟩
    · rw [this.1 q n h]; exact hp
    · rw [this.2 q h]; exact hp

theorem lstat_inside {fs : FS} (hg : Harmless B fs) {p : Path} (ho : AllOrd p) (hp : B <+: p) :
    (∀ q n, fs.lstat p = .found q n → B <+: q) ∧ (∀ q, fs.lstat p = .absent q → B <+: q) := by
  have h1 : dot2 ∉ p := fun h => (ho _ h).2.2.1 rfl
  exact walk_inside hg (follow := false) 40 [] p (upsFirst_of_not h1) (by rw [lexWalk_ord ho]; exact hp)

theorem stat_inside {fs : FS} (hg : Harmless B fs) {p : Path} (ho : AllOrd p) (hp : B <+: p) :
    (∀ q n, fs.stat p = .found q n → B <+: q) ∧ (∀ q, fs.stat p = .absent q → B <+: q) := by
  have h1 : dot2 ∉ p := fun h => (ho _ h).2.2.1 rfl
  exact walk_inside hg (follow := true) 40 [] p (upsFirst_of_not h1) (by rw [lexWalk_ord ho]; exact hp)

theorem take_rel {p : Path} (hp : B <+: p ∨ p <+: B) (n : Nat) : B <+: p.take n ∨ p.take n <+: B := by
  rcases hp with hp | hp
  · exact List.prefix_or_prefix_of_prefix hp (List.take_prefix n p)
  · exact Or.inr ((List.take_prefix n p).trans hp)

theorem mkdirAllN_steps (flt : Faults) {p : Path} (ho : AllOrd p) (hp : B <+: p ∨ p <+: B) (n : Nat) (s : OS) (h : Inside B fs0 s.fs) :
    Steps B (fs0.Outside B) top lk s.fs (OS.mkdirAllN flt p n s).2.fs := by
  induction n with
  | zero => exact .refl _
  | succ n ih =>
    simp only [OS.mkdirAllN]
    split
    · exact .refl _
    · exact .refl _
    · generalize OS.mkdirAllN flt p n s = r at *
      obtain ⟨r1, r2⟩ := r
      simp only at ih ⊢
      have hin := h.steps ih
      cases r1 with
      | some e => exact ih
      | none =>
        simp only
        have hord : AllOrd (p.take (n + 1)) := fun x hx => ho x (List.mem_of_mem_take hx)
        have hrel := lstat_prefix hin.good hord (take_rel hp (n + 1))
        rcases OS.mkdir1_cases flt (p.take (n + 1)) r2 with ⟨e, a, b⟩ | ⟨q, a, b, d⟩
        · generalize OS.mkdir1 flt (p.take (n + 1)) r2 = m at *
          obtain ⟨m1, m2⟩ := m
          simp only at a b ⊢
          subst a
          simp only
          split <;> (rw [b]; exact ih)
        · obtain ⟨hn, hpar⟩ := FS.lstat_absent hin.tree b
          generalize OS.mkdir1 flt (p.take (n + 1)) r2 = m at *
          obtain ⟨m1, m2⟩ := m
          simp only at a d ⊢
          subst a
          simp only
          rw [d]
          exact .step ih (.dir q hn hpar (hrel.2 q b))

theorem mkdirAll_steps (flt : Faults) {p : Path} (ho : AllOrd p) (hp : B <+: p ∨ p <+: B) (s : OS) (h : Inside B fs0 s.fs) :
    Steps B (fs0.Outside B) top lk s.fs (s.mkdirAll flt p).2.fs := mkdirAllN_steps flt ho hp _ s h

theorem removeAll_steps (flt : Faults) {p : Path} (s : OS) (hin : ∀ q n, s.fs.lstat p = .found q n → B <+: q ∧ (q = B → top ∨ s.fs.nodes B ≠ some .dir)) :
    Steps B (fs0.Outside B) top lk s.fs (s.removeAll flt p).2.fs := by
  rcases OS.removeAll_cases flt p s with ⟨h, _⟩ | ⟨q, n, rm, hl, _, h0, h⟩ | ⟨q, n, hl, h0, _, h⟩
  · rw [h]; exact .refl _
  · rw [h]; exact .one (.cutSome q rm h0 (hin q n hl).1 (hin q n hl).2)
  · rw [h]; exact .one (.cut q (hin q n hl).1 h0 (hin q n hl).2)

end

namespace FSink
variable {B : Path} {fs0 : FS} {top : Prop} {lk : Path → Prop}

theorem place_ord {cfg : FCfg} (hB : cfg.Base B) {N : Path} (hN : AllOrd N) : AllOrd (B ++ N) := by
  intro x hx
  rcases List.mem_append.mp hx with hx | hx
  · exact base_ord hB x hx
  · exact hN x hx

theorem dropLast_rel (B N : Path) : B <+: (B ++ N).dropLast ∨ (B ++ N).dropLast <+: B := by
  have := take_rel (B := B) (p := B ++ N) (Or.inl (List.prefix_append _ _)) ((B ++ N).length - 1)
  rwa [← List.dropLast_eq_take] at this

macro "okTac" h:ident : tactic => `(tactic| (
  revert $h
  generalize OS.openCreate _ _ _ _ _ = o
  obtain ⟨o1, o2⟩ := o
  cases o1 with
  | error x => intro hh; cases hh
  | ok j =>
    simp only
    intro hh
    first
      | (simpa using hh)
      | (split at hh
         · cases hh
         · simpa using hh)))

theorem createFile_steps {cfg : FCfg} (hB : cfg.Base B) (e : Entry) (s : OS) (h : Inside B fs0 s.fs) :
    Steps B (fs0.Outside B) top lk s.fs (createFile cfg e s).2.fs ∧ ∀ i, (createFile cfg e s).1 = .ok i → ¬ fs0.Outside B i := by
  unfold createFile
  cases hd : cfg.destPath e.path with
  | error x => exact ⟨.refl _, fun i hi => by cases hi⟩
  | ok dst =>
    obtain ⟨N, hN, _, h3, h4⟩ := destPath_ok hB hd
    simp only [names, h3]
    have ho := place_ord hB hN
    have hod : AllOrd (B ++ N).dropLast := fun x hx => ho x (List.dropLast_subset _ hx)
    have hm := mkdirAll_steps (top := top) (lk := lk) cfg.flt hod (dropLast_rel B N) s h
    generalize s.mkdirAll cfg.flt (B ++ N).dropLast = m at *
    obtain ⟨m1, m2⟩ := m
    simp only at hm ⊢
    have h2 := h.steps hm
    cases m1 with
    | some x => exact ⟨hm, fun i hi => by cases hi⟩
    | none =>
      simp only
      -- the rest, after a link has been removed or not
      have rest : ∀ (r2 : OS), Steps B (fs0.Outside B) top lk s.fs r2.fs → ∀ (ex : Bool),
          Steps B (fs0.Outside B) top lk s.fs (match (r2.openCreate cfg.flt cfg.umask (B ++ N) (fileMode e)).1 with
            | .error x => ((.error (.wrapped x), (r2.openCreate cfg.flt cfg.umask (B ++ N) (fileMode e)).2) : Except Err Nat × OS)
            | .ok i => if ex then
                (match ((r2.openCreate cfg.flt cfg.umask (B ++ N) (fileMode e)).2.chmod cfg.flt i (fileMode e)).1 with
                | some x => (.error (.wrapped x), ((r2.openCreate cfg.flt cfg.umask (B ++ N) (fileMode e)).2.chmod cfg.flt i (fileMode e)).2)
                | none => (.ok i, ((r2.openCreate cfg.flt cfg.umask (B ++ N) (fileMode e)).2.chmod cfg.flt i (fileMode e)).2))
              else (.ok i, (r2.openCreate cfg.flt cfg.umask (B ++ N) (fileMode e)).2)).2.fs ∧
          ∀ i, (r2.openCreate cfg.flt cfg.umask (B ++ N) (fileMode e)).1 = .ok i → ¬ fs0.Outside B i := by
        intro r2 hr ex
        have h3 := h.steps hr
        have ins := stat_inside h3.good ho (List.prefix_append B N)
        have oc := OS.openCreate_cases cfg.flt cfg.umask (B ++ N) (fileMode e) r2
        generalize r2.openCreate cfg.flt cfg.umask (B ++ N) (fileMode e) = o at oc ⊢
        obtain ⟨o1, o2⟩ := o
        simp only at oc ⊢
        have ch : ∀ i, ¬ fs0.Outside B i → Steps B (fs0.Outside B) top lk s.fs o2.fs → Steps B (fs0.Outside B) top lk s.fs
            (if ex then
                (match (o2.chmod cfg.flt i (fileMode e)).1 with
                | some x => ((.error (.wrapped x), (o2.chmod cfg.flt i (fileMode e)).2) : Except Err Nat × OS)
                | none => (.ok i, (o2.chmod cfg.flt i (fileMode e)).2))
              else (.ok i, o2)).2.fs := by
          intro i hi ho2
          split
          · rcases chmod_cases cfg.flt i (fileMode e) o2 with ⟨x, a, b⟩ | ⟨a, b⟩
            · rw [a]; simp only; rw [b]; exact ho2
            · rw [a]; simp only; rw [b]; exact .step ho2 (.mode i _ hi)
          · exact ho2
        rcases oc with ⟨x, a, b⟩ | ⟨q, j, a, b, d⟩ | ⟨q, a, b, d⟩
        · subst a; simp only; rw [b]; exact ⟨hr, fun i hi => by cases hi⟩
        · subst b
          simp only
          have hj : ¬ fs0.Outside B j := h3.sep q j (ins.1 q _ a) (FS.stat_real h3.tree a)
          exact ⟨ch j hj (by rw [d]; exact hr), fun i hi => by cases hi; exact hj⟩
        · subst b
          simp only
          have hj : ¬ fs0.Outside B r2.fs.next := fun hx => by have := h3.next _ hx; omega
          obtain ⟨hn, hp⟩ := FS.stat_absent h3.tree a
          refine ⟨ch _ hj ?_, fun i hi => by cases hi; exact hj⟩
          rw [d]
          exact .step hr (.create q _ hn hp (ins.2 q a))
      cases hl : m2.fs.lstat (B ++ N) with
      | absent q =>
        simp only
        have := rest m2 hm false
        simp only [Bool.false_eq_true, if_false] at this
        exact ⟨this.1, fun i hi => this.2 i (by okTac hi)⟩
      | bad x =>
        simp only
        have := rest m2 hm false
        simp only [Bool.false_eq_true, if_false] at this
        exact ⟨this.1, fun i hi => this.2 i (by okTac hi)⟩
      | found q n =>
        cases n with
        | dir =>
          simp only
          have := rest m2 hm true
          simp only [if_true] at this
          exact ⟨this.1, fun i hi => this.2 i (by okTac hi)⟩
        | file j =>
          simp only
          have := rest m2 hm true
          simp only [if_true] at this
          exact ⟨this.1, fun i hi => this.2 i (by okTac hi)⟩
        | link t =>
          simp only
          have ins := lstat_inside h2.good ho (List.prefix_append B N)
          have hr := removeAll_steps (B := B) (fs0 := fs0) (top := top) (lk := lk) cfg.flt (p := B ++ N) m2 (by
            intro q' n' hq'
            refine ⟨ins.1 q' n' hq', fun e => Or.inr ?_⟩
            rw [hl] at hq'
            simp only [WR.found.injEq] at hq'
            rw [← e, ← hq'.1, FS.lstat_real h2.tree hl]
            simp)
          generalize m2.removeAll cfg.flt (B ++ N) = rr at hr ⊢
          obtain ⟨r1, r2⟩ := rr
          simp only at hr ⊢
          cases r1 with
          | some x => exact ⟨hm.trans hr, fun i hi => by cases hi⟩
          | none =>
            simp only
            have := rest r2 (hm.trans hr) true
            simp only [if_true] at this
            exact ⟨this.1, fun i hi => this.2 i (by okTac hi)⟩

theorem mkdir_steps {cfg : FCfg} (hB : cfg.Base B) (e : Entry) (s : FSink) (h : Inside B fs0 s.os.fs) :
    Steps B (fs0.Outside B) top lk s.os.fs (s.mkdir cfg e).2.os.fs ∧ (s.mkdir cfg e).2.ws = s.ws := by
  unfold mkdir
  split
  · exact ⟨.refl _, rfl⟩
  cases hd : cfg.destPath e.path with
  | error x => exact ⟨.refl _, rfl⟩
  | ok dst =>
    obtain ⟨N, hN, _, h3, h4⟩ := destPath_ok hB hd
    simp only [names, h3]
    have ho := place_ord hB hN
    have ins := lstat_inside h.good ho (List.prefix_append B N)
    have mk : ∀ s' : OS, Steps B (fs0.Outside B) top lk s.os.fs s'.fs → Steps B (fs0.Outside B) top lk s.os.fs (s'.mkdirAll cfg.flt (B ++ N)).2.fs :=
      fun s' hs' => hs'.trans (mkdirAll_steps cfg.flt ho (Or.inl (List.prefix_append B N)) s' (h.steps hs'))
    split
    · exact ⟨.refl _, rfl⟩
    · rename_i q n hnd hl
      have hr : Steps B (fs0.Outside B) top lk s.os.fs (s.os.remove cfg.flt (B ++ N)).2.fs := by
        rcases OS.remove_cases cfg.flt (B ++ N) s.os with ⟨_, _, b⟩ | ⟨q', n', a, b, _, d⟩
        · rw [b]; exact .refl _
        · rw [d]
          have hreal := FS.lstat_real h.tree a
          refine .one (.cut q' (ins.1 _ _ a) ?_ (fun e => Or.inr ?_))
          · rintro rfl; rw [h.tree.1] at hreal; cases hreal; exact b rfl
          · rw [← e, hreal]; simpa using b
      generalize s.os.remove cfg.flt (B ++ N) = r at hr ⊢
      obtain ⟨r1, r2⟩ := r
      cases r1 with
      | some x => exact ⟨hr, rfl⟩
      | none => exact ⟨mk r2 hr, rfl⟩
    · exact ⟨mk s.os (.refl _), rfl⟩

/-- No open writer writes to a file outside. -/
def Tidy (prot : Nat → Prop) (s : FSink) : Prop := ∀ (k i o : Nat) (b : Bool), s.ws[k]? = some (Wr.real i o b) → ¬ prot i

theorem tidy_set {prot : Nat → Prop} {l : List Wr} (h : ∀ (k i o : Nat) (b : Bool), l[k]? = some (Wr.real i o b) → ¬ prot i) {k i o o' : Nat} {b b' : Bool}
    (hk : l[k]? = some (Wr.real i o b)) : ∀ (k' i' o'' : Nat) (b'' : Bool), (l.set k (Wr.real i o' b'))[k']? = some (Wr.real i' o'' b'') → ¬ prot i' := by
  intro k' i' o'' b'' hk'
  rw [List.getElem?_set] at hk'
  split at hk'
  · split at hk'
    · simp only [Option.some.injEq, Wr.real.injEq] at hk'; rw [← hk'.1]; exact h _ _ _ _ hk
    · cases hk'
  · exact h _ _ _ _ hk'

theorem closeAt_tidy {prot : Nat → Prop} (cfg : FCfg) (k : Nat) {s : FSink} (h : s.Tidy prot) : (s.closeAt cfg k).2.Tidy prot := by
  unfold closeAt
  split
  · rename_i i o hk; exact tidy_set h hk
  · exact h

theorem close_tidy {prot : Nat → Prop} (cfg : FCfg) {s : FSink} (h : s.Tidy prot) : (s.close cfg).2.Tidy prot := by
  unfold close
  split
  · exact h
  · rename_i k _
    have := closeAt_tidy cfg k h
    exact this

theorem getWriter_steps {cfg : FCfg} (hB : cfg.Base B) (e : Entry) (s : FSink) (h : Inside B fs0 s.os.fs) (ht : s.Tidy (fs0.Outside B)) :
    Steps B (fs0.Outside B) top lk s.os.fs (s.getWriter cfg e).2.os.fs ∧ (s.getWriter cfg e).2.Tidy (fs0.Outside B) := by
  have app : ∀ {l : List Wr} {w : Wr}, (∀ (k i o : Nat) (b : Bool), l[k]? = some (Wr.real i o b) → ¬ fs0.Outside B i) → (∀ i o b, w = Wr.real i o b → ¬ fs0.Outside B i) →
      ∀ (k i o : Nat) (b : Bool), (l ++ [w])[k]? = some (Wr.real i o b) → ¬ fs0.Outside B i := by
    intro l w hl hw k i o b hk
    rw [List.getElem?_append] at hk
    split at hk
    · exact hl _ _ _ _ hk
    · cases hkk : k - l.length with
      | zero => rw [hkk] at hk; simp at hk; exact hw _ _ _ hk
      | succ n => rw [hkk] at hk; simp at hk
  unfold getWriter
  split
  · exact ⟨.refl _, app ht (by intro i o b hh; cases hh)⟩
  obtain ⟨c1, c2⟩ := createFile_steps (top := top) (lk := lk) hB e s.os h
  simp only
  generalize createFile cfg e s.os = c at c1 c2 ⊢
  obtain ⟨ca, cb⟩ := c
  simp only at c1 c2 ⊢
  cases ca with
  | error x => exact ⟨c1, ht⟩
  | ok i =>
    simp only
    have hi := c2 i rfl
    have hts : Steps B (fs0.Outside B) top lk s.os.fs (cb.truncate cfg.flt i e.woff).2.fs := by
      rcases truncate_cases cfg.flt i e.woff cb with ⟨_, _, b⟩ | ⟨_, _, b⟩
      · rw [b]; exact c1
      · rw [b]; exact .step c1 (.data i _ hi)
    generalize cb.truncate cfg.flt i e.woff = t at hts ⊢
    obtain ⟨t1, t2⟩ := t
    cases t1 with
    | some x => exact ⟨hts, ht⟩
    | none =>
      simp only at hts ⊢
      refine ⟨by rw [(close_fs cfg _).1]; exact hts, ?_⟩
      have := close_tidy (prot := fs0.Outside B) cfg (s := { s with os := t2 }) ht
      exact app this (by intro i' o b hh; simp only [Wr.real.injEq] at hh; rw [← hh.1]; exact hi)

theorem preallocate_steps {cfg : FCfg} (hB : cfg.Base B) (e : Entry) (s : FSink) (h : Inside B fs0 s.os.fs) :
    Steps B (fs0.Outside B) top lk s.os.fs (s.preallocate cfg e).2.os.fs ∧ (s.preallocate cfg e).2.ws = s.ws := by
  unfold preallocate
  split
  · exact ⟨.refl _, rfl⟩
  obtain ⟨c1, c2⟩ := createFile_steps (top := top) (lk := lk) hB e s.os h
  simp only
  generalize createFile cfg e s.os = c at c1 c2 ⊢
  obtain ⟨ca, cb⟩ := c
  simp only at c1 c2 ⊢
  cases ca with
  | error x => exact ⟨c1, rfl⟩
  | ok i =>
    simp only [quietCall_fs]
    refine ⟨?_, trivial⟩
    have hi := c2 i rfl
    split
    · split
      · obtain ⟨k, a, _⟩ := legacy_cases cfg i e.usize cb
        rw [a]; exact .step c1 (.data i _ hi)
      · rcases ox_cases cfg i e.usize cb with ⟨a, _⟩ | ⟨a, _⟩
        · rw [a]; exact c1
        · rw [a]; exact .step c1 (.data i _ hi)
    · exact c1

theorem writeAt_steps {cfg : FCfg} (k : Nat) (bs : List Byte) (s : FSink) (ht : s.Tidy (fs0.Outside B)) :
    Steps B (fs0.Outside B) top lk s.os.fs (s.writeAt cfg k bs).2.os.fs ∧ (s.writeAt cfg k bs).2.Tidy (fs0.Outside B) := by
  cases hk : s.ws[k]? with
  | none => unfold writeAt; rw [hk]; exact ⟨.refl _, ht⟩
  | some w =>
    cases w with
    | nop => unfold writeAt; rw [hk]; exact ⟨.refl _, ht⟩
    | real i o b =>
      cases b with
      | false => unfold writeAt; rw [hk]; exact ⟨.refl _, ht⟩
      | true =>
        have hi := ht _ _ _ _ hk
        rcases write_cases cfg k bs s i o hk with ⟨_, n, _, _, _, _, a, b, _⟩ | ⟨_, a, b, _⟩
        · refine ⟨by rw [a]; exact .one (.data i _ hi), ?_⟩
          unfold Tidy; rw [b]; exact tidy_set ht hk
        · refine ⟨by rw [a]; exact .one (.data i _ hi), ?_⟩
          unfold Tidy; rw [b]; exact tidy_set ht hk

/-- Removing and making folders makes no links. -/
theorem links_removeAll (flt : Faults) (p : Path) (s : OS) {r : Path} {t : Str} (h : (s.removeAll flt p).2.fs.nodes r = some (.link t)) :
    s.fs.nodes r = some (.link t) := by
  rcases OS.removeAll_cases flt p s with ⟨a, _⟩ | ⟨q, n, rm, _, _, _, a⟩ | ⟨q, n, _, _, _, a⟩
  · rwa [a] at h
  · rw [a] at h; simp only [FS.cutSome] at h; split at h; cases h; exact h
  · rw [a] at h; simp only [FS.cut] at h; split at h; cases h; exact h

theorem links_mkdirAll (flt : Faults) (p : Path) (s : OS) (ht : s.fs.Tree) {r : Path} {t : Str} (h : (s.mkdirAll flt p).2.fs.nodes r = some (.link t)) :
    s.fs.nodes r = some (.link t) := by
  rcases (OS.mkdirAll_spec flt p s ht).1.nodes r with a | ⟨_, a⟩
  · rwa [a] at h
  · rw [a] at h; cases h

/-- Below `B`, the parent folder is below `B`. -/
theorem place_below {fs : FS} (hg : Harmless B fs) {N : Path} (ho : AllOrd (B ++ N)) (hN : N ≠ []) :
    (∀ q n, fs.lstat (B ++ N) = .found q n → B <+: q.dropLast ∧ q ≠ B) ∧ (∀ q, fs.lstat (B ++ N) = .absent q → B <+: q.dropLast) := by
  rcases List.eq_nil_or_concat N with rfl | ⟨D, c, rfl⟩
  · exact absurd rfl hN
  rw [List.concat_eq_append] at ho ⊢
  rw [← List.append_assoc] at ho ⊢
  have hs := stat_inside hg (p := B ++ D) (fun x hx => ho x (List.mem_append_left _ hx)) (List.prefix_append B D)
  rw [FS.lstat_snoc (ho c (by simp))]
  have key : ∀ r, B <+: r → B <+: (r ++ [c]).dropLast ∧ r ++ [c] ≠ B := by
    intro r hr
    refine ⟨by rw [List.dropLast_concat]; exact hr, fun e => ?_⟩
    have := hr.length_le
    rw [← e] at this
    simp at this
    omega
  cases h : fs.stat (B ++ D) with
  | absent r => exact ⟨by rintro q n ⟨⟩, by rintro q ⟨⟩⟩
  | bad x => exact ⟨by rintro q n ⟨⟩, by rintro q ⟨⟩⟩
  | found r n =>
    have hr := hs.1 r n h
    cases n with
    | file j => exact ⟨by rintro q n ⟨⟩, by rintro q ⟨⟩⟩
    | link t => exact ⟨by rintro q n ⟨⟩, by rintro q ⟨⟩⟩
    | dir =>
      simp only
      cases fs.nodes (r ++ [c]) with
      | none => exact ⟨by rintro q n ⟨⟩, by rintro q ⟨⟩; exact (key r hr).1⟩
      | some m => exact ⟨by rintro q n ⟨⟩; exact key r hr, by rintro q ⟨⟩⟩

theorem symlink_steps {cfg : FCfg} (hB : cfg.Base B) (e : Entry) (t : Str) (s : FSink) (h : Inside B fs0 s.os.fs)
    (tame : (FOp.symlink e t).Tame cfg B s.os.fs) (htop : entryPlace B e = B → top)
    (hlk : (∀ q, lk q) ∨ (B <+: entryPlace B e → (∀ p u, p <+: entryPlace B e → p ≠ entryPlace B e → s.os.fs.nodes p ≠ some (.link u)) ∧ lk (entryPlace B e))) :
    Steps B (fs0.Outside B) top lk s.os.fs (s.symlink cfg e t).2.os.fs ∧ (s.symlink cfg e t).2.ws = s.ws := by
  unfold symlink
  split
  · exact ⟨.refl _, rfl⟩
  cases hd : cfg.destPath e.path with
  | error x => exact ⟨.refl _, rfl⟩
  | ok dst =>
    obtain ⟨N, hN, _, h3, h4⟩ := destPath_ok hB hd
    simp only [base_abs hB]
    split
    · exact ⟨.refl _, rfl⟩
    rename_i habs
    have ho := place_ord hB hN
    have hod : AllOrd (B ++ N).dropLast := fun x hx => ho x (List.dropLast_subset _ hx)
    have e1 : dirPath dst = pathText (B ++ N).dropLast := by unfold dirPath pathText; rw [h3]
    rw [e1, abs_join hod]
    simp only
    split
    · exact ⟨.refl _, rfl⟩
    rename_i hw
    have hw := (within_iff (base_ord hB) (lexWalk_eq hod (splitSlash_noslash t)).2).mp (by simpa using hw)
    simp only [names, h3]
    have hp : entryPlace B e = B ++ N := h4
    have hpre : B <+: entryPlace B e := by rw [hp]; exact List.prefix_append _ _
    have tame := tame hpre
    have hr : Steps B (fs0.Outside B) top lk s.os.fs (s.os.removeAll cfg.flt (B ++ N)).2.fs := by
      refine removeAll_steps cfg.flt s.os (fun q n hq => ⟨(lstat_inside h.good ho (List.prefix_append B N)).1 q n hq, fun hqB => ?_⟩)
      by_cases hN0 : N = []
      · left; exact htop (by rw [hp, hN0, List.append_nil])
      · exact absurd hqB ((place_below h.good ho hN0).1 q n hq).2
    have lr : ∀ r u, (s.os.removeAll cfg.flt (B ++ N)).2.fs.nodes r = some (.link u) → s.os.fs.nodes r = some (.link u) :=
      fun r u => links_removeAll cfg.flt _ s.os
    generalize s.os.removeAll cfg.flt (B ++ N) = rr at hr lr ⊢
    obtain ⟨r1, r2⟩ := rr
    simp only at hr lr ⊢
    cases r1 with
    | some x => exact ⟨hr, rfl⟩
    | none =>
      simp only
      have i2 := h.steps hr
      have hm := hr.trans (mkdirAll_steps (top := top) (lk := lk) cfg.flt hod (dropLast_rel B N) r2 i2)
      have lm : ∀ r u, (r2.mkdirAll cfg.flt (B ++ N).dropLast).2.fs.nodes r = some (.link u) → s.os.fs.nodes r = some (.link u) :=
        fun r u hu => lr r u (links_mkdirAll cfg.flt _ r2 i2.tree hu)
      generalize r2.mkdirAll cfg.flt (B ++ N).dropLast = m at hm lm ⊢
      obtain ⟨m1, m2⟩ := m
      simp only at hm lm ⊢
      cases m1 with
      | some x => exact ⟨hm, rfl⟩
      | none =>
        simp only
        refine ⟨?_, trivial⟩
        have i3 := h.steps hm
        rcases OS.symlink1_cases cfg.flt t (B ++ N) m2 with ⟨x, _, b⟩ | ⟨q, b, _, _, d⟩
        · rw [b]; exact hm
        · rw [d]
          obtain ⟨hn, hpar⟩ := FS.lstat_absent i3.tree b
          refine .step hm (.link q t hn hpar ((lstat_inside i3.good ho (List.prefix_append B N)).2 q b) ⟨by simpa using habs, tame.1, ?_⟩ ?_)
          case refine_2 =>
            rcases hlk with hlk | hlk
            · exact hlk q
            · obtain ⟨h1, h2⟩ := hlk hpre
              have := (walk_straight (fs := m2.fs) (follow := false) 40 [] (B ++ N) ho (by
                intro p u a1 a2 a3
                rw [List.nil_append] at a1 a2
                exact h1 p u (by rw [hp]; exact a1) (by rw [hp]; simpa using a2) (lm _ _ a3))).2 q b
              rw [hp] at h2
              rw [this]
              exact h2
          have straight : (∀ p u, p <+: B ++ N → p ≠ B ++ N → m2.fs.nodes p ≠ some (.link u)) → q = B ++ N := by
            intro hno
            have := (walk_straight (fs := m2.fs) (follow := false) 40 [] (B ++ N) ho (by
              intro p u h1 h2
              rw [List.nil_append] at h1 h2
              exact hno p u h1 (by simpa using h2))).2 q b
            simpa using this
          by_cases hu : dot2 ∈ splitSlash t
          · rw [straight (fun p u h1 h2 h3 => tame.2 hu p u (by rw [hp]; exact h1) (by rw [hp]; exact h2) (lm _ _ h3))]
            exact hw.1
          · by_cases hN0 : N = []
            · subst hN0
              rw [straight (fun p u h1 h2 h3 => by
                rw [List.append_nil] at h1 h2
                exact h2 ((i3.good p u h3).1 h1))]
              exact hw.1
            · exact ((place_below i3.good ho hN0).2 q b).trans (lexWalk_down_prefix hu _)

theorem dropSlashes_split (l : List Str) : ∃ z, l = dropSlashes l ++ z ∧ ∀ x ∈ z, x = [] := by
  refine ⟨(l.reverse.takeWhile (· = [])).reverse, ?_, ?_⟩
  · unfold dropSlashes
    rw [← List.reverse_append, List.takeWhile_append_dropWhile, List.reverse_reverse]
  · intro x hx
    rw [List.mem_reverse] at hx
    have := List.all_takeWhile (l := l.reverse) (p := fun x => decide (x = []))
    rw [List.all_eq_true] at this
    simpa using this x hx

theorem lexWalk_empties {z : List Str} (h : ∀ x ∈ z, x = []) (cur : Path) : lexWalk cur z = cur := by
  induction z with
  | nil => rfl
  | cons c t ih =>
    have : c = [] := h c (by simp)
    simp only [lexWalk, this, true_or, if_true]
    exact ih (fun x hx => h x (by simp [hx]))

theorem removeAllRaw_steps (flt : Faults) {l : List Str} (hl : dot2 ∉ l) (hB : lexWalk [] l = B) (s : OS) (h : Inside B fs0 s.fs) (ht : top) :
    Steps B (fs0.Outside B) top lk s.fs (s.removeAllRaw flt l).2.fs := by
  obtain ⟨z, hz, hz'⟩ := dropSlashes_split l
  have h1 : dot2 ∉ dropSlashes l := fun hx => hl (by rw [hz]; exact List.mem_append_left _ hx)
  have h2 : lexWalk [] (dropSlashes l) = B := by rw [← hB]; conv => rhs; rw [hz, lexWalk_append, lexWalk_empties hz']
  have ins := walk_inside h.good (follow := false) 40 [] (dropSlashes l) (upsFirst_of_not h1) (by rw [h2]; exact List.prefix_rfl)
  unfold OS.removeAllRaw
  simp only
  split
  · split
    · rename_i q n hq
      refine .one ?_
      simp only
      refine .cutSome q _ ?_ (ins.1 q n hq) (fun _ => Or.inl ht)
      simp
    · exact .refl _
    · split <;> exact .refl _
  · exact removeAll_steps flt s (fun q n hq => ⟨ins.1 q n hq, fun _ => Or.inl ht⟩)

theorem nuke_steps {cfg : FCfg} (hB : cfg.Base B) (s : FSink) (h : Inside B fs0 s.os.fs) (ts : s.Tidy (fs0.Outside B))
    (tame : FOp.nuke.Tame cfg B s.os.fs) (ht : top) :
    Steps B (fs0.Outside B) top lk s.os.fs (s.nuke cfg).2.os.fs ∧ (s.nuke cfg).2.Tidy (fs0.Outside B) := by
  have hc := close_fs cfg s
  have ct := close_tidy cfg ts
  unfold nuke
  simp only
  generalize s.close cfg = q at hc ct ⊢
  obtain ⟨q1, q2⟩ := q
  simp only at hc ct ⊢
  have hq : Steps B (fs0.Outside B) top lk s.os.fs q2.os.fs := by rw [hc.1]; exact .refl _
  cases q1 with
  | some x => exact ⟨hq, ct⟩
  | none =>
    simp only
    split
    · exact ⟨hq, ct⟩
    split
    · exact ⟨hq, ct⟩
    split
    · rename_i ha
      cases hB with
      | rooted _ => exact ⟨hq.trans (removeAllRaw_steps cfg.flt tame.1 rfl q2.os (h.steps hq) ht), ct⟩
      | relative hr _ _ => rw [hr] at ha; cases ha
    · rename_i ha
      cases hB with
      | rooted hr => exact absurd hr ha
      | relative hr hw hwa =>
        rw [hw]
        simp only
        refine ⟨hq.trans (removeAllRaw_steps cfg.flt ?_ (by rw [lexWalk_append]; rfl) q2.os (h.steps hq) ht), ct⟩
        intro hx
        rcases List.mem_append.mp hx with hx | hx
        · exact tame.2 _ hw hx
        · exact tame.1 hx

/-- Whether an operation may remove the sink's directory itself: `Nuke`, or a link entry that is the directory. -/
def Tops (B : Path) : FOp → Prop
  | .symlink e _ => entryPlace B e = B
  | .nuke => True
  | _ => False

theorem run_steps {cfg : FCfg} (hB : cfg.Base B) (op : FOp) (s : FSink) (h : Inside B fs0 s.os.fs) (ts : s.Tidy (fs0.Outside B))
    (tame : op.Tame cfg B s.os.fs)
    (hlk : (∀ q, lk q) ∨ ∀ e t, op = .symlink e t → B <+: entryPlace B e →
      (∀ p u, p <+: entryPlace B e → p ≠ entryPlace B e → s.os.fs.nodes p ≠ some (.link u)) ∧ lk (entryPlace B e)) :
    Steps B (fs0.Outside B) (Tops B op) lk s.os.fs (op.run cfg s).2.os.fs ∧ (op.run cfg s).2.Tidy (fs0.Outside B) := by
  have tw : ∀ {s' : FSink}, s'.ws = s.ws → s'.Tidy (fs0.Outside B) := by intro s' e; unfold Tidy; rw [e]; exact ts
  cases op with
  | mkdir e => have := mkdir_steps (top := Tops B (.mkdir e)) (lk := lk) hB e s h; exact ⟨this.1, tw this.2⟩
  | symlink e t => have := symlink_steps (top := Tops B (.symlink e t)) (lk := lk) hB e t s h tame id (hlk.imp (fun a => a) fun a => a e t rfl); exact ⟨this.1, tw this.2⟩
  | prealloc e => have := preallocate_steps (top := Tops B (.prealloc e)) (lk := lk) hB e s h; exact ⟨this.1, tw this.2⟩
  | getWriter e => exact getWriter_steps hB e s h ts
  | write k bs => exact writeAt_steps k bs s ts
  | sync k =>
    simp only [FOp.run]
    unfold syncAt
    split
    · exact ⟨by simp only [quietCall_fs]; exact .refl _, tw rfl⟩
    · exact ⟨.refl _, ts⟩
    · exact ⟨.refl _, ts⟩
    · exact ⟨.refl _, ts⟩
  | closeWriter k => simp only [FOp.run]; rw [(closeAt_fs cfg k s).1]; exact ⟨.refl _, closeAt_tidy cfg k ts⟩
  | close => simp only [FOp.run]; rw [(close_fs cfg s).1]; exact ⟨.refl _, close_tidy cfg ts⟩
  | nuke => exact nuke_steps hB s h ts tame trivial

end FSink
end Savior
