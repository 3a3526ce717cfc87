import Verif.DiskPlan
import Verif.FolderLaw
/-!
# FolderSink as a path sink: even failing calls harm no other place
-/

namespace Savior
namespace FSink

section
variable {S : Path → Kind → Prop}

theorem open_disk (hS : Planned S) {s : OS} (h : DiskOK S s.fs) {Q : Path} (hQ : S Q .file) (hl : ∀ t, s.fs.nodes Q ≠ some (.link t)) (flt : Faults) (um m : Nat) :
    DiskOK S (s.openCreate flt um Q m).2.fs ∧ Keeps S Q s.fs (s.openCreate flt um Q m).2.fs ∧
    (∀ c, s.fs.holds Q = some (.file c) → (s.openCreate flt um Q m).2.fs.holds Q = some (.file c)) ∧
    (∀ i, (s.openCreate flt um Q m).1 = .ok i → (s.openCreate flt um Q m).2.fs.nodes Q = some (.file i)) := by
  have hst : s.fs.stat Q = s.fs.lstat Q := FS.stat_eq (fun q t hf => hl t (h.found hS hQ hf).2)
  rcases OS.openCreate_cases flt um Q m s with ⟨e, e1, e2⟩ | ⟨q, i, hf, e1, e2⟩ | ⟨q, ha, e1, e2⟩
  · rw [e1, e2]
    exact ⟨h, Keeps.refl S Q _, fun _ hc => hc, fun i hi => (by cases hi)⟩
  · rw [e1, e2]
    rw [hst] at hf
    obtain ⟨rfl, hn⟩ := h.found hS hQ hf
    exact ⟨h, Keeps.refl S q _, fun _ hc => hc, fun j hj => (by cases hj; exact hn)⟩
  · rw [e1, e2]
    rw [hst] at ha
    obtain rfl := h.absent hS hQ ha
    obtain ⟨hn, hp⟩ := FS.lstat_absent h.tree ha
    obtain ⟨a, b, c⟩ := h.create hS hQ hn hp (m ^^^ (m &&& um))
    refine ⟨a, b, fun x hx => ?_, fun j hj => (by cases hj; exact c)⟩
    obtain ⟨i, hi, _⟩ := holds_file hx
    rw [hn] at hi; cases hi

/-- What `createFile` does, whether it succeeds or fails. -/
theorem createFile_disk (hS : Planned S) {cfg : FCfg} {e : Entry} {s : OS} (h : DiskOK S s.fs) {dst : Str} (hd : cfg.destPath e.path = .ok dst) {Q : Path}
    (hq : cleanComps dst = Q) (hQ : S Q .file) :
    DiskOK S (createFile cfg e s).2.fs ∧ Keeps S Q s.fs (createFile cfg e s).2.fs ∧
    (∀ c, s.fs.holds Q = some (.file c) → (createFile cfg e s).2.fs.holds Q = some (.file c)) ∧
    (∀ i, (createFile cfg e s).1 = .ok i → (createFile cfg e s).2.fs.nodes Q = some (.file i)) := by
  unfold createFile
  simp only [hd, names, hq]
  obtain ⟨m1, m2, g⟩ := h.mkdirAll cfg.flt Q.dropLast Q
  have m3 : ∀ c, s.fs.holds Q = some (.file c) → (s.mkdirAll cfg.flt Q.dropLast).2.fs.holds Q = some (.file c) := by
    intro c hc
    obtain ⟨i, hi, hdt⟩ := holds_file hc
    unfold FS.holds
    rw [g.mono _ _ hi, ← hdt, g.data]
  generalize s.mkdirAll cfg.flt Q.dropLast = m at *
  obtain ⟨me, M⟩ := m
  simp only at m1 m2 g m3 ⊢
  cases me with
  | some x => exact ⟨m1, m2, m3, fun i hi => (by cases hi)⟩
  | none =>
    simp only
    -- the rest, given the state after a possible removal of a link
    have rest : ∀ (R : OS) (chm : Bool), DiskOK S R.fs → Keeps S Q s.fs R.fs → (∀ t, R.fs.nodes Q ≠ some (.link t)) →
        (∀ c, s.fs.holds Q = some (.file c) → R.fs.holds Q = some (.file c)) →
        ∀ X : Except Err Nat × OS, X = (match (R.openCreate cfg.flt cfg.umask Q (fileMode e)).1 with
          | .error x => (.error (.wrapped x), (R.openCreate cfg.flt cfg.umask Q (fileMode e)).2)
          | .ok i => if chm then (match ((R.openCreate cfg.flt cfg.umask Q (fileMode e)).2.chmod cfg.flt i (fileMode e)).1 with
              | some x => (.error (.wrapped x), ((R.openCreate cfg.flt cfg.umask Q (fileMode e)).2.chmod cfg.flt i (fileMode e)).2)
              | none => (.ok i, ((R.openCreate cfg.flt cfg.umask Q (fileMode e)).2.chmod cfg.flt i (fileMode e)).2))
            else (.ok i, (R.openCreate cfg.flt cfg.umask Q (fileMode e)).2)) →
        DiskOK S X.2.fs ∧ Keeps S Q s.fs X.2.fs ∧ (∀ c, s.fs.holds Q = some (.file c) → X.2.fs.holds Q = some (.file c)) ∧
        (∀ i, X.1 = .ok i → X.2.fs.nodes Q = some (.file i)) := by
      intro R chm r1 r2 r3 r4 X hX
      obtain ⟨o1, o2, o3, o4⟩ := open_disk hS r1 hQ r3 cfg.flt cfg.umask (fileMode e)
      generalize R.openCreate cfg.flt cfg.umask Q (fileMode e) = o at *
      obtain ⟨oe, O⟩ := o
      simp only at o1 o2 o3 o4 hX
      cases oe with
      | error x =>
        subst hX
        exact ⟨o1, r2.trans o2, fun c hc => o3 c (r4 c hc), fun i hi => (by cases hi)⟩
      | ok i =>
        simp only at hX
        have hn := o4 i rfl
        cases chm with
        | false =>
          simp only [Bool.false_eq_true, if_false] at hX
          subst hX
          exact ⟨o1, r2.trans o2, fun c hc => o3 c (r4 c hc), fun j hj => (by cases hj; exact hn)⟩
        | true =>
          simp only [if_true] at hX
          rcases chmod_cases cfg.flt i (fileMode e) O with ⟨x, c1, c2⟩ | ⟨c1, c2⟩
          · rw [c1] at hX
            subst hX
            simp only [c2]
            exact ⟨o1, r2.trans o2, fun c hc => o3 c (r4 c hc), fun i hi => (by cases hi)⟩
          · rw [c1] at hX
            subst hX
            simp only [c2]
            obtain ⟨s1, s2⟩ := o1.setMode i (fileMode e)
            refine ⟨s1, fun L k n hL hne hn' => ?_, fun c hc => ?_, fun j hj => (by cases hj; exact hn)⟩
            · rw [s2]; exact o2 L k n hL hne (r2 L k n hL hne hn')
            · rw [s2]; exact o3 c (r4 c hc)
    cases hlst : M.fs.lstat Q with
    | absent q =>
      exact rest M false m1 m2 (by
        intro t ht
        rw [lstat_node m1.tree (hS.ord Q .file hQ) ht] at hlst; cases hlst) m3 _ rfl
    | bad x =>
      exact rest M false m1 m2 (by
        intro t ht
        rw [lstat_node m1.tree (hS.ord Q .file hQ) ht] at hlst; cases hlst) m3 _ rfl
    | found q n =>
      obtain ⟨rfl, hn⟩ := m1.found hS hQ hlst
      cases n with
      | dir => exact rest M true m1 m2 (by intro t ht; rw [hn] at ht; cases ht) m3 _ rfl
      | file i => exact rest M true m1 m2 (by intro t ht; rw [hn] at ht; cases ht) m3 _ rfl
      | link t =>
        simp only
        obtain ⟨r1, r2, r3⟩ := m1.removeAll hS cfg.flt hQ (by simp)
        have hnof : ∀ c, s.fs.holds q ≠ some (.file c) := by
          intro c hc
          obtain ⟨i, hi, _⟩ := holds_file (m3 c hc)
          rw [hn] at hi; cases hi
        generalize M.removeAll cfg.flt q = r at *
        obtain ⟨re, R⟩ := r
        simp only at r1 r2 r3 ⊢
        cases re with
        | some x => exact ⟨r1, m2.trans r2, fun c hc => absurd hc (hnof c), fun i hi => (by cases hi)⟩
        | none =>
          simp only
          exact rest R true r1 (m2.trans r2) (by intro t ht; rw [r3 rfl] at ht; cases ht) (fun c hc => absurd hc (hnof c)) _ rfl

/-- `Preallocate`. -/
theorem preallocate_disk (hS : Planned S) {cfg : FCfg} {e : Entry} {s : FSink} (h : DiskOK S s.os.fs) {dst : Str} (hd : cfg.destPath e.path = .ok dst) {Q : Path}
    (hq : cleanComps dst = Q) (hQ : S Q .file) : DiskOK S (s.preallocate cfg e).2.os.fs := by
  unfold preallocate
  split
  · exact h
  obtain ⟨c1, c2, c3, c4⟩ := createFile_disk hS h hd hq hQ
  generalize createFile cfg e s.os = c at *
  obtain ⟨ce, C⟩ := c
  simp only at c1 c4 ⊢
  cases ce with
  | error x => exact c1
  | ok i =>
    simp only
    rw [quietCall_fs]
    have hn := c4 i rfl
    split
    · split
      · obtain ⟨k, hf, _⟩ := legacy_cases cfg i e.usize C
        rw [hf]
        exact (c1.setData hQ hn _).1
      · rcases ox_cases cfg i e.usize C with ⟨hf, _⟩ | ⟨hf, _⟩
        · rw [hf]; exact c1
        · rw [hf]; exact (c1.setData hQ hn _).1
    · exact c1

/-- `GetWriter`. -/
theorem getWriter_disk (hS : Planned S) {cfg : FCfg} {e : Entry} {s : FSink} (hi : shouldIgnore e.path = false) (h : DiskOK S s.os.fs) {dst : Str}
    (hd : cfg.destPath e.path = .ok dst) {Q : Path} (hq : cleanComps dst = Q) (hQ : S Q .file) :
    DiskOK S (s.getWriter cfg e).2.os.fs ∧ Keeps S Q s.os.fs (s.getWriter cfg e).2.os.fs ∧
    ((s.getWriter cfg e).1 ≠ none → ∀ c, s.os.fs.holds Q = some (.file c) → (s.getWriter cfg e).2.os.fs.holds Q = some (.file c)) ∧
    ((s.getWriter cfg e).1 = none → 0 ≤ e.woff ∧ ∃ i l c, (s.getWriter cfg e).2.os.fs.nodes Q = some (.file i) ∧
      (s.getWriter cfg e).2.os.fs.data i = resize c e.woff.toNat ∧ (∀ c0, s.os.fs.holds Q = some (.file c0) → c = c0) ∧
      (s.getWriter cfg e).2.ws = l ++ [.real i e.woff.toNat true]) := by
  unfold getWriter
  simp only [hi, Bool.false_eq_true, if_false]
  obtain ⟨c1, c2, c3, c4⟩ := createFile_disk hS h hd hq hQ
  generalize createFile cfg e s.os = c at *
  obtain ⟨ce, C⟩ := c
  simp only at c1 c2 c3 c4 ⊢
  cases ce with
  | error x => exact ⟨c1, c2, fun _ => c3, fun h => (by cases h)⟩
  | ok i =>
    simp only
    have hn := c4 i rfl
    rcases truncate_cases cfg.flt i e.woff C with ⟨x, t1, t2⟩ | ⟨t0, t1, t2⟩
    · generalize C.truncate cfg.flt i e.woff = t at *
      obtain ⟨te, T⟩ := t
      simp only at t1 t2
      subst t1
      simp only [t2]
      exact ⟨c1, c2, fun _ => c3, fun h => (by cases h)⟩
    · generalize C.truncate cfg.flt i e.woff = t at *
      obtain ⟨te, T⟩ := t
      simp only at t1 t2
      subst t1
      simp only
      have hcl := close_fs cfg { s with os := T }
      generalize FSink.close cfg { s with os := T } = cl at *
      obtain ⟨cle, CL⟩ := cl
      simp only at hcl ⊢
      rw [hcl.1, t2]
      obtain ⟨d1, d2, d3⟩ := c1.setData hQ hn (resize (C.fs.data i) e.woff.toNat)
      refine ⟨d1, c2.trans d2, fun h => absurd rfl h, fun _ => ⟨t0, i, CL.ws, C.fs.data i, hn, by simp [FS.setData], fun c0 h0 => ?_, rfl⟩⟩
      obtain ⟨j, hj, hdj⟩ := holds_file (c3 c0 h0)
      rw [hn] at hj
      cases hj
      exact hdj

/-- `Mkdir`. -/
theorem mkdir_disk (hS : Planned S) {cfg : FCfg} {e : Entry} {s : FSink} (hi : shouldIgnore e.path = false) (h : DiskOK S s.os.fs) {dst : Str}
    (hd : cfg.destPath e.path = .ok dst) {Q : Path} (hq : cleanComps dst = Q) (hQ : S Q .dir) :
    DiskOK S (s.mkdir cfg e).2.os.fs ∧ Keeps S Q s.os.fs (s.mkdir cfg e).2.os.fs ∧
    ((s.mkdir cfg e).1 = none → (s.mkdir cfg e).2.os.fs.holds Q = some .dir) := by
  unfold mkdir
  simp only [hi, Bool.false_eq_true, if_false, hd, names, hq]
  have hdir : ∀ fs : FS, fs.nodes Q = some .dir → fs.holds Q = some .dir := by intro fs hn; unfold FS.holds; rw [hn]
  have last : ∀ o : OS, DiskOK S o.fs → Keeps S Q s.os.fs o.fs → (∀ t, o.fs.nodes Q ≠ some (.link t)) →
      DiskOK S (o.mkdirAll cfg.flt Q).2.fs ∧ Keeps S Q s.os.fs (o.mkdirAll cfg.flt Q).2.fs ∧
      ((o.mkdirAll cfg.flt Q).1.map Err.wrapped = none → (o.mkdirAll cfg.flt Q).2.fs.holds Q = some .dir) := by
    intro o ho hk hl
    obtain ⟨a, b, _⟩ := ho.mkdirAll cfg.flt Q Q
    refine ⟨a, hk.trans b, fun hok => hdir _ (ho.mkdirAll_here hS cfg.flt hQ hl ?_)⟩
    simpa using hok
  cases hlst : s.os.fs.lstat Q with
  | absent q =>
    exact last s.os h (Keeps.refl S Q _) (by
      intro t ht
      rw [lstat_node h.tree (hS.ord Q .dir hQ) ht] at hlst; cases hlst)
  | bad x =>
    exact last s.os h (Keeps.refl S Q _) (by
      intro t ht
      rw [lstat_node h.tree (hS.ord Q .dir hQ) ht] at hlst; cases hlst)
  | found q n =>
    obtain ⟨rfl, hn⟩ := h.found hS hQ hlst
    have other : DiskOK S (match (s.os.remove cfg.flt q).1 with
          | some x => (some (Err.wrapped x), ({ s with os := (s.os.remove cfg.flt q).2 } : FSink))
          | none => (((s.os.remove cfg.flt q).2.mkdirAll cfg.flt q).1.map Err.wrapped, { s with os := ((s.os.remove cfg.flt q).2.mkdirAll cfg.flt q).2 })).2.os.fs ∧
        Keeps S q s.os.fs (match (s.os.remove cfg.flt q).1 with
          | some x => (some (Err.wrapped x), ({ s with os := (s.os.remove cfg.flt q).2 } : FSink))
          | none => (((s.os.remove cfg.flt q).2.mkdirAll cfg.flt q).1.map Err.wrapped, { s with os := ((s.os.remove cfg.flt q).2.mkdirAll cfg.flt q).2 })).2.os.fs ∧
        ((match (s.os.remove cfg.flt q).1 with
          | some x => (some (Err.wrapped x), ({ s with os := (s.os.remove cfg.flt q).2 } : FSink))
          | none => (((s.os.remove cfg.flt q).2.mkdirAll cfg.flt q).1.map Err.wrapped, { s with os := ((s.os.remove cfg.flt q).2.mkdirAll cfg.flt q).2 })).1 = none →
        (match (s.os.remove cfg.flt q).1 with
          | some x => (some (Err.wrapped x), ({ s with os := (s.os.remove cfg.flt q).2 } : FSink))
          | none => (((s.os.remove cfg.flt q).2.mkdirAll cfg.flt q).1.map Err.wrapped, { s with os := ((s.os.remove cfg.flt q).2.mkdirAll cfg.flt q).2 })).2.os.fs.holds q = some .dir) := by
      obtain ⟨r1, r2, r3⟩ := h.remove hS cfg.flt hQ
      generalize s.os.remove cfg.flt q = r at *
      obtain ⟨re, R⟩ := r
      simp only at r1 r2 r3
      cases re with
      | some x => exact ⟨r1, r2, fun h => (by cases h)⟩
      | none => exact last R r1 r2 (by intro t ht; rw [r3 rfl] at ht; cases ht)
    cases n with
    | dir => exact ⟨h, Keeps.refl S q _, fun _ => hdir _ hn⟩
    | file i => exact other
    | link t => exact other

/-- `Symlink`. -/
theorem symlink_disk (hS : Planned S) {cfg : FCfg} {e : Entry} {t : Str} {s : FSink} (hi : shouldIgnore e.path = false) (h : DiskOK S s.os.fs) {dst : Str}
    (hd : cfg.destPath e.path = .ok dst) {Q : Path} (hq : cleanComps dst = Q) (hQ : S Q .symlink) :
    DiskOK S (s.symlink cfg e t).2.os.fs ∧ Keeps S Q s.os.fs (s.symlink cfg e t).2.os.fs ∧
    ((s.symlink cfg e t).1 = none → (s.symlink cfg e t).2.os.fs.holds Q = some (.link t)) := by
  have nothing : ∀ x : Err, DiskOK S ((some x, s) : Option Err × FSink).2.os.fs ∧ Keeps S Q s.os.fs ((some x, s) : Option Err × FSink).2.os.fs ∧
      (((some x, s) : Option Err × FSink).1 = none → ((some x, s) : Option Err × FSink).2.os.fs.holds Q = some (.link t)) :=
    fun _ => ⟨h, Keeps.refl S Q _, fun h => (by cases h)⟩
  unfold symlink
  simp only [hi, Bool.false_eq_true, if_false, hd, names, hq]
  split
  · exact nothing _
  split
  · exact nothing _
  split
  · exact nothing _
  split
  · exact nothing _
  obtain ⟨r1, r2, r3⟩ := h.removeAll hS cfg.flt hQ (by simp)
  generalize s.os.removeAll cfg.flt Q = r at *
  obtain ⟨re, R⟩ := r
  simp only at r1 r2 r3 ⊢
  cases re with
  | some x => exact ⟨r1, r2, fun h => (by cases h)⟩
  | none =>
    simp only
    obtain ⟨m1, m2, _⟩ := r1.mkdirAll cfg.flt Q.dropLast Q
    generalize R.mkdirAll cfg.flt Q.dropLast = m at *
    obtain ⟨me, M⟩ := m
    simp only at m1 m2 ⊢
    cases me with
    | some x => exact ⟨m1, r2.trans m2, fun h => (by cases h)⟩
    | none =>
      simp only
      rcases OS.symlink1_cases cfg.flt t Q M with ⟨x, l1, l2⟩ | ⟨q, ha, _, l1, l2⟩
      · rw [l1, l2]
        exact ⟨m1, r2.trans m2, fun h => (by cases h)⟩
      · rw [l1, l2]
        obtain rfl := m1.absent hS hQ ha
        obtain ⟨hn, hp⟩ := FS.lstat_absent m1.tree ha
        obtain ⟨a, b, c⟩ := m1.putLink hS hQ hn hp t
        exact ⟨a, (r2.trans m2).trans b, fun _ => c⟩

end

/-! ## The instance -/

/-- The places of a plan. -/
def PlanPlace (cfg : FCfg) (B : Path) (plan : List (Str × Kind)) (L : Path) (k : Kind) : Prop :=
  ∃ p, (p, k) ∈ plan ∧ shouldIgnore p = false ∧ B <+: namePlace B p ∧ L = namePlace B p

theorem namePlace_ord {cfg : FCfg} {B : Path} (hB : cfg.Base B) (p : Str) : AllOrd (namePlace B p) := (lexWalk_eq (base_ord hB) (splitSlash_noslash p)).2

theorem planned {cfg : FCfg} {B : Path} (hB : cfg.Base B) {plan : List (Str × Kind)} (hi : Independent cfg B plan) : Planned (PlanPlace cfg B plan) := by
  refine ⟨?_, ?_⟩
  · rintro L k ⟨p, _, _, _, rfl⟩
    exact namePlace_ord hB p
  · rintro L k L' k' ⟨p, h1, h2, h3, rfl⟩ ⟨p', h1', h2', h3', rfl⟩ hne hpre
    exact (hi _ h1 _ h1' h2 h2' h3 h3' (by rintro rfl; exact hne rfl)).2 hpre

theorem diskOK_of_fit {cfg : FCfg} {B : Path} {plan : List (Str × Kind)} {fs : FS} (h : DiskFit B plan fs) : DiskOK (PlanPlace cfg B plan) fs := by
  refine ⟨h.tree, ?_, ?_, ?_⟩
  · rintro L k r t ⟨p, h1, h2, h3, rfl⟩ hr hne
    exact h.nolink _ h1 h2 h3 r t hr hne
  · rintro L k L' k' i ⟨p, h1, h2, h3, rfl⟩ ⟨p', h1', h2', h3', rfl⟩ a b
    exact h.nohard _ h1 _ h1' h2 h3 h2' h3' i a b
  · rintro L k i ⟨p, h1, h2, h3, rfl⟩ a
    exact h.inodes _ h1 h2 h3 i a

/-- Where an accepted name leads. -/
theorem dest_place {cfg : FCfg} {B : Path} (hB : cfg.Base B) {p dst : Str} (hd : cfg.destPath p = .ok dst) : cleanComps dst = namePlace B p ∧ B <+: namePlace B p := by
  obtain ⟨N, _, _, h1, h2⟩ := destPath_ok hB hd
  exact ⟨by rw [h1]; exact h2.symm, by unfold namePlace; rw [h2]; exact ⟨N, rfl⟩⟩

/-- What an entry's name holds: what is at its place on disk. -/
def nodeOf (cfg : FCfg) (B : Path) (s : FSink) (p : Str) : Option PNode :=
  match cfg.destPath p with
  | .error _ => none
  | .ok _ => if shouldIgnore p then none else s.os.fs.holds (namePlace B p)

/-- The current writer. -/
def lastWr (s : FSink) : Option Wr := s.ws[s.ws.length - 1]?

theorem lastWr_snoc {s : FSink} {l : List Wr} {w : Wr} (h : s.ws = l ++ [w]) : lastWr s = some w := by
  unfold lastWr; rw [h]; simp

theorem nodeOf_some {cfg : FCfg} {B : Path} {s : FSink} {p : Str} {n : PNode} (h : nodeOf cfg B s p = some n) :
    ∃ dst, cfg.destPath p = .ok dst ∧ shouldIgnore p = false ∧ s.os.fs.holds (namePlace B p) = some n := by
  unfold nodeOf at h
  cases hd : cfg.destPath p with
  | error x => rw [hd] at h; cases h
  | ok dst =>
    rw [hd] at h
    simp only at h
    split at h
    · cases h
    · rename_i hi
      exact ⟨dst, rfl, by simpa using hi, h⟩

theorem nodeOf_ok {cfg : FCfg} {B : Path} {s : FSink} {p dst : Str} (hd : cfg.destPath p = .ok dst) (hi : shouldIgnore p = false) :
    nodeOf cfg B s p = s.os.fs.holds (namePlace B p) := by
  unfold nodeOf; rw [hd]; simp [hi]

/-- Other names keep what they hold if other places do. -/
theorem nodeOf_keeps {cfg : FCfg} {B : Path} (hB : cfg.Base B) {plan : List (Str × Kind)} (hi : Independent cfg B plan) {s s' : FSink} {q : Str} {kq : Kind}
    (hq : (q, kq) ∈ plan) (hqi : shouldIgnore q = false) (hqd : B <+: namePlace B q)
    (hk : Keeps (PlanPlace cfg B plan) (namePlace B q) s.os.fs s'.os.fs) {p : Str} {k : Kind} {n : PNode}
    (hp : (p, k) ∈ plan) (hne : p ≠ q) (hn : nodeOf cfg B s p = some n) : nodeOf cfg B s' p = some n := by
  obtain ⟨dst, hd, hpi, hh⟩ := nodeOf_some hn
  rw [nodeOf_ok hd hpi]
  have hpd := (dest_place hB hd).2
  exact hk _ k n ⟨p, hp, hpi, hpd, rfl⟩ (hi _ hp _ hq hpi hqi hpd hqd hne).1 hh

theorem nodeOf_congr {cfg : FCfg} {B : Path} {s s' : FSink} (h : s'.os.fs = s.os.fs) : nodeOf cfg B s' = nodeOf cfg B s := by
  funext p; unfold nodeOf; rw [h]

theorem createFile_refused {cfg : FCfg} {e : Entry} {s : OS} {x : Err} (hd : cfg.destPath e.path = .error x) : createFile cfg e s = (.error x, s) := by
  unfold createFile; rw [hd]

theorem getWriter_refused {cfg : FCfg} {e : Entry} {s : FSink} {x : Err} (hi : shouldIgnore e.path = false) (hd : cfg.destPath e.path = .error x) :
    s.getWriter cfg e = (some (.wrapped x), s) := by
  unfold getWriter
  simp only [hi, Bool.false_eq_true, if_false]
  rw [createFile_refused hd]

theorem getWriter_ignored {cfg : FCfg} {e : Entry} {s : FSink} (hi : shouldIgnore e.path = true) : s.getWriter cfg e = (none, { s with ws := s.ws ++ [.nop] }) := by
  unfold getWriter; simp [hi]

/-- `FolderSink` keeps one node per name, whatever system calls fail, if the names are independent. -/
def folderPath (cfg : FCfg) {B : Path} (hB : cfg.Base B) (plan : List (Str × Kind)) (hind : Independent cfg B plan) : PathLaw (folderSink cfg) where
  Inv s := DiskOK (PlanPlace cfg B plan) s.os.fs
  Fits p k := (p, k) ∈ plan
  shown p := !shouldIgnore p
  node s p := nodeOf cfg B s p
  At s p o := ∃ i, s.os.fs.nodes (namePlace B p) = some (.file i) ∧ lastWr s = some (.real i o true)
  Deaf s := lastWr s = some .nop
  mkdir_inv e s hs hf := by
    show DiskOK _ (mkdir cfg e s).2.os.fs
    cases hi : shouldIgnore e.path with
    | true => unfold mkdir; rw [hi]; exact hs
    | false =>
      cases hd : cfg.destPath e.path with
      | error x => unfold mkdir; rw [hi, hd]; exact hs
      | ok dst =>
        obtain ⟨a, b⟩ := dest_place hB hd
        exact (mkdir_disk (planned hB hind) hi hs hd a ⟨_, hf, hi, b, rfl⟩).1
  mkdir_frame e s p k n hs hf hp hne hn := by
    show nodeOf cfg B (mkdir cfg e s).2 p = some n
    cases hi : shouldIgnore e.path with
    | true => unfold mkdir; rw [hi]; exact hn
    | false =>
      cases hd : cfg.destPath e.path with
      | error x => unfold mkdir; rw [hi, hd]; exact hn
      | ok dst =>
        obtain ⟨a, b⟩ := dest_place hB hd
        exact nodeOf_keeps hB hind hf hi b (mkdir_disk (planned hB hind) hi hs hd a ⟨_, hf, hi, b, rfl⟩).2.1 hp hne hn
  mkdir_ok e s hs hf hsh hok := by
    have hi : shouldIgnore e.path = false := by simpa using hsh
    show nodeOf cfg B (mkdir cfg e s).2 e.path = some .dir
    cases hd : cfg.destPath e.path with
    | error x =>
      have : (mkdir cfg e s).1 = none := hok
      unfold mkdir at this; rw [hi, hd] at this; cases this
    | ok dst =>
      obtain ⟨a, b⟩ := dest_place hB hd
      rw [nodeOf_ok hd hi]
      exact (mkdir_disk (planned hB hind) hi hs hd a ⟨_, hf, hi, b, rfl⟩).2.2 hok
  symlink_inv e t s hs hf := by
    show DiskOK _ (symlink cfg e t s).2.os.fs
    cases hi : shouldIgnore e.path with
    | true => unfold symlink; rw [hi]; exact hs
    | false =>
      cases hd : cfg.destPath e.path with
      | error x => unfold symlink; rw [hi, hd]; exact hs
      | ok dst =>
        obtain ⟨a, b⟩ := dest_place hB hd
        exact (symlink_disk (planned hB hind) hi hs hd a ⟨_, hf, hi, b, rfl⟩).1
  symlink_frame e t s p k n hs hf hp hne hn := by
    show nodeOf cfg B (symlink cfg e t s).2 p = some n
    cases hi : shouldIgnore e.path with
    | true => unfold symlink; rw [hi]; exact hn
    | false =>
      cases hd : cfg.destPath e.path with
      | error x => unfold symlink; rw [hi, hd]; exact hn
      | ok dst =>
        obtain ⟨a, b⟩ := dest_place hB hd
        exact nodeOf_keeps hB hind hf hi b (symlink_disk (planned hB hind) hi hs hd a ⟨_, hf, hi, b, rfl⟩).2.1 hp hne hn
  symlink_ok e t s hs hf hsh _ hok := by
    have hi : shouldIgnore e.path = false := by simpa using hsh
    show nodeOf cfg B (symlink cfg e t s).2 e.path = some (.link t)
    cases hd : cfg.destPath e.path with
    | error x =>
      have : (symlink cfg e t s).1 = none := hok
      unfold symlink at this; rw [hi, hd] at this; cases this
    | ok dst =>
      obtain ⟨a, b⟩ := dest_place hB hd
      rw [nodeOf_ok hd hi]
      exact (symlink_disk (planned hB hind) hi hs hd a ⟨_, hf, hi, b, rfl⟩).2.2 hok
  prealloc_inv e s hs hf := by
    show DiskOK _ (preallocate cfg e s).2.os.fs
    cases hi : shouldIgnore e.path with
    | true => unfold preallocate; rw [hi]; exact hs
    | false =>
      cases hd : cfg.destPath e.path with
      | error x =>
        unfold preallocate
        simp only [hi, Bool.false_eq_true, if_false]
        rw [createFile_refused hd]; exact hs
      | ok dst =>
        obtain ⟨a, b⟩ := dest_place hB hd
        exact preallocate_disk (planned hB hind) hs hd a ⟨_, hf, hi, b, rfl⟩
  open_inv e s hs hf := by
    show DiskOK _ (getWriter cfg e s).2.os.fs
    cases hi : shouldIgnore e.path with
    | true => rw [getWriter_ignored (s := s) hi]; exact hs
    | false =>
      cases hd : cfg.destPath e.path with
      | error x => rw [getWriter_refused (s := s) hi hd]; exact hs
      | ok dst =>
        obtain ⟨a, b⟩ := dest_place hB hd
        exact (getWriter_disk (planned hB hind) hi hs hd a ⟨_, hf, hi, b, rfl⟩).1
  open_frame e s p k n hs hf hp hne hn := by
    show nodeOf cfg B (getWriter cfg e s).2 p = some n
    cases hi : shouldIgnore e.path with
    | true => rw [getWriter_ignored (s := s) hi]; exact hn
    | false =>
      cases hd : cfg.destPath e.path with
      | error x => rw [getWriter_refused (s := s) hi hd]; exact hn
      | ok dst =>
        obtain ⟨a, b⟩ := dest_place hB hd
        exact nodeOf_keeps hB hind hf hi b (getWriter_disk (planned hB hind) hi hs hd a ⟨_, hf, hi, b, rfl⟩).2.1 hp hne hn
  open_ok e s o hs hf hsh ho hok := by
    have hi : shouldIgnore e.path = false := by simpa using hsh
    have hok' : (getWriter cfg e s).1 = none := hok
    cases hd : cfg.destPath e.path with
    | error x => rw [getWriter_refused (s := s) hi hd] at hok'; cases hok'
    | ok dst =>
      obtain ⟨a, b⟩ := dest_place hB hd
      obtain ⟨_, i, l, c, g1, g2, g3, g4⟩ := (getWriter_disk (planned hB hind) hi hs hd a ⟨_, hf, hi, b, rfl⟩).2.2.2 hok'
      have ho' : e.woff.toNat = o := by omega
      rw [ho'] at g2 g4
      refine ⟨resize c o, ?_, resize_length c o, ⟨i, g1, lastWr_snoc g4⟩, ?_⟩
      · show nodeOf cfg B (getWriter cfg e s).2 e.path = _
        rw [nodeOf_ok hd hi]
        unfold FS.holds
        rw [g1]
        simp only [g2]
      · intro c0 h0 hle
        have h0' : nodeOf cfg B s e.path = some (.file c0) := h0
        rw [nodeOf_ok (s := s) hd hi] at h0'
        rw [g3 c0 h0']
        simp [resize, Nat.sub_eq_zero_of_le hle]
  open_fail e s o hs hf hsh ho hbad c0 h0 hle := by
    have hi : shouldIgnore e.path = false := by simpa using hsh
    have hbad' : (getWriter cfg e s).1 ≠ none := hbad
    show ∃ c, nodeOf cfg B (getWriter cfg e s).2 e.path = some (.file c) ∧ _
    cases hd : cfg.destPath e.path with
    | error x => rw [getWriter_refused (s := s) hi hd]; exact ⟨c0, h0, hle, rfl⟩
    | ok dst =>
      obtain ⟨a, b⟩ := dest_place hB hd
      have h0' : nodeOf cfg B s e.path = some (.file c0) := h0
      rw [nodeOf_ok (s := s) hd hi] at h0'
      refine ⟨c0, ?_, hle, rfl⟩
      rw [nodeOf_ok hd hi]
      exact (getWriter_disk (planned hB hind) hi hs hd a ⟨_, hf, hi, b, rfl⟩).2.2.1 hbad' c0 h0'
  open_deaf e s _ hf hsh hok := by
    have hi : shouldIgnore e.path = true := by simpa using hsh
    show lastWr (getWriter cfg e s).2 = some .nop
    rw [getWriter_ignored (s := s) hi]
    exact lastWr_snoc rfl
  write_spec bs s p c hs hf hn hat := by
    obtain ⟨i, hi, hlast⟩ := hat
    obtain ⟨dst, hd, hig, hh⟩ := nodeOf_some hn
    obtain ⟨a, b⟩ := dest_place hB hd
    obtain ⟨j, hj, hdj⟩ := holds_file hh
    rw [hi] at hj; cases hj
    have hQ : PlanPlace cfg B plan (namePlace B p) .file := ⟨p, hf, hig, b, rfl⟩
    have done : ∀ (k : Nat), k ≤ bs.length → ∀ r : (Nat × Int × Option Err) × FSink, r = s.writeAt cfg (s.ws.length - 1) bs →
        r.1.2.1 = k → (r.1.2.2 = none → k = bs.length ∧ r.1.1 = bs.length) →
        r.2.os.fs = s.os.fs.setData i (pwrite (s.os.fs.data i) c.length (bs.take k)) →
        r.2.ws = s.ws.set (s.ws.length - 1) (.real i (c.length + k) true) →
        ∃ k, k ≤ bs.length ∧ nodeOf cfg B r.2 p = some (.file (c ++ bs.take k)) ∧
          (∃ i, r.2.os.fs.nodes (namePlace B p) = some (.file i) ∧ lastWr r.2 = some (.real i (c.length + k) true)) ∧
          r.1.2.1 = k ∧ (r.1.2.2 = none → k = bs.length ∧ r.1.1 = bs.length) ∧ DiskOK (PlanPlace cfg B plan) r.2.os.fs ∧
          ∀ q k n, (q, k) ∈ plan → q ≠ p → nodeOf cfg B s q = some n → nodeOf cfg B r.2 q = some n := by
      intro k hk r _ e1 e2 e3 e4
      rw [hdj, pwrite_end] at e3
      have hs' : DiskOK (PlanPlace cfg B plan) s.os.fs := hs
      obtain ⟨d1, d2, d3⟩ := hs'.setData hQ hi (c ++ bs.take k)
      refine ⟨k, hk, ?_, ⟨i, ?_, ?_⟩, e1, e2, ?_, ?_⟩
      · rw [nodeOf_ok hd hig, e3]; exact d3
      · rw [e3]; exact hi
      · obtain ⟨l, _, hl2⟩ := setLast (w' := Wr.real i (c.length + k) true) hlast
        rw [hl2] at e4
        exact lastWr_snoc e4
      · rw [e3]; exact d1
      · intro q k n hq hne hn
        exact nodeOf_keeps hB hind hf hig b (by rw [e3]; exact d2) hq hne hn
    have hw := write_cases cfg (s.ws.length - 1) bs s i c.length hlast
    show ∃ k, k ≤ bs.length ∧ nodeOf cfg B (s.writeAt cfg (s.ws.length - 1) bs).2 p = _ ∧ _
    rcases hw with ⟨x, n, w1, w2, w3, w4, w5, w6, _⟩ | ⟨w1, w2, w3, _⟩
    · exact done n w2 _ rfl w4 (fun h => by rw [w1] at h; cases h) w5 w6
    · refine done bs.length (Nat.le_refl _) _ rfl ?_ (fun _ => ⟨rfl, ?_⟩) (by rw [List.take_length]; exact w2) w3
      · rw [w1]
      · rw [w1]
  write_deaf bs s hs hd := by
    have : s.writeAt cfg (s.ws.length - 1) bs = ((bs.length, 0, none), s) := by
      unfold writeAt
      have hd' : s.ws[s.ws.length - 1]? = some .nop := hd
      rw [hd']
      rfl
    show DiskOK _ (s.writeAt cfg (s.ws.length - 1) bs).2.os.fs ∧ lastWr (s.writeAt cfg (s.ws.length - 1) bs).2 = _ ∧
      (fun p => nodeOf cfg B (s.writeAt cfg (s.ws.length - 1) bs).2 p) = _ ∧ (s.writeAt cfg (s.ws.length - 1) bs).1.2.1 = 0
    rw [this]
    exact ⟨hs, hd, rfl, rfl⟩
  close_spec s hs := by
    have h1 : (s.closeAt cfg (s.ws.length - 1)).2.os.fs = s.os.fs := (closeAt_fs cfg (s.ws.length - 1) s).1
    show DiskOK _ (s.closeAt cfg (s.ws.length - 1)).2.os.fs ∧ (fun p => nodeOf cfg B (s.closeAt cfg (s.ws.length - 1)).2 p) = _
    rw [h1]
    exact ⟨hs, nodeOf_congr h1⟩
  reborn_spec s hs := ⟨hs, rfl⟩
  sync_spec s hs := by
    show DiskOK _ (s.syncAt cfg (s.ws.length - 1)).2.os.fs ∧ (fun p => nodeOf cfg B (s.syncAt cfg (s.ws.length - 1)).2 p) = _ ∧
      (∀ p o, (∃ i, s.os.fs.nodes (namePlace B p) = some (.file i) ∧ lastWr s = some (.real i o true)) →
        ∃ i, (s.syncAt cfg (s.ws.length - 1)).2.os.fs.nodes (namePlace B p) = some (.file i) ∧ lastWr (s.syncAt cfg (s.ws.length - 1)).2 = some (.real i o true)) ∧
      (lastWr s = some .nop → lastWr (s.syncAt cfg (s.ws.length - 1)).2 = some .nop)
    have h1 : (s.syncAt cfg (s.ws.length - 1)).2.os.fs = s.os.fs ∧ (s.syncAt cfg (s.ws.length - 1)).2.ws = s.ws := by
      unfold syncAt
      split
      · exact ⟨quietCall_fs _ _, rfl⟩
      · exact ⟨rfl, rfl⟩
      · exact ⟨rfl, rfl⟩
      · exact ⟨rfl, rfl⟩
    have h2 : lastWr (s.syncAt cfg (s.ws.length - 1)).2 = lastWr s := by unfold lastWr; rw [h1.2]
    rw [h1.1, h2]
    exact ⟨hs, nodeOf_congr h1.1, fun _ _ h => h, fun h => h⟩

end FSink
end Savior
