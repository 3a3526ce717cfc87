import Verif.DiskSink
import Verif.Spec.Modes
/-!
# The permissions of the files FolderSink makes
-/

namespace Savior

namespace FSink

/-- Model and specification agree about what bits a file gets. -/
theorem syscallMode_want (m : Nat) : syscallMode (m ||| 0o666) = wantPerm m := by
  unfold syscallMode wantPerm wantSpecial
  have h23 : (m ||| 0o666).testBit 23 = m.testBit 23 := by rw [Nat.testBit_or]; simp [show (0o666:Nat).testBit 23 = false by decide]
  have h22 : (m ||| 0o666).testBit 22 = m.testBit 22 := by rw [Nat.testBit_or]; simp [show (0o666:Nat).testBit 22 = false by decide]
  have h20 : (m ||| 0o666).testBit 20 = m.testBit 20 := by rw [Nat.testBit_or]; simp [show (0o666:Nat).testBit 20 = false by decide]
  rw [h23, h22, h20]
  have hlow : (m ||| 0o666) &&& 0o777 < 2 ^ 9 := Nat.and_lt_two_pow _ (by decide)
  generalize (m ||| 0o666) &&& 0o777 = l at *
  have key : ∀ a : Nat, l ||| (2 ^ 9 * a) = l + 2 ^ 9 * a := by
    intro a
    rw [Nat.or_comm, Nat.add_comm]
    exact (Nat.two_pow_add_eq_or_of_lt hlow a).symm
  rw [Nat.or_assoc, Nat.or_assoc]
  cases m.testBit 23 <;> cases m.testBit 22 <;> cases m.testBit 20
  · exact key 0
  · exact key 1
  · exact key 2
  · exact key 3
  · exact key 4
  · exact key 5
  · exact key 6
  · exact key 7

theorem wantSpecial_mul (m : Nat) : ∃ a, a < 8 ∧ wantSpecial m = 2 ^ 9 * a ∧ a.testBit 2 = m.testBit 23 ∧ a.testBit 1 = m.testBit 22 ∧ a.testBit 0 = m.testBit 20 := by
  unfold wantSpecial
  cases m.testBit 23 <;> cases m.testBit 22 <;> cases m.testBit 20
  · exact ⟨0, by decide⟩
  · exact ⟨1, by decide⟩
  · exact ⟨2, by decide⟩
  · exact ⟨3, by decide⟩
  · exact ⟨4, by decide⟩
  · exact ⟨5, by decide⟩
  · exact ⟨6, by decide⟩
  · exact ⟨7, by decide⟩

/-- The nine permission bits. -/
theorem wantPerm_low (m : Nat) {b : Nat} (hb : b < 9) : (wantPerm m).testBit b = (m.testBit b || (0o666 : Nat).testBit b) := by
  obtain ⟨a, _, ha, _⟩ := wantSpecial_mul m
  unfold wantPerm
  rw [ha, Nat.add_comm, Nat.testBit_two_pow_mul_add a (Nat.and_lt_two_pow _ (by decide)), if_pos hb, Nat.testBit_and, Nat.testBit_or]
  have : ∀ b < 9, (0o777 : Nat).testBit b = true := by decide
  rw [this b hb, Bool.and_true]

/-- The three special bits. -/
theorem wantPerm_special (m : Nat) : (wantPerm m).testBit 11 = m.testBit 23 ∧ (wantPerm m).testBit 10 = m.testBit 22 ∧ (wantPerm m).testBit 9 = m.testBit 20 := by
  obtain ⟨a, _, ha, h2, h1, h0⟩ := wantSpecial_mul m
  have hl : (m ||| 0o666) &&& 0o777 < 2 ^ 9 := Nat.and_lt_two_pow _ (by decide)
  unfold wantPerm
  rw [ha, Nat.add_comm]
  refine ⟨?_, ?_, ?_⟩
  · rw [Nat.testBit_two_pow_mul_add a hl, if_neg (by decide)]; exact h2
  · rw [Nat.testBit_two_pow_mul_add a hl, if_neg (by decide)]; exact h1
  · rw [Nat.testBit_two_pow_mul_add a hl, if_neg (by decide)]; exact h0

/-- There are no others. -/
theorem wantPerm_lt (m : Nat) : wantPerm m < 2 ^ 12 := by
  obtain ⟨a, h8, ha, _⟩ := wantSpecial_mul m
  have hl : (m ||| 0o666) &&& 0o777 < 2 ^ 9 := Nat.and_lt_two_pow _ (by decide)
  unfold wantPerm
  omega

theorem fileMode_want (e : Entry) : fileMode e = wantPerm e.mode := syscallMode_want e.mode

end FSink

section
variable {S : Path → Kind → Prop} {fs fs' : FS}

/-- What may happen to the permissions of the files at the places when something is done at `Q`. -/
def Perm (S : Path → Kind → Prop) (Q : Path) (exact loose : Nat) (fs fs' : FS) : Prop :=
  ∀ L, S L .file → ∀ m, fs'.permAt L = some m → fs.permAt L = some m ∨ (L = Q ∧ (m = exact ∨ (fs.permAt Q = none ∧ m = loose)))

theorem permAt_none (h : ∀ i, fs.nodes L ≠ some (.file i)) : fs.permAt L = none := by
  unfold FS.permAt
  split
  · rename_i i hi; exact absurd hi (h i)
  · rfl

theorem permAt_file {L : Path} {i : Nat} (h : fs.nodes L = some (.file i)) : fs.permAt L = some (fs.mode i) := by
  unfold FS.permAt; rw [h]

theorem permAt_some {L : Path} {m : Nat} (h : fs.permAt L = some m) : ∃ i, fs.nodes L = some (.file i) ∧ fs.mode i = m := by
  unfold FS.permAt at h
  split at h
  · rename_i i hi; exact ⟨i, hi, by simpa using h⟩
  · cases h

theorem permAt_holds {L : Path} : fs.permAt L ≠ none ↔ ∃ c, fs.holds L = some (.file c) := by
  constructor
  · intro h
    cases hm : fs.permAt L with
    | none => exact absurd hm h
    | some m =>
      obtain ⟨i, hi, _⟩ := permAt_some hm
      exact ⟨fs.data i, by unfold FS.holds; rw [hi]⟩
  · rintro ⟨c, hc⟩
    obtain ⟨i, hi, _⟩ := holds_file hc
    rw [permAt_file hi]; simp

/-- Files are where they were, if anywhere, with the same permissions. -/
theorem Perm.fewer {Q : Path} {x l : Nat} (hm : fs'.mode = fs.mode) (hn : ∀ L i, fs'.nodes L = some (.file i) → fs.nodes L = some (.file i)) : Perm S Q x l fs fs' := by
  intro L _ m h
  obtain ⟨i, hi, rfl⟩ := permAt_some h
  left
  rw [permAt_file (hn L i hi), hm]

theorem Perm.refl {Q : Path} {x l : Nat} : Perm S Q x l fs fs := Perm.fewer rfl (fun _ _ h => h)

/-- First something that does not put files or change permissions. -/
theorem Perm.after {Q : Path} {x l : Nat} {a b c : FS} (h : Perm S Q x l a b) (k : Perm S Q x l b c)
    (hQ' : b.permAt Q = none → a.permAt Q = none) : Perm S Q x l a c := by
  intro L hL m hm
  rcases k L hL m hm with e | ⟨rfl, e | ⟨e1, e2⟩⟩
  · exact h L hL m e
  · exact Or.inr ⟨rfl, Or.inl e⟩
  · exact Or.inr ⟨rfl, Or.inr ⟨hQ' e1, e2⟩⟩

theorem Perm.then_fewer {Q : Path} {x l : Nat} {a b c : FS} (h : Perm S Q x l a b) (hm : c.mode = b.mode)
    (hn : ∀ L i, c.nodes L = some (.file i) → b.nodes L = some (.file i)) : Perm S Q x l a c := by
  intro L hL m hm'
  rcases Perm.fewer (S := S) (Q := Q) (x := x) (l := l) hm hn L hL m hm' with e | ⟨rfl, e | ⟨_, e⟩⟩
  · exact h L hL m e
  · exact Or.inr ⟨rfl, Or.inl e⟩
  · obtain ⟨i, hi, hmi⟩ := permAt_some hm'
    refine h L hL m ?_
    rw [permAt_file (hn L i hi), ← hm, hmi]

/-- Permissions of the file at `Q` set. -/
theorem Perm.setMode (h : DiskOK S fs) {Q : Path} (hQ : S Q .file) {i m : Nat} (hi : fs.nodes Q = some (.file i)) {a : FS} {l : Nat}
    (hp : Perm S Q m l a fs) : Perm S Q m l a (fs.setMode i m) ∧ (fs.setMode i m).permAt Q = some m := by
  refine ⟨?_, by rw [permAt_file (fs := fs.setMode i m) hi]; simp [FS.setMode]⟩
  intro L hL m' hm
  obtain ⟨j, hj, rfl⟩ := permAt_some hm
  have hj' : fs.nodes L = some (.file j) := hj
  by_cases e : j = i
  · subst e
    right
    exact ⟨h.alone L _ Q _ j hL hQ hj' hi, Or.inl (by simp [FS.setMode])⟩
  · have : (fs.setMode i m).mode j = fs.mode j := by simp [FS.setMode, e]
    rw [this]
    exact hp L hL _ (permAt_file hj')

/-- A new file at `Q`. -/
theorem Perm.create (h : DiskOK S fs) {Q : Path} {x l : Nat} (hn : fs.nodes Q = none) : Perm S Q x l fs (fs.create Q l) := by
  intro L hL m hm
  obtain ⟨j, hj, rfl⟩ := permAt_some hm
  by_cases e : L = Q
  · subst e
    right
    refine ⟨rfl, Or.inr ⟨permAt_none (by rw [hn]; simp), ?_⟩⟩
    simp [FS.create] at hj
    subst hj
    simp [FS.create]
  · have hj' : fs.nodes L = some (.file j) := by simpa [FS.create, e] using hj
    left
    rw [permAt_file hj']
    have := h.low L _ j hL hj'
    simp [FS.create]
    omega

end

namespace FSink
section
variable {S : Path → Kind → Prop}

/-- The permissions a file gets if it did not exist. -/
abbrev looseMode (cfg : FCfg) (e : Entry) : Nat := fileMode e ^^^ (fileMode e &&& cfg.umask)

theorem open_perm (hS : Planned S) {s : OS} (h : DiskOK S s.fs) {Q : Path} (hQ : S Q .file) (hl : ∀ t, s.fs.nodes Q ≠ some (.link t)) (flt : Faults) (um m x : Nat) :
    Perm S Q x (m ^^^ (m &&& um)) s.fs (s.openCreate flt um Q m).2.fs := by
  have hst : s.fs.stat Q = s.fs.lstat Q := FS.stat_eq (fun q t hf => hl t (h.found hS hQ hf).2)
  rcases OS.openCreate_cases flt um Q m s with ⟨e, e1, e2⟩ | ⟨q, i, hf, e1, e2⟩ | ⟨q, ha, e1, e2⟩
  · rw [e2]; exact Perm.refl
  · rw [e2]; exact Perm.refl
  · rw [e2]
    rw [hst] at ha
    obtain rfl := h.absent hS hQ ha
    obtain ⟨hn, hp⟩ := FS.lstat_absent h.tree ha
    exact Perm.create h hn

/-- Files are where they were, if anywhere, with the same permissions. -/
def Fewer (fs fs' : FS) : Prop := fs'.mode = fs.mode ∧ ∀ L i, fs'.nodes L = some (.file i) → fs.nodes L = some (.file i)

theorem Fewer.refl {fs : FS} : Fewer fs fs := ⟨rfl, fun _ _ h => h⟩

theorem Fewer.trans {a b c : FS} (h : Fewer a b) (k : Fewer b c) : Fewer a c := ⟨k.1.trans h.1, fun L i hi => h.2 L i (k.2 L i hi)⟩

theorem Fewer.grown {a b : FS} (g : a.Grown b) : Fewer a b := by
  refine ⟨g.mode, fun L i hi => ?_⟩
  rcases g.nodes L with e | ⟨_, e⟩
  · rw [← e]; exact hi
  · rw [e] at hi; cases hi

theorem Fewer.put {fs : FS} {q : Path} {n : Node} (hn : ∀ i, n ≠ .file i) : Fewer fs (fs.put q n) := by
  refine ⟨rfl, fun L i hi => ?_⟩
  by_cases e : L = q
  · subst e
    simp [FS.put] at hi
    exact absurd hi (hn i)
  · simpa [FS.put, e] using hi

theorem mkdirAllN_fewer (flt : Faults) (p : Path) : ∀ (n : Nat) (s : OS), Fewer s.fs (OS.mkdirAllN flt p n s).2.fs := by
  intro n
  induction n with
  | zero => intro s; exact Fewer.refl
  | succ n ih =>
    intro s
    have main : Fewer s.fs (match (OS.mkdirAllN flt p n s).1 with
        | some e => (some e, (OS.mkdirAllN flt p n s).2)
        | none => match (OS.mkdir1 flt (p.take (n + 1)) (OS.mkdirAllN flt p n s).2).1 with
          | none => (none, (OS.mkdir1 flt (p.take (n + 1)) (OS.mkdirAllN flt p n s).2).2)
          | some e => match (OS.mkdir1 flt (p.take (n + 1)) (OS.mkdirAllN flt p n s).2).2.fs.lstat (p.take (n + 1)) with
            | .found _ .dir => (none, (OS.mkdir1 flt (p.take (n + 1)) (OS.mkdirAllN flt p n s).2).2)
            | _ => (some e, (OS.mkdir1 flt (p.take (n + 1)) (OS.mkdirAllN flt p n s).2).2) : Option Err × OS).2.fs := by
      have h0 := ih s
      generalize OS.mkdirAllN flt p n s = r at *
      obtain ⟨re, R⟩ := r
      cases re with
      | some x => exact h0
      | none =>
        simp only at h0 ⊢
        have h1 : Fewer s.fs (OS.mkdir1 flt (p.take (n + 1)) R).2.fs := by
          rcases OS.mkdir1_cases flt (p.take (n + 1)) R with ⟨e, _, h⟩ | ⟨q, _, _, h⟩
          · rw [h]; exact h0
          · rw [h]; exact h0.trans (Fewer.put (by simp))
        generalize OS.mkdir1 flt (p.take (n + 1)) R = m at *
        obtain ⟨me, M⟩ := m
        cases me with
        | none => exact h1
        | some x =>
          simp only
          split <;> exact h1
    rw [OS.mkdirAllN.eq_2]
    split
    · exact Fewer.refl
    · exact Fewer.refl
    · exact main

theorem mkdirAll_fewer (flt : Faults) (p : Path) (s : OS) : Fewer s.fs (s.mkdirAll flt p).2.fs := mkdirAllN_fewer flt p _ s

theorem Fewer.cut {a b : FS} (hm : b.mode = a.mode) {q : Path} (hn : ∀ p, b.nodes p = a.nodes p ∨ (b.nodes p = none ∧ q <+: p)) : Fewer a b := by
  refine ⟨hm, fun L i hi => ?_⟩
  rcases hn L with e | ⟨e, _⟩
  · rw [← e]; exact hi
  · rw [e] at hi; cases hi

theorem removeAll_fewer (flt : Faults) (p : Path) (s : OS) : Fewer s.fs (s.removeAll flt p).2.fs := by
  rcases OS.removeAll_cases flt p s with ⟨h, _⟩ | ⟨q, n, rm, _, _, h0, h⟩ | ⟨q, n, _, h0, _, h⟩
  · rw [h]; exact Fewer.refl
  · rw [h]; exact Fewer.cut rfl (cutSome_nodes _ _ _)
  · rw [h]; exact Fewer.cut rfl (cut_nodes _ _)

theorem remove_fewer (flt : Faults) (p : Path) (s : OS) : Fewer s.fs (s.remove flt p).2.fs := by
  rcases OS.remove_cases flt p s with ⟨e, _, h⟩ | ⟨q, n, _, _, _, h⟩
  · rw [h]; exact Fewer.refl
  · rw [h]; exact Fewer.cut rfl (cut_nodes _ _)

theorem remove_tree (flt : Faults) (p : Path) (s : OS) (ht : s.fs.Tree) : (s.remove flt p).2.fs.Tree := by
  rcases OS.remove_cases flt p s with ⟨e, _, h⟩ | ⟨q, n, hf, hd, _, h⟩
  · rw [h]; exact ht
  · rw [h]
    refine FS.tree_cut ht ?_
    rintro rfl
    have := FS.lstat_real ht hf
    rw [ht.1] at this
    cases this
    exact hd rfl

/-- What `createFile` does to permissions, whether it succeeds or fails; and what they are if it succeeds and a file was there. -/
theorem createFile_perm (hS : Planned S) {cfg : FCfg} {e : Entry} {s : OS} (h : DiskOK S s.fs) {dst : Str} (hd : cfg.destPath e.path = .ok dst) {Q : Path}
    (hq : cleanComps dst = Q) (hQ : S Q .file) :
    Perm S Q (fileMode e) (looseMode cfg e) s.fs (createFile cfg e s).2.fs ∧
    (∀ i, (createFile cfg e s).1 = .ok i → s.fs.permAt Q ≠ none → (createFile cfg e s).2.fs.permAt Q = some (fileMode e)) := by
  unfold createFile
  simp only [hd, names, hq]
  obtain ⟨m1, m2, g⟩ := h.mkdirAll cfg.flt Q.dropLast Q
  have mfile : ∀ L i, (s.mkdirAll cfg.flt Q.dropLast).2.fs.nodes L = some (.file i) → s.fs.nodes L = some (.file i) := by
    intro L i hi
    rcases g.nodes L with e | ⟨_, e⟩
    · rw [← e]; exact hi
    · rw [e] at hi; cases hi
  have m0 : (s.mkdirAll cfg.flt Q.dropLast).2.fs.permAt Q = s.fs.permAt Q := by
    unfold FS.permAt
    rcases g.nodes Q with e | ⟨e1, e2⟩
    · rw [e, g.mode]
    · rw [e1, e2]
  have gm := g.mode
  generalize s.mkdirAll cfg.flt Q.dropLast = m at *
  obtain ⟨me, M⟩ := m
  simp only at m1 m2 g mfile m0 gm ⊢
  have pm : Perm S Q (fileMode e) (looseMode cfg e) s.fs M.fs := Perm.fewer gm mfile
  cases me with
  | some x => exact ⟨pm, fun i hi => (by cases hi)⟩
  | none =>
    simp only
    have rest : ∀ (R : OS) (chm : Bool), DiskOK S R.fs → Perm S Q (fileMode e) (looseMode cfg e) s.fs R.fs → (R.fs.permAt Q = none → s.fs.permAt Q = none) →
        (∀ t, R.fs.nodes Q ≠ some (.link t)) → (chm = false → s.fs.permAt Q = none) →
        ∀ X : Except Err Nat × OS, X = (match (R.openCreate cfg.flt cfg.umask Q (fileMode e)).1 with
          | .error x => (.error (.wrapped x), (R.openCreate cfg.flt cfg.umask Q (fileMode e)).2)
          | .ok i => if chm then (match ((R.openCreate cfg.flt cfg.umask Q (fileMode e)).2.chmod cfg.flt i (fileMode e)).1 with
              | some x => (.error (.wrapped x), ((R.openCreate cfg.flt cfg.umask Q (fileMode e)).2.chmod cfg.flt i (fileMode e)).2)
              | none => (.ok i, ((R.openCreate cfg.flt cfg.umask Q (fileMode e)).2.chmod cfg.flt i (fileMode e)).2))
            else (.ok i, (R.openCreate cfg.flt cfg.umask Q (fileMode e)).2)) →
        Perm S Q (fileMode e) (looseMode cfg e) s.fs X.2.fs ∧ (∀ i, X.1 = .ok i → s.fs.permAt Q ≠ none → X.2.fs.permAt Q = some (fileMode e)) := by
      intro R chm r1 r2 r0 r3 rc X hX
      obtain ⟨o1, _, _, o4⟩ := open_disk hS r1 hQ r3 cfg.flt cfg.umask (fileMode e)
      have op := r2.after (open_perm hS r1 hQ r3 cfg.flt cfg.umask (fileMode e) (fileMode e)) r0
      generalize R.openCreate cfg.flt cfg.umask Q (fileMode e) = o at *
      obtain ⟨oe, O⟩ := o
      simp only at o1 o4 op hX
      cases oe with
      | error x =>
        subst hX
        exact ⟨op, fun i hi => (by cases hi)⟩
      | ok i =>
        simp only at hX
        have hn := o4 i rfl
        cases chm with
        | false =>
          simp only [Bool.false_eq_true, if_false] at hX
          subst hX
          exact ⟨op, fun i _ hne => absurd (rc rfl) hne⟩
        | true =>
          simp only [if_true] at hX
          rcases chmod_cases cfg.flt i (fileMode e) O with ⟨x, c1, c2⟩ | ⟨c1, c2⟩
          · rw [c1] at hX
            subst hX
            simp only [c2]
            exact ⟨op, fun i hi => (by cases hi)⟩
          · rw [c1] at hX
            subst hX
            simp only [c2]
            obtain ⟨s1, s2⟩ := Perm.setMode o1 hQ hn op
            exact ⟨s1, fun _ _ _ => s2⟩
    cases hlst : M.fs.lstat Q with
    | absent q =>
      have hno : ∀ n, M.fs.nodes Q ≠ some n := by
        intro n hn
        rw [lstat_node m1.tree (hS.ord Q .file hQ) hn] at hlst; cases hlst
      exact rest M false m1 pm (by rw [m0]; exact id) (fun t => hno _) (fun _ => by rw [← m0]; exact permAt_none fun i => hno _) _ rfl
    | bad x =>
      have hno : ∀ n, M.fs.nodes Q ≠ some n := by
        intro n hn
        rw [lstat_node m1.tree (hS.ord Q .file hQ) hn] at hlst; cases hlst
      exact rest M false m1 pm (by rw [m0]; exact id) (fun t => hno _) (fun _ => by rw [← m0]; exact permAt_none fun i => hno _) _ rfl
    | found q n =>
      obtain ⟨rfl, hn⟩ := m1.found hS hQ hlst
      cases n with
      | dir => exact rest M true m1 pm (by rw [m0]; exact id) (by intro t ht; rw [hn] at ht; cases ht) (by simp) _ rfl
      | file i => exact rest M true m1 pm (by rw [m0]; exact id) (by intro t ht; rw [hn] at ht; cases ht) (by simp) _ rfl
      | link t =>
        simp only
        obtain ⟨r1, r2, r3⟩ := m1.removeAll hS cfg.flt hQ (by simp)
        have r4 := removeAll_fewer cfg.flt q M
        have hq0 : s.fs.permAt q = none := by rw [← m0]; exact permAt_none (by rw [hn]; simp)
        generalize M.removeAll cfg.flt q = r at *
        obtain ⟨re, R⟩ := r
        simp only at r1 r2 r3 r4 ⊢
        have pr : Perm S q (fileMode e) (looseMode cfg e) s.fs R.fs := pm.then_fewer r4.1 r4.2
        cases re with
        | some x => exact ⟨pr, fun i hi => (by cases hi)⟩
        | none =>
          simp only
          exact rest R true r1 pr (fun _ => hq0) (by intro t ht; rw [r3 rfl] at ht; cases ht) (by simp) _ rfl

theorem preallocate_perm (hS : Planned S) {cfg : FCfg} {e : Entry} {s : FSink} (hi : shouldIgnore e.path = false) (h : DiskOK S s.os.fs) {dst : Str}
    (hd : cfg.destPath e.path = .ok dst) {Q : Path} (hq : cleanComps dst = Q) (hQ : S Q .file) :
    Perm S Q (fileMode e) (looseMode cfg e) s.os.fs (s.preallocate cfg e).2.os.fs ∧ Keeps S Q s.os.fs (s.preallocate cfg e).2.os.fs ∧
    (s.os.fs.permAt Q ≠ none → (s.preallocate cfg e).2.os.fs.permAt Q ≠ none) ∧
    ((s.preallocate cfg e).1 = none → (s.preallocate cfg e).2.os.fs.permAt Q ≠ none) := by
  unfold preallocate
  simp only [hi, Bool.false_eq_true, if_false]
  obtain ⟨c1, c2, c3, c4⟩ := createFile_disk hS h hd hq hQ
  obtain ⟨p1, _⟩ := createFile_perm hS h hd hq hQ
  have p3 : s.os.fs.permAt Q ≠ none → (createFile cfg e s.os).2.fs.permAt Q ≠ none := by
    intro hne
    obtain ⟨c, hc⟩ := permAt_holds.1 hne
    exact permAt_holds.2 ⟨c, c3 c hc⟩
  generalize createFile cfg e s.os = c at *
  obtain ⟨ce, C⟩ := c
  simp only at c1 c2 c4 p1 p3 ⊢
  cases ce with
  | error x => exact ⟨p1, c2, p3, fun h => (by cases h)⟩
  | ok i =>
    simp only
    rw [quietCall_fs]
    have hn := c4 i rfl
    have same : ∀ c, Perm S Q (fileMode e) (looseMode cfg e) s.os.fs (C.fs.setData i c) ∧ Keeps S Q s.os.fs (C.fs.setData i c) ∧
        (C.fs.setData i c).permAt Q ≠ none := fun c => ⟨p1.then_fewer rfl (fun _ _ h => h), c2.trans (c1.setData hQ hn c).2.1, by rw [permAt_file (fs := C.fs.setData i c) hn]; simp⟩
    have plain : Perm S Q (fileMode e) (looseMode cfg e) s.os.fs C.fs ∧ Keeps S Q s.os.fs C.fs ∧ C.fs.permAt Q ≠ none := ⟨p1, c2, by rw [permAt_file hn]; simp⟩
    have fin : ∀ (r : Option Err × OS), Perm S Q (fileMode e) (looseMode cfg e) s.os.fs r.2.fs ∧ Keeps S Q s.os.fs r.2.fs ∧ r.2.fs.permAt Q ≠ none →
        Perm S Q (fileMode e) (looseMode cfg e) s.os.fs r.2.fs ∧ Keeps S Q s.os.fs r.2.fs ∧ (s.os.fs.permAt Q ≠ none → r.2.fs.permAt Q ≠ none) ∧
        (r.1 = none → r.2.fs.permAt Q ≠ none) := fun r hr => ⟨hr.1, hr.2.1, fun _ => hr.2.2, fun _ => hr.2.2⟩
    refine fin _ ?_
    split
    · split
      · obtain ⟨k, hf, _⟩ := legacy_cases cfg i e.usize C
        rw [hf]
        exact same _
      · rcases ox_cases cfg i e.usize C with ⟨hf, _⟩ | ⟨hf, _⟩
        · rw [hf]; exact plain
        · rw [hf]; exact same _
    · exact plain

theorem getWriter_perm (hS : Planned S) {cfg : FCfg} {e : Entry} {s : FSink} (hi : shouldIgnore e.path = false) (h : DiskOK S s.os.fs) {dst : Str}
    (hd : cfg.destPath e.path = .ok dst) {Q : Path} (hq : cleanComps dst = Q) (hQ : S Q .file) :
    Perm S Q (fileMode e) (looseMode cfg e) s.os.fs (s.getWriter cfg e).2.os.fs ∧
    (s.os.fs.permAt Q ≠ none → (s.getWriter cfg e).2.os.fs.permAt Q ≠ none) ∧
    ((s.getWriter cfg e).1 = none → s.os.fs.permAt Q ≠ none → (s.getWriter cfg e).2.os.fs.permAt Q = some (fileMode e)) := by
  obtain ⟨_, _, g3, g4⟩ := getWriter_disk hS hi h hd hq hQ
  have g5 : s.os.fs.permAt Q ≠ none → (s.getWriter cfg e).2.os.fs.permAt Q ≠ none := by
    intro hne
    cases hr : (s.getWriter cfg e).1 with
    | some x =>
      obtain ⟨c, hc⟩ := permAt_holds.1 hne
      exact permAt_holds.2 ⟨c, g3 (by rw [hr]; simp) c hc⟩
    | none =>
      obtain ⟨_, i, _, _, hn, _⟩ := g4 hr
      rw [permAt_file hn]; simp
  refine ⟨?_, g5, ?_⟩
  all_goals
    clear g3 g4 g5
    unfold getWriter
    simp only [hi, Bool.false_eq_true, if_false]
    obtain ⟨p1, p2⟩ := createFile_perm hS h hd hq hQ
    generalize createFile cfg e s.os = c at *
    obtain ⟨ce, C⟩ := c
    simp only at p1 p2 ⊢
    cases ce with
    | error x => first | exact p1 | (intro h; cases h)
    | ok i =>
      simp only
      rcases truncate_cases cfg.flt i e.woff C with ⟨x, t1, t2⟩ | ⟨t0, t1, t2⟩
      · generalize C.truncate cfg.flt i e.woff = t at *
        obtain ⟨te, T⟩ := t
        simp only at t1 t2
        subst t1
        simp only [t2]
        first | exact p1 | (intro h; cases h)
      · generalize C.truncate cfg.flt i e.woff = t at *
        obtain ⟨te, T⟩ := t
        simp only at t1 t2
        subst t1
        simp only
        have hcl := close_fs cfg { s with os := T }
        generalize FSink.close cfg { s with os := T } = cl at *
        obtain ⟨cle, CL⟩ := cl
        simp only at hcl ⊢
        rw [hcl.1, t2]
        first | exact p1.then_fewer rfl (fun _ _ h => h) | (intro _ hne; exact p2 i rfl hne)

/-- `Mkdir` and `Symlink` put no files and change no permissions. -/
theorem mkdir_fewer (cfg : FCfg) (e : Entry) (s : FSink) :
    (s.mkdir cfg e).2.os.fs.mode = s.os.fs.mode ∧ ∀ L i, (s.mkdir cfg e).2.os.fs.nodes L = some (.file i) → s.os.fs.nodes L = some (.file i) := by
  have last : ∀ (o : OS) (p : Path), Fewer s.os.fs o.fs → Fewer s.os.fs (o.mkdirAll cfg.flt p).2.fs := by
    intro o p h
    exact h.trans (mkdirAll_fewer cfg.flt p o)
  show Fewer s.os.fs _
  unfold mkdir
  split
  · exact Fewer.refl
  split
  · exact Fewer.refl
  simp only
  split
  · exact Fewer.refl
  · rename_i dst _ _ q n hnd hf
    have hr := remove_fewer cfg.flt (names dst) s.os
    generalize s.os.remove cfg.flt (names dst) = r at *
    obtain ⟨re, R⟩ := r
    cases re with
    | some x => exact hr
    | none => exact last R _ hr
  · exact last _ _ Fewer.refl

theorem symlink_fewer (cfg : FCfg) (e : Entry) (t : Str) (s : FSink) :
    (s.symlink cfg e t).2.os.fs.mode = s.os.fs.mode ∧ ∀ L i, (s.symlink cfg e t).2.os.fs.nodes L = some (.file i) → s.os.fs.nodes L = some (.file i) := by
  show Fewer s.os.fs _
  unfold symlink
  split
  · exact Fewer.refl
  split
  · exact Fewer.refl
  split
  · exact Fewer.refl
  split
  · exact Fewer.refl
  split
  · exact Fewer.refl
  split
  · exact Fewer.refl
  simp only
  rename_i dst _ _ _ _ _ _ _ _ _
  have hr := removeAll_fewer cfg.flt (names dst) s.os
  generalize s.os.removeAll cfg.flt (names dst) = r at *
  obtain ⟨re, R⟩ := r
  simp only at hr
  cases re with
  | some x => exact hr
  | none =>
    simp only
    have hm := Fewer.trans hr (mkdirAll_fewer cfg.flt (names dst).dropLast R)
    generalize R.mkdirAll cfg.flt (names dst).dropLast = m at *
    obtain ⟨me, M⟩ := m
    simp only at hm
    cases me with
    | some x => exact hm
    | none =>
      simp only
      rcases OS.symlink1_cases cfg.flt t (names dst) M with ⟨x, l1, l2⟩ | ⟨q, ha, _, l1, l2⟩
      · rw [l2]; exact hm
      · rw [l2]
        refine hm.trans ⟨rfl, fun L i hi => ?_⟩
        by_cases e : L = q
        · subst e; simp [FS.put] at hi
        · simpa [FS.put, e] using hi

end
end FSink
end Savior
