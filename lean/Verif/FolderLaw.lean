import Verif.FolderMore
import Verif.Spec.Sink
/-!
# FolderSink obeys the sink contract

The view: names, links and file contents, the inode counter and the current writer's file and position; permission bits are
left out. A call that succeeds in spite of whatever failures the system calls might have had does what it does if nothing
fails (`Sim` lemmas); `folderLaw` is the resulting instance.
-/

namespace Savior

/-- Same filesystem, permission bits aside. -/
structure FS.Same (a b : FS) : Prop where
  nodes : a.nodes = b.nodes
  data : a.data = b.data
  next : a.next = b.next

/-- No failures. -/
abbrev noFlt : Faults := fun _ => none

namespace FS.Same
theorem rfl' (a : FS) : a.Same a := ⟨rfl, rfl, rfl⟩
theorem symm {a b : FS} (h : a.Same b) : b.Same a := ⟨h.nodes.symm, h.data.symm, h.next.symm⟩
theorem trans {a b c : FS} (h : a.Same b) (k : b.Same c) : a.Same c :=
  ⟨h.nodes.trans k.nodes, h.data.trans k.data, h.next.trans k.next⟩
theorem lstat {a b : FS} (h : a.Same b) (p : Path) : a.lstat p = b.lstat p := by simp [FS.lstat, h.nodes]
theorem stat {a b : FS} (h : a.Same b) (p : Path) : a.stat p = b.stat p := by simp [FS.stat, h.nodes]
theorem put {a b : FS} (h : a.Same b) (q : Path) (n : Node) : (a.put q n).Same (b.put q n) :=
  ⟨by simp [FS.put, h.nodes], h.data, h.next⟩
theorem cut {a b : FS} (h : a.Same b) (q : Path) : (a.cut q).Same (b.cut q) := ⟨by simp [FS.cut, h.nodes], h.data, h.next⟩
theorem create {a b : FS} (h : a.Same b) (q : Path) (m m' : Nat) : (a.create q m).Same (b.create q m') :=
  ⟨by simp [FS.create, h.nodes, h.next], by simp [FS.create, h.data, h.next], by simp [FS.create, h.next]⟩
theorem setData {a b : FS} (h : a.Same b) (i : Nat) (c : List Byte) : (a.setData i c).Same (b.setData i c) :=
  ⟨h.nodes, by simp [FS.setData, h.data], h.next⟩
theorem setMode {a b : FS} (h : a.Same b) (i m : Nat) : (a.setMode i m).Same b := ⟨h.nodes, h.data, h.next⟩
end FS.Same

namespace OS

theorem mkdir1_sim {flt : Faults} {p : Path} {a b : OS} (h : a.fs.Same b.fs) (hok : (mkdir1 flt p a).1 = none) :
    (mkdir1 noFlt p b).1 = none ∧ (mkdir1 flt p a).2.fs.Same (mkdir1 noFlt p b).2.fs := by
  unfold mkdir1 at hok ⊢
  cases hf : flt a.tick with
  | some f => simp [hf] at hok
  | none =>
    simp only [hf] at hok ⊢
    rw [← h.lstat p]
    cases hl : a.fs.lstat p with
    | absent q => exact ⟨rfl, h.put q .dir⟩
    | found q n => simp [hl] at hok
    | bad e => simp [hl] at hok

theorem mkdirAllN_sim {flt : Faults} (p : Path) (n : Nat) {a b : OS} (h : a.fs.Same b.fs) (hok : (mkdirAllN flt p n a).1 = none) :
    (mkdirAllN noFlt p n b).1 = none ∧ (mkdirAllN flt p n a).2.fs.Same (mkdirAllN noFlt p n b).2.fs := by
  induction n with
  | zero => exact ⟨rfl, h⟩
  | succ n ih =>
    simp only [mkdirAllN] at hok ⊢
    rw [← h.stat]
    split
    · exact ⟨rfl, h⟩
    · rename_i q nd hnd hs
      rw [hs] at hok
      cases nd with
      | dir => exact absurd rfl hnd
      | _ => simp at hok
    · rename_i h1 h2
      have hok' : (match (mkdirAllN flt p n a).1 with
        | some e => ((some e : Option Err), (mkdirAllN flt p n a).2)
        | none => match (mkdir1 flt (p.take (n + 1)) (mkdirAllN flt p n a).2).1 with
          | none => (none, (mkdir1 flt (p.take (n + 1)) (mkdirAllN flt p n a).2).2)
          | some e => match (mkdir1 flt (p.take (n + 1)) (mkdirAllN flt p n a).2).2.fs.lstat (p.take (n + 1)) with
            | .found _ .dir => (none, (mkdir1 flt (p.take (n + 1)) (mkdirAllN flt p n a).2).2)
            | _ => (some e, (mkdir1 flt (p.take (n + 1)) (mkdirAllN flt p n a).2).2)).1 = none := by
        cases hs : a.fs.stat (p.take (n + 1)) with
        | found q nd =>
          cases nd with
          | dir => exact absurd hs (h1 q)
          | _ => exact absurd hs (h2 q _)
        | absent q => rw [hs] at hok; exact hok
        | bad e => rw [hs] at hok; exact hok
      clear hok
      cases hr : (mkdirAllN flt p n a).1 with
      | some e => rw [hr] at hok'; simp at hok'
      | none =>
        obtain ⟨i1, i2⟩ := ih hr
        rw [hr] at hok'
        rw [i1]
        simp only at hok' ⊢
        generalize (mkdirAllN flt p n a).2 = A at *
        generalize (mkdirAllN noFlt p n b).2 = B at *
        rcases mkdir1_cases flt (p.take (n + 1)) A with ⟨e, m1, m2⟩ | ⟨q, m1, m2, m3⟩
        · rw [m1] at hok' ⊢
          simp only at hok' ⊢
          rw [m2] at hok'
          cases hl : A.fs.lstat (p.take (n + 1)) with
          | found q nd =>
            cases nd with
            | dir =>
              have hl2 : B.fs.lstat (p.take (n + 1)) = .found q .dir := by rw [← i2.lstat]; exact hl
              have : mkdir1 noFlt (p.take (n + 1)) B = (some EEXIST, { B with tick := B.tick + 1 }) := by
                unfold mkdir1; simp [hl2]
              rw [this]
              simp only [m2, hl, hl2]
              first
                | exact ⟨trivial, i2⟩
                | exact ⟨trivial, by rw [m2]; exact i2⟩
            | _ => rw [hl] at hok'; simp at hok'
          | absent q => rw [hl] at hok'; simp at hok'
          | bad e => rw [hl] at hok'; simp at hok'
        · obtain ⟨k1, k2⟩ := mkdir1_sim i2 m1
          rw [m1, k1]
          exact ⟨rfl, k2⟩

theorem mkdirAll_sim {flt : Faults} (p : Path) {a b : OS} (h : a.fs.Same b.fs) (hok : (mkdirAll flt p a).1 = none) :
    (mkdirAll noFlt p b).1 = none ∧ (mkdirAll flt p a).2.fs.Same (mkdirAll noFlt p b).2.fs := mkdirAllN_sim p _ h hok

theorem remove_sim {flt : Faults} (p : Path) {a b : OS} (h : a.fs.Same b.fs) (hok : (remove flt p a).1 = none) :
    (remove noFlt p b).1 = none ∧ (remove flt p a).2.fs.Same (remove noFlt p b).2.fs := by
  unfold remove at hok ⊢
  cases hf : flt a.tick with
  | some f => simp [hf] at hok
  | none =>
    simp only [hf] at hok ⊢
    rw [← h.lstat p]
    cases hl : a.fs.lstat p with
    | absent q => simp [hl] at hok
    | found q n =>
      cases n with
      | dir => simp [hl] at hok
      | _ => exact ⟨rfl, h.cut q⟩
    | bad e => simp [hl] at hok

theorem removeAll_sim {flt : Faults} (p : Path) {a b : OS} (h : a.fs.Same b.fs) (hok : (removeAll flt p a).1 = none) :
    (removeAll noFlt p b).1 = none ∧ (removeAll flt p a).2.fs.Same (removeAll noFlt p b).2.fs := by
  unfold removeAll at hok ⊢
  rw [← h.lstat p]
  cases hl : a.fs.lstat p with
  | absent q => exact ⟨rfl, h⟩
  | bad e =>
    simp only [hl] at hok ⊢
    split
    · exact ⟨rfl, h⟩
    · rename_i he; simp [he] at hok
  | found q n =>
    simp only [hl] at hok ⊢
    cases hf : flt a.tick with
    | some f => simp [hf] at hok
    | none =>
      simp only [hf] at hok ⊢
      split
      · rename_i hq; simp [hq] at hok
      · exact ⟨rfl, h.cut q⟩

theorem openCreate_sim {flt : Faults} {um m : Nat} (p : Path) {a b : OS} {i : Nat} (h : a.fs.Same b.fs) (hok : (openCreate flt um p m a).1 = .ok i) :
    (openCreate noFlt um p m b).1 = .ok i ∧ (openCreate flt um p m a).2.fs.Same (openCreate noFlt um p m b).2.fs := by
  unfold openCreate at hok ⊢
  cases hf : flt a.tick with
  | some f => simp [hf] at hok
  | none =>
    simp only [hf] at hok ⊢
    rw [← h.stat p]
    cases hl : a.fs.stat p with
    | absent q => simp only [hl] at hok ⊢; exact ⟨by rw [← h.next]; exact hok, h.create q _ _⟩
    | found q n =>
      cases n with
      | file j => simp only [hl] at hok ⊢; exact ⟨hok, h⟩
      | _ => simp [hl] at hok
    | bad e => simp [hl] at hok

theorem symlink1_sim {flt : Faults} (t : Str) (p : Path) {a b : OS} (h : a.fs.Same b.fs) (hok : (symlink1 flt t p a).1 = none) :
    (symlink1 noFlt t p b).1 = none ∧ (symlink1 flt t p a).2.fs.Same (symlink1 noFlt t p b).2.fs := by
  unfold symlink1 at hok ⊢
  cases hf : flt a.tick with
  | some f => simp [hf] at hok
  | none =>
    simp only [hf] at hok ⊢
    split
    · rename_i ht; simp [ht] at hok
    · rename_i ht
      simp only [ht, if_false] at hok
      rw [← h.lstat p]
      cases hl : a.fs.lstat p with
      | absent q => exact ⟨rfl, h.put q _⟩
      | found q n => simp [hl] at hok
      | bad e => simp [hl] at hok

theorem chmod_sim {flt : Faults} {i m : Nat} {a b : OS} (h : a.fs.Same b.fs) (hok : (chmod flt i m a).1 = none) :
    (chmod noFlt i m b).1 = none ∧ (chmod flt i m a).2.fs.Same (chmod noFlt i m b).2.fs := by
  unfold chmod at hok ⊢
  cases hf : flt a.tick with
  | some f => simp [hf] at hok
  | none => exact ⟨rfl, (h.setMode i m).trans ((FS.Same.rfl' _).setMode i m).symm⟩

theorem truncate_sim {flt : Faults} {i : Nat} {n : Int} {a b : OS} (h : a.fs.Same b.fs) (hok : (truncate flt i n a).1 = none) :
    (truncate noFlt i n b).1 = none ∧ (truncate flt i n a).2.fs.Same (truncate noFlt i n b).2.fs := by
  unfold truncate at hok ⊢
  cases hf : flt a.tick with
  | some f => simp [hf] at hok
  | none =>
    simp only [hf] at hok ⊢
    split
    · rename_i hn; simp [hn] at hok
    · exact ⟨rfl, by rw [h.data]; exact h.setData i _⟩

end OS

namespace FSink

/-- The same sink on a machine where no system call fails. -/
def calm (cfg : FCfg) : FCfg := { cfg with flt := noFlt }

/-- The last part of `createFile`. -/
def openMod (cfg : FCfg) (flt : Faults) (p : Path) (m : Nat) (chm : Bool) (s : OS) : Except Err Nat × OS :=
  let o := s.openCreate flt cfg.umask p m
  match o.1 with
  | .error x => (.error (.wrapped x), o.2)
  | .ok i =>
    match chm with
    | true =>
      let c := o.2.chmod flt i m
      match c.1 with
      | some x => (.error (.wrapped x), c.2)
      | none => (.ok i, c.2)
    | false => (.ok i, o.2)

theorem openMod_sim {cfg : FCfg} {p : Path} {m : Nat} (chm : Bool) {R R' : OS} {i : Nat} (j2 : R.fs.Same R'.fs)
    (hok : (openMod cfg cfg.flt p m chm R).1 = .ok i) :
    (openMod cfg noFlt p m chm R').1 = .ok i ∧ (openMod cfg cfg.flt p m chm R).2.fs.Same (openMod cfg noFlt p m chm R').2.fs := by
  unfold openMod at hok ⊢
  simp only at hok ⊢
  cases ho : (R.openCreate cfg.flt cfg.umask p m).1 with
  | error x => rw [ho] at hok; simp at hok
  | ok k =>
    obtain ⟨k1, k2⟩ := OS.openCreate_sim _ j2 ho
    rw [ho] at hok
    rw [k1]
    simp only at hok ⊢
    generalize (R.openCreate cfg.flt cfg.umask p m).2 = O at *
    generalize (R'.openCreate noFlt cfg.umask p m).2 = O' at *
    cases chm with
    | true =>
      simp only at hok ⊢
      cases hc : (O.chmod cfg.flt k m).1 with
      | some x => rw [hc] at hok; simp at hok
      | none =>
        obtain ⟨l1, l2⟩ := OS.chmod_sim k2 hc
        rw [hc] at hok
        rw [l1]
        exact ⟨hok, l2⟩
    | false => exact ⟨hok, k2⟩

theorem createFile_sim {cfg : FCfg} {e : Entry} {a b : OS} {i : Nat} (h : a.fs.Same b.fs) (hok : (createFile cfg e a).1 = .ok i) :
    (createFile (calm cfg) e b).1 = .ok i ∧ (createFile cfg e a).2.fs.Same (createFile (calm cfg) e b).2.fs := by
  have hdp : (calm cfg).destPath e.path = cfg.destPath e.path := rfl
  unfold createFile at hok ⊢
  rw [hdp]
  cases hd : cfg.destPath e.path with
  | error x => rw [hd] at hok; simp at hok
  | ok dst =>
    simp only [hd] at hok ⊢
    have flt0 : (calm cfg).flt = noFlt := rfl
    have um0 : (calm cfg).umask = cfg.umask := rfl
    rw [flt0, um0]
    cases hm : (a.mkdirAll cfg.flt (names dst).dropLast).1 with
    | some x => rw [hm] at hok; simp at hok
    | none =>
      obtain ⟨i1, i2⟩ := OS.mkdirAll_sim _ h hm
      rw [hm] at hok
      rw [i1]
      simp only at hok ⊢
      generalize (a.mkdirAll cfg.flt (names dst).dropLast).2 = A at *
      generalize (b.mkdirAll noFlt (names dst).dropLast).2 = B at *
      clear h hm i1
      rw [← i2.lstat]
      cases hst : A.fs.lstat (names dst) with
      | found q n =>
        rw [hst] at hok
        cases n with
        | link t =>
          simp only at hok ⊢
          cases hR : (A.removeAll cfg.flt (names dst)).1 with
          | some x => rw [hR] at hok; simp at hok
          | none =>
            obtain ⟨j1, j2⟩ := OS.removeAll_sim _ i2 hR
            rw [hR] at hok
            rw [j1]
            simp only at hok ⊢
            exact openMod_sim (cfg := cfg) true j2 hok
        | dir => exact openMod_sim (cfg := cfg) true i2 hok
        | file k => exact openMod_sim (cfg := cfg) true i2 hok
      | absent q => rw [hst] at hok; exact openMod_sim (cfg := cfg) false i2 hok
      | bad x => rw [hst] at hok; exact openMod_sim (cfg := cfg) false i2 hok

theorem mkdir_sim {cfg : FCfg} {e : Entry} {a b : FSink} (h : a.os.fs.Same b.os.fs) (hok : (mkdir cfg e a).1 = none) :
    (mkdir (calm cfg) e b).1 = none ∧ (mkdir cfg e a).2.os.fs.Same (mkdir (calm cfg) e b).2.os.fs ∧ (mkdir cfg e a).2.ws = a.ws := by
  have hdp : (calm cfg).destPath e.path = cfg.destPath e.path := rfl
  have flt0 : (calm cfg).flt = noFlt := rfl
  unfold mkdir at hok ⊢
  rw [hdp, flt0]
  split
  · exact ⟨rfl, h, rfl⟩
  · rename_i hi
    rw [if_neg hi] at hok
    cases hd : cfg.destPath e.path with
    | error x => rw [hd] at hok; simp at hok
    | ok dst =>
      simp only [hd] at hok ⊢
      rw [← h.lstat]
      have mk : ∀ (A B : OS), A.fs.Same B.fs → ((A.mkdirAll cfg.flt (names dst)).1.map Err.wrapped) = none →
          ((B.mkdirAll noFlt (names dst)).1.map Err.wrapped) = none ∧
          (A.mkdirAll cfg.flt (names dst)).2.fs.Same (B.mkdirAll noFlt (names dst)).2.fs := by
        intro A B hs hk
        have hk : (A.mkdirAll cfg.flt (names dst)).1 = none := by simpa using hk
        obtain ⟨x, y⟩ := OS.mkdirAll_sim _ hs hk
        exact ⟨by rw [x]; rfl, y⟩
      have rm : (match (a.os.remove cfg.flt (names dst)).1 with
          | some x => ((some (Err.wrapped x) : Option Err), ({ a with os := (a.os.remove cfg.flt (names dst)).2 } : FSink))
          | none => (((a.os.remove cfg.flt (names dst)).2.mkdirAll cfg.flt (names dst)).1.map .wrapped,
              { a with os := ((a.os.remove cfg.flt (names dst)).2.mkdirAll cfg.flt (names dst)).2 })).1 = none →
          (match (b.os.remove noFlt (names dst)).1 with
          | some x => ((some (Err.wrapped x) : Option Err), ({ b with os := (b.os.remove noFlt (names dst)).2 } : FSink))
          | none => (((b.os.remove noFlt (names dst)).2.mkdirAll noFlt (names dst)).1.map .wrapped,
              { b with os := ((b.os.remove noFlt (names dst)).2.mkdirAll noFlt (names dst)).2 })).1 = none ∧
          (match (a.os.remove cfg.flt (names dst)).1 with
          | some x => ((some (Err.wrapped x) : Option Err), ({ a with os := (a.os.remove cfg.flt (names dst)).2 } : FSink))
          | none => (((a.os.remove cfg.flt (names dst)).2.mkdirAll cfg.flt (names dst)).1.map .wrapped,
              { a with os := ((a.os.remove cfg.flt (names dst)).2.mkdirAll cfg.flt (names dst)).2 })).2.os.fs.Same
          (match (b.os.remove noFlt (names dst)).1 with
          | some x => ((some (Err.wrapped x) : Option Err), ({ b with os := (b.os.remove noFlt (names dst)).2 } : FSink))
          | none => (((b.os.remove noFlt (names dst)).2.mkdirAll noFlt (names dst)).1.map .wrapped,
              { b with os := ((b.os.remove noFlt (names dst)).2.mkdirAll noFlt (names dst)).2 })).2.os.fs ∧
          (match (a.os.remove cfg.flt (names dst)).1 with
          | some x => ((some (Err.wrapped x) : Option Err), ({ a with os := (a.os.remove cfg.flt (names dst)).2 } : FSink))
          | none => (((a.os.remove cfg.flt (names dst)).2.mkdirAll cfg.flt (names dst)).1.map .wrapped,
              { a with os := ((a.os.remove cfg.flt (names dst)).2.mkdirAll cfg.flt (names dst)).2 })).2.ws = a.ws := by
        intro hk
        cases hr : (a.os.remove cfg.flt (names dst)).1 with
        | some x => rw [hr] at hk; simp at hk
        | none =>
          obtain ⟨x, y⟩ := OS.remove_sim _ h hr
          rw [hr] at hk
          rw [x]
          obtain ⟨u, v⟩ := mk _ _ y hk
          exact ⟨u, v, rfl⟩
      cases hl : a.os.fs.lstat (names dst) with
      | found q n =>
        rw [hl] at hok
        cases n with
        | dir => exact ⟨rfl, h, rfl⟩
        | file i => exact rm hok
        | link t => exact rm hok
      | absent q => rw [hl] at hok; obtain ⟨u, v⟩ := mk _ _ h hok; exact ⟨u, v, rfl⟩
      | bad x => rw [hl] at hok; obtain ⟨u, v⟩ := mk _ _ h hok; exact ⟨u, v, rfl⟩

theorem symlink_sim {cfg : FCfg} {e : Entry} {t : Str} {a b : FSink} (h : a.os.fs.Same b.os.fs) (hok : (symlink cfg e t a).1 = none) :
    (symlink (calm cfg) e t b).1 = none ∧ (symlink cfg e t a).2.os.fs.Same (symlink (calm cfg) e t b).2.os.fs ∧ (symlink cfg e t a).2.ws = a.ws := by
  have hdp : (calm cfg).destPath e.path = cfg.destPath e.path := rfl
  have flt0 : (calm cfg).flt = noFlt := rfl
  have hcwd : (calm cfg).cwd = cfg.cwd := rfl
  have hdir : (calm cfg).dir = cfg.dir := rfl
  unfold symlink at hok ⊢
  rw [hdp, flt0, hcwd, hdir]
  split
  · exact ⟨rfl, h, rfl⟩
  · rename_i hi
    rw [if_neg hi] at hok
    cases hd : cfg.destPath e.path with
    | error x => rw [hd] at hok; simp at hok
    | ok dst =>
      simp only [hd] at hok ⊢
      cases hb : absPath cfg.cwd cfg.dir with
      | error x => rw [hb] at hok; simp at hok
      | ok absBase =>
        simp only [hb] at hok ⊢
        split
        · rename_i ha; simp [ha] at hok
        · rename_i ha
          rw [if_neg ha] at hok
          cases hc : absPath cfg.cwd (joinPath (dirPath dst) t) with
          | error x => rw [hc] at hok; simp at hok
          | ok absTarget =>
            simp only [hc] at hok ⊢
            split
            · rename_i hw; simp [hw] at hok
            · rename_i hw
              rw [if_neg hw] at hok
              cases hr : (a.os.removeAll cfg.flt (names dst)).1 with
              | some x => rw [hr] at hok; simp at hok
              | none =>
                obtain ⟨x, y⟩ := OS.removeAll_sim _ h hr
                rw [hr] at hok
                rw [x]
                simp only at hok ⊢
                cases hm : ((a.os.removeAll cfg.flt (names dst)).2.mkdirAll cfg.flt (names dst).dropLast).1 with
                | some x => rw [hm] at hok; simp at hok
                | none =>
                  obtain ⟨x', y'⟩ := OS.mkdirAll_sim _ y hm
                  rw [hm] at hok
                  rw [x']
                  simp only at hok ⊢
                  have hok : (OS.symlink1 cfg.flt t (names dst)
                    ((a.os.removeAll cfg.flt (names dst)).2.mkdirAll cfg.flt (names dst).dropLast).2).1 = none := by simpa using hok
                  obtain ⟨x2, y2⟩ := OS.symlink1_sim t _ y' hok
                  rw [x2]
                  exact ⟨rfl, y2, trivial⟩

theorem legacy_sim {cfg : FCfg} {i : Nat} {size : Int} {a b : OS} (h : a.fs.Same b.fs) (hok : (legacyPrealloc cfg i size a).1 = none) :
    (legacyPrealloc (calm cfg) i size b).1 = none ∧ (legacyPrealloc cfg i size a).2.fs.Same (legacyPrealloc (calm cfg) i size b).2.fs := by
  have flt0 : (calm cfg).flt = noFlt := rfl
  unfold legacyPrealloc at hok ⊢
  rw [flt0, ← h.data]
  simp only at hok ⊢
  split
  · rename_i hp
    rw [if_pos hp] at hok
    unfold OS.write at hok ⊢
    cases hf : cfg.flt a.tick with
    | some f => rw [hf] at hok; simp at hok
    | none => rw [← h.data]; exact ⟨rfl, h.setData i _⟩
  · exact ⟨rfl, h⟩

theorem ox_sim {cfg : FCfg} {i : Nat} {size : Int} {a b : OS} (h : a.fs.Same b.fs) (hok : (oxPrealloc cfg i size a).1 = none) :
    (oxPrealloc (calm cfg) i size b).1 = none ∧ (oxPrealloc cfg i size a).2.fs.Same (oxPrealloc (calm cfg) i size b).2.fs := by
  have flt0 : (calm cfg).flt = noFlt := rfl
  have ox0 : (calm cfg).ox = cfg.ox := rfl
  unfold oxPrealloc at hok ⊢
  rw [flt0, ox0]
  cases hf : cfg.flt a.tick with
  | some f => rw [hf] at hok; simp at hok
  | none => rw [← h.data]; exact ⟨rfl, h.setData i _⟩

theorem preallocate_sim {cfg : FCfg} {e : Entry} {a b : FSink} (h : a.os.fs.Same b.os.fs) (hok : (preallocate cfg e a).1 = none) :
    (preallocate (calm cfg) e b).1 = none ∧ (preallocate cfg e a).2.os.fs.Same (preallocate (calm cfg) e b).2.os.fs ∧ (preallocate cfg e a).2.ws = a.ws := by
  have flt0 : (calm cfg).flt = noFlt := rfl
  have leg0 : (calm cfg).legacy = cfg.legacy := rfl
  unfold preallocate at hok ⊢
  rw [leg0]
  split
  · exact ⟨rfl, h, rfl⟩
  · rename_i hi
    rw [if_neg hi] at hok
    simp only at hok ⊢
    cases hc : (createFile cfg e a.os).1 with
    | error x => rw [hc] at hok; simp at hok
    | ok i =>
      obtain ⟨c1, c2⟩ := createFile_sim h hc
      rw [hc] at hok
      rw [c1]
      simp only at hok ⊢
      rw [quietCall_fs, quietCall_fs]
      split
      · rename_i hu
        rw [if_pos hu] at hok
        split
        · rename_i hl
          rw [if_pos hl] at hok
          obtain ⟨u, v⟩ := legacy_sim c2 hok
          exact ⟨u, v, trivial⟩
        · rename_i hl
          rw [if_neg hl] at hok
          obtain ⟨u, v⟩ := ox_sim c2 hok
          exact ⟨u, v, trivial⟩
      · exact ⟨rfl, c2, trivial⟩

/-- The current writer in the view: which file, which position; `none` inside for the writers of ignored names. -/
def curOf : List Wr → Option (Option (Nat × Nat))
  | ws => match ws.getLast? with
    | none => none
    | some .nop => some none
    | some (.real i o _) => some (some (i, o))

theorem curOf_snoc (ws : List Wr) (w : Wr) : curOf (ws ++ [w]) = match w with | .nop => some none | .real i o _ => some (some (i, o)) := by
  simp only [curOf, List.getLast?_append, List.getLast?_singleton, Option.some_or]
  cases w <;> rfl

theorem getWriter_sim {cfg : FCfg} {e : Entry} {a b : FSink} (h : a.os.fs.Same b.os.fs) (hok : (getWriter cfg e a).1 = none) :
    (getWriter (calm cfg) e b).1 = none ∧ (getWriter cfg e a).2.os.fs.Same (getWriter (calm cfg) e b).2.os.fs ∧
    curOf (getWriter cfg e a).2.ws = curOf (getWriter (calm cfg) e b).2.ws := by
  have flt0 : (calm cfg).flt = noFlt := rfl
  unfold getWriter at hok ⊢
  rw [flt0]
  split
  · exact ⟨rfl, h, by simp only [curOf_snoc]⟩
  · rename_i hi
    rw [if_neg hi] at hok
    simp only at hok ⊢
    cases hc : (createFile cfg e a.os).1 with
    | error x => rw [hc] at hok; simp at hok
    | ok i =>
      obtain ⟨c1, c2⟩ := createFile_sim h hc
      rw [hc] at hok
      rw [c1]
      simp only at hok ⊢
      cases ht : ((createFile cfg e a.os).2.truncate cfg.flt i e.woff).1 with
      | some x => rw [ht] at hok; simp at hok
      | none =>
        obtain ⟨t1, t2⟩ := OS.truncate_sim c2 ht
        rw [t1]
        simp only
        refine ⟨trivial, ?_, ?_⟩
        · rw [(close_fs cfg _).1, (close_fs (calm cfg) _).1]
          exact t2
        · rw [curOf_snoc, curOf_snoc]

/-- What is not found, without assuming a well-formed tree. -/
theorem walk_facts {nodes : Path → Option Node} {follow : Bool} (b : Nat) (cur : Path) (l : List Str) :
    (∀ q t, walk nodes follow b cur l = .found q (.link t) → nodes q = some (.link t)) ∧
    (∀ q, walk nodes follow b cur l = .absent q → nodes q = none) :=
  walk_ind (nodes := nodes) (follow := follow)
    (P := fun b cur l r => (∀ q t, r = .found q (.link t) → nodes q = some (.link t)) ∧ (∀ q, r = .absent q → nodes q = none))
    (by intro b cur; exact ⟨by rintro q t ⟨⟩, by rintro q ⟨⟩⟩)
    (by intro b cur c rest r _ ih; exact ih)
    (by intro b cur rest r ih; exact ih)
    (by intro b cur c _ _ _ hn; exact ⟨by rintro q t ⟨⟩, by rintro q ⟨⟩; exact hn⟩)
    (by intro b cur c rest _ _ _ hn _; exact ⟨by rintro q t ⟨⟩, by rintro q ⟨⟩⟩)
    (by intro b cur c rest r _ _ _ hn ih; exact ih)
    (by intro b cur c i _ _ _ hn; exact ⟨by rintro q t ⟨⟩, by rintro q ⟨⟩⟩)
    (by intro b cur c i rest _ _ _ hn _; exact ⟨by rintro q t ⟨⟩, by rintro q ⟨⟩⟩)
    (by intro b cur c t _ _ _ hn _; exact ⟨by rintro q t ⟨⟩; exact hn, by rintro q ⟨⟩⟩)
    (by intro cur c t rest _ _ _ hn _; exact ⟨by rintro q t ⟨⟩, by rintro q ⟨⟩⟩)
    (by intro b cur c t rest r _ _ _ hn _ ih; exact ih)
    b cur l

/-- After a successful `openCreate` of a path that is not a link, it is the file opened. -/
theorem openCreate_here {flt : Faults} {um m : Nat} {p : Path} {s : OS} {i : Nat} (hl : ∀ q t, s.fs.lstat p ≠ .found q (.link t))
    (h : (s.openCreate flt um p m).1 = .ok i) : ∃ q, (s.openCreate flt um p m).2.fs.lstat p = .found q (.file i) := by
  have hs : s.fs.stat p = s.fs.lstat p := FS.stat_eq hl
  rcases OS.openCreate_cases flt um p m s with ⟨x, a, b⟩ | ⟨q, j, a, b, d⟩ | ⟨q, a, b, d⟩
  · rw [a] at h; cases h
  · rw [b] at h; cases h
    exact ⟨q, by rw [d, ← hs]; exact a⟩
  · rw [b] at h; cases h
    refine ⟨q, ?_⟩
    rw [d]
    rw [hs] at a
    have hn := (walk_facts 40 [] p).2 q a
    refine walk_add (nodes := s.fs.nodes) (nodes' := (s.fs.create q _).nodes) ?_ (by simp [FS.create]) (by simp) 40 [] _ a
    intro r n hr
    simp only [FS.create]
    rw [if_neg (by rintro rfl; rw [hn] at hr; cases hr)]
    exact hr

theorem createFile_here {cfg : FCfg} {e : Entry} {s s' : OS} {i : Nat} {dst : Str} (hd : cfg.destPath e.path = .ok dst)
    (h : createFile cfg e s = (.ok i, s')) : ∃ q, s'.fs.lstat (names dst) = .found q (.file i) := by
  unfold createFile at h
  simp only [hd] at h
  generalize s.mkdirAll cfg.flt (names dst).dropLast = m at h
  obtain ⟨m1, m2⟩ := m
  simp only at h
  cases m1 with
  | some x => cases h
  | none =>
    simp only at h
    have fin : ∀ (R : OS) (chm : Bool), (∀ q t, R.fs.lstat (names dst) ≠ .found q (.link t)) →
        openMod cfg cfg.flt (names dst) (fileMode e) chm R = (.ok i, s') → ∃ q, s'.fs.lstat (names dst) = .found q (.file i) := by
      intro R chm hR hO
      unfold openMod at hO
      simp only at hO
      cases ho : (R.openCreate cfg.flt cfg.umask (names dst) (fileMode e)).1 with
      | error x => rw [ho] at hO; cases hO
      | ok k =>
        obtain ⟨q, hq⟩ := openCreate_here hR ho
        rw [ho] at hO
        generalize (R.openCreate cfg.flt cfg.umask (names dst) (fileMode e)).2 = O at *
        cases chm with
        | false => cases hO; exact ⟨q, hq⟩
        | true =>
          simp only at hO
          rcases chmod_cases cfg.flt k (fileMode e) O with ⟨x, a, b⟩ | ⟨a, b⟩
          · rw [a] at hO; cases hO
          · rw [a] at hO
            cases hO
            rw [b]
            exact ⟨q, hq⟩
    cases hst : m2.fs.lstat (names dst) with
    | found q n =>
      rw [hst] at h
      cases n with
      | link t =>
        simp only at h
        rcases OS.removeAll_cases cfg.flt (names dst) m2 with ⟨a, b⟩ | ⟨q', n', rm, a, b, _⟩ | ⟨q', n', a, b, c, d⟩
        · cases hr : (m2.removeAll cfg.flt (names dst)).1 with
          | some x => rw [hr] at h; cases h
          | none => exact absurd hst (b hr q _)
        · cases hr : (m2.removeAll cfg.flt (names dst)).1 with
          | some x => rw [hr] at h; cases h
          | none => exact absurd hr b
        · rw [c] at h
          simp only at h
          refine fin _ true ?_ h
          intro x t' hx
          rw [d] at hx
          have hm : m2.fs.lstat (names dst) = .found x (.link t') := by
            refine walk_mono (nodes := (m2.fs.cut q').nodes) ?_ 40 [] _ hx
            intro p n hp
            simp only [FS.cut] at hp
            split at hp
            · cases hp
            · exact hp
          have hn := (walk_facts (nodes := (m2.fs.cut q').nodes) 40 [] (names dst)).1 x t' hx
          rw [hm] at a
          simp only [WR.found.injEq] at a
          rw [a.1] at hn
          simp [FS.cut] at hn
      | dir => exact fin m2 true (by intro x t hx; rw [hst] at hx; cases hx) h
      | file k => exact fin m2 true (by intro x t hx; rw [hst] at hx; cases hx) h
    | absent q => rw [hst] at h; exact fin m2 false (by intro x t hx; rw [hst] at hx; cases hx) h
    | bad x => rw [hst] at h; exact fin m2 false (by intro x' t hx; rw [hst] at hx; cases hx) h

/-- Opening a file that is there, when nothing fails. -/
theorem createFile_again {cfg : FCfg} {B : Path} (hB : cfg.Base B) {e : Entry} {s : OS} {q : Path} {i : Nat} {dst : Str}
    (hd : cfg.destPath e.path = .ok dst) (h : s.fs.lstat (names dst) = .found q (.file i)) :
    (createFile (calm cfg) e s).1 = .ok i ∧ (createFile (calm cfg) e s).2.fs.Same s.fs := by
  obtain ⟨N, h1, h2, h3, h4⟩ := destPath_ok hB hd
  have hdp : (calm cfg).destPath e.path = .ok dst := hd
  have hm : s.mkdirAll noFlt (names dst).dropLast = (none, s) := by
    simp only [names, h3] at h ⊢
    rcases List.eq_nil_or_concat (B ++ N) with h0 | ⟨D, c, hc⟩
    · rw [h0]; rfl
    · rw [List.concat_eq_append] at hc
      have ho : Ordinary c := by
        have : c ∈ B ++ N := by rw [hc]; simp
        rcases List.mem_append.mp this with hx | hx
        · exact base_ord hB c hx
        · exact h1 c hx
      rw [hc] at h ⊢
      rw [List.dropLast_concat]
      exact (mkdirAll_parent noFlt ho h).choose_spec.2.2
  have hs : s.fs.stat (names dst) = .found q (.file i) := by rw [FS.stat_eq (by intro q' t'; rw [h]; simp)]; exact h
  have flt0 : (calm cfg).flt = noFlt := rfl
  unfold createFile
  simp only [hdp, flt0, hm, h]
  unfold OS.openCreate
  simp only [hs]
  exact ⟨rfl, ⟨rfl, rfl, rfl⟩⟩

theorem setLast {ws : List Wr} {w w' : Wr} (h : ws[ws.length - 1]? = some w) : ∃ l, ws = l ++ [w] ∧ ws.set (ws.length - 1) w' = l ++ [w'] := by
  rcases List.eq_nil_or_concat ws with rfl | ⟨l, x, rfl⟩
  · simp at h
  · rw [List.concat_eq_append] at *
    simp at h
    subst h
    exact ⟨l, rfl, by simp⟩

/-- What a write does in the view. -/
def writeView (bs : List Byte) (v : FS × Option (Option (Nat × Nat))) : FS × Option (Option (Nat × Nat)) :=
  match v.2 with
  | some (some (i, o)) => (v.1.setData i (pwrite (v.1.data i) o bs), some (some (i, o + bs.length)))
  | _ => v

/-- The filesystem without permission bits. -/
def _root_.Savior.FS.bare (fs : FS) : FS := { fs with mode := fun _ => 0 }

theorem bare_same (fs : FS) : fs.bare.Same fs := ⟨rfl, rfl, rfl⟩

theorem bare_eq {a b : FS} (h : a.Same b) : a.bare = b.bare := by
  obtain ⟨h1, h2, h3⟩ := h
  cases a; cases b
  simp only at h1 h2 h3
  subst h1 h2 h3
  rfl

/-- A sink with this filesystem and no writers. -/
def onFS (fs : FS) : FSink := ⟨⟨fs, 0⟩, [], none⟩

/-- What opening does in the view. (The second component when opening fails does not matter.) -/
def openView (cfg : FCfg) (e : Entry) (v : FS × Option (Option (Nat × Nat))) : FS × Option (Option (Nat × Nat)) :=
  (((onFS v.1).getWriter (calm cfg) e).2.os.fs.bare,
    if shouldIgnore e.path = true then some none
    else some (some (((curOf ((onFS v.1).getWriter (calm cfg) e).2.ws).getD none).getD (0, 0))))

theorem getWriter_calm {cfg : FCfg} {e : Entry} (hi : shouldIgnore e.path = false) {fs : FS} (h : ((onFS fs).getWriter (calm cfg) e).1 = none) :
    ∃ i os1, createFile (calm cfg) e ⟨fs, 0⟩ = (.ok i, os1) ∧ 0 ≤ e.woff ∧
      ((onFS fs).getWriter (calm cfg) e).2.os.fs = os1.fs.setData i (resize (os1.fs.data i) e.woff.toNat) ∧
      curOf ((onFS fs).getWriter (calm cfg) e).2.ws = some (some (i, e.woff.toNat)) := by
  unfold getWriter at h ⊢
  simp only [hi, onFS, Bool.false_eq_true, if_false] at h ⊢
  cases hc : createFile (calm cfg) e ⟨fs, 0⟩ with
  | mk c1 c2 =>
    rw [hc] at h
    cases c1 with
    | error x => cases h
    | ok i =>
      simp only at h ⊢
      rcases truncate_cases (calm cfg).flt i e.woff c2 with ⟨x, a, b⟩ | ⟨hw, a, b⟩
      · rw [a] at h; cases h
      · rw [a]
        refine ⟨i, c2, rfl, hw, ?_, ?_⟩
        · simp only; rw [(close_fs (calm cfg) _).1]; exact b
        · simp only; rw [curOf_snoc]

end FSink

open FSink in
/-- FolderSink as an instance of the sink contract: whatever system calls fail, the filesystem (permission bits aside) and
the position of the current writer evolve deterministically under successful calls. -/
def folderLaw (cfg : FCfg) {B : Path} (hB : cfg.Base B) : SinkLaw (folderSink cfg) where
  W := FS × Option (Option (Nat × Nat))
  view s := (s.os.fs.bare, curOf s.ws)
  mkdir e v := (((onFS v.1).mkdir (calm cfg) e).2.os.fs.bare, v.2)
  symlink e t v := (((onFS v.1).symlink (calm cfg) e t).2.os.fs.bare, v.2)
  prealloc e v := (((onFS v.1).preallocate (calm cfg) e).2.os.fs.bare, v.2)
  openOK e v := ((onFS v.1).getWriter (calm cfg) e).1 = none
  open_ := openView cfg
  write := writeView
  counts e := !shouldIgnore e.path
  counting v := match v.2 with | some (some _) => true | _ => false
  mkdir_ok e s h := by
    obtain ⟨a, b, c⟩ := mkdir_sim (a := s) (b := onFS s.os.fs.bare) (bare_same _).symm h
    exact Prod.ext (bare_eq b) (by show curOf _ = _; rw [show ((folderSink cfg).mkdir e s).2.ws = s.ws from c])
  symlink_ok e t s h := by
    obtain ⟨a, b, c⟩ := symlink_sim (a := s) (b := onFS s.os.fs.bare) (bare_same _).symm h
    exact Prod.ext (bare_eq b) (by show curOf _ = _; rw [show ((folderSink cfg).symlink e t s).2.ws = s.ws from c])
  prealloc_ok e s h := by
    obtain ⟨a, b, c⟩ := preallocate_sim (a := s) (b := onFS s.os.fs.bare) (bare_same _).symm h
    exact Prod.ext (bare_eq b) (by show curOf _ = _; rw [show ((folderSink cfg).preallocate e s).2.ws = s.ws from c])
  getWriter_ok e s h := by
    obtain ⟨a, b, c⟩ := getWriter_sim (a := s) (b := onFS s.os.fs.bare) (bare_same _).symm h
    refine ⟨a, Prod.ext (bare_eq b) ?_⟩
    show curOf _ = (openView cfg e _).2
    unfold openView
    by_cases hi : shouldIgnore e.path = true
    · rw [show curOf ((folderSink cfg).getWriter e s).2.ws = _ from c]
      simp only [hi, if_true, getWriter, onFS, curOf_snoc]
    · obtain ⟨i, os1, h1, h2, h3, h4⟩ := getWriter_calm (by simpa using hi) a
      simp only [hi, if_false]
      rw [show curOf ((folderSink cfg).getWriter e s).2.ws = _ from c, h4]
      rfl
  write_ok bs s h := by
    have h : (s.writeAt cfg (s.ws.length - 1) bs).1.2.2 = none := h
    show (s.writeAt cfg (s.ws.length - 1) bs).1.1 = _ ∧ (s.writeAt cfg (s.ws.length - 1) bs).1.2.1 = _ ∧
      ((s.writeAt cfg (s.ws.length - 1) bs).2.os.fs.bare, curOf (s.writeAt cfg (s.ws.length - 1) bs).2.ws) = _
    cases hw : s.ws[s.ws.length - 1]? with
    | none => unfold writeAt at h; rw [hw] at h; simp at h
    | some w =>
      cases w with
      | nop =>
        obtain ⟨l, h1, _⟩ := setLast (w' := .nop) hw
        have hc : curOf s.ws = some none := by rw [h1, curOf_snoc]
        unfold writeAt
        rw [hw]
        simp [hc, writeView]
      | real i o op =>
        obtain ⟨l, h1, h2⟩ := setLast (w' := .real i (o + bs.length) true) hw
        have hc : curOf s.ws = some (some (i, o)) := by rw [h1, curOf_snoc]
        cases op with
        | false => unfold writeAt at h; rw [hw] at h; simp at h
        | true =>
          rcases write_cases cfg _ bs s i o hw with ⟨x, n, a, _⟩ | ⟨a, b, c, _⟩
          · rw [a] at h; cases h
          · rw [a, b, c, h2, curOf_snoc]
            simp only [hc, if_true, writeView]
            exact ⟨trivial, trivial, rfl⟩
  detach v := (v.1, none)
  open_detach e v := by unfold openView; rfl
  reborn_view s := rfl
  sync_view s := by
    show ((s.syncAt cfg _).2.os.fs.bare, curOf (s.syncAt cfg _).2.ws) = (s.os.fs.bare, curOf s.ws)
    unfold syncAt
    split
    · simp only; rw [quietCall_fs]
    · rfl
    · rfl
    · rfl
  close_view s := by
    show ((s.closeAt cfg _).2.os.fs.bare, curOf (s.closeAt cfg _).2.ws) = (s.os.fs.bare, curOf s.ws)
    rw [(closeAt_fs cfg _ s).1]
    unfold closeAt
    split
    · rename_i i o hw
      obtain ⟨l, h1, h2⟩ := setLast (w' := .real i o false) hw
      simp only
      rw [h2, curOf_snoc]
      rw [h1, curOf_snoc]
    · rfl
  open_counting e w := by
    unfold openView
    cases hi : shouldIgnore e.path <;> simp
  write_counting bs w := by
    obtain ⟨fs, c⟩ := w
    rcases c with _ | _ | ⟨i, o⟩ <;> rfl
  counts_woff e o := rfl
  write_nil w := by
    obtain ⟨fs, c⟩ := w
    unfold writeView
    split
    · rename_i i o hc
      simp only at hc
      subst hc
      simp [pwrite, FS.setData_self]
    · rfl
  write_append xs ys w := by
    obtain ⟨fs, c⟩ := w
    rcases c with _ | _ | ⟨i, o⟩
    · rfl
    · rfl
    · simp only [writeView]
      rw [FS.setData_setData, FS.setData_data, pwrite_append, List.length_append, Nat.add_assoc]
  reopen e w xs ys hc h0 hok := by
    have hi : shouldIgnore e.path = false := by simpa using hc
    obtain ⟨i, os1, h1, h2, h3, h4⟩ := getWriter_calm hi hok
    obtain ⟨fs, c⟩ := w
    simp only at h1
    have hov : openView cfg e (fs, c) = ((os1.fs.setData i []).bare, some (some (i, 0))) := by
      unfold openView
      rw [h3, h4]
      simp [hi, h0, resize]
    rw [hov]
    simp only [writeView, Nat.zero_add]
    have hdw : ∀ b : List Byte, pwrite ((os1.fs.setData i []).bare.data i) 0 b = b := by
      intro b
      have : (os1.fs.setData i []).bare.data i = [] := by simp [FS.bare, FS.setData]
      rw [this]
      have := pwrite_end [] b
      simpa using this
    rw [hdw, hdw]
    obtain ⟨dst, hd⟩ : ∃ dst, cfg.destPath e.path = .ok dst := by
      have hdp : (calm cfg).destPath e.path = cfg.destPath e.path := rfl
      cases hd : cfg.destPath e.path with
      | ok dst => exact ⟨dst, rfl⟩
      | error x => unfold createFile at h1; rw [hdp, hd] at h1; cases h1
    obtain ⟨q, hq⟩ := createFile_here (cfg := calm cfg) hd h1
    obtain ⟨g1, g2⟩ := createFile_again hB (e := { e with woff := (xs.length : Int) })
      (s := ⟨(os1.fs.setData i []).bare.setData i (xs ++ ys), 0⟩) (dst := dst) hd hq
    have hok2 : ((onFS ((os1.fs.setData i []).bare.setData i (xs ++ ys))).getWriter (calm cfg) { e with woff := (xs.length : Int) }).1 = none := by
      unfold getWriter
      simp only [hi, onFS, g1]
      unfold OS.truncate
      have : ¬ ((xs.length : Int) < 0) := by omega
      simp [calm, this]
    obtain ⟨i', os2, k1, k2, k3, k4⟩ := getWriter_calm (e := { e with woff := (xs.length : Int) }) hi hok2
    rw [k1] at g1 g2
    simp only [Except.ok.injEq] at g1 g2
    subst g1
    unfold openView
    rw [k3, k4]
    simp only [hi, Bool.false_eq_true, if_false]
    refine Prod.ext ?_ (by simp)
    show FS.bare _ = _
    have hb : ∀ (a : FS) (j : Nat) (c : List Byte), (a.bare.setData j c) = (a.setData j c).bare := fun _ _ _ => rfl
    rw [hb]
    have hd2 : os2.fs.data i' = xs ++ ys := by rw [g2.data]; simp [FS.setData]
    refine bare_eq ?_
    rw [hd2]
    have hr : resize (xs ++ ys) ((xs.length : Int)).toNat = xs := by simp [resize]
    rw [hr]
    refine (g2.setData i' xs).trans ?_
    refine ⟨rfl, ?_, rfl⟩
    funext j
    simp only [FS.setData, FS.bare]
    split <;> rfl
  ignored e w bs hc h0 := by
    have hi : shouldIgnore e.path = true := by simpa using hc
    have ho : ∀ v : FS × Option (Option (Nat × Nat)), openView cfg e v = (v.1.bare, some none) := by
      intro v
      unfold openView getWriter
      simp only [hi, if_true, onFS]
    rw [ho, ho]
    exact ⟨rfl, rfl⟩

end Savior
