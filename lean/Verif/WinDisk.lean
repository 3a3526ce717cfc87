import Verif.WinSteps
import Verif.DiskSink
/-!
# FolderSink on Windows as a path sink
-/

namespace Savior
namespace FSink

section
variable {S : Path → Kind → Prop}

theorem createFileW_disk (hS : Planned S) {w : WCfg} {e : Entry} {s : OS} (h : DiskOK S s.fs) {dst : Str} (hd : w.destPath e.path = .ok dst) {Q : Path}
    (hq : w.names dst = Q) (hQ : S Q .file) :
    DiskOK S (createFileW w e s).2.fs ∧ Keeps S Q s.fs (createFileW w e s).2.fs ∧
    (∀ c, s.fs.holds Q = some (.file c) → (createFileW w e s).2.fs.holds Q = some (.file c)) ∧
    (∀ i, (createFileW w e s).1 = .ok i → (createFileW w e s).2.fs.nodes Q = some (.file i)) := by
  unfold createFileW
  simp only [hd, hq]
  obtain ⟨m1, m2, g⟩ := h.mkdirAll w.flt Q.dropLast Q
  have m3 : ∀ c, s.fs.holds Q = some (.file c) → (s.mkdirAll w.flt Q.dropLast).2.fs.holds Q = some (.file c) := by
    intro c hc
    obtain ⟨i, hi, hdt⟩ := holds_file hc
    unfold FS.holds
    rw [g.mono _ _ hi, ← hdt, g.data]
  generalize s.mkdirAll w.flt Q.dropLast = m at *
  obtain ⟨me, M⟩ := m
  simp only at m1 m2 g m3 ⊢
  cases me with
  | some x => exact ⟨m1, m2, m3, fun i hi => (by cases hi)⟩
  | none =>
    simp only
    have dl : DiskOK S (dropLink w.flt Q M).2.fs ∧ Keeps S Q s.fs (dropLink w.flt Q M).2.fs ∧
        ((dropLink w.flt Q M).1 = none → ∀ t, (dropLink w.flt Q M).2.fs.nodes Q ≠ some (.link t)) ∧
        (∀ c, s.fs.holds Q = some (.file c) → (dropLink w.flt Q M).2.fs.holds Q = some (.file c)) := by
      unfold dropLink
      split
      · rename_i q t hlst
        obtain ⟨rfl, hn⟩ := m1.found hS hQ hlst
        obtain ⟨r1, r2, r3⟩ := m1.removeAll hS w.flt hQ (by simp)
        refine ⟨r1, m2.trans r2, fun hok t ht => ?_, fun c hc => ?_⟩
        · rw [r3 hok] at ht; cases ht
        · obtain ⟨i, hi, _⟩ := holds_file (m3 c hc)
          rw [hn] at hi; cases hi
      · rename_i hno
        refine ⟨m1, m2, fun _ t ht => ?_, m3⟩
        exact hno Q t (lstat_node m1.tree (hS.ord Q .file hQ) ht)
    generalize dropLink w.flt Q M = r at *
    obtain ⟨re, R⟩ := r
    simp only at dl ⊢
    obtain ⟨r1, r2, r3, r4⟩ := dl
    cases re with
    | some x => exact ⟨r1, r2, r4, fun i hi => (by cases hi)⟩
    | none =>
      simp only
      obtain ⟨o1, o2, o3, o4⟩ := open_disk hS r1 hQ (r3 rfl) w.flt w.umask (fileMode e)
      generalize R.openCreate w.flt w.umask Q (fileMode e) = o at *
      obtain ⟨oe, O⟩ := o
      simp only at o1 o2 o3 o4 ⊢
      cases oe with
      | error x => exact ⟨o1, r2.trans o2, fun c hc => o3 c (r4 c hc), fun i hi => (by cases hi)⟩
      | ok i => exact ⟨o1, r2.trans o2, fun c hc => o3 c (r4 c hc), fun j hj => (by cases hj; exact o4 i rfl)⟩

/-- `Preallocate`. -/
theorem preallocateW_disk (hS : Planned S) {w : WCfg} {e : Entry} {s : FSink} (h : DiskOK S s.os.fs) {dst : Str} (hd : w.destPath e.path = .ok dst) {Q : Path}
    (hq : w.names dst = Q) (hQ : S Q .file) : DiskOK S (s.preallocateW w e).2.os.fs := by
  unfold preallocateW
  split
  · exact h
  obtain ⟨c1, c2, c3, c4⟩ := createFileW_disk hS h hd hq hQ
  generalize createFileW w e s.os = c at *
  obtain ⟨ce, C⟩ := c
  simp only at c1 c4 ⊢
  cases ce with
  | error x => exact c1
  | ok i =>
    simp only
    rw [quietCall_fs]
    have hn := c4 i rfl
    split
    · split
      · obtain ⟨k, hf, _⟩ := legacy_cases w.toFCfg i e.usize C
        rw [hf]
        exact (c1.setData hQ hn _).1
      · rcases ox_cases w.toFCfg i e.usize C with ⟨hf, _⟩ | ⟨hf, _⟩
        · rw [hf]; exact c1
        · rw [hf]; exact (c1.setData hQ hn _).1
    · exact c1

/-- `GetWriter`. -/
theorem getWriterW_disk (hS : Planned S) {w : WCfg} {e : Entry} {s : FSink} (hi : shouldIgnore e.path = false) (h : DiskOK S s.os.fs) {dst : Str}
    (hd : w.destPath e.path = .ok dst) {Q : Path} (hq : w.names dst = Q) (hQ : S Q .file) :
    DiskOK S (s.getWriterW w e).2.os.fs ∧ Keeps S Q s.os.fs (s.getWriterW w e).2.os.fs ∧
    ((s.getWriterW w e).1 ≠ none → ∀ c, s.os.fs.holds Q = some (.file c) → (s.getWriterW w e).2.os.fs.holds Q = some (.file c)) ∧
    ((s.getWriterW w e).1 = none → 0 ≤ e.woff ∧ ∃ i l c, (s.getWriterW w e).2.os.fs.nodes Q = some (.file i) ∧
      (s.getWriterW w e).2.os.fs.data i = resize c e.woff.toNat ∧ (∀ c0, s.os.fs.holds Q = some (.file c0) → c = c0) ∧
      (s.getWriterW w e).2.ws = l ++ [.real i e.woff.toNat true]) := by
  unfold getWriterW
  simp only [hi, Bool.false_eq_true, if_false]
  obtain ⟨c1, c2, c3, c4⟩ := createFileW_disk hS h hd hq hQ
  generalize createFileW w e s.os = c at *
  obtain ⟨ce, C⟩ := c
  simp only at c1 c2 c3 c4 ⊢
  cases ce with
  | error x => exact ⟨c1, c2, fun _ => c3, fun h => (by cases h)⟩
  | ok i =>
    simp only
    have hn := c4 i rfl
    rcases truncate_cases w.flt i e.woff C with ⟨x, t1, t2⟩ | ⟨t0, t1, t2⟩
    · generalize C.truncate w.flt i e.woff = t at *
      obtain ⟨te, T⟩ := t
      simp only at t1 t2
      subst t1
      simp only [t2]
      exact ⟨c1, c2, fun _ => c3, fun h => (by cases h)⟩
    · generalize C.truncate w.flt i e.woff = t at *
      obtain ⟨te, T⟩ := t
      simp only at t1 t2
      subst t1
      simp only
      have hcl := close_fs w.toFCfg { s with os := T }
      generalize FSink.close w.toFCfg { s with os := T } = cl at *
      obtain ⟨cle, CL⟩ := cl
      simp only at hcl ⊢
      rw [hcl.1, t2]
      obtain ⟨d1, d2, d3⟩ := c1.setData hQ hn (resize (C.fs.data i) e.woff.toNat)
      refine ⟨d1, c2.trans d2, fun h => absurd rfl h, fun _ => ⟨t0, i, CL.ws, C.fs.data i, hn, by simp [FS.setData], fun c0 h0 => ?_, rfl⟩⟩
      obtain ⟨j, hj, hdj⟩ := holds_file (c3 c0 h0)
      rw [hn] at hj
      cases hj
      exact hdj

/-- `Mkdir`. -/
theorem mkdirW_disk (hS : Planned S) {w : WCfg} {e : Entry} {s : FSink} (hi : shouldIgnore e.path = false) (h : DiskOK S s.os.fs) {dst : Str}
    (hd : w.destPath e.path = .ok dst) {Q : Path} (hq : w.names dst = Q) (hQ : S Q .dir) :
    DiskOK S (s.mkdirW w e).2.os.fs ∧ Keeps S Q s.os.fs (s.mkdirW w e).2.os.fs ∧
    ((s.mkdirW w e).1 = none → (s.mkdirW w e).2.os.fs.holds Q = some .dir) := by
  unfold mkdirW
  simp only [hi, Bool.false_eq_true, if_false, hd, hq]
  have hdir : ∀ fs : FS, fs.nodes Q = some .dir → fs.holds Q = some .dir := by intro fs hn; unfold FS.holds; rw [hn]
  have last : ∀ o : OS, DiskOK S o.fs → Keeps S Q s.os.fs o.fs → (∀ t, o.fs.nodes Q ≠ some (.link t)) →
      DiskOK S (o.mkdirAll w.flt Q).2.fs ∧ Keeps S Q s.os.fs (o.mkdirAll w.flt Q).2.fs ∧
      ((o.mkdirAll w.flt Q).1.map Err.wrapped = none → (o.mkdirAll w.flt Q).2.fs.holds Q = some .dir) := by
    intro o ho hk hl
    obtain ⟨a, b, _⟩ := ho.mkdirAll w.flt Q Q
    refine ⟨a, hk.trans b, fun hok => hdir _ (ho.mkdirAll_here hS w.flt hQ hl ?_)⟩
    simpa using hok
  cases hlst : s.os.fs.lstat Q with
  | absent q =>
    exact last s.os h (Keeps.refl S Q _) (by
      intro t ht
      rw [lstat_node h.tree (hS.ord Q .dir hQ) ht] at hlst; cases hlst)
  | bad x =>
    exact last s.os h (Keeps.refl S Q _) (by
      intro t ht
      rw [lstat_node h.tree (hS.ord Q .dir hQ) ht] at hlst; cases hlst)
  | found q n =>
    obtain ⟨rfl, hn⟩ := h.found hS hQ hlst
    have other : ∀ X : Option Err × FSink, X = (match (s.os.remove w.flt q).1 with
          | some x => (some (Err.wrapped x), ({ s with os := (s.os.remove w.flt q).2 } : FSink))
          | none => (((s.os.remove w.flt q).2.mkdirAll w.flt q).1.map Err.wrapped, { s with os := ((s.os.remove w.flt q).2.mkdirAll w.flt q).2 })) →
        DiskOK S X.2.os.fs ∧ Keeps S q s.os.fs X.2.os.fs ∧ (X.1 = none → X.2.os.fs.holds q = some .dir) := by
      intro X hX
      obtain ⟨r1, r2, r3⟩ := h.remove hS w.flt hQ
      generalize s.os.remove w.flt q = r at *
      obtain ⟨re, R⟩ := r
      simp only at r1 r2 r3 hX
      cases re with
      | some x => subst hX; exact ⟨r1, r2, fun h => (by cases h)⟩
      | none => subst hX; exact last R r1 r2 (by intro t ht; rw [r3 rfl] at ht; cases ht)
    cases n with
    | dir => exact ⟨h, Keeps.refl S q _, fun _ => hdir _ hn⟩
    | file i => exact other _ rfl
    | link t => exact other _ rfl

/-- `Symlink`: a regular file with the target's text. -/
theorem symlinkW_disk (hS : Planned S) {w : WCfg} {e : Entry} {t : Str} {s : FSink} (hi : shouldIgnore e.path = false) (h : DiskOK S s.os.fs) {dst : Str}
    (hd : w.destPath e.path = .ok dst) {Q : Path} (hq : w.names dst = Q) (hQ : S Q .file) :
    DiskOK S (s.symlinkW w e t).2.os.fs ∧ Keeps S Q s.os.fs (s.symlinkW w e t).2.os.fs ∧
    (e.woff = 0 → (s.symlinkW w e t).1 = none → (s.symlinkW w e t).2.os.fs.holds Q = some (.file t)) := by
  unfold symlinkW
  simp only [hi, Bool.false_eq_true, if_false]
  obtain ⟨g1, g2, g3, g4⟩ := getWriterW_disk hS hi h hd hq hQ
  generalize s.getWriterW w e = g at *
  obtain ⟨ge, G⟩ := g
  simp only at g1 g2 g3 g4 ⊢
  cases ge with
  | some x => exact ⟨g1, g2, fun _ h => (by cases h)⟩
  | none =>
    simp only
    obtain ⟨w0, i, l, c, n1, n2, _, n4⟩ := g4 rfl
    rw [(closeAt_fs w.toFCfg _ _).1]
    have hlast : G.ws[G.ws.length - 1]? = some (.real i e.woff.toNat true) := by rw [n4]; simp
    rcases write_cases w.toFCfg (G.ws.length - 1) t G i _ hlast with ⟨x, n, a1, a2, a3, a4, a5, a6, _⟩ | ⟨a1, a2, a3, _⟩
    · rw [a5, a1]
      obtain ⟨d1, d2, d3⟩ := g1.setData hQ n1 (pwrite (G.os.fs.data i) e.woff.toNat (t.take n))
      exact ⟨d1, g2.trans d2, fun _ h => (by cases h)⟩
    · rw [a2]
      obtain ⟨d1, d2, d3⟩ := g1.setData hQ n1 (pwrite (G.os.fs.data i) e.woff.toNat t)
      refine ⟨d1, g2.trans d2, fun h0 _ => ?_⟩
      rw [d3, n2, h0]
      have := pwrite_end [] t
      simpa [resize] using this

end

/-! ## The instance -/

/-- On Windows links are files. -/
def winKind : Kind → Kind
  | .symlink => .file
  | k => k

/-- The places of a plan. -/
def PlanPlaceW (w : WCfg) (plan : List (Str × Kind)) (L : Path) (k : Kind) : Prop :=
  ∃ p kp, (p, kp) ∈ plan ∧ shouldIgnore p = false ∧ w.placeOf p = some L ∧ k = winKind kp

theorem placeOf_some {w : WCfg} {p : Str} {L : Path} (h : w.placeOf p = some L) : ∃ dst, w.destPath p = .ok dst ∧ w.names dst = L := by
  unfold WCfg.placeOf at h
  split at h
  · rename_i dst hd; exact ⟨dst, hd, by simpa using h⟩
  · cases h

theorem placeOf_ok {w : WCfg} {p dst : Str} (h : w.destPath p = .ok dst) : w.placeOf p = some (w.names dst) := by unfold WCfg.placeOf; rw [h]

theorem plannedW {w : WCfg} {V : Str} {B : Path} (hB : w.Base V B) (hq : w.Qualifies) (hf : w.FoldOK) {plan : List (Str × Kind)} (hi : w.Independent plan) :
    Planned (PlanPlaceW w plan) := by
  refine ⟨?_, ?_⟩
  · rintro L k ⟨p, kp, _, _, h, _⟩
    obtain ⟨dst, hd, rfl⟩ := placeOf_some h
    obtain ⟨N, ho, e⟩ := destW_place hB hq hf hd
    rw [e]; exact ho
  · rintro L k L' k' ⟨p, kp, h1, h2, h3, rfl⟩ ⟨p', kp', h1', h2', h3', _⟩ hne hpre
    have := ((hi _ h1 _ h1' h2 h2' _ _ h3 h3').1 (by rintro rfl; rw [h3] at h3'; cases h3'; exact hne rfl)).2 hpre
    simp only at this
    rw [this]; rfl

theorem diskOKW_of_fit {w : WCfg} {plan : List (Str × Kind)} {fs : FS} (h : w.DiskFit plan fs) : DiskOK (PlanPlaceW w plan) fs := by
  refine ⟨h.tree, ?_, ?_, ?_⟩
  · rintro L k r t ⟨p, kp, h1, h2, h3, _⟩ hr hne
    exact h.nolink _ h1 h2 L r t h3 hr hne
  · rintro L k L' k' i ⟨p, kp, h1, h2, h3, _⟩ ⟨p', kp', h1', h2', h3', _⟩ a b
    exact h.nohard _ h1 _ h1' h2 h2' L L' i h3 h3' a b
  · rintro L k i ⟨p, kp, h1, h2, h3, _⟩ a
    exact h.inodes _ h1 h2 L i h3 a

/-- What is at a place, seen as what was asked for: at the place of a link, a file is that link. -/
def asLink (isLink : Bool) : PNode → Option PNode
  | .dir => some .dir
  | .file c => some (if isLink then .link c else .file c)
  | .link t => if isLink then none else some (.link t)

/-- What an entry's name holds. -/
def nodeW (w : WCfg) (plan : List (Str × Kind)) (s : FSink) (p : Str) : Option PNode :=
  match w.placeOf p with
  | none => none
  | some L => if shouldIgnore p then none else (s.os.fs.holds L).bind (asLink (decide ((p, Kind.symlink) ∈ plan)))

theorem nodeW_some {w : WCfg} {plan : List (Str × Kind)} {s : FSink} {p : Str} {n : PNode} (h : nodeW w plan s p = some n) :
    ∃ L m, w.placeOf p = some L ∧ shouldIgnore p = false ∧ s.os.fs.holds L = some m ∧ asLink (decide ((p, Kind.symlink) ∈ plan)) m = some n := by
  unfold nodeW at h
  split at h
  · cases h
  · rename_i L hL
    split at h
    · cases h
    · rename_i hi
      cases hm : s.os.fs.holds L with
      | none => rw [hm] at h; cases h
      | some m => rw [hm] at h; exact ⟨L, m, hL, by simpa using hi, hm, h⟩

theorem nodeW_ok {w : WCfg} {plan : List (Str × Kind)} {s : FSink} {p : Str} {L : Path} (hL : w.placeOf p = some L) (hi : shouldIgnore p = false) :
    nodeW w plan s p = (s.os.fs.holds L).bind (asLink (decide ((p, Kind.symlink) ∈ plan))) := by
  unfold nodeW; rw [hL]; simp [hi]

theorem nodeW_keeps {w : WCfg} {plan : List (Str × Kind)} (hi : w.Independent plan) {s s' : FSink} {q : Str} {kq : Kind} {Q : Path}
    (hq : (q, kq) ∈ plan) (hqi : shouldIgnore q = false) (hqd : w.placeOf q = some Q)
    (hk : Keeps (PlanPlaceW w plan) Q s.os.fs s'.os.fs) {p : Str} {k : Kind} {n : PNode}
    (hp : (p, k) ∈ plan) (hne : p ≠ q) (hn : nodeW w plan s p = some n) : nodeW w plan s' p = some n := by
  obtain ⟨L, m, hL, hpi, hh, hm⟩ := nodeW_some hn
  rw [nodeW_ok hL hpi]
  rw [hk L (winKind k) m ⟨p, k, hp, hpi, hL, rfl⟩ ((hi _ hp _ hq hpi hqi _ _ hL hqd).1 hne).1 hh]
  exact hm

theorem nodeW_congr {w : WCfg} {plan : List (Str × Kind)} {s s' : FSink} (h : s'.os.fs = s.os.fs) : nodeW w plan s' = nodeW w plan s := by
  funext p; unfold nodeW; rw [h]

theorem createFileW_refused {w : WCfg} {e : Entry} {s : OS} {x : Err} (hd : w.destPath e.path = .error x) : createFileW w e s = (.error x, s) := by
  unfold createFileW; rw [hd]

theorem getWriterW_refused {w : WCfg} {e : Entry} {s : FSink} {x : Err} (hi : shouldIgnore e.path = false) (hd : w.destPath e.path = .error x) :
    s.getWriterW w e = (some (.wrapped x), s) := by
  unfold getWriterW
  simp only [hi, Bool.false_eq_true, if_false]
  rw [createFileW_refused hd]

theorem getWriterW_ignored {w : WCfg} {e : Entry} {s : FSink} (hi : shouldIgnore e.path = true) : s.getWriterW w e = (none, { s with ws := s.ws ++ [.nop] }) := by
  unfold getWriterW; simp [hi]

theorem symlinkW_refused {w : WCfg} {e : Entry} {t : Str} {s : FSink} {x : Err} (hi : shouldIgnore e.path = false) (hd : w.destPath e.path = .error x) :
    s.symlinkW w e t = (some (.wrapped (.wrapped x)), s) := by
  unfold symlinkW
  simp only [hi, Bool.false_eq_true, if_false]
  rw [getWriterW_refused hi hd]

/-- A name planned as a file is not planned as a link. -/
theorem not_link {w : WCfg} {plan : List (Str × Kind)} (hind : w.Independent plan) {p : Str} {L : Path} (hf : (p, Kind.file) ∈ plan) (hi : shouldIgnore p = false)
    (hL : w.placeOf p = some L) : decide ((p, Kind.symlink) ∈ plan) = false := by
  rw [decide_eq_false_iff_not]
  intro h
  exact (hind _ h _ hf hi hi _ _ hL hL).2 rfl rfl rfl

/-- `FolderSink` on Windows keeps one node per name, whatever system calls fail, if the names are independent. -/
def winPath (w : WCfg) {V : Str} {B : Path} (hB : w.Base V B) (hq : w.Qualifies) (hfo : w.FoldOK) (plan : List (Str × Kind)) (hind : w.Independent plan) :
    PathLaw (winSink w) where
  Inv s := DiskOK (PlanPlaceW w plan) s.os.fs
  Fits p k := (p, k) ∈ plan
  shown p := !shouldIgnore p
  node s p := nodeW w plan s p
  At s p o := ∃ i L, w.placeOf p = some L ∧ s.os.fs.nodes L = some (.file i) ∧ lastWr s = some (.real i o true)
  Deaf s := lastWr s = some .nop
  mkdir_inv e s hs hf := by
    show DiskOK _ (mkdirW w e s).2.os.fs
    cases hi : shouldIgnore e.path with
    | true => unfold mkdirW; rw [hi]; exact hs
    | false =>
      cases hd : w.destPath e.path with
      | error x => unfold mkdirW; rw [hi, hd]; exact hs
      | ok dst =>
        exact (mkdirW_disk (plannedW hB hq hfo hind) hi hs hd rfl ⟨_, _, hf, hi, placeOf_ok hd, rfl⟩).1
  mkdir_frame e s p k n hs hf hp hne hn := by
    show nodeW w plan (mkdirW w e s).2 p = some n
    cases hi : shouldIgnore e.path with
    | true => unfold mkdirW; rw [hi]; exact hn
    | false =>
      cases hd : w.destPath e.path with
      | error x => unfold mkdirW; rw [hi, hd]; exact hn
      | ok dst =>
        exact nodeW_keeps hind hf hi (placeOf_ok hd) (mkdirW_disk (plannedW hB hq hfo hind) hi hs hd rfl ⟨_, _, hf, hi, placeOf_ok hd, rfl⟩).2.1 hp hne hn
  mkdir_ok e s hs hf hsh hok := by
    have hi : shouldIgnore e.path = false := by simpa using hsh
    show nodeW w plan (mkdirW w e s).2 e.path = some .dir
    cases hd : w.destPath e.path with
    | error x =>
      have : (mkdirW w e s).1 = none := hok
      unfold mkdirW at this; rw [hi, hd] at this; cases this
    | ok dst =>
      rw [nodeW_ok (placeOf_ok hd) hi, (mkdirW_disk (plannedW hB hq hfo hind) hi hs hd rfl ⟨_, _, hf, hi, placeOf_ok hd, rfl⟩).2.2 hok]
      rfl
  symlink_inv e t s hs hf := by
    show DiskOK _ (symlinkW w e t s).2.os.fs
    cases hi : shouldIgnore e.path with
    | true => unfold symlinkW; rw [hi]; exact hs
    | false =>
      cases hd : w.destPath e.path with
      | error x => rw [symlinkW_refused (s := s) hi hd]; exact hs
      | ok dst =>
        exact (symlinkW_disk (plannedW hB hq hfo hind) hi hs hd rfl ⟨_, _, hf, hi, placeOf_ok hd, rfl⟩).1
  symlink_frame e t s p k n hs hf hp hne hn := by
    show nodeW w plan (symlinkW w e t s).2 p = some n
    cases hi : shouldIgnore e.path with
    | true => unfold symlinkW; rw [hi]; exact hn
    | false =>
      cases hd : w.destPath e.path with
      | error x => rw [symlinkW_refused (s := s) hi hd]; exact hn
      | ok dst =>
        exact nodeW_keeps hind hf hi (placeOf_ok hd) (symlinkW_disk (plannedW hB hq hfo hind) hi hs hd rfl ⟨_, _, hf, hi, placeOf_ok hd, rfl⟩).2.1 hp hne hn
  symlink_ok e t s hs hf hsh hw hok := by
    have hi : shouldIgnore e.path = false := by simpa using hsh
    have hok' : (symlinkW w e t s).1 = none := hok
    show nodeW w plan (symlinkW w e t s).2 e.path = some (.link t)
    cases hd : w.destPath e.path with
    | error x => rw [symlinkW_refused (s := s) hi hd] at hok'; cases hok'
    | ok dst =>
      rw [nodeW_ok (placeOf_ok hd) hi, (symlinkW_disk (plannedW hB hq hfo hind) hi hs hd rfl ⟨_, _, hf, hi, placeOf_ok hd, rfl⟩).2.2 hw hok']
      have : decide ((e.path, Kind.symlink) ∈ plan) = true := decide_eq_true hf
      rw [this]
      rfl
  prealloc_inv e s hs hf := by
    show DiskOK _ (preallocateW w e s).2.os.fs
    cases hi : shouldIgnore e.path with
    | true => unfold preallocateW; rw [hi]; exact hs
    | false =>
      cases hd : w.destPath e.path with
      | error x =>
        unfold preallocateW
        simp only [hi, Bool.false_eq_true, if_false]
        rw [createFileW_refused hd]; exact hs
      | ok dst =>
        exact preallocateW_disk (plannedW hB hq hfo hind) hs hd rfl ⟨_, _, hf, hi, placeOf_ok hd, rfl⟩
  open_inv e s hs hf := by
    show DiskOK _ (getWriterW w e s).2.os.fs
    cases hi : shouldIgnore e.path with
    | true => rw [getWriterW_ignored (s := s) hi]; exact hs
    | false =>
      cases hd : w.destPath e.path with
      | error x => rw [getWriterW_refused (s := s) hi hd]; exact hs
      | ok dst =>
        exact (getWriterW_disk (plannedW hB hq hfo hind) hi hs hd rfl ⟨_, _, hf, hi, placeOf_ok hd, rfl⟩).1
  open_frame e s p k n hs hf hp hne hn := by
    show nodeW w plan (getWriterW w e s).2 p = some n
    cases hi : shouldIgnore e.path with
    | true => rw [getWriterW_ignored (s := s) hi]; exact hn
    | false =>
      cases hd : w.destPath e.path with
      | error x => rw [getWriterW_refused (s := s) hi hd]; exact hn
      | ok dst =>
        exact nodeW_keeps hind hf hi (placeOf_ok hd) (getWriterW_disk (plannedW hB hq hfo hind) hi hs hd rfl ⟨_, _, hf, hi, placeOf_ok hd, rfl⟩).2.1 hp hne hn
  open_ok e s o hs hf hsh ho hok := by
    have hi : shouldIgnore e.path = false := by simpa using hsh
    have hok' : (getWriterW w e s).1 = none := hok
    cases hd : w.destPath e.path with
    | error x => rw [getWriterW_refused (s := s) hi hd] at hok'; cases hok'
    | ok dst =>
      have hL := placeOf_ok hd
      have nl := not_link hind hf hi hL
      obtain ⟨_, i, l, c, g1, g2, g3, g4⟩ := (getWriterW_disk (plannedW hB hq hfo hind) hi hs hd rfl ⟨_, _, hf, hi, hL, rfl⟩).2.2.2 hok'
      have ho' : e.woff.toNat = o := by omega
      rw [ho'] at g2 g4
      refine ⟨resize c o, ?_, resize_length c o, ⟨i, _, hL, g1, lastWr_snoc g4⟩, ?_⟩
      · show nodeW w plan (getWriterW w e s).2 e.path = _
        rw [nodeW_ok hL hi, nl]
        unfold FS.holds
        rw [g1]
        simp only [g2]
        rfl
      · intro c0 h0 hle
        have h0' : nodeW w plan s e.path = some (.file c0) := h0
        obtain ⟨L, m, a1, _, a3, a4⟩ := nodeW_some h0'
        rw [hL] at a1
        cases a1
        rw [nl] at a4
        have : m = .file c0 := by cases m <;> simp_all [asLink]
        subst this
        rw [g3 c0 a3]
        simp [resize, Nat.sub_eq_zero_of_le hle]
  open_fail e s o hs hf hsh ho hbad c0 h0 hle := by
    have hi : shouldIgnore e.path = false := by simpa using hsh
    have hbad' : (getWriterW w e s).1 ≠ none := hbad
    show ∃ c, nodeW w plan (getWriterW w e s).2 e.path = some (.file c) ∧ _
    cases hd : w.destPath e.path with
    | error x => rw [getWriterW_refused (s := s) hi hd]; exact ⟨c0, h0, hle, rfl⟩
    | ok dst =>
      have hL := placeOf_ok hd
      have nl := not_link hind hf hi hL
      have h0' : nodeW w plan s e.path = some (.file c0) := h0
      obtain ⟨L, m, a1, _, a3, a4⟩ := nodeW_some h0'
      rw [hL] at a1
      cases a1
      rw [nl] at a4
      have : m = .file c0 := by cases m <;> simp_all [asLink]
      subst this
      refine ⟨c0, ?_, hle, rfl⟩
      rw [nodeW_ok hL hi, nl, (getWriterW_disk (plannedW hB hq hfo hind) hi hs hd rfl ⟨_, _, hf, hi, hL, rfl⟩).2.2.1 hbad' c0 a3]
      rfl
  open_deaf e s _ hf hsh hok := by
    have hi : shouldIgnore e.path = true := by simpa using hsh
    show lastWr (getWriterW w e s).2 = some .nop
    rw [getWriterW_ignored (s := s) hi]
    exact lastWr_snoc rfl
  write_spec bs s p c hs hf hn hat := by
    obtain ⟨i, L, hL, hi, hlast⟩ := hat
    obtain ⟨L', m, hL', hig, hh, hm⟩ := nodeW_some hn
    rw [hL] at hL'
    cases hL'
    have nl := not_link hind hf hig hL
    rw [nl] at hm
    have : m = .file c := by cases m <;> simp_all [asLink]
    subst this
    obtain ⟨j, hj, hdj⟩ := holds_file hh
    rw [hi] at hj; cases hj
    have hQ : PlanPlaceW w plan L .file := ⟨p, .file, hf, hig, hL, rfl⟩
    have done : ∀ (k : Nat), k ≤ bs.length → ∀ r : (Nat × Int × Option Err) × FSink, r = s.writeAt w.toFCfg (s.ws.length - 1) bs →
        r.1.2.1 = k → (r.1.2.2 = none → k = bs.length ∧ r.1.1 = bs.length) →
        r.2.os.fs = s.os.fs.setData i (pwrite (s.os.fs.data i) c.length (bs.take k)) →
        r.2.ws = s.ws.set (s.ws.length - 1) (.real i (c.length + k) true) →
        ∃ k, k ≤ bs.length ∧ nodeW w plan r.2 p = some (.file (c ++ bs.take k)) ∧
          (∃ i L, w.placeOf p = some L ∧ r.2.os.fs.nodes L = some (.file i) ∧ lastWr r.2 = some (.real i (c.length + k) true)) ∧
          r.1.2.1 = k ∧ (r.1.2.2 = none → k = bs.length ∧ r.1.1 = bs.length) ∧ DiskOK (PlanPlaceW w plan) r.2.os.fs ∧
          ∀ q k n, (q, k) ∈ plan → q ≠ p → nodeW w plan s q = some n → nodeW w plan r.2 q = some n := by
      intro k hk r _ e1 e2 e3 e4
      rw [hdj, pwrite_end] at e3
      have hs' : DiskOK (PlanPlaceW w plan) s.os.fs := hs
      obtain ⟨d1, d2, d3⟩ := hs'.setData hQ hi (c ++ bs.take k)
      refine ⟨k, hk, ?_, ⟨i, L, hL, ?_, ?_⟩, e1, e2, ?_, ?_⟩
      · rw [nodeW_ok hL hig, e3, d3, nl]; rfl
      · rw [e3]; exact hi
      · obtain ⟨l, _, hl2⟩ := setLast (w' := Wr.real i (c.length + k) true) hlast
        rw [hl2] at e4
        exact lastWr_snoc e4
      · rw [e3]; exact d1
      · intro q k n hq hne hn
        exact nodeW_keeps hind hf hig hL (by rw [e3]; exact d2) hq hne hn
    have hw := write_cases w.toFCfg (s.ws.length - 1) bs s i c.length hlast
    show ∃ k, k ≤ bs.length ∧ nodeW w plan (s.writeAt w.toFCfg (s.ws.length - 1) bs).2 p = _ ∧ _
    rcases hw with ⟨x, n, w1, w2, w3, w4, w5, w6, _⟩ | ⟨w1, w2, w3, _⟩
    · exact done n w2 _ rfl w4 (fun h => by rw [w1] at h; cases h) w5 w6
    · refine done bs.length (Nat.le_refl _) _ rfl ?_ (fun _ => ⟨rfl, ?_⟩) (by rw [List.take_length]; exact w2) w3
      · rw [w1]
      · rw [w1]
  write_deaf bs s hs hd := by
    have : s.writeAt w.toFCfg (s.ws.length - 1) bs = ((bs.length, 0, none), s) := by
      unfold writeAt
      have hd' : s.ws[s.ws.length - 1]? = some .nop := hd
      rw [hd']
      rfl
    show DiskOK _ (s.writeAt w.toFCfg (s.ws.length - 1) bs).2.os.fs ∧ lastWr (s.writeAt w.toFCfg (s.ws.length - 1) bs).2 = _ ∧
      (fun p => nodeW w plan (s.writeAt w.toFCfg (s.ws.length - 1) bs).2 p) = _ ∧ (s.writeAt w.toFCfg (s.ws.length - 1) bs).1.2.1 = 0
    rw [this]
    exact ⟨hs, hd, rfl, rfl⟩
  close_spec s hs := by
    have h1 : (s.closeAt w.toFCfg (s.ws.length - 1)).2.os.fs = s.os.fs := (closeAt_fs w.toFCfg (s.ws.length - 1) s).1
    show DiskOK _ (s.closeAt w.toFCfg (s.ws.length - 1)).2.os.fs ∧ (fun p => nodeW w plan (s.closeAt w.toFCfg (s.ws.length - 1)).2 p) = _
    rw [h1]
    exact ⟨hs, nodeW_congr h1⟩
  reborn_spec s hs := ⟨hs, rfl⟩
  sync_spec s hs := by
    show DiskOK _ (s.syncAt w.toFCfg (s.ws.length - 1)).2.os.fs ∧ (fun p => nodeW w plan (s.syncAt w.toFCfg (s.ws.length - 1)).2 p) = _ ∧
      (∀ p o, (∃ i L, w.placeOf p = some L ∧ s.os.fs.nodes L = some (.file i) ∧ lastWr s = some (.real i o true)) →
        ∃ i L, w.placeOf p = some L ∧ (s.syncAt w.toFCfg (s.ws.length - 1)).2.os.fs.nodes L = some (.file i) ∧
          lastWr (s.syncAt w.toFCfg (s.ws.length - 1)).2 = some (.real i o true)) ∧
      (lastWr s = some .nop → lastWr (s.syncAt w.toFCfg (s.ws.length - 1)).2 = some .nop)
    have h1 : (s.syncAt w.toFCfg (s.ws.length - 1)).2.os.fs = s.os.fs ∧ (s.syncAt w.toFCfg (s.ws.length - 1)).2.ws = s.ws := by
      unfold syncAt
      split
      · exact ⟨quietCall_fs _ _, rfl⟩
      · exact ⟨rfl, rfl⟩
      · exact ⟨rfl, rfl⟩
      · exact ⟨rfl, rfl⟩
    have h2 : lastWr (s.syncAt w.toFCfg (s.ws.length - 1)).2 = lastWr s := by unfold lastWr; rw [h1.2]
    rw [h1.1, h2]
    exact ⟨hs, nodeW_congr h1.1, fun _ _ h => h, fun h => h⟩

end FSink
end Savior
