import Verif.ContainOps
import Verif.Props.FolderLife
/-!
# Staying inside the destination; the destination's survival; Nuke (C04, C05, C12)
-/

namespace Savior
open FSink

theorem contained {cfg : FCfg} {B : Path} (hB : cfg.Base B) {fs0 : FS} (ops : List FOp) (s : FSink) (h : Inside B fs0 s.os.fs)
    (ts : s.Tidy (fs0.Outside B)) (tame : TameRun cfg B ops s) :
    Inside B fs0 (runOps cfg ops s).os.fs ∧ ((∀ op ∈ ops, ¬ Tops B op) → s.os.fs.nodes B = some .dir → (runOps cfg ops s).os.fs.nodes B = some .dir) := by
  induction ops generalizing s with
  | nil => exact ⟨h, fun _ hd => hd⟩
  | cons op ops ih =>
    obtain ⟨t1, t2⟩ := tame
    obtain ⟨a, b⟩ := run_steps (lk := fun _ => True) hB op s h ts t1 (Or.inl fun _ => trivial)
    have := ih (op.run cfg s).2 (h.steps a) b t2
    exact ⟨this.1, fun hn hd => this.2 (fun o ho => hn o (by simp [ho])) (a.keeps (hn op (by simp)) hd)⟩

/-- **C04** (what holds). The sink's directory is not reached through links, the links in it are harmless (relative, ".." only
at the start, staying inside), no file in it is a hard link to one outside. Then any sequence of operations on a new sink,
successful or failing anywhere, changes nothing outside the directory, as long as every link's target has its ".." at the
start and the links with ".." are not themselves put in a folder reached through a link. Missing: arbitrary targets, for which the
property is false (`C04_false_chain`). -/
theorem C04_contained_partial {cfg : FCfg} {B : Path} (hB : cfg.Base B) (os : OS) (ht : os.fs.Tree) (hg : Harmless B os.fs) (hs : Separate B os.fs)
    (ops : List FOp) (tame : TameRun cfg B ops (.fresh os)) :
    NothingOutside B os.fs (runOps cfg ops (.fresh os)).os.fs :=
  (contained hB ops (.fresh os) (Inside.init ht hg hs) (by intro k i o b h; simp [FSink.fresh] at h) tame).1.out

/-- No ".." in the target of any link, nor in the sink's `Directory` or the working directory. -/
def NoDotDot (cfg : FCfg) : FOp → Prop
  | .symlink _ t => dot2 ∉ splitSlash t
  | .nuke => dot2 ∉ splitSlash cfg.dir ∧ ∀ w, cfg.cwd = .ok w → dot2 ∉ splitSlash w
  | _ => True

theorem tameRun_noDotDot {cfg : FCfg} {B : Path} (ops : List FOp) (h : ∀ op ∈ ops, NoDotDot cfg op) (s : FSink) : TameRun cfg B ops s := by
  induction ops generalizing s with
  | nil => trivial
  | cons op ops ih =>
    refine ⟨?_, ih (fun o ho => h o (by simp [ho])) _⟩
    have := h op (by simp)
    cases op with
    | symlink e t => exact fun _ => ⟨upsFirst_of_not this, fun h' => absurd h' this⟩
    | nuke => exact this
    | _ => trivial

/-- **C04** for archives whose link targets contain no "..": nothing else is asked of the archive. -/
theorem C04_no_dotdot_partial {cfg : FCfg} {B : Path} (hB : cfg.Base B) (os : OS) (ht : os.fs.Tree) (hg : Harmless B os.fs) (hs : Separate B os.fs)
    (ops : List FOp) (h : ∀ op ∈ ops, NoDotDot cfg op) : NothingOutside B os.fs (runOps cfg ops (.fresh os)).os.fs :=
  C04_contained_partial hB os ht hg hs ops (tameRun_noDotDot ops h _)

/-- What is asked of an operation here, whatever the state: links have ".." at the start of their target only, and are at places of `L`. -/
def FOp.Placed (B : Path) (L : Path → Prop) : FOp → Prop
  | .symlink e t => B <+: entryPlace B e → UpsFirst (splitSlash t) ∧ L (entryPlace B e)
  | .nuke => False
  | _ => True

theorem apart_straight {B : Path} {L : Path → Prop} (hL : Apart L) {fs : FS} (hg : Harmless B fs) (hl : LinksAt B L fs) {q : Path} (hq : B <+: q) (hLq : L q) :
    ∀ p u, p <+: q → p ≠ q → fs.nodes p ≠ some (.link u) := by
  intro p u hp hne hn
  rcases List.prefix_or_prefix_of_prefix hq hp with h | h
  · exact hne (hL p q (hl p u hn h) hLq hp)
  · have := (hg p u hn).1 h
    subst this
    exact hne (hL p q (hl p u hn List.prefix_rfl) hLq hp)

theorem contained_apart {cfg : FCfg} {B : Path} (hB : cfg.Base B) {L : Path → Prop} (hL : Apart L) {fs0 : FS} (ops : List FOp) (s : FSink)
    (h : Inside B fs0 s.os.fs) (ts : s.Tidy (fs0.Outside B)) (hl : LinksAt B L s.os.fs) (ok : ∀ op ∈ ops, op.Placed B L) :
    TameRun cfg B ops s ∧ LinksAt B L (runOps cfg ops s).os.fs := by
  induction ops generalizing s with
  | nil => exact ⟨trivial, hl⟩
  | cons op ops ih =>
    have hp := ok op (by simp)
    have tame : op.Tame cfg B s.os.fs := by
      cases op with
      | symlink e t => exact fun pre => ⟨(hp pre).1, fun _ => apart_straight hL h.good hl pre (hp pre).2⟩
      | nuke => exact hp.elim
      | _ => trivial
    obtain ⟨a, b⟩ := run_steps (lk := L) hB op s h ts tame (Or.inr (by
      rintro e t rfl pre
      exact ⟨apart_straight hL h.good hl pre (hp pre).2, (hp pre).2⟩))
    have := ih (op.run cfg s).2 (h.steps a) b (fun q t hq hB => (a.links hq).elim (fun h' => hl q t h' hB) id) (fun o ho => ok o (by simp [ho]))
    exact ⟨⟨tame, this.1⟩, this.2⟩

/-- **C04** for links none of which is below another: their targets may start with "..". (Not `Nuke`, see C12.) -/
theorem C04_apart_partial {cfg : FCfg} {B : Path} (hB : cfg.Base B) (os : OS) (ht : os.fs.Tree) (hg : Harmless B os.fs) (hs : Separate B os.fs)
    (L : Path → Prop) (hL : Apart L) (hl : LinksAt B L os.fs) (ops : List FOp)
    (ok : ∀ op ∈ ops, op ≠ .nuke ∧ ∀ e t, op = .symlink e t → B <+: entryPlace B e → UpsFirst (splitSlash t) ∧ L (entryPlace B e)) :
    NothingOutside B os.fs (runOps cfg ops (.fresh os)).os.fs :=
  C04_contained_partial hB os ht hg hs ops (contained_apart hB hL ops (.fresh os) (Inside.init ht hg hs)
    (by intro k i o b h; simp [FSink.fresh] at h) hl (by
      intro op ho
      have := ok op ho
      cases op with
      | symlink e t => exact this.2 e t rfl
      | nuke => exact this.1 rfl
      | _ => trivial)).1

/-- **C05** (what holds). Under the same conditions, as long as no link entry is the directory itself and there is no `Nuke`, the
directory stays a directory, whatever fails. -/
theorem C05_survives_partial {cfg : FCfg} {B : Path} (hB : cfg.Base B) (os : OS) (ht : os.fs.Tree) (hg : Harmless B os.fs) (hs : Separate B os.fs)
    (ops : List FOp) (tame : TameRun cfg B ops (.fresh os)) (hd : os.fs.nodes B = some .dir)
    (hl : ∀ op ∈ ops, op ≠ .nuke ∧ ∀ e t, op = .symlink e t → entryPlace B e ≠ B) :
    (runOps cfg ops (.fresh os)).os.fs.nodes B = some .dir := by
  refine (contained hB ops (.fresh os) (Inside.init ht hg hs) (by intro k i o b h; simp [FSink.fresh] at h) tame).2 ?_ hd
  intro op ho htop
  have := hl op ho
  cases op with
  | symlink e t => exact this.2 e t rfl htop
  | nuke => exact this.1 rfl
  | _ => exact htop

/-! ### Witnesses -/

def exLink (p : List Char) : Entry := ⟨cs p, .symlink, 0o777, 0, 0, 0, []⟩

/-- **C04 is false**: "a/b/l1" to "../..", "l2" to "a/b/l1/..", then the file "l2/evil": it is created in "/", outside "/d". All
three operations succeed. -/
theorem C04_false_chain :
    let ops : List FOp := [.symlink (exLink ['a', '/', 'b', '/', 'l', '1']) (cs ['.', '.', '/', '.', '.']),
      .symlink (exLink ['l', '2']) (cs ['a', '/', 'b', '/', 'l', '1', '/', '.', '.']),
      .getWriter ⟨cs ['l', '2', '/', 'e', 'v', 'i', 'l'], .file, 0o644, 0, 0, 0, []⟩]
    let s0 := exSink (exFS (cs ['x']) .dir [])
    (runOps exCfg ops s0).ws.length = 1 ∧ (runOps exCfg ops s0).os.fs.nodes [cs ['e', 'v', 'i', 'l']] = some (.file 1) ∧
    ¬ NothingOutside [[100]] s0.os.fs (runOps exCfg ops s0).os.fs := by
  intro ops s0
  have h1 : (runOps exCfg ops s0).os.fs.nodes [cs ['e', 'v', 'i', 'l']] = some (.file 1) := by decide +kernel
  refine ⟨by decide +kernel, h1, fun h => ?_⟩
  have h0 : s0.os.fs.nodes [cs ['e', 'v', 'i', 'l']] = none := by rfl
  rcases h.nodes [cs ['e', 'v', 'i', 'l']] (by decide) with e | ⟨_, e, _⟩
  · rw [h1, h0] at e; cases e
  · rw [h1] at e; cases e

/-- **C04 is false** even if all targets have their ".." at the start: "a/b/l" to "../..", then "a/b/l/m" to "../../..", which the check
takes for "/d" but which is made as "/d/m" to "../../..", then the file "m/evil": it is created in "/". -/
theorem C04_false_below :
    let ops : List FOp := [.symlink (exLink ['a', '/', 'b', '/', 'l']) (cs ['.', '.', '/', '.', '.']),
      .symlink (exLink ['a', '/', 'b', '/', 'l', '/', 'm']) (cs ['.', '.', '/', '.', '.', '/', '.', '.']),
      .getWriter ⟨cs ['m', '/', 'e', 'v', 'i', 'l'], .file, 0o644, 0, 0, 0, []⟩]
    let s0 := exSink (exFS (cs ['x']) .dir [])
    (∀ e t, FOp.symlink e t ∈ ops → UpsFirst (splitSlash t)) ∧
    (runOps exCfg ops s0).ws.length = 1 ∧ (runOps exCfg ops s0).os.fs.nodes [cs ['e', 'v', 'i', 'l']] = some (.file 1) ∧
    ¬ NothingOutside [[100]] s0.os.fs (runOps exCfg ops s0).os.fs := by
  intro ops s0
  have h1 : (runOps exCfg ops s0).os.fs.nodes [cs ['e', 'v', 'i', 'l']] = some (.file 1) := by decide +kernel
  refine ⟨?_, by decide +kernel, h1, fun h => ?_⟩
  · intro e t h
    simp only [ops, List.mem_cons, List.not_mem_nil, or_false, FOp.symlink.injEq, reduceCtorEq] at h
    rcases h with ⟨_, rfl⟩ | ⟨_, rfl⟩
    · show UpsFirst [dot2, dot2]; simp [UpsFirst]
    · show UpsFirst [dot2, dot2, dot2]; simp [UpsFirst]
  have h0 : s0.os.fs.nodes [cs ['e', 'v', 'i', 'l']] = none := by rfl
  rcases h.nodes [cs ['e', 'v', 'i', 'l']] (by decide) with e | ⟨_, e, _⟩
  · rw [h1, h0] at e; cases e
  · rw [h1] at e; cases e

/-- **C05 is false**: the link entry "." with target "d": the destination "/d", with all its content, has been replaced by a link to itself. -/
theorem C05_false_symlink :
    let s := runOps exCfg [.symlink (exLink ['.']) [100]] (exSink (exFS (cs ['x']) (.file 0) [1]))
    ((FOp.symlink (exLink ['.']) [100]).run exCfg (exSink (exFS (cs ['x']) (.file 0) [1]))).1 = none ∧
    s.os.fs.nodes [[100]] = some (.link [100]) ∧ s.os.fs.nodes [[100], cs ['x']] = none := ⟨by rfl, by rfl, by rfl⟩

/-- **C05 is false** for a destination that is a link to a directory: the folder entry "./" replaces the link by an empty folder. -/
theorem C05_false_mkdir :
    let cfg : FCfg := { exCfg with dir := cs ['/', 'd', '/', 'l'] }
    let s0 := exSink (exFS (cs ['l']) (.link (cs ['.'])) [])
    let e : Entry := ⟨cs ['.', '/'], .dir, 0o755, 0, 0, 0, []⟩
    s0.os.fs.stat [[100], cs ['l']] = .found [[100]] .dir ∧ (s0.mkdir cfg e).1 = none ∧
    (s0.mkdir cfg e).2.os.fs.nodes [[100], cs ['l']] = some .dir := ⟨by rfl, by rfl, by rfl⟩

/-- The conditions are met by "/d" holding a link "f" to "g", and a run that puts a link "a/l" to "../b" in it, writes through it
to "b", and removes everything. -/
def exOps : List FOp := [.mkdir ⟨cs ['b'], .dir, 0o755, 0, 0, 0, []⟩, .symlink (exLink ['a', '/', 'l']) (cs ['.', '.', '/', 'b']),
  .getWriter ⟨cs ['a', '/', 'l', '/', 'x'], .file, 0o644, 0, 0, 0, []⟩, .write 0 [1, 2]]

theorem exHarmless : Harmless [[100]] (exFS (cs ['f']) (.link (cs ['g'])) []) := by
  intro q t h
  simp only [exFS] at h
  split at h
  · cases h
  · rename_i h1
    split at h
    · rename_i h2
      simp only [Option.some.injEq, Node.link.injEq] at h
      subst h2 h
      refine ⟨fun hp => absurd hp (by decide), fun _ => ⟨by rfl, upsFirst_of_not (by decide), by decide⟩⟩
    · cases h

theorem exSeparate : Separate [[100]] (exFS (cs ['f']) (.link (cs ['g'])) []) := by
  have : ∀ p j, (exFS (cs ['f']) (.link (cs ['g'])) []).nodes p ≠ some (.file j) := by
    intro p j h
    simp only [exFS] at h
    split at h
    · cases h
    · split at h <;> cases h
  exact ⟨fun p j h => absurd h (this p j), fun p j _ h => absurd h (this p j)⟩

theorem exUps : UpsFirst (splitSlash (cs ['.', '.', '/', 'b'])) := by
  have : splitSlash (cs ['.', '.', '/', 'b']) = [dot2, cs ['b']] := by rfl
  rw [this]
  simp [UpsFirst, dot1, dot2, cs]

theorem exTame : TameRun exCfg [[100]] exOps (.fresh ⟨exFS (cs ['f']) (.link (cs ['g'])) [], 0⟩) := by
  refine ⟨trivial, fun _ => ⟨exUps, ?_⟩, trivial, trivial, trivial⟩
  intro _ p u hp hne h
  have hp' : p = [] ∨ p = [[100]] ∨ p = [[100], cs ['a']] := by
    have e : entryPlace [[100]] (exLink ['a', '/', 'l']) = [[100], cs ['a'], cs ['l']] := by rfl
    rw [e] at hp hne
    have := List.prefix_iff_eq_take.mp hp
    have hlen : p.length ≤ 3 := hp.length_le
    rcases (by omega : p.length = 0 ∨ p.length = 1 ∨ p.length = 2 ∨ p.length = 3) with hl | hl | hl | hl
    · rw [hl] at this; exact Or.inl this
    · rw [hl] at this; exact Or.inr (Or.inl this)
    · rw [hl] at this; exact Or.inr (Or.inr this)
    · rw [hl] at this; exact absurd this hne
  rcases hp' with rfl | rfl | rfl
  · have e : ((FOp.mkdir ⟨cs ['b'], .dir, 0o755, 0, 0, 0, []⟩).run exCfg (.fresh ⟨exFS (cs ['f']) (.link (cs ['g'])) [], 0⟩)).2.os.fs.nodes [] = some .dir := by decide +kernel
    rw [e] at h; cases h
  · have e : ((FOp.mkdir ⟨cs ['b'], .dir, 0o755, 0, 0, 0, []⟩).run exCfg (.fresh ⟨exFS (cs ['f']) (.link (cs ['g'])) [], 0⟩)).2.os.fs.nodes [[100]] = some .dir := by decide +kernel
    rw [e] at h; cases h
  · have e : ((FOp.mkdir ⟨cs ['b'], .dir, 0o755, 0, 0, 0, []⟩).run exCfg (.fresh ⟨exFS (cs ['f']) (.link (cs ['g'])) [], 0⟩)).2.os.fs.nodes [[100], cs ['a']] = none := by decide +kernel
    rw [e] at h; cases h

example : NothingOutside [[100]] (exFS (cs ['f']) (.link (cs ['g'])) []) (runOps exCfg exOps (.fresh ⟨exFS (cs ['f']) (.link (cs ['g'])) [], 0⟩)).os.fs :=
  C04_contained_partial exCfg_base ⟨_, 0⟩ (exFS_tree _ _ _) exHarmless exSeparate exOps exTame

/-- The same run, by the static condition: its link "a/l" and the one that is there, "f", are not below each other. -/
example : NothingOutside [[100]] (exFS (cs ['f']) (.link (cs ['g'])) []) (runOps exCfg exOps (.fresh ⟨exFS (cs ['f']) (.link (cs ['g'])) [], 0⟩)).os.fs := by
  refine C04_apart_partial exCfg_base ⟨_, 0⟩ (exFS_tree _ _ _) exHarmless exSeparate
    (fun p => p = [[100], cs ['f']] ∨ p = [[100], cs ['a'], cs ['l']]) ?_ ?_ exOps ?_
  · rintro p q (rfl | rfl) (rfl | rfl) h
    · rfl
    · exact absurd h (by decide)
    · exact absurd h (by decide)
    · rfl
  · intro q t h _
    simp only [exFS] at h
    split at h
    · cases h
    · split at h
      · rename_i h2; exact Or.inl h2
      · cases h
  · intro op ho
    simp only [exOps, List.mem_cons, List.not_mem_nil, or_false] at ho
    rcases ho with rfl | rfl | rfl | rfl
    · exact ⟨by simp, fun e t h => by cases h⟩
    · refine ⟨by simp, fun e t h _ => ?_⟩
      cases h
      exact ⟨exUps, Or.inr (by rfl)⟩
    · exact ⟨by simp, fun e t h => by cases h⟩
    · exact ⟨by simp, fun e t h => by cases h⟩

/-! ### Nuke -/

/-- A path without ".." and links on the way: where it resolves. -/
theorem walk_plain {fs : FS} (b : Nat) (l : List Str) (h2 : dot2 ∉ l) (cur : Path) (hc : fs.nodes cur = some .dir) (ht : fs.Tree)
    (hl : ∀ p t, p <+: lexWalk cur l → fs.nodes p ≠ some (.link t)) :
    (∀ q n, walk fs.nodes false b cur l = .found q n → q = lexWalk cur l) ∧
    (∀ n, fs.nodes (lexWalk cur l) = some n → walk fs.nodes false b cur l = .found (lexWalk cur l) n ∨ walk fs.nodes false b cur l = .bad ENOTDIR) := by
  induction l generalizing cur with
  | nil =>
    simp only [lexWalk]
    rw [walk_nil]
    refine ⟨by rintro q n ⟨⟩; rfl, fun n hn => Or.inl ?_⟩
    rw [hc] at hn; cases hn; rfl
  | cons c t ih =>
    have ht2 : dot2 ∉ t := fun x => h2 (by simp [x])
    have hc2 : c ≠ dot2 := fun x => h2 (by simp [x])
    by_cases h1 : c = [] ∨ c = dot1
    · have e : lexWalk cur (c :: t) = lexWalk cur t := by simp [lexWalk, h1]
      rw [e] at hl ⊢
      rw [walk_skip h1]
      exact ih ht2 cur hc hl
    · simp only [not_or] at h1
      have e : lexWalk cur (c :: t) = lexWalk (cur ++ [c]) t := by simp [lexWalk, h1, hc2]
      rw [e] at hl ⊢
      rw [walk_name h1.1 h1.2 hc2]
      have pre : cur ++ [c] <+: lexWalk (cur ++ [c]) t := lexWalk_down_prefix ht2 _
      have below : fs.nodes (cur ++ [c]) ≠ some .dir → ∀ n, fs.nodes (lexWalk (cur ++ [c]) t) = some n → lexWalk (cur ++ [c]) t = cur ++ [c] := by
        intro hnd n hn
        obtain ⟨x, hx⟩ := pre
        by_cases hx0 : x = []
        · rw [← hx, hx0, List.append_nil]
        · rw [← hx, tree_below ht hnd x hx0] at hn; cases hn
      cases hx : fs.nodes (cur ++ [c]) with
      | none =>
        simp only
        constructor
        · intro q n h; split at h <;> cases h
        · intro n hn
          have := below (by rw [hx]; simp) n hn
          rw [this, hx] at hn; cases hn
      | some m =>
        cases m with
        | dir => simp only; exact ih ht2 _ hx hl
        | link u => exact absurd hx (hl _ u pre)
        | file i =>
          simp only
          constructor
          · intro q n h
            split at h
            · rename_i h0; subst h0; cases h; rfl
            · cases h
          · intro n hn
            have e2 := below (by rw [hx]; simp) n hn
            rw [e2, hx] at hn
            cases hn
            split
            · rw [e2]; exact Or.inl rfl
            · exact Or.inr rfl

/-- Everything at and below `B` may have gone, nothing else has changed. -/
def OnlyRemoved (B : Path) (fs fs' : FS) : Prop :=
  (∀ p, fs'.nodes p = fs.nodes p ∨ (B <+: p ∧ fs'.nodes p = none)) ∧ fs'.data = fs.data ∧ fs'.mode = fs.mode ∧ fs'.next = fs.next

theorem onlyRemoved_cut (B : Path) (fs : FS) : OnlyRemoved B fs (fs.cut B) := by
  refine ⟨fun p => ?_, rfl, rfl, rfl⟩
  simp only [FS.cut]
  split
  · rename_i h; rw [List.isPrefixOf_iff_prefix] at h; exact Or.inr ⟨h, rfl⟩
  · exact Or.inl rfl

theorem onlyRemoved_cutSome (B : Path) (rm : Path → Bool) (fs : FS) : OnlyRemoved B fs (fs.cutSome B rm) := by
  refine ⟨fun p => ?_, rfl, rfl, rfl⟩
  simp only [FS.cutSome]
  split
  · rename_i e
    simp only [List.any_eq_true, List.mem_range, Bool.and_eq_true] at e
    obtain ⟨k, _, a, _⟩ := e
    rw [List.isPrefixOf_iff_prefix] at a
    exact Or.inr ⟨a.trans (List.take_prefix _ _), rfl⟩
  · exact Or.inl rfl

theorem removeAllRaw_plain (flt : Faults) {l : List Str} (hl : dot2 ∉ l) {B : Path} (hB : lexWalk [] l = B) (s : OS) (ht : s.fs.Tree)
    (hs : ∀ p t, p <+: B → s.fs.nodes p ≠ some (.link t)) :
    OnlyRemoved B s.fs (s.removeAllRaw flt l).2.fs ∧
    ((s.removeAllRaw flt l).1 = none → ∀ p, B <+: p → (s.removeAllRaw flt l).2.fs.nodes p = none) := by
  obtain ⟨z, hz, hz'⟩ := dropSlashes_split l
  have h1 : dot2 ∉ dropSlashes l := fun hx => hl (by rw [hz]; exact List.mem_append_left _ hx)
  have h2 : lexWalk [] (dropSlashes l) = B := by rw [← hB]; conv => rhs; rw [hz, lexWalk_append, lexWalk_empties hz']
  obtain ⟨w1, w2⟩ := walk_plain (fs := s.fs) 40 (dropSlashes l) h1 [] ht.1 ht (by rw [h2]; exact hs)
  rw [h2] at w1 w2
  have gone : (∀ n, s.fs.lstat (dropSlashes l) ≠ .found B n) → s.fs.lstat (dropSlashes l) ≠ .bad ENOTDIR → ∀ p, B <+: p → s.fs.nodes p = none := by
    intro a b p ⟨x, hx⟩
    have hn : s.fs.nodes B = none := by
      cases hb : s.fs.nodes B with
      | none => rfl
      | some n =>
        rcases w2 n hb with h | h
        · exact absurd h (a n)
        · exact absurd h b
    by_cases hx0 : x = []
    · rw [← hx, hx0, List.append_nil]; exact hn
    · rw [← hx]; exact tree_below ht (by rw [hn]; simp) x hx0
  have same : OnlyRemoved B s.fs s.fs := ⟨fun _ => Or.inl rfl, rfl, rfl, rfl⟩
  unfold OS.removeAllRaw
  simp only
  split
  · split
    · rename_i q n hq
      rw [w1 q n hq]
      exact ⟨by simp only; exact onlyRemoved_cutSome B _ s.fs, fun h => by cases h⟩
    · rename_i q hq
      exact ⟨same, fun _ => gone (by rw [hq]; simp) (by rw [hq]; simp)⟩
    · rename_i e hq
      split
      · rename_i he
        exact ⟨same, fun _ => gone (by rw [hq]; simp) (by rw [hq, he]; simp [ENOENT, ENOTDIR])⟩
      · exact ⟨same, fun h => by cases h⟩
  · unfold OS.removeAll
    split
    · rename_i q hq
      exact ⟨same, fun _ => gone (by rw [hq]; simp) (by rw [hq]; simp)⟩
    · rename_i e hq
      split
      · rename_i he
        exact ⟨same, fun _ => gone (by rw [hq]; simp) (by rw [hq, he]; simp [ENOENT, ENOTDIR])⟩
      · exact ⟨same, fun h => by cases h⟩
    · rename_i q n hq
      rw [w1 q n hq]
      split
      · exact ⟨by simp only; exact onlyRemoved_cutSome B _ s.fs, fun h => by cases h⟩
      · split
        · exact ⟨by simp only; exact onlyRemoved_cutSome B _ s.fs, fun h => by cases h⟩
        · refine ⟨onlyRemoved_cut B s.fs, fun _ p hp => ?_⟩
          simp only [FS.cut]
          rw [if_pos (List.isPrefixOf_iff_prefix.mpr hp)]

/-- **C12** (`Nuke`, for a directory named without ".." and not reached through links). Whether it succeeds or fails half-way, nothing
but things in the sink's directory are removed, and no file's bytes or permissions change; if it succeeds, nothing
exists there any more. Missing: other ways of naming the directory (`C12_false_dotdot`, `C12_false_empty`). -/
theorem C12_nuke_partial {cfg : FCfg} {B : Path} (hB : cfg.Base B) (s : FSink) (ht : s.os.fs.Tree)
    (hs : ∀ p t, p <+: B → s.os.fs.nodes p ≠ some (.link t)) (hd : NoDotDot cfg .nuke) (hne : cfg.dir ≠ []) :
    OnlyRemoved B s.os.fs (s.nuke cfg).2.os.fs ∧
    ((s.nuke cfg).1 = none → ∀ p, B <+: p → (s.nuke cfg).2.os.fs.nodes p = none) := by
  have hc := (close_fs cfg s).1
  unfold nuke
  simp only
  generalize s.close cfg = q at hc ⊢
  obtain ⟨q1, q2⟩ := q
  simp only at hc ⊢
  have same : OnlyRemoved B s.os.fs q2.os.fs := by rw [hc]; exact ⟨fun _ => Or.inl rfl, rfl, rfl, rfl⟩
  cases q1 with
  | some x => exact ⟨same, fun h => by cases h⟩
  | none =>
    simp only
    rw [if_neg hne]
    split
    · exact ⟨same, fun h => by cases h⟩
    rw [← hc] at ht hs ⊢
    split
    · rename_i ha
      cases hB with
      | rooted _ => exact removeAllRaw_plain cfg.flt hd.1 rfl q2.os ht hs
      | relative hr _ _ => rw [hr] at ha; cases ha
    · rename_i ha
      cases hB with
      | rooted hr => exact absurd hr ha
      | relative hr hw hwa =>
        rw [hw]
        simp only
        refine removeAllRaw_plain cfg.flt ?_ (by rw [lexWalk_append]; rfl) q2.os ht hs
        intro hx
        rcases List.mem_append.mp hx with hx | hx
        · exact hd.2 _ hw hx
        · exact hd.1 hx

/-- **C12 is false** when `Directory` goes through ".." after a link: "/d/l/../b", "l" being a link to "/x/y". Extraction writes
to "/d/b", `Nuke` removes "/x/b" and leaves "/d/b". -/
def exTwo : FS :=
  ⟨fun p => if p = [] ∨ p = [cs ['x']] ∨ p = [cs ['x'], cs ['y']] ∨ p = [cs ['x'], cs ['b']] ∨ p = [cs ['d']] ∨ p = [cs ['d'], cs ['b']] then some .dir
    else if p = [cs ['d'], cs ['l']] then some (.link (cs ['/', 'x', '/', 'y'])) else none, fun _ => [], fun _ => 0, 0⟩

theorem C12_false_dotdot :
    let cfg : FCfg := { exCfg with dir := cs ['/', 'd', '/', 'l', '/', '.', '.', '/', 'b'] }
    let s := (exSink exTwo).nuke cfg
    cfg.Base [cs ['d'], cs ['b']] ∧ s.1 = none ∧ s.2.os.fs.nodes [cs ['d'], cs ['b']] = some .dir ∧
    exTwo.nodes [cs ['x'], cs ['b']] = some .dir ∧ s.2.os.fs.nodes [cs ['x'], cs ['b']] = none :=
  ⟨FCfg.Base.rooted (by rfl), by decide +kernel, by decide +kernel, by decide +kernel, by decide +kernel⟩

/-- **C12 is false** for the empty `Directory`, which extraction takes to be the working directory: `Nuke` does nothing. -/
theorem C12_false_empty (cfg : FCfg) (h : cfg.dir = []) (s : FSink) (hr : s.reg = none) : s.nuke cfg = (none, s) := by
  unfold nuke close
  rw [hr]
  simp [h]

/-- **C12 is false** for a `Directory` ending in "..": `Nuke` removes everything in the folder it leads to, keeps the folder itself and reports
an error. -/
theorem C12_false_parent (cfg : FCfg) (habs : isAbs cfg.dir = true) (h : (dropSlashes (splitSlash cfg.dir)).getLast? = some dot2) (s : FSink) (hr : s.reg = none)
    (hf : cfg.flt s.os.tick = none) (q : Path) (n : Node) (hq : s.os.fs.lstat (dropSlashes (splitSlash cfg.dir)) = .found q n) :
    (s.nuke cfg).1 = some EINVAL ∧ (s.nuke cfg).2.os.fs.nodes q = s.os.fs.nodes q ∧
    (∀ p, q <+: p → p ≠ q → (s.nuke cfg).2.os.fs.nodes p = none) ∧ (∀ p, ¬ q <+: p → (s.nuke cfg).2.os.fs.nodes p = s.os.fs.nodes p) := by
  have h1 : cfg.dir ≠ [] := by intro e; rw [e] at habs; cases habs
  have h2 : (splitSlash cfg.dir).getLast? ≠ some dot1 := by
    intro e
    have : dropSlashes (splitSlash cfg.dir) = splitSlash cfg.dir := by
      obtain ⟨l, hl⟩ := List.getLast?_eq_some_iff.mp e
      rw [hl]
      simp [dropSlashes, dot1]
    rw [this, e] at h
    exact absurd h (by decide)
  have hn : s.nuke cfg = (some EINVAL, { s with os := { fs := s.os.fs.cutSome q (fun r => true && decide (r ≠ []) && decide (r ≠ q)), tick := s.os.tick + 1 } }) := by
    unfold nuke close
    rw [hr]
    simp only [if_neg h1, if_neg h2, habs, if_true]
    unfold OS.removeAllRaw
    simp only [h, or_true, if_true, hq, hf, hr]
  rw [hn]
  have g := fun p => cutSome_gone s.os.fs q (fun r => true && decide (r ≠ []) && decide (r ≠ q)) p
  refine ⟨rfl, ?_, ?_, ?_⟩
  · refine (g q).2 fun a h1 h2 => ?_
    have : a = q := h2.eq_of_length (Nat.le_antisymm h2.length_le h1.length_le)
    simp [this]
  · intro p hp hne
    refine (g p).1 ⟨p, hp, List.prefix_refl p, ?_⟩
    have : p ≠ [] := by
      intro e
      subst e
      exact hne (List.prefix_nil.mp hp).symm
    simp [this, hne]
  · intro p hp
    exact (g p).2 fun a h1 h2 => absurd (h1.trans h2) hp

/-- "/d/f/..", which is "/d" for the extraction: "/d/f" is gone, "/d" is not, although an error is reported. -/
example : let cfg : FCfg := { exCfg with dir := cs ['/', 'd', '/', 'f', '/', '.', '.'] }
    let s := (exSink (exFS (cs ['f']) .dir [])).nuke cfg
    cfg.Base [cs ['d']] ∧ s.1 = some EINVAL ∧ s.2.os.fs.nodes [cs ['d']] = some .dir ∧ s.2.os.fs.nodes [cs ['d'], cs ['f']] = none := by
  refine ⟨FCfg.Base.rooted (by rfl), ?_⟩
  obtain ⟨a, b, c, _⟩ := C12_false_parent { exCfg with dir := cs ['/', 'd', '/', 'f', '/', '.', '.'] } (by rfl) (by rfl) (exSink (exFS (cs ['f']) .dir [])) rfl rfl
    [cs ['d']] .dir (by decide +kernel)
  exact ⟨a, b.trans (by rfl), c _ (by decide) (by decide)⟩

example : ({ exCfg with dir := [], cwd := .ok (cs ['/', 'd']) } : FCfg).Base [cs ['d']] := FCfg.Base.relative (w := cs ['/', 'd']) rfl rfl (by rfl)

/-- "/d" with the file "f" in it: removed. -/
example : (∀ p t, p <+: [[100]] → (exFS (cs ['f']) (.file 0) [1]).nodes p ≠ some (.link t)) ∧ NoDotDot exCfg .nuke ∧
    ((exSink (exFS (cs ['f']) (.file 0) [1])).nuke exCfg).1 = none := by
  refine ⟨?_, ⟨by decide, by intro w hw; cases hw⟩, by rfl⟩
  intro p t hp h
  simp only [exFS] at h
  split at h
  · cases h
  · split at h <;> cases h

end Savior
