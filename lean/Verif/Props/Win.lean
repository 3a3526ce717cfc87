import Verif.WinDisk
import Verif.Props.TarFaults
import Verif.Props.Contain
/-!
# FolderSink on Windows (C78: destinations, containment, no links; C79: whole extractions)
-/

namespace Savior
open FSink

/-- **C78.** Whatever the kernel makes of paths (as long as it returns paths with a volume): an accepted entry goes to a place in the
sink's directory, reached by ordinary names. -/
theorem C78_dest {w : WCfg} {V : Str} {B : Path} (hB : w.Base V B) (hq : w.Qualifies) {p dst : Str} (h : w.destPath p = .ok dst) :
    ∃ N : Path, (∀ n ∈ N, WinOrdinary n) ∧ w.names dst = w.place V (B ++ N) := by
  obtain ⟨N, hN, e, _⟩ := destW_ok hB hq h
  exact ⟨N, hN, e⟩

/-- **C78.** If the kernel takes the cleaned path for itself (it does unless a name ends in a dot or space, or is a device): the entry is
accepted if and only if, slashes and backslashes both separating names, reading the names left to right never leaves the directory
for good, and it goes where that reading leads. (For a directory below the root of its volume whose name does not end in a colon.) -/
theorem C78_where {w : WCfg} {V : Str} {B : Path} (hB : w.Base V B) (hne : B ≠ []) (hl : B.getLast?.bind List.getLast? ≠ some colon) (p : Str)
    (hf : w.full (winText V (lexWalk B (splitSlash (toSlash p)))) = .ok (winText V (lexWalk B (splitSlash (toSlash p))))) :
    w.destPath p = if B <+: lexWalk B (splitSlash (toSlash p)) then .ok (winText V (lexWalk B (splitSlash (toSlash p)))) else .error .traversal :=
  destW_eq hB hne hl p hf

theorem containedW {w : WCfg} {V : Str} {B : Path} (hB : w.Base V B) (hq : w.Qualifies) (hf : w.FoldOK) {fs0 : FS} (ops : List FOp) (s : FSink)
    (h : Inside (w.place V B) fs0 s.os.fs) (ts : s.Tidy (fs0.Outside (w.place V B))) :
    Inside (w.place V B) fs0 (runOpsW w ops s).os.fs ∧
    (FOp.nuke ∉ ops → s.os.fs.nodes (w.place V B) = some .dir → (runOpsW w ops s).os.fs.nodes (w.place V B) = some .dir) ∧
    (∀ q t, (runOpsW w ops s).os.fs.nodes q = some (.link t) → s.os.fs.nodes q = some (.link t)) := by
  induction ops generalizing s with
  | nil => exact ⟨h, fun _ hd => hd, fun _ _ h => h⟩
  | cons op ops ih =>
    obtain ⟨a, b⟩ := runW_steps hB hq hf op s h ts
    have := ih (op.runW w s).2 (h.steps a) b
    refine ⟨this.1, fun hn hd => this.2.1 (fun ho => hn (by simp [ho])) (a.keeps (fun e => hn (by simp [e])) hd), fun q t hh => ?_⟩
    exact (a.links (this.2.2 q t hh)).elim id False.elim

/-- **C78.** On Windows any sequence of operations of a new sink — any entry names, any link targets, `Nuke`, anything failing anywhere —
changes nothing outside the sink's directory. (The directory is not reached through links, the links that are in it stay inside, and
no file in it is a hard link to one outside.) -/
theorem C78_contained {w : WCfg} {V : Str} {B : Path} (hB : w.Base V B) (hq : w.Qualifies) (hf : w.FoldOK) (os : OS) (ht : os.fs.Tree)
    (hg : Harmless (w.place V B) os.fs) (hs : Separate (w.place V B) os.fs) (ops : List FOp) :
    NothingOutside (w.place V B) os.fs (runOpsW w ops (.fresh os)).os.fs :=
  (containedW hB hq hf ops (.fresh os) (Inside.init ht hg hs) (by intro k i o b h; simp [FSink.fresh] at h)).1.out

/-- **C78.** Nor does it make any link. -/
theorem C78_no_links {w : WCfg} {V : Str} {B : Path} (hB : w.Base V B) (hq : w.Qualifies) (hf : w.FoldOK) (os : OS) (ht : os.fs.Tree)
    (hg : Harmless (w.place V B) os.fs) (hs : Separate (w.place V B) os.fs) (ops : List FOp) (q : Path) (t : Str)
    (h : (runOpsW w ops (.fresh os)).os.fs.nodes q = some (.link t)) : os.fs.nodes q = some (.link t) :=
  (containedW hB hq hf ops (.fresh os) (Inside.init ht hg hs) (by intro k i o b h; simp [FSink.fresh] at h)).2.2 q t h

/-- **C78.** Without `Nuke` the directory stays a directory, whatever the entries are. (On other systems a link entry can replace it,
`C05_false_symlink`.) -/
theorem C78_survives {w : WCfg} {V : Str} {B : Path} (hB : w.Base V B) (hq : w.Qualifies) (hf : w.FoldOK) (os : OS) (ht : os.fs.Tree)
    (hg : Harmless (w.place V B) os.fs) (hs : Separate (w.place V B) os.fs) (ops : List FOp) (hn : FOp.nuke ∉ ops)
    (hd : os.fs.nodes (w.place V B) = some .dir) : (runOpsW w ops (.fresh os)).os.fs.nodes (w.place V B) = some .dir :=
  (containedW hB hq hf ops (.fresh os) (Inside.init ht hg hs) (by intro k i o b h; simp [FSink.fresh] at h)).2.1 hn hd

/-- **C78.** A `Symlink` that succeeds leaves, at the entry's place, a regular file with the link's target as its bytes (for an entry at
offset 0, whose folder is not reached through links). -/
theorem C78_link_text {w : WCfg} {V : Str} {B : Path} (hB : w.Base V B) (hq : w.Qualifies) (hf : w.FoldOK) (s : FSink) (ht : s.os.fs.Tree)
    (e : Entry) (hi : shouldIgnore e.path = false) (h0 : e.woff = 0) (L : Path) (hL : w.placeOf e.path = some L)
    (hl : ∀ r t, r <+: L → r ≠ L → s.os.fs.nodes r ≠ some (.link t)) (hx : ∀ i, s.os.fs.nodes L = some (.file i) → i < s.os.fs.next)
    (t : Str) (hok : (s.symlinkW w e t).1 = none) : (s.symlinkW w e t).2.os.fs.holds L = some (.file t) := by
  obtain ⟨dst, hd, rfl⟩ := placeOf_some hL
  obtain ⟨N, ho, en⟩ := destW_place hB hq hf hd
  have hS : Planned (fun M k => M = w.names dst ∧ k = Kind.file) := by
    refine ⟨?_, ?_⟩
    · rintro M k ⟨rfl, _⟩; rw [en]; exact ho
    · rintro M k M' k' ⟨rfl, _⟩ ⟨rfl, _⟩ hne _; exact absurd rfl hne
  have hD : DiskOK (fun M k => M = w.names dst ∧ k = Kind.file) s.os.fs := by
    refine ⟨ht, ?_, ?_, ?_⟩
    · rintro M k r t ⟨rfl, _⟩ hr hne; exact hl r t hr hne
    · rintro M k M' k' i ⟨rfl, _⟩ ⟨rfl, _⟩ _ _; rfl
    · rintro M k i ⟨rfl, _⟩ h; exact hx i h
  exact (symlinkW_disk hS hi hD hd rfl ⟨rfl, rfl⟩).2.2 h0 hok

/-! ## Whole extractions -/

theorem planW_fits {w : WCfg} {V : Str} {B : Path} (hB : w.Base V B) (hq : w.Qualifies) (hf : w.FoldOK) (A : Archive) (hind : w.Independent A.plan) :
    (winPath w hB hq hf A.plan hind).FitsAll A := fun zf hz => List.mem_map.2 ⟨zf, hz, rfl⟩

theorem winNode_of {w : WCfg} {plan : List (Str × Kind)} {s : FSink} {p : Str} {n : PNode} (h : nodeW w plan s p = some n)
    (hk : (p, Kind.symlink) ∈ plan ∨ ∀ t, n ≠ .link t) :
    ∃ L, w.placeOf p = some L ∧ s.os.fs.holds L = some (winNode n) := by
  obtain ⟨L, m, h1, _, h3, h4⟩ := nodeW_some h
  refine ⟨L, h1, ?_⟩
  rw [h3]
  by_cases hl : (p, Kind.symlink) ∈ plan
  · rw [decide_eq_true hl] at h4
    cases m with
    | dir => simp only [asLink, Option.some.injEq] at h4; subst h4; rfl
    | file c => simp only [asLink, if_true, Option.some.injEq] at h4; subst h4; rfl
    | link t => simp [asLink] at h4
  · have hk := hk.resolve_left hl
    rw [decide_eq_false hl] at h4
    cases m with
    | dir => simp only [asLink, Option.some.injEq] at h4; subst h4; rfl
    | file c => simp only [asLink, Bool.false_eq_true, if_false, Option.some.injEq] at h4; subst h4; rfl
    | link t => simp only [asLink, Bool.false_eq_true, if_false, Option.some.injEq] at h4; exact absurd h4.symm (hk t)

/-- **C79.** Zip on Windows: after any number of extractions to the same directory that ended in whatever way — system calls failing in
any pattern, writes stored in part, read faults, consumer errors, stops, restarts —, each resumed from a checkpoint handed to a save
consumer (the last, or an earlier one; or nothing), a run that succeeds leaves every member (not ignored) at its place: folders, files
with their bytes, and for links regular files with the targets' texts. Assumed of the archive: its members' names lead to different
places on the (case folding) disk, no file or link has another member below it, and no name is both a file's and a link's; of
the disk: none of the places is reached through a link when the first extraction starts, nor are files there hard links of each other. -/
theorem C79_zip {A : Archive} {D : Decomp} {F : Nat} (hwf : ZipWF A D F) {w : WCfg} {V : Str} {B : Path} (hB : w.Base V B) (hq : w.Qualifies) (hf : w.FoldOK)
    (hind : w.Independent A.plan) (fs0 : FS) (hfit : w.DiskFit A.plan fs0)
    (hist : List ECkpt) (k : FSink) (hchain : ZipAttempts A D F (winSink w) (onFS fs0) hist k) (ck : Option ECkpt) (before : List ECkpt)
    (hck : ChooseCk hist ck before) (env : ZEnv) (hh : env.Honest A) (U : SaveCons) (u : U.St)
    (res : List Entry) (hok : (zipResume A env D F (winSink w) U ck k u).1 = .ok res)
    (p : Str) (hp : shouldIgnore p = false) (n : PNode) (hn : zipNode A D p = some n) :
    ∃ L, w.placeOf p = some L ∧ (zipResume A env D F (winSink w) U ck k u).2.sink.os.fs.holds L = some (winNode n) := by
  have h := C34_failures_harmless hwf (winPath w hB hq hf A.plan hind) (planW_fits hB hq hf A hind) (onFS fs0) (diskOKW_of_fit hfit) hist k hchain ck before hck
    env hh U u res hok p (by show (!shouldIgnore p) = true; rw [hp]; rfl) n hn
  refine winNode_of h ?_
  unfold zipNode at hn
  cases hz : (A.files.filter fun zf => zf.name = p).getLast? with
  | none => rw [hz] at hn; cases hn
  | some zf =>
    rw [hz] at hn
    simp only [Option.map_some, Option.some.injEq] at hn
    have hm := List.mem_filter.mp (List.mem_of_getLast? hz)
    have hnm : zf.name = p := by simpa using hm.2
    cases hk : (zipFileEntry zf).kind with
    | symlink => left; exact List.mem_map.2 ⟨zf, hm.1, by rw [hnm, hk]⟩
    | dir => right; intro t ht; rw [← hn] at ht; unfold zipNodeOf at ht; rw [hk] at ht; cases ht
    | file => right; intro t ht; rw [← hn] at ht; unfold zipNodeOf at ht; rw [hk] at ht; cases ht

section
variable {Y : List Byte} {clean : Bool} {Ck : Ckpt → Nat → Prop} {F : Nat} {T : TarFmt}

theorem tarPlanW_fits {w : WCfg} {V : Str} {B : Path} (hB : w.Base V B) (hq : w.Qualifies) (hf : w.FoldOK) (ms : List (THdr × List Byte))
    (hind : w.Independent (tarPlan ms)) : (winPath w hB hq hf (tarPlan ms) hind).FitsMembers ms :=
  fun m hm ht => List.mem_map.2 ⟨m, List.mem_filter.2 ⟨hm, by simpa using ht⟩, rfl⟩

/-- **C79.** The same for tar. -/
theorem C79_tar (hT : T.Law) {all : List (THdr × List Byte)} (hall : TarHas T clean Y all) {w : WCfg} {V : Str} {B : Path} (hB : w.Base V B)
    (hq : w.Qualifies) (hf : w.FoldOK) (hind : w.Independent (tarPlan all)) (fs0 : FS) (hfit : w.DiskFit (tarPlan all) fs0)
    (hist : List ECkpt) (k : FSink) (hchain : TarAttempts Y clean Ck F T (winSink w) (onFS fs0) hist k)
    (ck : Option ECkpt) (before : List ECkpt) (hck : ChooseCk hist ck before) (X : TarSrc Y clean Ck F) (pr : Ckpt → Int × Int) (U : SaveCons) (u : U.St)
    (res : List Entry) (hok : (tarRun X T pr (winSink w) U ck k u).1 = .ok res)
    (p : Str) (hp : shouldIgnore p = false) (n : PNode) (hn : tarNode all p = some n) :
    ∃ L, w.placeOf p = some L ∧ (tarRun X T pr (winSink w) U ck k u).2.2.sink.os.fs.holds L = some (winNode n) := by
  have h := (C61_tar_failures_harmless hT hall (winPath w hB hq hf (tarPlan all) hind) (tarPlanW_fits hB hq hf all hind) (onFS fs0) (diskOKW_of_fit hfit) hist k hchain
    ck before hck X pr U u res hok).1 p n (by show (!shouldIgnore p) = true; rw [hp]; rfl) hn
  refine winNode_of h ?_
  unfold tarNode at hn
  cases hz : (all.filter fun m => m.1.name = p ∧ m.1.typ ≠ .other).getLast? with
  | none => rw [hz] at hn; cases hn
  | some m =>
    rw [hz] at hn
    simp only [Option.map_some, Option.some.injEq] at hn
    have hm := List.mem_filter.mp (List.mem_of_getLast? hz)
    have hnm : m.1.name = p ∧ m.1.typ ≠ .other := by simpa using hm.2
    cases hk : m.1.typ with
    | symlink => left; exact List.mem_map.2 ⟨m, List.mem_filter.2 ⟨hm.1, by simpa using hnm.2⟩, by rw [hnm.1]; simp [tarEntryOf, hk]⟩
    | dir => right; intro t ht; rw [← hn] at ht; unfold tarNodeOf at ht; rw [hk] at ht; cases ht
    | reg => right; intro t ht; rw [← hn] at ht; unfold tarNodeOf at ht; rw [hk] at ht; cases ht
    | other => exact absurd hk hnm.2

end

/-! ## Directories that are the root of a volume -/

/-- **C78.** A sink whose `Directory` is "C:\" accepts no entry but the directory itself: the test asks for a prefix "C:\\". -/
theorem C78_root_refuses {w : WCfg} {V : Str} (hV : WinVol V) (hq : w.Qualifies) (ha : w.abs w.dir = .ok (winText V [])) {p dst : Str}
    (h : w.destPath p = .ok dst) : dst = winText V [] := by
  unfold WCfg.destPath at h
  rw [ha] at h
  simp only at h
  generalize hj : w.abs (joinWin (winText V []) (fromSlash p)) = r at h
  cases r with
  | error e => cases h
  | ok a =>
    simp only at h
    split at h
    · rename_i hw
      simp only [Except.ok.injEq] at h
      subst h
      simp only [withinW, Bool.or_eq_true, decide_eq_true_eq] at hw
      rcases hw with hw | hw
      · exfalso
        unfold hasPrefix at hw
        rw [List.isPrefixOf_iff_prefix] at hw
        obtain ⟨q, hq'⟩ := hw
        unfold WCfg.abs at hj
        generalize hz : w.full _ = r at hj
        cases r with
        | error e => cases hj
        | ok z =>
          simp only [Except.ok.injEq] at hj
          have e : cleanWin z = V ++ bslash :: (bslash :: q) := by rw [hj, ← hq']; simp [winText, joinSlash, fromSlash]
          obtain ⟨J, hJ, eJ⟩ := cleanWin_inv hV (hq _ _ hz) e
          have e2 := congrArg toSlash eJ
          rw [toSlash_from (join_noback hJ), toSlash_sep (by decide)] at e2
          cases J with
          | nil => cases e2
          | cons c t =>
            have hc := (hJ c (by simp)).1
            cases c with
            | nil => exact hc.1 rfl
            | cons x c =>
              have : x = slash := by
                cases t with
                | nil => simp [joinSlash] at e2; exact e2.1.symm
                | cons d u => simp [joinSlash] at e2; exact e2.1.symm
              exact hc.2.2.2 (by simp [this])
      · exact hw
    · cases h

/-! ## Non-vacuity -/

/-- `GetFullPathName` of a machine whose working directory is "C:\". -/
def exFull (x : Str) : Except Err Str := if 2 ≤ volLen x then .ok x else .ok (cs ['C', ':', '\\'] ++ x)

/-- ASCII letters are folded. -/
def lowByte (c : Byte) : Byte := if 65 ≤ c ∧ c ≤ 90 then c + 32 else c

def exWin : WCfg := { exCfg with dir := cs ['C', ':', '\\', 'd'], full := exFull, fold := List.map lowByte }

theorem exWin_qualifies : exWin.Qualifies := by
  intro x y h
  simp only [exWin, exFull] at h
  split at h
  · rename_i h2; cases h; exact h2
  · cases h
    have : volLen (cs ['C', ':', '\\'] ++ x) = 2 := by unfold volLen; rfl
    rw [this]; exact Nat.le_refl 2

theorem low_dot : ∀ c, lowByte c = 46 → c = 46 := byte_cases (by decide +kernel)
theorem low_slash : ∀ c, lowByte c = slash → c = slash := byte_cases (by decide +kernel)

theorem low_dots : ∀ l : Str, (∀ x ∈ l, x = 46) → ∀ n : Str, n.map lowByte = l → n = l
  | [], _, n, h => by simpa using h
  | x :: l, hx, [], h => by cases h
  | x :: l, hx, a :: n, h => by
    simp only [List.map_cons, List.cons.injEq] at h
    have e : x = 46 := hx x (by simp)
    rw [low_dots l (fun y hy => hx y (by simp [hy])) n h.2, e, low_dot a (h.1.trans e)]

theorem low_ordinary {n : Str} (h : Ordinary n) : Ordinary (n.map lowByte) := by
  obtain ⟨h1, h2, h3, h4⟩ := h
  refine ⟨by simpa using h1, fun e => h2 ?_, fun e => h3 ?_, fun e => h4 ?_⟩
  · exact low_dots dot1 (by decide) n e
  · exact low_dots dot2 (by decide) n e
  · obtain ⟨a, ha, e⟩ := List.mem_map.mp e
    rwa [low_slash a e] at ha

theorem winVol_ordinary {V : Str} (h : WinVol V) : Ordinary V := by
  have hs : slash ∉ V := by
    intro hm
    have e := winVol_from h
    rw [← e] at hm
    simp only [fromSlash, List.mem_map] at hm
    obtain ⟨a, _, ha⟩ := hm
    split at ha
    · revert ha; decide
    · rename_i hne; exact hne ha
  cases h with
  | drive c hc => exact ⟨by simp, by simp [dot1], by simp [dot2, colon], hs⟩
  | share server share _ _ _ _ _ => exact ⟨by simp, by simp [dot1], by simp [dot2, bslash], hs⟩

theorem exWin_fold : exWin.FoldOK := ⟨fun n h => low_ordinary h.1, fun V h => low_ordinary (winVol_ordinary h)⟩

theorem exWin_base : exWin.Base (cs ['C', ':']) [cs ['d']] :=
  WCfg.Base.rooted (w := exWin) (cs ['C', ':']) (cs ['d']) bslash (by rfl) (.drive 67 (by decide)) (by decide)

theorem exWin_place : exWin.place (cs ['C', ':']) [cs ['d']] = [cs ['c', ':'], cs ['d']] := by decide +kernel

/-- A share, given without a separator and with slashes. -/
example : ({ exWin with dir := cs ['/', '/', 's', '/', 'h'] } : WCfg).Base (cs ['\\', '\\', 's', '\\', 'h']) [] :=
  WCfg.Base.share (w := { exWin with dir := cs ['/', '/', 's', '/', 'h'] }) (cs ['/', '/', 's', '/', 'h']) (by rfl)
    (WinVol.share (cs ['s']) (cs ['h']) (by unfold WinOrdinary Ordinary; decide) (by decide) (by decide) (by decide) (by decide)) (by intro c h; revert h; simp [fromSlash, cs])

/-- "x\..\Y/z" goes to "C:\d\Y\z"; "..\x" is refused. -/
example : exWin.destPath (cs ['x', '\\', '.', '.', '\\', 'Y', '/', 'z']) = .ok (cs ['C', ':', '\\', 'd', '\\', 'Y', '\\', 'z']) ∧
    exWin.destPath (cs ['.', '.', '\\', 'x']) = .error .traversal ∧
    exWin.placeOf (cs ['x', '\\', '.', '.', '\\', 'Y', '/', 'z']) = some [cs ['c', ':'], cs ['d'], cs ['y'], cs ['z']] := by
  refine ⟨?_, ?_, by decide +kernel⟩
  · have := C78_where exWin_base (by decide) (by decide) (cs ['x', '\\', '.', '.', '\\', 'Y', '/', 'z']) (by rfl)
    rw [this]; rfl
  · have := C78_where exWin_base (by decide) (by decide) (cs ['.', '.', '\\', 'x']) (by rfl)
    rw [this]; rfl

/-- "C:\d", with a file "f" in it. -/
def exWinFS : FS :=
  ⟨fun p => if p = [] ∨ p = [cs ['c', ':']] ∨ p = [cs ['c', ':'], cs ['d']] then some .dir
    else if p = [cs ['c', ':'], cs ['d'], cs ['f']] then some (.file 0) else none, fun _ => [1], fun _ => 0o600, 1⟩

theorem exWinFS_tree : exWinFS.Tree := by
  refine ⟨rfl, ?_⟩
  intro p c h
  simp only [exWinFS, ne_eq] at h ⊢
  split at h
  · rename_i h1
    rcases h1 with h1 | h1 | h1
    · simp at h1
    · have : p = [] := by simpa using congrArg List.dropLast h1
      subst this; simp
    · have : p = [cs ['c', ':']] := by simpa using congrArg List.dropLast h1
      subst this; rfl
  · split at h
    · rename_i h1
      have : p = [cs ['c', ':'], cs ['d']] := by simpa using congrArg List.dropLast h1
      subst this; rfl
    · exact absurd rfl h

theorem exWinFS_nolink (q : Path) (t : Str) : exWinFS.nodes q ≠ some (.link t) := by
  intro h
  simp only [exWinFS] at h
  split at h
  · cases h
  · split at h <;> cases h

theorem exWinFS_file {p : Path} {j : Nat} (h : exWinFS.nodes p = some (.file j)) : p = [cs ['c', ':'], cs ['d'], cs ['f']] ∧ j = 0 := by
  simp only [exWinFS] at h
  split at h
  · cases h
  · split at h
    · rename_i h1; cases h; exact ⟨h1, rfl⟩
    · cases h

theorem exWinFS_separate : Separate [cs ['c', ':'], cs ['d']] exWinFS := by
  refine ⟨fun p j h => by rw [(exWinFS_file h).2]; decide, fun p j _ h ho => ?_⟩
  obtain ⟨q, hq, hn⟩ := ho
  rw [(exWinFS_file hn).1] at hq
  exact hq (by decide)

/-- The attack that works elsewhere (`C04_false_chain`), then `Nuke`. -/
def exWinOps : List FOp := [.symlink (exLink ['a', '/', 'b', '/', 'l', '1']) (cs ['.', '.', '/', '.', '.']),
  .symlink (exLink ['l', '2']) (cs ['a', '/', 'b', '/', 'l', '1', '/', '.', '.']),
  .getWriter ⟨cs ['l', '2', '/', 'e', 'v', 'i', 'l'], .file, 0o644, 0, 0, 0, []⟩]

example : NothingOutside [cs ['c', ':'], cs ['d']] exWinFS (runOpsW exWin exWinOps (.fresh ⟨exWinFS, 0⟩)).os.fs ∧
    (runOpsW exWin exWinOps (.fresh ⟨exWinFS, 0⟩)).os.fs.nodes [cs ['c', ':'], cs ['d']] = some .dir ∧
    (runOpsW exWin (exWinOps ++ [.nuke]) (.fresh ⟨exWinFS, 0⟩)).os.fs.nodes [cs ['c', ':'], cs ['d']] = none := by
  have hg : Harmless (exWin.place (cs ['C', ':']) [cs ['d']]) exWinFS := fun q t h => absurd h (exWinFS_nolink q t)
  have hs : Separate (exWin.place (cs ['C', ':']) [cs ['d']]) exWinFS := by rw [exWin_place]; exact exWinFS_separate
  refine ⟨?_, ?_, by decide +kernel⟩
  · have := C78_contained exWin_base exWin_qualifies exWin_fold ⟨exWinFS, 0⟩ exWinFS_tree hg hs exWinOps
    rwa [exWin_place] at this
  · have := C78_survives exWin_base exWin_qualifies exWin_fold ⟨exWinFS, 0⟩ exWinFS_tree hg hs exWinOps (by simp [exWinOps]) (by rfl)
    rwa [exWin_place] at this

/-- The link "l" to "a" is a file with the text "a"; so is one in place of the file "F", whatever its case. -/
example : ((exSink exWinFS).symlinkW exWin (exLink ['F']) (cs ['a'])).2.os.fs.holds [cs ['c', ':'], cs ['d'], cs ['f']] = some (.file (cs ['a'])) :=
  C78_link_text exWin_base exWin_qualifies exWin_fold (exSink exWinFS) exWinFS_tree (exLink ['F']) (by rfl) rfl _ (by decide +kernel)
    (fun r t _ _ => exWinFS_nolink r t) (fun i h => by rw [(exWinFS_file h).2]; decide) _ (by rfl)

/-! ### Whole extractions -/

/-- Some system calls fail. -/
def exWinK (flt : Faults) : WCfg := { exWin with flt := flt }

def winRun (flt : Faults) (ck : Option ECkpt) (k : FSink) (u : List (Except Err Action)) :
    Except Err (List Entry) × XW (winSink (exWinK flt)) listCons :=
  zipResume toyArchive toyEnv (toy false false) 100 (winSink (exWinK flt)) listCons ck k u

/-- Killed while writing "b", after a checkpoint in "a". -/
def winKill := winRun (killedAt 28 1) none (onFS diskEmpty) []

/-- The disk as found by the new process. -/
def winKill2 : FSink := (winSink (exWinK (killedAt 28 1))).reborn winKill.2.sink

theorem winKill_dead : (∃ e, winKill.1 = .error e) ∧ ∃ c, savedCks winKill.2.log = [toyCk1, c] := ⟨⟨_, by rfl⟩, _, by rfl⟩

theorem winKill_attempts : ZipAttempts toyArchive (toy false false) 100 (winSink (exWinK (killedAt 28 1))) (onFS diskEmpty)
    (savedCks winKill.2.log) winKill2 := by
  unfold winKill2 winKill winRun
  exact ZipAttempts.step (before := []) toyEnv listCons [] toy_honest ZipAttempts.refl .fresh (Or.inr rfl)

theorem winKill_ok : (winRun (killedAt 28 1) (some toyCk1) winKill2 []).1 = .ok (toyArchive.files.map zipFileEntry) := by rfl

theorem placeOf_flt (w : WCfg) (flt : Faults) (p : Str) : ({ w with flt := flt } : WCfg).placeOf p = w.placeOf p := rfl
theorem exWinK_place (flt : Faults) (p : Str) : (exWinK flt).placeOf p = exWin.placeOf p := placeOf_flt exWin flt p
theorem exWinK_qualifies (flt : Faults) : (exWinK flt).Qualifies := exWin_qualifies
theorem exWinK_fold (flt : Faults) : (exWinK flt).FoldOK := exWin_fold

theorem exWinK_base (flt : Faults) : (exWinK flt).Base (cs ['C', ':']) [cs ['d']] :=
  WCfg.Base.rooted (w := exWinK flt) (cs ['C', ':']) (cs ['d']) bslash (by rfl) (.drive 67 (by decide)) (by decide)

theorem winPlan_places (flt : Faults) : ∀ x ∈ toyArchive.plan, ∃ c, (exWinK flt).placeOf x.1 = some [cs ['c', ':'], cs ['d'], [c]] ∧
    (x.1.take 1 = [c]) := by
  have h1 : ∀ x ∈ toyArchive.plan, ∃ c ∈ cs ['a', 'b', 'c', 'd', 'l'], exWin.placeOf x.1 = some [cs ['c', ':'], cs ['d'], [c]] ∧ x.1.take 1 = [c] := by decide +kernel
  intro x hx
  obtain ⟨c, _, h2, h3⟩ := h1 x hx
  exact ⟨c, (exWinK_place flt _).trans h2, h3⟩

theorem winPlan_independent (flt : Faults) : (exWinK flt).Independent toyArchive.plan := by
  have h1 : ∀ x ∈ toyArchive.plan, ∀ y ∈ toyArchive.plan, x.1 ≠ y.1 → x.1.take 1 ≠ y.1.take 1 := by decide +kernel
  have h2 : ∀ x ∈ toyArchive.plan, ∀ y ∈ toyArchive.plan, x.1 = y.1 → x.2 = .symlink → y.2 ≠ .file := by decide +kernel
  intro x hx y hy _ _ L M hL hM
  refine ⟨fun hne => ?_, h2 x hx y hy⟩
  obtain ⟨c, hc, tc⟩ := winPlan_places flt x hx
  obtain ⟨d, hd, td⟩ := winPlan_places flt y hy
  rw [hc] at hL; rw [hd] at hM
  cases hL; cases hM
  have hcd : c ≠ d := by
    rintro rfl
    exact h1 x hx y hy hne (by rw [tc, td])
  refine ⟨by simpa using hcd, fun hp => ?_⟩
  have := hp.eq_of_length (by rfl)
  exact absurd this (by simpa using hcd)

theorem winEmpty_fit (flt : Faults) : (exWinK flt).DiskFit toyArchive.plan diskEmpty := by
  have h0 : ∀ L, diskEmpty.nodes L = some .dir ∨ diskEmpty.nodes L = none := by
    intro L; show (if L = [] then some Node.dir else none) = _ ∨ (if L = [] then some Node.dir else none) = _
    by_cases h : L = [] <;> simp [h]
  refine ⟨⟨rfl, ?_⟩, ?_, ?_, ?_⟩
  · intro p c h
    exact absurd (show diskEmpty.nodes (p ++ [c]) = none from if_neg (by simp)) h
  · intro x hx _ L r t _ _ _ h
    rcases h0 r with g | g <;> rw [g] at h <;> cases h
  · intro x hx y hy _ _ L M i _ _ h
    rcases h0 L with g | g <;> rw [g] at h <;> cases h
  · intro x hx _ L i _ h
    rcases h0 L with g | g <;> rw [g] at h <;> cases h

/-- The run after the restart: "b" is complete, and "l" is a file with the text "a". -/
example : ∀ p n, shouldIgnore p = false → zipNode toyArchive (toy false false) p = some n →
    ∃ L, (exWinK (killedAt 28 1)).placeOf p = some L ∧ (winRun (killedAt 28 1) (some toyCk1) winKill2 []).2.sink.os.fs.holds L = some (winNode n) := by
  obtain ⟨_, c, hc⟩ := winKill_dead
  intro p n hp hn
  exact C79_zip toy_wf (exWinK_base (killedAt 28 1)) (exWinK_qualifies _) (exWinK_fold _) (winPlan_independent _) diskEmpty (winEmpty_fit _) _ _ winKill_attempts
    (some toyCk1) [toyCk1] (by rw [hc]; exact .pick (a := []) (b := [c]) rfl) toyEnv toy_honest listCons [] _ winKill_ok p hp n hn

example : zipNode toyArchive (toy false false) (cs ['l']) = some (.link (cs ['a'])) ∧ winNode (.link (cs ['a'])) = .file (cs ['a']) := ⟨by rfl, rfl⟩

/-- Two names that differ in case only. -/
def caseArchive : Archive where
  bytes := [1, 2]
  files := [⟨cs ['a'], .store, false, 1, 1, 0o644, 0, ([], true)⟩, ⟨cs ['A'], .store, false, 1, 1, 0o644, 1, ([], true)⟩]

/-- **C79 needs** names that differ in more than case: the run succeeds, and "a" has the bytes of "A". -/
theorem C79_false_case :
    (zipResume caseArchive toyEnv (toy false false) 100 (winSink exWin) listCons none (onFS diskEmpty) []).1 = .ok (caseArchive.files.map zipFileEntry) ∧
    zipNode caseArchive (toy false false) (cs ['a']) = some (.file [1]) ∧ exWin.placeOf (cs ['a']) = some [cs ['c', ':'], cs ['d'], cs ['a']] ∧
    (zipResume caseArchive toyEnv (toy false false) 100 (winSink exWin) listCons none (onFS diskEmpty) []).2.sink.os.fs.holds
      [cs ['c', ':'], cs ['d'], cs ['a']] = some (.file [2]) := ⟨by rfl, by rfl, by decide +kernel, by rfl⟩

end Savior
