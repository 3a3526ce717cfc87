import Verif.ZipNames
/-!
# Properties of FolderSink's path checks (C01, C02, C03, C06) and of zip names (C40)
-/

namespace Savior

/-- The entry an operation is about. -/
def FOp.entry : FOp → Option Entry
  | .mkdir e | .symlink e _ | .prealloc e | .getWriter e => some e
  | _ => none

/-- The same operation on another path. -/
def FOp.withPath (p : Str) : FOp → FOp
  | .mkdir e => .mkdir { e with path := p }
  | .symlink e t => .symlink { e with path := p } t
  | .prealloc e => .prealloc { e with path := p }
  | .getWriter e => .getWriter { e with path := p }
  | op => op

/-- **C01.** The path an entry is mapped to is the sink's directory followed by ordinary names. -/
theorem C01_contained {cfg : FCfg} {B : Path} (h : cfg.Base B) (p dst : Str) (hd : cfg.destPath p = .ok dst) :
    ∃ N, AllOrd B ∧ AllOrd N ∧ dst = pathText (B ++ N) ∧ splitSlash dst = [] :: (if B ++ N = [] then [[]] else B ++ N) := by
  obtain ⟨N, h1, h2, _, _⟩ := destPath_ok h hd
  refine ⟨N, base_ord h, h1, h2, ?_⟩
  have ho : AllOrd (B ++ N) := by
    intro x hx
    rcases List.mem_append.mp hx with hx | hx
    · exact base_ord h x hx
    · exact h1 x hx
  rw [h2, pathText, splitSlash_slash]
  by_cases h0 : B ++ N = []
  · rw [if_pos h0, h0]; rfl
  · rw [if_neg h0, splitSlash_join h0 (allOrd_noslash ho)]

/-- **C01.** Every other entry path is refused as path traversal, by all four operations, and nothing changes. -/
theorem C01_refused {cfg : FCfg} {B : Path} (h : cfg.Base B) (op : FOp) (e : Entry) (he : op.entry = some e)
    (hi : shouldIgnore e.path = false) (hout : ¬ ∃ N, lexWalk B (splitSlash e.path) = B ++ N) (s : FSink) :
    ∃ x, (op.run cfg s).1 = some x ∧ x.cause = .traversal ∧ (op.run cfg s).2 = s := by
  have hd : cfg.destPath e.path = .error .traversal := by
    rw [destPath_eq h, if_neg]
    rintro ⟨⟨N, hN⟩, _⟩
    exact hout ⟨N, hN.symm⟩
  cases op with
  | mkdir e' => cases he; exact ⟨.traversal, by simp [FOp.run, FSink.mkdir, hi, hd, Err.cause]⟩
  | symlink e' t => cases he; exact ⟨.traversal, by simp [FOp.run, FSink.symlink, hi, hd, Err.cause]⟩
  | prealloc e' => cases he; exact ⟨.wrapped .traversal, by simp [FOp.run, FSink.preallocate, FSink.createFile, hi, hd, Err.cause]⟩
  | getWriter e' => cases he; exact ⟨.wrapped .traversal, by simp [FOp.run, FSink.getWriter, FSink.createFile, hi, hd, Err.cause]⟩
  | _ => cases he

/-- **C01.** An accepted operation does exactly what it would do for the entry path spelled out as those ordinary
names: nothing but the place they denote matters. -/
theorem C01_acts_on {cfg : FCfg} {B : Path} (h : cfg.Base B) (op : FOp) (e : Entry) (he : op.entry = some e)
    (hi : shouldIgnore e.path = false) (N : Path) (hN : AllOrd N) (hin : lexWalk B (splitSlash e.path) = B ++ N)
    (hi' : shouldIgnore (joinSlash N) = false) (s : FSink) : op.run cfg s = (op.withPath (joinSlash N)).run cfg s := by
  have hw : lexWalk B (splitSlash (joinSlash N)) = B ++ N := by
    by_cases h0 : N = []
    · subst h0; simp [joinSlash, splitSlash, lexWalk]
    · rw [splitSlash_join h0 (allOrd_noslash hN), lexWalk_ord hN]
  have hd : cfg.destPath (joinSlash N) = cfg.destPath e.path := by rw [destPath_eq h, destPath_eq h, hw, hin]
  have hf : ∀ s, FSink.createFile cfg { e with path := joinSlash N } s = FSink.createFile cfg e s := by
    intro s; unfold FSink.createFile; simp only [hd]; rfl
  cases op with
  | mkdir e' => cases he; simp only [FOp.run, FOp.withPath, FSink.mkdir, hi, hi', hd]
  | symlink e' t => cases he; simp only [FOp.run, FOp.withPath, FSink.symlink, hi, hi', hd]
  | prealloc e' => cases he; simp only [FOp.run, FOp.withPath, FSink.preallocate, hi, hi', hf]
  | getWriter e' => cases he; simp only [FOp.run, FOp.withPath, FSink.getWriter, hi, hi', hf]
  | _ => cases he

/-- **C02** (directory other than the root). A path that never climbs above its start is accepted. -/
theorem C02_inside_accepted_partial {cfg : FCfg} {B : Path} (h : cfg.Base B) (h0 : B ≠ []) (p : Str) (hp : StaysInside p) :
    ∃ N, AllOrd N ∧ cfg.destPath p = .ok (pathText (B ++ N)) := by
  unfold StaysInside at hp
  cases hd : depth (splitSlash p) 0 with
  | none => exact absurd hd hp
  | some d =>
    obtain ⟨N, hN⟩ := lexWalk_inside B [] rfl hd
    rw [List.append_nil] at hN
    have ho := (lexWalk_eq (cur := B) (base_ord h) (splitSlash_noslash p)).2
    rw [hN] at ho
    refine ⟨N, fun x hx => ho x (by simp [hx]), ?_⟩
    rw [destPath_eq h, hN, if_pos ⟨List.prefix_append _ _, Or.inl h0⟩]

/-- **C02.** The exact boundary: a path is accepted iff, read left to right from the directory, it ends inside it. -/
theorem C02_boundary {cfg : FCfg} {B : Path} (h : cfg.Base B) (h0 : B ≠ []) (p : Str) :
    (∃ dst, cfg.destPath p = .ok dst) ↔ B <+: lexWalk B (splitSlash p) := by
  rw [destPath_eq h]
  by_cases hc : B <+: lexWalk B (splitSlash p)
  · simp [hc, h0]
  · simp [hc]

/-- **C02 is false** for the root directory: only the root itself is accepted. -/
theorem C02_false_root {cfg : FCfg} (h : cfg.Base []) (p : Str) (hp : lexWalk [] (splitSlash p) ≠ []) :
    cfg.destPath p = .error .traversal := by
  rw [destPath_eq h, if_neg (by simp [hp])]

/-- A sink directory for examples: "/d", with a failing `Getwd`. -/
def exCfg : FCfg := ⟨[slash, 100], .error (.os 2), 0o022, fun _ => none, true, fun c _ => c⟩

theorem exCfg_base : exCfg.Base [[100]] := FCfg.Base.rooted (by rfl)

/-- The root as sink directory refuses the innocent entry "a". -/
example : StaysInside (cs ['a']) ∧ ({ exCfg with dir := [slash] } : FCfg).destPath (cs ['a']) = .error .traversal :=
  ⟨by unfold StaysInside; decide, C02_false_root (cfg := { exCfg with dir := [slash] }) (FCfg.Base.rooted (by rfl)) _ (by decide)⟩

/-- "x/./y/..//z" stays inside; "x/../../y" does not. -/
example : ∃ N, AllOrd N ∧ exCfg.destPath (cs ['x', '/', '.', '/', 'y', '/', '.', '.', '/', '/', 'z']) = .ok (pathText ([[100]] ++ N)) :=
  C02_inside_accepted_partial exCfg_base (by decide) _ (by unfold StaysInside; decide)

example : ∃ x, ((FOp.mkdir ⟨cs ['x', '/', '.', '.', '/', '.', '.', '/', 'y'], .dir, 0, 0, 0, 0, []⟩).run exCfg ⟨⟨⟨fun _ => none, fun _ => [], fun _ => 0, 0⟩, 0⟩, [], none⟩).1
    = some x ∧ x.cause = .traversal :=
  let ⟨x, a, b, _⟩ := C01_refused exCfg_base (FOp.mkdir ⟨cs ['x', '/', '.', '.', '/', '.', '.', '/', 'y'], .dir, 0, 0, 0, 0, []⟩) _ rfl (by rfl) (by
    rintro ⟨N, hN⟩
    have := congrArg List.head? hN
    exact absurd this (by simp; decide)) _
  ⟨x, a, b⟩

/-- **C03.** `Symlink` only goes ahead if the target is relative and, read from the link's own folder, ends in the sink's
directory or below; otherwise it reports path traversal and nothing changes. (Link's entry path accepted, see C01.) -/
theorem C03_target_checked {cfg : FCfg} {B : Path} (h : cfg.Base B) (e : Entry) (t : Str) (hi : shouldIgnore e.path = false)
    (N : Path) (hN : lexWalk B (splitSlash e.path) = B ++ N)
    (hbad : isAbs t = true ∨ ¬ B <+: lexWalk (B ++ N).dropLast (splitSlash t)) (s : FSink) :
    ((FOp.symlink e t).run cfg s).1 = some .traversal ∧ ((FOp.symlink e t).run cfg s).2 = s := by
  unfold FOp.run FSink.symlink
  simp only [hi, Bool.false_eq_true, if_false]
  cases hd : cfg.destPath e.path with
  | error x =>
    rw [destPath_eq h] at hd
    split at hd
    · cases hd
    · cases hd; simp
  | ok dst =>
    obtain ⟨N', h1, h2, h3, h4⟩ := destPath_ok h hd
    have hNN : N' = N := by rw [hN] at h4; exact (List.append_cancel_left h4).symm
    subst hNN
    have ho : AllOrd (B ++ N').dropLast := by
      intro x hx
      have hx := List.dropLast_subset _ hx
      rcases List.mem_append.mp hx with hx | hx
      · exact base_ord h x hx
      · exact h1 x hx
    have hdir : dirPath dst = pathText (B ++ N').dropLast := by unfold dirPath; rw [h3]; rfl
    simp only [base_abs h]
    by_cases ha : isAbs t = true
    · simp [ha]
    · have hb := hbad.resolve_left ha
      simp only [ha, Bool.false_eq_true, if_false, hdir, abs_join ho]
      have hw : within (pathText B) (pathText (lexWalk (B ++ N').dropLast (splitSlash t))) = false := by
        cases hx : within (pathText B) (pathText (lexWalk (B ++ N').dropLast (splitSlash t))) with
        | false => rfl
        | true => exact absurd ((within_iff (base_ord h) (lexWalk_eq ho (splitSlash_noslash t)).2).mp hx).1 hb
      simp [hw]

/-- "../x" as the target of a link in the sink's directory itself is refused; as the target of "a/l" it is not. -/
example : ((FOp.symlink ⟨cs ['l'], .symlink, 0, 0, 0, 0, []⟩ (cs ['.', '.', '/', 'x'])).run exCfg ⟨⟨⟨fun _ => none, fun _ => [], fun _ => 0, 0⟩, 0⟩, [], none⟩).1
    = some .traversal :=
  (C03_target_checked exCfg_base ⟨cs ['l'], .symlink, 0, 0, 0, 0, []⟩ (cs ['.', '.', '/', 'x']) (by rfl) [cs ['l']] (by rfl)
    (Or.inr (by decide)) _).1

/-- **C06.** An entry whose last element is "Icon\r": every operation succeeds without touching the filesystem or any other
writer, and so does every write to the writer returned. -/
theorem C06_ignored (cfg : FCfg) (op : FOp) (e : Entry) (he : op.entry = some e) (hi : pathBase e.path = iconName) (s : FSink) :
    (op.run cfg s).1 = none ∧ (op.run cfg s).2.os = s.os ∧ (op.run cfg s).2.reg = s.reg ∧
    ((op.run cfg s).2.ws = s.ws ∨ ((op.run cfg s).2.ws = s.ws ++ [.nop] ∧
      ∀ bs s', s'.ws[s.ws.length]? = some .nop → (FOp.write s.ws.length bs).run cfg s' = (none, s'))) := by
  have hi : shouldIgnore e.path = true := by simp [shouldIgnore, hi]
  cases op with
  | mkdir e' => cases he; simp [FOp.run, FSink.mkdir, hi]
  | symlink e' t => cases he; simp [FOp.run, FSink.symlink, hi]
  | prealloc e' => cases he; simp [FOp.run, FSink.preallocate, hi]
  | getWriter e' =>
    cases he
    simp [FOp.run, FSink.getWriter, hi]
    intro bs s' h
    simp [FSink.writeAt, h]
  | _ => cases he

example : pathBase (cs ['a', '/', 'I', 'c', 'o', 'n', '\r', '/']) = iconName := by rfl

/-- **C40.** If opening a zip succeeds, with or without backslash normalisation, the members' names are the stored names with
backslashes replaced by slashes; they contain no backslash, and those that are not empty are relative, never climb above
their start, and are accepted by `FolderSink` for any directory other than the root. -/
theorem C40_names {norm : Bool} {stored names : List Str} (h : zipOpenNames norm stored = .ok names) :
    names = stored.map unbackslash ∧ (norm = false → names = stored) ∧
    ∀ n ∈ names, backslash ∉ n ∧ (n ≠ [] → isAbs n = false ∧ StaysInside n) ∧
      ∀ (cfg : FCfg) (B : Path), cfg.Base B → B ≠ [] → ∃ dst, cfg.destPath n = .ok dst := by
  obtain ⟨h1, h2⟩ := zipOpenNames_spec h
  refine ⟨h1, ?_, fun n hn => ?_⟩
  · intro hf
    subst hf
    unfold zipOpenNames at h
    split at h
    · cases h; rfl
    · cases h
  · obtain ⟨hb, hl⟩ := h2 n hn
    refine ⟨hb, fun h0 => ?_, fun cfg B hB h0 => ?_⟩
    · have := isLocal_spec (hl.resolve_left h0)
      exact ⟨this.1, this.2.2⟩
    · have hs : StaysInside n := by
        rcases hl with rfl | hl
        · unfold StaysInside; decide
        · exact (isLocal_spec hl).2.2
      obtain ⟨N, _, hN⟩ := C02_inside_accepted_partial hB h0 n hs
      exact ⟨_, hN⟩

/-- **C40.** Without normalisation a name with a backslash, an absolute name or one that climbs out makes opening fail. -/
theorem C40_rejects {stored : List Str} {n : Str} (hn : n ∈ stored) (h0 : n ≠ []) (hbad : backslash ∈ n ∨ isAbs n = true ∨ ¬ StaysInside n) :
    zipOpenNames false stored = .error (.wrapped .insecurePath) := by
  unfold zipOpenNames
  have : stored.all zipNameSecure = false := by
    rw [List.all_eq_false]
    refine ⟨n, hn, ?_⟩
    simp only [zipNameSecure, h0, decide_false, Bool.false_or, Bool.and_eq_true, Bool.not_eq_true', List.contains_eq_mem,
      decide_eq_false_iff_not, not_and, Classical.not_not]
    intro hl
    have := isLocal_spec hl
    rcases hbad with hb | hb | hb
    · exact hb
    · rw [this.1] at hb; cases hb
    · exact absurd this.2.2 hb
  simp [this]

example : zipOpenNames true [cs ['d', '\\', 's', '\\', 'f'], []] = .ok [cs ['d', '/', 's', '/', 'f'], []] := by rfl
example : zipOpenNames true [cs ['.', '.', '\\', 'f']] = .error (.wrapped .insecurePath) := by rfl

/-- C01 applied: "x/../y" acts on "y". -/
example (s : FSink) : (FOp.mkdir ⟨cs ['x', '/', '.', '.', '/', 'y'], .dir, 0, 0, 0, 0, []⟩).run exCfg s =
    (FOp.mkdir ⟨cs ['y'], .dir, 0, 0, 0, 0, []⟩).run exCfg s :=
  C01_acts_on exCfg_base (FOp.mkdir ⟨cs ['x', '/', '.', '.', '/', 'y'], .dir, 0, 0, 0, 0, []⟩) _ rfl (by rfl) [cs ['y']] (by intro c h; simp only [List.mem_singleton] at h; subst h; unfold Ordinary; decide) (by rfl) (by rfl) s

/-- C02 applied, both ways. -/
example : (∃ dst, exCfg.destPath (cs ['x', '/', '.', '.', '/', 'y']) = .ok dst) ∧ ¬ ∃ dst, exCfg.destPath (cs ['.', '.', '/', 'y']) = .ok dst := by
  refine ⟨(C02_boundary exCfg_base (by decide) _).2 (by decide), fun h => ?_⟩
  exact absurd ((C02_boundary exCfg_base (by decide) _).1 h) (by decide)

/-- C06 applied: a file "a/Icon\r" is given a writer that writes nothing. -/
example (s : FSink) : ((FOp.mkdir ⟨cs ['a', '/', 'I', 'c', 'o', 'n', '\r'], .dir, 0, 0, 0, 0, []⟩).run exCfg s).2.os = s.os :=
  (C06_ignored exCfg (FOp.mkdir ⟨cs ['a', '/', 'I', 'c', 'o', 'n', '\r'], .dir, 0, 0, 0, 0, []⟩) _ rfl (by rfl) s).2.1

/-- C40 applied: an absolute name makes opening fail; the accepted ones stay inside. -/
example : zipOpenNames false [cs ['a'], cs ['/', 'b']] = .error (.wrapped .insecurePath) :=
  C40_rejects (n := cs ['/', 'b']) (by simp) (by decide) (Or.inr (Or.inl (by rfl)))

example : StaysInside (cs ['d', '/', 's']) :=
  ((C40_names (norm := true) (stored := [cs ['d', '\\', 's']]) (names := [cs ['d', '/', 's']]) (by rfl)).2.2 _ (by simp)).2.1 (by decide) |>.2

end Savior
