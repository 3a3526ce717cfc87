import Verif.FolderMore
import Verif.FolderModes
import Verif.Props.Dest
/-!
# Properties of FolderSink's file operations (C07, C08, C10, C13)
-/

namespace Savior
open FSink

/-- **C07.** Opening at `WriteOffset` and writing any chunks, even if some writes fail half-way: the file holds its first
`WriteOffset` old bytes (zero padded), then exactly the bytes reported written; `WriteOffset` advances by their number. No
other file's bytes and no other node change, except for missing parent folders created by the opening; writing changes no
node at all. -/
theorem C07_writer {cfg : FCfg} {B : Path} (hB : cfg.Base B) (e : Entry) (hi : shouldIgnore e.path = false) (s : FSink)
    (ht : s.os.fs.Tree) (h : (s.getWriter cfg e).1 = none) (chunks : List (List Byte)) :
    let s1 := (s.getWriter cfg e).2
    let r := writeMany cfg s.ws.length chunks s1
    0 ≤ e.woff ∧
    r.2.os.fs.content (entryPlace B e) =
      some (resize ((s.os.fs.content (entryPlace B e)).getD []) e.woff.toNat ++ r.1.1) ∧
    r.1.2 = (r.1.1.length : Int) ∧
    r.2.os.fs.nodes = s1.os.fs.nodes ∧
    ∃ q i, s1.os.fs.lstat (entryPlace B e) = .found q (.file i) ∧ OnlyAt q s.os.fs s1.os.fs ∧
      ∀ j, j ≠ i → r.2.os.fs.data j = s.os.fs.data j := by
  obtain ⟨P, q, i, fs1, rfl, ho, hw, h1, h2, h3, h4⟩ := getWriter_spec hB hi ht h
  simp only
  generalize (s.getWriter cfg e).2 = s1 at *
  have hd : s1.os.fs.data i = resize (fs1.data i) e.woff.toNat := by rw [h1, FS.setData_data]
  obtain ⟨w1, w2, w3⟩ := writeMany_spec cfg s.ws.length i chunks s1 e.woff.toNat h3 (by rw [hd, resize_length])
  have hn : (writeMany cfg s.ws.length chunks s1).2.os.fs.nodes = s1.os.fs.nodes := by rw [w1]; rfl
  have hn1 : s1.os.fs.nodes = fs1.nodes := by rw [h1]; rfl
  have hl1 : s1.os.fs.lstat (entryPlace B e) = .found q (.file i) := by rw [FS.lstat_congr hn1]; exact ho.here
  refine ⟨hw, ?_, w2, hn, q, i, hl1, ?_, ?_⟩
  · rw [FS.content_found (q := q) (i := i) (by rw [FS.lstat_congr hn]; exact hl1), w1, FS.setData_data, hd]
    have : fs1.data i = (s.os.fs.content (entryPlace B e)).getD [] := by
      rcases ho.kind with ⟨a, b, _⟩ | ⟨a, b, c, d⟩
      · unfold entryPlace; rw [FS.content_found a, b]; rfl
      · rw [c]
        have : s.os.fs.content (entryPlace B e) = none := by
          unfold FS.content entryPlace
          rcases d with ⟨t, d, _⟩ | ⟨d, _⟩
          · rw [d]
          · cases hx : s.os.fs.lstat (lexWalk B (splitSlash e.path)) with
            | found r n => exact absurd hx (d r n)
            | absent r => rfl
            | bad x => rfl
        rw [this]; rfl
    rw [this]
  · intro p hp; rw [hn1]; exact ho.other p hp
  · intro j hj
    rw [w1]
    simp only [FS.setData, hj, if_false]
    rw [h1]
    simp only [FS.setData, hj, if_false]
    exact ho.data j hj

/-- **C08** (links). If the entry's place holds a symbolic link and opening succeeds, the link has been replaced, in its
folder, by a new regular file; no existing file's bytes have been changed, so nothing was written through the link. -/
theorem C08_link_replaced_partial {cfg : FCfg} {B : Path} (hB : cfg.Base B) (e : Entry) (hi : shouldIgnore e.path = false) (s : FSink)
    (ht : s.os.fs.Tree) (op : FOp) (hop : op = .getWriter e ∨ op = .prealloc e) {q : Path} {t : Str}
    (hlink : s.os.fs.lstat (entryPlace B e) = .found q (.link t)) (h : (op.run cfg s).1 = none) :
    ∃ i, i = s.os.fs.next ∧ (op.run cfg s).2.os.fs.lstat (entryPlace B e) = .found q (.file i) ∧
      (∀ p, p ≠ q → (op.run cfg s).2.os.fs.nodes p = s.os.fs.nodes p ∨ (s.os.fs.nodes p = none ∧ (op.run cfg s).2.os.fs.nodes p = some .dir)) ∧
      (∀ j, j ≠ i → (op.run cfg s).2.os.fs.data j = s.os.fs.data j) := by
  have main : ∃ P q' i fs1 c, P = entryPlace B e ∧ Opened cfg e P q' i s.os.fs fs1 ∧ (op.run cfg s).2.os.fs = fs1.setData i c := by
    rcases hop with rfl | rfl
    · obtain ⟨P, q', i, fs1, rfl, ho, _, h1, _⟩ := getWriter_spec hB hi ht h
      exact ⟨_, q', i, fs1, _, rfl, ho, h1⟩
    · obtain ⟨P, q', i, fs1, c, rfl, ho, h1, _⟩ := preallocate_spec hB hi ht h
      exact ⟨_, q', i, fs1, c, rfl, ho, h1⟩
  obtain ⟨P, q', i, fs1, c, rfl, ho, h1⟩ := main
  have hx : i = s.os.fs.next ∧ q' = q := by
    rcases ho.kind with ⟨a, _⟩ | ⟨a, b, _, ⟨t', d, _⟩ | ⟨d, _⟩⟩
    · rw [hlink] at a; cases a
    · rw [hlink] at d; cases d; exact ⟨a, rfl⟩
    · exact absurd hlink (d _ _)
  obtain ⟨hx, rfl⟩ := hx
  refine ⟨i, hx, ?_, ?_, ?_⟩
  · rw [h1]; exact ho.here
  · intro p hp; rw [h1]; exact ho.other p hp
  · intro j hj; rw [h1]; simp only [FS.setData, hj, if_false]; exact ho.data j hj

/-- **C08 is false for folders.** With a folder at the entry's place, opening always fails (with EISDIR unless the system
call fails for reasons of its own) and the folder stays. -/
theorem C08_false_folder {cfg : FCfg} {B : Path} (hB : cfg.Base B) (e : Entry) (hi : shouldIgnore e.path = false) (s : FSink)
    (op : FOp) (hop : op = .getWriter e ∨ op = .prealloc e) {q : Path} (hdir : s.os.fs.lstat (entryPlace B e) = .found q .dir) :
    ∃ x, (op.run cfg s).1 = some x ∧ (op.run cfg s).2.os.fs = s.os.fs ∧
      (cfg.flt s.os.tick = none → B ≠ [] → B <+: entryPlace B e → x.cause = EISDIR) := by
  obtain ⟨x, h1, h2, h3⟩ := createFile_dir hB hdir
  rcases hop with rfl | rfl
  · refine ⟨.wrapped x, ?_, ?_, h3⟩
    · simp [FOp.run, getWriter, hi, h1]
    · simp [FOp.run, getWriter, hi, h1, h2]
  · refine ⟨.wrapped x, ?_, ?_, h3⟩
    · simp [FOp.run, preallocate, hi, h1]
    · simp [FOp.run, preallocate, hi, h1, h2]

/-- **C10.** The permissions of an opened file: all bits of `Mode|0666` if something was there before, all of them but the
umask's otherwise. -/
theorem C10_permissions {cfg : FCfg} {B : Path} (hB : cfg.Base B) (e : Entry) (hi : shouldIgnore e.path = false) (s : FSink)
    (ht : s.os.fs.Tree) (op : FOp) (hop : op = .getWriter e ∨ op = .prealloc e) (h : (op.run cfg s).1 = none) :
    ∃ m, (op.run cfg s).2.os.fs.modeOf (entryPlace B e) = some m ∧
      (¬ s.os.fs.Missing (entryPlace B e) → ∀ b, b < 9 → (e.mode.testBit b = true ∨ (0o666 : Nat).testBit b = true) → m.testBit b = true) ∧
      (∀ b, b < 9 → (e.mode.testBit b = true ∨ (0o666 : Nat).testBit b = true) → cfg.umask.testBit b = false → m.testBit b = true) ∧
      (cfg.umask &&& 0o755 = 0 ∨ ¬ s.os.fs.Missing (entryPlace B e) → m &&& 0o644 = 0o644) := by
  have main : ∃ P q' i fs1 c, P = entryPlace B e ∧ Opened cfg e P q' i s.os.fs fs1 ∧ (op.run cfg s).2.os.fs = fs1.setData i c := by
    rcases hop with rfl | rfl
    · obtain ⟨P, q', i, fs1, rfl, ho, _, h1, _⟩ := getWriter_spec hB hi ht h
      exact ⟨_, q', i, fs1, _, rfl, ho, h1⟩
    · obtain ⟨P, q', i, fs1, c, rfl, ho, h1, _⟩ := preallocate_spec hB hi ht h
      exact ⟨_, q', i, fs1, c, rfl, ho, h1⟩
  obtain ⟨P, q', i, fs1, c, rfl, ho, h1⟩ := main
  have hbit : ∀ b, b < 9 → (e.mode.testBit b = true ∨ (0o666 : Nat).testBit b = true) → (fileMode e).testBit b = true := by
    intro b hb hm
    rw [fileMode_want, wantPerm_low _ hb]
    rcases hm with hm | hm <;> simp [hm]
  have h644 : ∀ m : Nat, (∀ b, b < 9 → (0o644 : Nat).testBit b = true → m.testBit b = true) → m &&& 0o644 = 0o644 := by
    intro m hm
    apply Nat.eq_of_testBit_eq
    intro b
    rw [Nat.testBit_and]
    by_cases hb : b < 9
    · cases hx : (0o644 : Nat).testBit b with
      | false => simp
      | true => simp [hm b hb hx]
    · have : (0o644 : Nat).testBit b = false := Nat.testBit_lt_two_pow (Nat.lt_of_lt_of_le (by decide : 0o644 < 2 ^ 9) (Nat.pow_le_pow_right (by decide) (by omega)))
      simp [this]
  have hsub : ∀ b, b < 9 → (0o644 : Nat).testBit b = true → (0o666 : Nat).testBit b = true := by decide
  have hmode : (op.run cfg s).2.os.fs.modeOf (entryPlace B e) = some (fs1.mode i) := by
    rw [h1]; exact FS.modeOf_found (fs := fs1.setData i c) ho.here
  refine ⟨fs1.mode i, hmode, ?_⟩
  have hcases : fs1.mode i = fileMode e ∨ (s.os.fs.Missing (entryPlace B e) ∧ fs1.mode i = fileMode e ^^^ (fileMode e &&& cfg.umask)) := by
    rcases ho.kind with ⟨_, _, _, a, _⟩ | ⟨_, _, _, ⟨t, _, a⟩ | ⟨d, _, a⟩⟩
    · exact Or.inl a
    · exact Or.inl a
    · exact Or.inr ⟨d, a⟩
  rcases hcases with hm | ⟨hmis, hm⟩
  · rw [hm]
    exact ⟨fun _ => hbit, fun b hb h _ => hbit b hb h, fun _ => h644 _ fun b hb hx => hbit b hb (Or.inr (hsub b hb hx))⟩
  · have hx : ∀ b, b < 9 → (e.mode.testBit b = true ∨ (0o666 : Nat).testBit b = true) → cfg.umask.testBit b = false → (fs1.mode i).testBit b = true := by
      intro b hb h hu
      rw [hm, Nat.testBit_xor, Nat.testBit_and, hbit b hb h, hu]; rfl
    refine ⟨fun h => absurd hmis h, hx, ?_⟩
    rintro (hu | h)
    · refine h644 _ fun b hb h6 => hx b hb (Or.inr (hsub b hb h6)) ?_
      have h7 : (0o755 : Nat).testBit b = true := by
        have : ∀ b < 9, (0o644 : Nat).testBit b = true → (0o755 : Nat).testBit b = true := by decide
        exact this b hb h6
      have := congrArg (fun n => Nat.testBit n b) hu
      simpa [Nat.testBit_and, h7] using this
    · exact absurd hmis h

/-- **C13.** A successful built-in preallocation leaves the old bytes and pads with zeros to `UncompressedSize`; it never
shrinks. -/
theorem C13_preallocate {cfg : FCfg} {B : Path} (hB : cfg.Base B) (hl : cfg.legacy = true) (e : Entry) (hi : shouldIgnore e.path = false)
    (s : FSink) (ht : s.os.fs.Tree) (h : (s.preallocate cfg e).1 = none) :
    (s.preallocate cfg e).2.os.fs.content (entryPlace B e) =
      some ((s.os.fs.content (entryPlace B e)).getD [] ++
        List.replicate (e.usize - ((s.os.fs.content (entryPlace B e)).getD []).length).toNat 0) := by
  obtain ⟨P, q, i, fs1, c, rfl, ho, h1, _, _, h2⟩ := preallocate_spec hB hi ht h
  have : fs1.data i = (s.os.fs.content (entryPlace B e)).getD [] := by
    rcases ho.kind with ⟨a, b, _⟩ | ⟨a, b, c, d⟩
    · unfold entryPlace; rw [FS.content_found a, b]; rfl
    · rw [c]
      have : s.os.fs.content (entryPlace B e) = none := by
        unfold FS.content entryPlace
        rcases d with ⟨t, d, _⟩ | ⟨d, _⟩
        · rw [d]
        · cases hx : s.os.fs.lstat (lexWalk B (splitSlash e.path)) with
          | found r n => exact absurd hx (d r n)
          | absent r => rfl
          | bad x => rfl
      rw [this]; rfl
  rw [FS.content_found (q := q) (i := i) (by rw [h1]; exact ho.here), h1, FS.setData_data, h2 hl, this]

/-- **C13.** Even if preallocating an existing file fails, its bytes stay; at most zeros, up to the size, were appended. -/
theorem C13_failure {cfg : FCfg} {B : Path} (hB : cfg.Base B) (hl : cfg.legacy = true) (e : Entry) (s : FSink) (c : List Byte)
    (hc : s.os.fs.content (entryPlace B e) = some c) :
    ∃ k, (s.preallocate cfg e).2.os.fs.content (entryPlace B e) = some (c ++ List.replicate k 0) ∧ (k = 0 ∨ (c.length : Int) + k ≤ e.usize) := by
  unfold FS.content entryPlace at hc
  cases hx : s.os.fs.lstat (lexWalk B (splitSlash e.path)) with
  | absent _ => rw [hx] at hc; cases hc
  | bad _ => rw [hx] at hc; cases hc
  | found q n =>
    cases n with
    | dir => rw [hx] at hc; cases hc
    | link t => rw [hx] at hc; cases hc
    | file i =>
      rw [hx] at hc
      simp only [Option.some.injEq] at hc
      obtain ⟨h1, h2, h3, h4, h5⟩ := createFile_existing (cfg := cfg) hB hx
      unfold preallocate
      cases hi : shouldIgnore e.path with
      | true => exact ⟨0, by simp only [if_true, List.replicate_zero, List.append_nil]; unfold entryPlace; rw [FS.content_found hx, hc], Or.inl rfl⟩
      | false =>
        simp only [Bool.false_eq_true, if_false]
        cases hcf : createFile cfg e s.os with
        | mk c1 c2 =>
          rw [hcf] at h1 h2 h5
          simp only at h1 h2 h5
          have hl2 : c2.fs.lstat (entryPlace B e) = .found q (.file i) := by rw [FS.lstat_congr h1]; exact hx
          cases c1 with
          | error x => exact ⟨0, by simp only [List.replicate_zero, List.append_nil]; rw [FS.content_found hl2, h2, hc], Or.inl rfl⟩
          | ok j =>
            have := h5 j rfl
            subst this
            simp only [quietCall_fs, hl, if_true]
            split
            · obtain ⟨k, k1, k2, _⟩ := legacy_cases cfg j e.usize c2
              refine ⟨k, ?_, ?_⟩
              · rw [FS.content_found (q := q) (i := j) (by rw [k1]; exact hl2), k1, FS.setData_data, h2, hc]
              · rw [h2, hc] at k2; exact k2
            · exact ⟨0, by simp only [List.replicate_zero, List.append_nil]; rw [FS.content_found hl2, h2, hc], Or.inl rfl⟩

/-! ### These situations exist -/

/-- A filesystem with the folder "/d" and one node in it. -/
def exFS (c : Str) (n : Node) (bs : List Byte) : FS :=
  ⟨fun p => if p = [] ∨ p = [[100]] then some .dir else if p = [[100], c] then some n else none,
   fun i => if i = 0 then bs else [], fun _ => 0o600, 1⟩

def exSink (fs : FS) : FSink := ⟨⟨fs, 0⟩, [], none⟩

theorem exFS_tree (c : Str) (n : Node) (bs : List Byte) : (exFS c n bs).Tree := by
  refine ⟨by simp [exFS], ?_⟩
  intro p x h
  simp only [exFS] at h ⊢
  by_cases h0 : p = [] ∨ p = [[100]]
  · simp [h0]
  · exfalso
    simp only [not_or] at h0
    have e1 : p ++ [x] ≠ [] := by simp
    have e2 : p ++ [x] ≠ [[100]] := by
      intro e
      cases p with
      | nil => exact h0.1 rfl
      | cons a l => simp at e
    have e3 : p ++ [x] ≠ [[100], c] := by
      intro e
      have : p ++ [x] = [[100]] ++ [c] := e
      exact h0.2 (List.append_inj' this rfl).1
    simp [e1, e2, e3] at h

/-- Resuming a file "f" of 4 bytes at offset 2, with two writes. -/
def exFile : Entry := ⟨cs ['f'], .file, 0o600, 0, 8, 2, []⟩

example : ((exSink (exFS (cs ['f']) (.file 0) [1, 2, 3, 4])).getWriter exCfg exFile).1 = none ∧
    (writeMany exCfg 0 [[7], [8, 9]] ((exSink (exFS (cs ['f']) (.file 0) [1, 2, 3, 4])).getWriter exCfg exFile).2).2.os.fs.content [[100], cs ['f']]
      = some [1, 2, 7, 8, 9] := ⟨by rfl, by rfl⟩

/-- A link to "/etc/passwd"-like outside file is replaced. -/
example : ((FOp.getWriter { exFile with woff := 0 }).run exCfg (exSink (exFS (cs ['f']) (.link (cs ['/', 'e'])) []))).1 = none ∧
    (exFS (cs ['f']) (.link (cs ['/', 'e'])) []).lstat (entryPlace [[100]] exFile) = .found [[100], cs ['f']] (.link (cs ['/', 'e'])) := ⟨by rfl, by rfl⟩

/-- A folder in the way. -/
example : ((FOp.getWriter exFile).run exCfg (exSink (exFS (cs ['f']) .dir []))).1 = some (.wrapped (.wrapped EISDIR)) := by rfl

/-- Preallocating 4 bytes to 8. -/
example : ((exSink (exFS (cs ['f']) (.file 0) [1, 2, 3, 4])).preallocate exCfg exFile).1 = none ∧
    ((exSink (exFS (cs ['f']) (.file 0) [1, 2, 3, 4])).preallocate exCfg exFile).2.os.fs.content [[100], cs ['f']] = some [1, 2, 3, 4, 0, 0, 0, 0] :=
  ⟨by rfl, by rfl⟩

end Savior
