import Verif.Spec.Bystander
import Verif.ModeChains
/-!
# Extractions leave bystanders alone
-/

namespace Savior
open FSink

/-- No inode is given away twice: files are where they were or have new inodes. -/
def Newer (fs fs' : FS) : Prop := fs.next ≤ fs'.next ∧ ∀ L i, fs'.nodes L = some (.file i) → fs.nodes L = some (.file i) ∨ fs.next ≤ i

theorem Newer.refl (fs : FS) : Newer fs fs := ⟨Nat.le_refl _, fun _ _ h => Or.inl h⟩

theorem Newer.trans {a b c : FS} (h : Newer a b) (k : Newer b c) : Newer a c := by
  refine ⟨Nat.le_trans h.1 k.1, fun L i hi => ?_⟩
  rcases k.2 L i hi with g | g
  · exact h.2 L i g
  · exact Or.inr (Nat.le_trans h.1 g)

theorem Newer.same {a b c : FS} (h : Newer a b) (hn : c.nodes = b.nodes) (hx : c.next = b.next) : Newer a c :=
  ⟨by rw [hx]; exact h.1, fun L i hi => h.2 L i (by rw [← hn]; exact hi)⟩

theorem Newer.fewer {a b : FS} (h : ∀ L i, b.nodes L = some (.file i) → a.nodes L = some (.file i)) (hx : b.next = a.next) : Newer a b :=
  ⟨by rw [hx]; exact Nat.le_refl _, fun L i hi => Or.inl (h L i hi)⟩

theorem mkdirAll_newer (flt : Faults) (p : Path) (s : OS) (ht : s.fs.Tree) : Newer s.fs (s.mkdirAll flt p).2.fs := by
  obtain ⟨g, _⟩ := OS.mkdirAll_spec flt p s ht
  exact .fewer (Fewer.grown g).2 g.next

theorem removeAll_newer (flt : Faults) (p : Path) (s : OS) : Newer s.fs (s.removeAll flt p).2.fs := by
  refine .fewer (removeAll_fewer flt p s).2 ?_
  rcases OS.removeAll_cases flt p s with ⟨h, _⟩ | ⟨q, n, rm, _, _, h0, h⟩ | ⟨q, n, _, h0, _, h⟩ <;> rw [h] <;> rfl

theorem open_newer (flt : Faults) (um : Nat) (p : Path) (m : Nat) (s : OS) : Newer s.fs (s.openCreate flt um p m).2.fs := by
  rcases OS.openCreate_cases flt um p m s with ⟨e, _, h⟩ | ⟨q, i, _, _, h⟩ | ⟨q, _, _, h⟩
  · rw [h]; exact .refl _
  · rw [h]; exact .refl _
  · rw [h]
    refine ⟨Nat.le_succ _, fun L i hi => ?_⟩
    by_cases e : L = q
    · subst e
      simp [FS.create] at hi
      exact Or.inr (Nat.le_of_eq hi)
    · exact Or.inl (by simpa [FS.create, e] using hi)

theorem createFile_newer (cfg : FCfg) (e : Entry) (s : OS) (ht : s.fs.Tree) : Newer s.fs (createFile cfg e s).2.fs := by
  unfold createFile
  split
  · exact .refl _
  rename_i dst _
  simp only
  have hm := mkdirAll_newer cfg.flt (names dst).dropLast s ht
  generalize s.mkdirAll cfg.flt (names dst).dropLast = m at *
  obtain ⟨me, M⟩ := m
  cases me with
  | some x => exact hm
  | none =>
    simp only at hm ⊢
    have key : ∀ (r : Option Err × OS) (chm : WR), Newer s.fs r.2.fs → Newer s.fs (match r.1 with
      | some x => (Except.error (Err.wrapped x), r.2)
      | none =>
        match (r.2.openCreate cfg.flt cfg.umask (names dst) (fileMode e)).1 with
        | .error x => (.error (.wrapped x), (r.2.openCreate cfg.flt cfg.umask (names dst) (fileMode e)).2)
        | .ok i =>
          match chm with
          | .found _ _ =>
            match ((r.2.openCreate cfg.flt cfg.umask (names dst) (fileMode e)).2.chmod cfg.flt i (fileMode e)).1 with
            | some x => (.error (.wrapped x), ((r.2.openCreate cfg.flt cfg.umask (names dst) (fileMode e)).2.chmod cfg.flt i (fileMode e)).2)
            | none => (.ok i, ((r.2.openCreate cfg.flt cfg.umask (names dst) (fileMode e)).2.chmod cfg.flt i (fileMode e)).2)
          | _ => (.ok i, (r.2.openCreate cfg.flt cfg.umask (names dst) (fileMode e)).2) : Except Err Nat × OS).2.fs := by
      rintro ⟨re, R⟩ chm hr
      cases re with
      | some x => exact hr
      | none =>
        simp only at hr ⊢
        have ho := hr.trans (open_newer cfg.flt cfg.umask (names dst) (fileMode e) R)
        generalize R.openCreate cfg.flt cfg.umask (names dst) (fileMode e) = o at *
        obtain ⟨oe, O⟩ := o
        cases oe with
        | error x => exact ho
        | ok i =>
          simp only at ho ⊢
          have hc : Newer s.fs (O.chmod cfg.flt i (fileMode e)).2.fs := by
            rcases chmod_cases cfg.flt i (fileMode e) O with ⟨x, _, c2⟩ | ⟨_, c2⟩
            · rw [c2]; exact ho
            · rw [c2]; exact ho.same rfl rfl
          generalize O.chmod cfg.flt i (fileMode e) = c at *
          obtain ⟨ce, C⟩ := c
          cases chm with
          | found q n => cases ce <;> exact hc
          | absent q => exact ho
          | bad x => exact ho
    cases hl : M.fs.lstat (names dst) with
    | absent q => exact key (none, M) (.absent q) hm
    | bad x => exact key (none, M) (.bad x) hm
    | found q n =>
      cases n with
      | dir => exact key (none, M) (.found q .dir) hm
      | file i => exact key (none, M) (.found q (.file i)) hm
      | link t => exact key (M.removeAll cfg.flt (names dst)) (.found q (.link t)) (hm.trans (removeAll_newer _ _ _))

theorem mkdir_newer (cfg : FCfg) (e : Entry) (s : FSink) (ht : s.os.fs.Tree) : Newer s.os.fs (s.mkdir cfg e).2.os.fs := by
  unfold mkdir
  split
  · exact .refl _
  split
  · exact .refl _
  simp only
  split
  · exact .refl _
  · rename_i dst _ _ q n hnd hf
    have hr : Newer s.os.fs (s.os.remove cfg.flt (names dst)).2.fs ∧ (s.os.remove cfg.flt (names dst)).2.fs.Tree := by
      refine ⟨.fewer (remove_fewer cfg.flt _ s.os).2 ?_, remove_tree _ _ _ ht⟩
      rcases OS.remove_cases cfg.flt (names dst) s.os with ⟨e, _, h⟩ | ⟨q, n, _, _, _, h⟩ <;> rw [h] <;> rfl
    generalize s.os.remove cfg.flt (names dst) = r at *
    obtain ⟨re, R⟩ := r
    cases re with
    | some x => exact hr.1
    | none => exact hr.1.trans (mkdirAll_newer _ _ _ hr.2)
  · exact mkdirAll_newer _ _ _ ht

theorem symlink_newer (cfg : FCfg) (e : Entry) (t : Str) (s : FSink) (ht : s.os.fs.Tree) : Newer s.os.fs (s.symlink cfg e t).2.os.fs := by
  unfold symlink
  split
  · exact .refl _
  split
  · exact .refl _
  split
  · exact .refl _
  split
  · exact .refl _
  split
  · exact .refl _
  split
  · exact .refl _
  simp only
  rename_i dst _ _ _ _ _ _ _ _ _
  have hr := removeAll_newer cfg.flt (names dst) s.os
  have hrt := OS.removeAll_tree cfg.flt (names dst) s.os ht
  generalize s.os.removeAll cfg.flt (names dst) = r at *
  obtain ⟨re, R⟩ := r
  cases re with
  | some x => exact hr
  | none =>
    simp only at hr hrt ⊢
    have hm := hr.trans (mkdirAll_newer cfg.flt (names dst).dropLast R hrt)
    generalize R.mkdirAll cfg.flt (names dst).dropLast = m at *
    obtain ⟨me, M⟩ := m
    cases me with
    | some x => exact hm
    | none =>
      simp only at hm ⊢
      rcases OS.symlink1_cases cfg.flt t (names dst) M with ⟨x, _, l2⟩ | ⟨q, _, _, _, l2⟩
      · rw [l2]; exact hm
      · rw [l2]; exact hm.trans (.fewer (Fewer.put (by simp)).2 rfl)

theorem preallocate_newer (cfg : FCfg) (e : Entry) (s : FSink) (ht : s.os.fs.Tree) : Newer s.os.fs (s.preallocate cfg e).2.os.fs := by
  unfold preallocate
  split
  · exact .refl _
  simp only
  have hc := createFile_newer cfg e s.os ht
  generalize createFile cfg e s.os = c at *
  obtain ⟨ce, C⟩ := c
  cases ce with
  | error x => exact hc
  | ok i =>
    simp only at hc ⊢
    rw [quietCall_fs]
    split
    · split
      · obtain ⟨k, hf, _⟩ := legacy_cases cfg i e.usize C
        rw [hf]; exact hc.same rfl rfl
      · rcases ox_cases cfg i e.usize C with ⟨hf, _⟩ | ⟨hf, _⟩
        · rw [hf]; exact hc
        · rw [hf]; exact hc.same rfl rfl
    · exact hc

/-- All writers' inodes are taken, and none is that of the file at `L`. -/
def Clear (L : Path) (s : FSink) : Prop := ∀ i p o, Wr.real i p o ∈ s.ws → i < s.os.fs.next ∧ s.os.fs.nodes L ≠ some (.file i)

theorem Clear.step {L : Path} {s s' : FSink} (h : Clear L s) (hn : Newer s.os.fs s'.os.fs) (hw : ∀ i p o, Wr.real i p o ∈ s'.ws → ∃ p' o', Wr.real i p' o' ∈ s.ws) : Clear L s' := by
  intro i p o hm
  obtain ⟨p', o', hm'⟩ := hw i p o hm
  obtain ⟨a, b⟩ := h i p' o' hm'
  refine ⟨Nat.lt_of_lt_of_le a hn.1, fun hL => ?_⟩
  rcases hn.2 L i hL with g | g
  · exact b g
  · omega

theorem set_writers {l : List Wr} {k i p p' : Nat} {o' : Bool} {q : Bool} (hk : l[k]? = some (.real i p q)) : ∀ j x y, Wr.real j x y ∈ l.set k (.real i p' o') → ∃ x' y', Wr.real j x' y' ∈ l := by
  intro j x y hm
  rcases List.mem_or_eq_of_mem_set hm with h | h
  · exact ⟨x, y, h⟩
  · simp only [Wr.real.injEq] at h
    rw [h.1]
    exact ⟨p, q, List.mem_of_getElem? hk⟩

theorem closeAt_writers (cfg : FCfg) (k : Nat) (s : FSink) : ∀ j x y, Wr.real j x y ∈ (s.closeAt cfg k).2.ws → ∃ x' y', Wr.real j x' y' ∈ s.ws := by
  intro j x y hm
  unfold closeAt at hm
  split at hm
  · rename_i i o hk
    exact set_writers hk j x y hm
  · exact ⟨x, y, hm⟩

theorem close_writers (cfg : FCfg) (s : FSink) : ∀ j x y, Wr.real j x y ∈ (s.close cfg).2.ws → ∃ x' y', Wr.real j x' y' ∈ s.ws := by
  intro j x y hm
  unfold close at hm
  split at hm
  · exact ⟨x, y, hm⟩
  · exact closeAt_writers cfg _ s j x y hm

theorem mkdir_writers (cfg : FCfg) (e : Entry) (s : FSink) : (s.mkdir cfg e).2.ws = s.ws := by
  unfold mkdir
  split
  · rfl
  split
  · rfl
  simp only
  split
  · rfl
  · split <;> rfl
  · rfl

theorem symlink_writers (cfg : FCfg) (e : Entry) (t : Str) (s : FSink) : (s.symlink cfg e t).2.ws = s.ws := by
  unfold symlink
  split
  · rfl
  split
  · rfl
  split
  · rfl
  split
  · rfl
  split
  · rfl
  split
  · rfl
  simp only
  split
  · rfl
  · split <;> rfl

theorem preallocate_writers (cfg : FCfg) (e : Entry) (s : FSink) : (s.preallocate cfg e).2.ws = s.ws := by
  unfold preallocate
  split
  · rfl
  simp only
  split <;> rfl

theorem ignored_untouched {cfg : FCfg} {e : Entry} (t : Str) (s : FSink) (hi : shouldIgnore e.path = true) :
    (s.preallocate cfg e).2 = s ∧ (s.mkdir cfg e).2 = s ∧ (s.symlink cfg e t).2 = s := by
  refine ⟨?_, ?_, ?_⟩
  · unfold preallocate; simp [hi]
  · unfold mkdir; simp [hi]
  · unfold symlink; simp [hi]

theorem refused_untouched {cfg : FCfg} {e : Entry} {x : Err} (t : Str) (s : FSink) (hi : shouldIgnore e.path = false) (hd : cfg.destPath e.path = .error x) :
    (s.preallocate cfg e).2 = s ∧ (s.mkdir cfg e).2 = s ∧ (s.symlink cfg e t).2 = s := by
  refine ⟨?_, ?_, ?_⟩
  · unfold preallocate
    simp only [hi, Bool.false_eq_true, if_false]
    rw [createFile_refused hd]
  · unfold mkdir; simp [hi, hd]
  · unfold symlink; simp [hi, hd]

section
variable {S : Path → Kind → Prop} {L : Path} {kd : Kind}

/-- A new writer is for a file at its entry's place. -/
theorem getWriter_clear (hS : Planned S) (hL : S L kd) {cfg : FCfg} {e : Entry} {s : FSink} (h : DiskOK S s.os.fs) {dst : Str} (hd : cfg.destPath e.path = .ok dst)
    {Q : Path} (hq : cleanComps dst = Q) (hQ : S Q .file) (hne : L ≠ Q) (hc : Clear L s) : Newer s.os.fs (s.getWriter cfg e).2.os.fs ∧ Clear L (s.getWriter cfg e).2 := by
  have hnew := createFile_newer cfg e s.os h.tree
  obtain ⟨c1, _, _, c4⟩ := createFile_disk hS h hd hq hQ
  unfold getWriter
  split
  · refine ⟨.refl _, hc.step (.refl _) fun i p o hm => ?_⟩
    simp only [List.mem_append, List.mem_singleton, reduceCtorEq, or_false] at hm
    exact ⟨p, o, hm⟩
  generalize createFile cfg e s.os = c at *
  obtain ⟨ce, C⟩ := c
  simp only at c1 c4 hnew ⊢
  cases ce with
  | error x => exact ⟨hnew, hc.step hnew fun i p o hm => ⟨p, o, hm⟩⟩
  | ok i =>
    simp only
    have hn := c4 i rfl
    have tn : (C.truncate cfg.flt i e.woff).2.fs.nodes = C.fs.nodes ∧ (C.truncate cfg.flt i e.woff).2.fs.next = C.fs.next := by
      rcases truncate_cases cfg.flt i e.woff C with ⟨x, _, t2⟩ | ⟨_, _, t2⟩ <;> rw [t2] <;> exact ⟨rfl, rfl⟩
    generalize C.truncate cfg.flt i e.woff = t at *
    obtain ⟨te, T⟩ := t
    simp only at tn
    have hT : Newer s.os.fs T.fs := hnew.same tn.1 tn.2
    cases te with
    | some x => exact ⟨hT, hc.step hT fun i p o hm => ⟨p, o, hm⟩⟩
    | none =>
      simp only
      have hcl := close_fs cfg { s with os := T }
      have hws := close_writers cfg { s with os := T }
      generalize FSink.close cfg { s with os := T } = cl at *
      obtain ⟨cle, CL⟩ := cl
      simp only at hcl hws ⊢
      have hN : Newer s.os.fs CL.os.fs := by rw [hcl.1]; exact hT
      refine ⟨hN, fun j p o hm => ?_⟩
      rcases List.mem_append.1 hm with hm | hm
      · exact (hc.step (s' := CL) hN hws) j p o hm
      · simp only [List.mem_singleton, Wr.real.injEq] at hm
        rw [hm.1]
        show i < CL.os.fs.next ∧ CL.os.fs.nodes L ≠ some (.file i)
        rw [hcl.1, tn.1, tn.2]
        exact ⟨c1.low Q .file i hQ hn, fun hx => hne (c1.alone L kd Q .file i hL hQ hx hn)⟩

/-- Everything is well with what is at `L`. -/
structure Spared (S : Path → Kind → Prop) (L : Path) (kd : Kind) (fs0 : FS) (s : FSink) : Prop where
  disk : DiskOK S s.os.fs
  same : Untouched L fs0 s.os.fs
  clear : Clear L s

theorem Spared.step {fs0 : FS} (hth : ∃ n, fs0.holds L = some n) (hkd : kd = .file ∨ fs0.permAt L = none) (hL : S L kd) {s s' : FSink} (h : Spared S L kd fs0 s) {Q : Path} {x l : Nat}
    (hd : DiskOK S s'.os.fs) (hk : Keeps S Q s.os.fs s'.os.fs) (hp : Perm S Q x l s.os.fs s'.os.fs) (hne : L ≠ Q) (hc : Clear L s') : Spared S L kd fs0 s' := by
  obtain ⟨n, hn⟩ := hth
  have h1 : s'.os.fs.holds L = some n := hk L kd n hL hne (h.same.1.trans hn)
  refine ⟨hd, ⟨h1.trans hn.symm, ?_⟩, hc⟩
  have hiff : s'.os.fs.permAt L ≠ none ↔ fs0.permAt L ≠ none := by
    rw [permAt_holds, permAt_holds, h1, hn]
  rcases hkd with rfl | hz
  · cases hm : s'.os.fs.permAt L with
    | none =>
      cases hm0 : fs0.permAt L with
      | none => rfl
      | some m => exact absurd hm (hiff.2 (by rw [hm0]; simp))
    | some m =>
      rcases hp L hL m hm with g | ⟨g, _⟩
      · rw [← h.same.2, g]
      · exact absurd g hne
  · cases hm : s'.os.fs.permAt L with
    | none => rw [hz]
    | some m => exact absurd hz (hiff.1 (by rw [hm]; simp))

variable {cfg : FCfg} {B : Path} {plan : List (Str × Kind)} {fs0 : FS}

/-- What the calls of an extraction do to what is at `L`: nothing. -/
theorem calls_spare (hS : Planned S) (hsub : ∀ Q k, PlanPlace cfg B plan Q k → S Q k ∧ L ≠ Q) (hL : S L kd) (hth : ∃ n, fs0.holds L = some n)
    (hkd : kd = .file ∨ fs0.permAt L = none) (hB : cfg.Base B) {tidy b : Bool} {k s : (folderSink cfg).St} {log : List Ev}
    (h : Calls (folderSink cfg) tidy k b log s) (hk : Spared S L kd fs0 k) (ha : AboutOK (fun e => (e.path, e.kind) ∈ plan) log) : Spared S L kd fs0 s := by
  have sub : ∀ {l : List Ev} {ev : Ev}, AboutOK (fun e => (e.path, e.kind) ∈ plan) (l ++ [ev]) → AboutOK (fun e => (e.path, e.kind) ∈ plan) l :=
    fun h ev hm => h ev (List.mem_append_left _ hm)
  have lastOne : ∀ {l : List Ev} {ev : Ev}, AboutOK (fun e => (e.path, e.kind) ∈ plan) (l ++ [ev]) → ∀ kd e, ev.about = some (kd, e) → e.kind = kd ∧ (e.path, e.kind) ∈ plan :=
    fun h => h _ (List.mem_append_right _ (List.mem_singleton.2 rfl))
  have place : ∀ {e : Entry} {kk : Kind} {dst : Str}, shouldIgnore e.path = false → cfg.destPath e.path = .ok dst → e.kind = kk ∧ (e.path, e.kind) ∈ plan →
      cleanComps dst = namePlace B e.path ∧ S (namePlace B e.path) kk ∧ L ≠ namePlace B e.path := by
    intro e kk dst hi hd hp
    obtain ⟨a, c⟩ := dest_place hB hd
    obtain ⟨h1, h2⟩ := hsub (namePlace B e.path) kk ⟨_, hp.1 ▸ hp.2, hi, c, rfl⟩
    exact ⟨a, h1, h2⟩
  have writers : ∀ {s s' : FSink}, Spared S L kd fs0 s → s'.os.fs.nodes = s.os.fs.nodes → s'.os.fs.mode = s.os.fs.mode → s'.os.fs.next = s.os.fs.next →
      s'.os.fs.holds L = s.os.fs.holds L → (∀ j x y, Wr.real j x y ∈ s'.ws → ∃ x' y', Wr.real j x' y' ∈ s.ws) → Spared S L kd fs0 s' := by
    intro s s' h hn hm hx hh hw
    exact ⟨h.disk.same hn hx, ⟨hh.trans h.same.1, by rw [permAt_congr hn hm]; exact h.same.2⟩, h.clear.step ((Newer.refl _).same hn hx) hw⟩
  have opened : ∀ (e : Entry) (s : FSink), Spared S L kd fs0 s → e.kind = .file ∧ (e.path, e.kind) ∈ plan → Spared S L kd fs0 (s.getWriter cfg e).2 := by
    intro e s ih hp
    cases hi : shouldIgnore e.path with
    | true =>
      rw [getWriter_ignored (s := s) hi]
      refine ⟨ih.disk, ih.same, fun i p o hm => ?_⟩
      simp only [List.mem_append, List.mem_singleton, reduceCtorEq, or_false] at hm
      exact ih.clear i p o hm
    | false =>
      cases hd : cfg.destPath e.path with
      | error x => rw [getWriter_refused (s := s) hi hd]; exact ih
      | ok dst =>
        obtain ⟨a, hQ, hne⟩ := place hi hd hp
        obtain ⟨d1, d2, _, _⟩ := getWriter_disk hS hi ih.disk hd a hQ
        exact ih.step hth hkd hL d1 d2 (getWriter_perm hS hi ih.disk hd a hQ).1 hne (getWriter_clear hS hL ih.disk hd a hQ hne ih.clear).2
  induction h with
  | start => exact hk
  | note ev _ _ ih => exact ih (sub ha)
  | @prealloc b l s e _ ih =>
    have ih := ih (sub ha)
    show Spared S L kd fs0 (FSink.preallocate cfg e s).2
    cases hi : shouldIgnore e.path with
    | true => rw [(ignored_untouched (cfg := cfg) [] s hi).1]; exact ih
    | false =>
      cases hd : cfg.destPath e.path with
      | error x => rw [(refused_untouched (cfg := cfg) [] s hi hd).1]; exact ih
      | ok dst =>
        obtain ⟨a, hQ, hne⟩ := place hi hd (lastOne ha .file e rfl)
        obtain ⟨p1, p2, _, _⟩ := preallocate_perm hS hi ih.disk hd a hQ
        exact ih.step hth hkd hL (preallocate_disk hS ih.disk hd a hQ) p2 p1 hne
          (ih.clear.step (preallocate_newer cfg e s ih.disk.tree) fun i p o hm => ⟨p, o, by have hw : FSink.ws (FSink.preallocate cfg e s).2 = FSink.ws s := preallocate_writers cfg e s; rw [← hw]; exact hm⟩)
  | @mkdir b l s e _ ih =>
    have ih := ih (sub ha)
    show Spared S L kd fs0 (FSink.mkdir cfg e s).2
    cases hi : shouldIgnore e.path with
    | true => rw [(ignored_untouched (cfg := cfg) [] s hi).2.1]; exact ih
    | false =>
      cases hd : cfg.destPath e.path with
      | error x => rw [(refused_untouched (cfg := cfg) [] s hi hd).2.1]; exact ih
      | ok dst =>
        obtain ⟨a, hQ, hne⟩ := place hi hd (lastOne ha .dir e rfl)
        obtain ⟨d1, d2, _⟩ := mkdir_disk hS hi ih.disk hd a hQ
        obtain ⟨f1, f2⟩ := mkdir_fewer cfg e s
        exact ih.step (x := 0) (l := 0) hth hkd hL d1 d2 (Perm.fewer f1 f2) hne
          (ih.clear.step (mkdir_newer cfg e s ih.disk.tree) fun i p o hm => ⟨p, o, by have hw : FSink.ws (FSink.mkdir cfg e s).2 = FSink.ws s := mkdir_writers cfg e s; rw [← hw]; exact hm⟩)
  | @symlink b l s e t _ ih =>
    have ih := ih (sub ha)
    show Spared S L kd fs0 (FSink.symlink cfg e t s).2
    cases hi : shouldIgnore e.path with
    | true => rw [(ignored_untouched (cfg := cfg) t s hi).2.2]; exact ih
    | false =>
      cases hd : cfg.destPath e.path with
      | error x => rw [(refused_untouched (cfg := cfg) t s hi hd).2.2]; exact ih
      | ok dst =>
        obtain ⟨a, hQ, hne⟩ := place hi hd (lastOne ha .symlink e rfl)
        obtain ⟨d1, d2, _⟩ := symlink_disk (t := t) hS hi ih.disk hd a hQ
        obtain ⟨f1, f2⟩ := symlink_fewer cfg e t s
        exact ih.step (x := 0) (l := 0) hth hkd hL d1 d2 (Perm.fewer f1 f2) hne
          (ih.clear.step (symlink_newer cfg e t s ih.disk.tree) fun i p o hm => ⟨p, o, by have hw : FSink.ws (FSink.symlink cfg e t s).2 = FSink.ws s := symlink_writers cfg e t s; rw [← hw]; exact hm⟩)
  | @opened b l s e _ _ hg ih => exact opened e s (ih (sub ha)) (lastOne ha .file e rfl)
  | @refused b l s e x _ _ hg ih => exact opened e s (ih (sub ha)) (lastOne ha .file e rfl)
  | @write l s bs _ ih =>
    have ih := ih (sub ha)
    show Spared S L kd fs0 (FSink.writeAt cfg ((FSink.ws s).length - 1) bs s).2
    obtain ⟨w1, w2, w3⟩ := (writer_quiet cfg s).1 ((FSink.ws s).length - 1) bs
    cases hw : (FSink.ws s)[(FSink.ws s).length - 1]? with
    | none => unfold writeAt; rw [hw]; exact ih
    | some w =>
      cases w with
      | nop => unfold writeAt; rw [hw]; exact ih
      | real i o op =>
        cases op with
        | false => unfold writeAt; rw [hw]; exact ih
        | true =>
          have hcl := (ih.clear i o true (List.mem_of_getElem? hw)).2
          have hh : ∀ c, ((FSink.os s).fs.setData i c).holds L = (FSink.os s).fs.holds L := fun c => holds_congr rfl fun j hj => by
            show (if j = i then c else (FSink.os s).fs.data j) = _
            rw [if_neg (by rintro rfl; exact hcl hj)]
          rcases write_cases cfg _ bs s i o hw with ⟨e, n, _, _, _, _, q1, q2, _⟩ | ⟨_, q1, q2, _⟩
          · exact writers ih w1 w2 w3 (by rw [q1]; exact hh _) (by rw [q2]; exact set_writers hw)
          · exact writers ih w1 w2 w3 (by rw [q1]; exact hh _) (by rw [q2]; exact set_writers hw)
  | @sync l s _ ih =>
    have ih := ih (sub ha)
    show Spared S L kd fs0 (FSink.syncAt cfg ((FSink.ws s).length - 1) s).2
    have w := (writer_quiet cfg s).2.1 ((FSink.ws s).length - 1)
    refine writers ih (by rw [w]) (by rw [w]) (by rw [w]) (by rw [w]) fun j x y hm => ?_
    unfold syncAt at hm
    split at hm <;> exact ⟨x, y, hm⟩
  | @close l s _ ih =>
    have ih := ih ha
    show Spared S L kd fs0 (FSink.closeAt cfg ((FSink.ws s).length - 1) s).2
    have w := (writer_quiet cfg s).2.2 ((FSink.ws s).length - 1)
    exact writers ih (by rw [w]) (by rw [w]) (by rw [w]) (by rw [w]) (closeAt_writers cfg _ s)

end
end Savior
