import Verif.ZipLater
import Verif.ZipPlain
import Verif.Spec.PathSink
/-!
# Zip extraction into path sinks, whatever fails
-/

namespace Savior

/-- No later member has the name of member `h`. -/
def Unshadowed (A : Archive) (h : Nat) : Prop := ∀ h' z z', h < h' → A.files[h]? = some z → A.files[h']? = some z' → z'.name ≠ z.name

/-- Member `i` is one the sink drops silently. -/
def Hidden (A : Archive) (sh : Str → Bool) (i : Nat) : Prop := ∃ z, A.files[i]? = some z ∧ sh z.name = false

/-- Everything before offset `o` of member `i` is in place, from member `lo` on, as far as it is kept and no
later member is going to replace it. -/
structure HoldsFrom (lo : Nat) (A : Archive) (D : Decomp) (sh : Str → Bool) (node : Str → Option PNode) (i o : Nat) : Prop where
  done : ∀ h z, lo ≤ h → h < i → A.files[h]? = some z → sh z.name = true → Unshadowed A h → node z.name = some (zipNodeOf A D z)
  part : ∀ z, A.files[i]? = some z → sh z.name = true → Unshadowed A i → 0 < o →
    ∃ c, node z.name = some (.file c) ∧ o ≤ c.length ∧ c.take o = (zipContent A D z).1.take o

/-- The offset an entry shows when `o` bytes were written. -/
def shownOff (sh : Str → Bool) (zf : ZFile) (o : Nat) : Nat := if sh zf.name then o else 0

/-- A checkpoint as saved. -/
structure PathSaved (A : Archive) (D : Decomp) (sh : Str → Bool) (ck : ECkpt) (i : Nat) (zf : ZFile) (o : Nat) : Prop where
  saved : SavedCk A D ck i zf o
  kind : (zipFileEntry zf).kind = .file
  entry : ck.entry = some { zipFileEntry zf with woff := shownOff sh zf o }
  pos : 0 < o

/-- A checkpoint for offset `o` of member `i`: a saved one, or one for the start of the member. -/
def PathCk (A : Archive) (D : Decomp) (sh : Str → Bool) (ck : ECkpt) (i o : Nat) : Prop :=
  (∃ zf, PathSaved A D sh ck i zf o) ∨ (ck.entryIndex = i ∧ ck.entry = none ∧ ck.srcCk = none ∧ o = 0)

theorem pathCk_unique {A : Archive} {D : Decomp} {sh : Str → Bool} {ck : ECkpt} {i o i' o' : Nat} (h : PathCk A D sh ck i o) (h' : PathCk A D sh ck i' o') :
    i' = i ∧ o' = o := by
  rcases h with ⟨zf, h⟩ | ⟨h1, h2, h3, h4⟩
  · rcases h' with ⟨zf', h'⟩ | ⟨k1, k2, k3, k4⟩
    · have h1 := h.saved.index
      have h2 := h'.saved.index
      obtain ⟨c, hc, hf⟩ := h.saved.src
      obtain ⟨c', hc', hf'⟩ := h'.saved.src
      rw [hc] at hc'; cases hc'
      have := fileCk_off hf
      have := fileCk_off hf'
      omega
    · have := h.entry; rw [k2] at this; cases this
  · rcases h' with ⟨zf', h'⟩ | ⟨k1, k2, k3, k4⟩
    · have := h'.entry; rw [h2] at this; cases this
    · omega

/-- Not after. (Within a member that is dropped all offsets are alike.) -/
def PosLe (A : Archive) (sh : Str → Bool) (i' o' i o : Nat) : Prop := i' < i ∨ (i' = i ∧ (o' ≤ o ∨ Hidden A sh i))

theorem PosLe.refl (A : Archive) (sh : Str → Bool) (i o : Nat) : PosLe A sh i o i o := Or.inr ⟨rfl, Or.inl (Nat.le_refl _)⟩

theorem PosLe.trans {A : Archive} {sh : Str → Bool} {i1 o1 i2 o2 i3 o3 : Nat} (h : PosLe A sh i1 o1 i2 o2) (k : PosLe A sh i2 o2 i3 o3) : PosLe A sh i1 o1 i3 o3 := by
  rcases h with h | ⟨h, h'⟩
  · rcases k with k | ⟨k, _⟩
    · exact Or.inl (by omega)
    · exact Or.inl (by omega)
  · subst h
    rcases k with k | ⟨k, k'⟩
    · exact Or.inl k
    · subst k
      refine Or.inr ⟨rfl, ?_⟩
      rcases h' with h' | h'
      · rcases k' with k' | k'
        · exact Or.inl (by omega)
        · exact Or.inr k'
      · exact Or.inr h'

theorem HoldsFrom.mono {lo : Nat} {A : Archive} {D : Decomp} {sh : Str → Bool} {node : Str → Option PNode} {i o i' o' : Nat} (h : HoldsFrom lo A D sh node i o)
    (hck : o' = 0 ∨ ∃ zf, A.files[i']? = some zf ∧ (zipFileEntry zf).kind = .file ∧ o' ≤ (zipContent A D zf).1.length)
    (hle : PosLe A sh i' o' i o) (hlo : lo ≤ i') : HoldsFrom lo A D sh node i' o' := by
  refine ⟨fun h' z hl hlt hz hs hu => h.done h' z hl (by rcases hle with hle | ⟨hle, _⟩ <;> omega) hz hs hu, ?_⟩
  intro z hz hs hu hpos
  rcases hck with h0 | ⟨zf, hzf, hk, hlen⟩
  · omega
  obtain rfl : zf = z := Option.some.inj (hzf.symm.trans hz)
  rcases hle with hlt | ⟨heq, ho⟩
  · refine ⟨(zipContent A D zf).1, ?_, hlen, rfl⟩
    rw [h.done i' zf hlo hlt hzf hs hu]
    unfold zipNodeOf
    rw [hk]
  · subst heq
    rcases ho with ho | ⟨z, hz', ho⟩
    · obtain ⟨c, h1, h2, h3⟩ := h.part zf hzf hs hu (by omega)
      refine ⟨c, h1, by omega, ?_⟩
      have := congrArg (List.take o') h3
      rwa [List.take_take, List.take_take, Nat.min_eq_left ho] at this
    · obtain rfl : zf = z := Option.some.inj (hzf.symm.trans hz')
      rw [ho] at hs; cases hs

/-- Changing only the path of member `i`, where the part before `o` survives. -/
theorem HoldsFrom.frame {lo : Nat} {A : Archive} {D : Decomp} {sh : Str → Bool} {node node' : Str → Option PNode} {i o : Nat} {zf : ZFile} (h : HoldsFrom lo A D sh node i o)
    (hzf : A.files[i]? = some zf) (hfr : ∀ z ∈ A.files, ∀ n, z.name ≠ zf.name → node z.name = some n → node' z.name = some n)
    (hpart : 0 < o → sh zf.name = true → Unshadowed A i → ∃ c, node' zf.name = some (.file c) ∧ o ≤ c.length ∧ c.take o = (zipContent A D zf).1.take o) :
    HoldsFrom lo A D sh node' i o := by
  refine ⟨?_, ?_⟩
  · intro h' z hl hlt hz hs hu
    exact hfr z (List.mem_of_getElem? hz) _ (fun he => hu i z zf hlt hz hzf he.symm) (h.done h' z hl hlt hz hs hu)
  · intro z hz hs hu hpos
    obtain rfl : zf = z := Option.some.inj (hzf.symm.trans hz)
    exact hpart hpos hs hu

/-- Member `i` done. -/
theorem HoldsFrom.next {lo : Nat} {A : Archive} {D : Decomp} {sh : Str → Bool} {node node' : Str → Option PNode} {i : Nat} {zf : ZFile} (h : HoldsFrom lo A D sh node i 0)
    (hzf : A.files[i]? = some zf) (hfr : ∀ z ∈ A.files, ∀ n, z.name ≠ zf.name → node z.name = some n → node' z.name = some n)
    (hn : sh zf.name = true → Unshadowed A i → node' zf.name = some (zipNodeOf A D zf)) : HoldsFrom lo A D sh node' (i + 1) 0 := by
  refine ⟨?_, fun _ _ _ _ h => absurd h (Nat.lt_irrefl 0)⟩
  intro h' z hl hlt hz hs hu
  by_cases heq : h' = i
  · subst heq
    obtain rfl : zf = z := Option.some.inj (hzf.symm.trans hz)
    exact hn hs hu
  · exact hfr z (List.mem_of_getElem? hz) _ (fun he => hu i z zf (by omega) hz hzf he.symm) (h.done h' z hl (by omega) hz hs hu)

/-- A dropped member may be anywhere. -/
theorem HoldsFrom.hidden {lo : Nat} {A : Archive} {D : Decomp} {sh : Str → Bool} {node : Str → Option PNode} {i o o' : Nat} {zf : ZFile} (h : HoldsFrom lo A D sh node i o)
    (hzf : A.files[i]? = some zf) (hs : sh zf.name = false) : HoldsFrom lo A D sh node i o' := by
  refine ⟨h.done, ?_⟩
  intro z hz hs'
  obtain rfl : zf = z := Option.some.inj (hzf.symm.trans hz)
  rw [hs] at hs'; cases hs'

theorem HoldsFrom.zero {lo : Nat} {A : Archive} {D : Decomp} {sh : Str → Bool} {node : Str → Option PNode} {i o : Nat} (h : HoldsFrom lo A D sh node i o) :
    HoldsFrom lo A D sh node i 0 := ⟨h.done, fun _ _ _ _ h => absurd h (Nat.lt_irrefl 0)⟩

theorem HoldsFrom.nothing (lo : Nat) (A : Archive) (D : Decomp) (sh : Str → Bool) (node : Str → Option PNode) : HoldsFrom lo A D sh node 0 0 :=
  ⟨fun _ _ _ hlt => absurd hlt (Nat.not_lt_zero _), fun _ _ _ _ h => absurd h (Nat.lt_irrefl 0)⟩

/-- Checkpoints in order, none of them after `(i, o)`. -/
structure UpTo (A : Archive) (D : Decomp) (sh : Str → Bool) (l : List ECkpt) (i o : Nat) : Prop where
  each : ∀ ck ∈ l, ∃ i' o', PathCk A D sh ck i' o' ∧ PosLe A sh i' o' i o
  sorted : l.Pairwise fun a b => ∀ i2 o2, PathCk A D sh b i2 o2 → ∃ i1 o1, PathCk A D sh a i1 o1 ∧ PosLe A sh i1 o1 i2 o2

theorem UpTo.nil (A : Archive) (D : Decomp) (sh : Str → Bool) (i o : Nat) : UpTo A D sh [] i o := ⟨fun _ h => (by cases h), List.Pairwise.nil⟩

theorem UpTo.le {A : Archive} {D : Decomp} {sh : Str → Bool} {l : List ECkpt} {i o i' o' : Nat} (h : UpTo A D sh l i o) (hle : PosLe A sh i o i' o') :
    UpTo A D sh l i' o' := by
  refine ⟨fun ck hck => ?_, h.sorted⟩
  obtain ⟨a, b, h1, h2⟩ := h.each ck hck
  exact ⟨a, b, h1, h2.trans hle⟩

theorem UpTo.snoc {A : Archive} {D : Decomp} {sh : Str → Bool} {l : List ECkpt} {ck : ECkpt} {i o : Nat} (h : UpTo A D sh l i o) (hck : PathCk A D sh ck i o) :
    UpTo A D sh (l ++ [ck]) i o := by
  refine ⟨?_, ?_⟩
  · intro c hc
    rcases List.mem_append.mp hc with hc | hc
    · exact h.each c hc
    · rw [List.mem_singleton] at hc; subst hc
      exact ⟨i, o, hck, .refl ..⟩
  · refine List.pairwise_append.mpr ⟨h.sorted, List.pairwise_singleton .., ?_⟩
    intro a ha b hb i2 o2 hp
    rw [List.mem_singleton] at hb; subst hb
    obtain ⟨rfl, rfl⟩ := pathCk_unique hck hp
    exact h.each a ha

/-- What remains usable when one of the checkpoints is chosen. -/
theorem UpTo.choose {A : Archive} {D : Decomp} {sh : Str → Bool} {hist before : List ECkpt} {c : ECkpt} {i o : Nat} (h : UpTo A D sh hist i o)
    (hc : ChooseCk hist (some c) before) : ∃ i' o', PathCk A D sh c i' o' ∧ PosLe A sh i' o' i o ∧ UpTo A D sh before i' o' := by
  cases hc with
  | pick he =>
    subst he
    rename_i a b
    obtain ⟨i', o', h1, h2⟩ := h.each c (by simp)
    refine ⟨i', o', h1, h2, UpTo.snoc ⟨?_, (List.pairwise_append.mp h.sorted).1⟩ h1⟩
    intro x hx
    exact (List.pairwise_append.mp h.sorted).2.2 x hx c (by simp) i' o' h1

section
variable {K : SinkM} {V : SaveCons}

/-- The checkpoints usable so far are not after `(i, o)`. -/
abbrev CurLe (A : Archive) (D : Decomp) (sh : Str → Bool) (before : List ECkpt) (log : List Ev) (i o : Nat) : Prop :=
  UpTo A D sh (before ++ savedCks log) i o

theorem savedCks_say (log : List Ev) (ev : Ev) (h : ∀ ck a, ev ≠ .save ck a) : savedCks (log ++ [ev]) = savedCks log := by
  have : saves [ev] = [] := by cases ev <;> simp [saves] at h ⊢
  simp [savedCks, saves_append, this]

theorem savedCks_save (log : List Ev) (ck : ECkpt) (a : Except Err Action) : savedCks (log ++ [.save ck a]) = savedCks log ++ [ck] := by
  simp [savedCks, saves_append, saves]

theorem curLe_say {A : Archive} {D : Decomp} {sh : Str → Bool} {before : List ECkpt} {log : List Ev} {i o : Nat} {ev : Ev}
    (h : CurLe A D sh before log i o) (hev : ∀ ck a, ev ≠ .save ck a) : CurLe A D sh before (log ++ [ev]) i o := by
  unfold CurLe; rw [savedCks_say _ _ hev]; exact h

theorem pathCk_le {A : Archive} {D : Decomp} {sh : Str → Bool} {ck : ECkpt} {i o : Nat} (h : PathCk A D sh ck i o) :
    o = 0 ∨ ∃ zf, A.files[i]? = some zf ∧ (zipFileEntry zf).kind = .file ∧ o ≤ (zipContent A D zf).1.length := by
  rcases h with ⟨zf, h1⟩ | ⟨_, _, _, h1⟩
  · obtain ⟨c, _, hc⟩ := h1.saved.src
    exact Or.inr ⟨zf, h1.saved.file, h1.kind, fileCk_le hc⟩
  · exact Or.inl h1

/-- Between members, or at a checkpoint within one. -/
def PathBeg (lo : Nat) (A : Archive) (D : Decomp) (P : PathLaw K) (before : List ECkpt) (i : Nat) (w : XW K V) : Prop :=
  ∃ o, HoldsFrom lo A D P.shown (P.node w.sink) i o ∧ CurLe A D P.shown before w.log i o ∧
    ((o = 0 ∧ w.ck.entry = none ∧ w.ck.srcCk = none) ∨ ∃ zf, PathSaved A D P.shown w.ck i zf o) ∧ w.stopErr = false ∧ P.Inv w.sink

theorem pathBeg_entry {lo : Nat} {A : Archive} {D : Decomp} {P : PathLaw K} {before : List ECkpt} {i : Nat} {zf : ZFile} {w : XW K V}
    (h : PathBeg lo A D P before i w) (hzf : A.files[i]? = some zf) : ∃ o : Nat, w.ck.entry.getD (zipFileEntry zf) = { zipFileEntry zf with woff := shownOff P.shown zf o } ∧
      HoldsFrom lo A D P.shown (P.node w.sink) i o ∧ CurLe A D P.shown before w.log i o ∧ StartsAt A D zf w.ck o ∧
      (o = 0 ∨ ((zipFileEntry zf).kind = .file ∧ zf.resumable)) := by
  obtain ⟨o, h1, h2, h3, _⟩ := h
  rcases h3 with ⟨h3, h4, h5⟩ | ⟨zf', h3⟩
  · subst h3
    refine ⟨0, ?_, h1, h2, Or.inl ⟨h5, rfl⟩, Or.inl rfl⟩
    rw [h4]
    unfold shownOff
    split <;> rfl
  · obtain rfl : zf = zf' := Option.some.inj (hzf.symm.trans h3.saved.file)
    refine ⟨o, by rw [h3.entry]; rfl, h1, h2, Or.inr h3.saved.src, Or.inr ⟨h3.kind, ?_⟩⟩
    obtain ⟨c, _, hc⟩ := h3.saved.src
    unfold fileCk at hc
    unfold ZFile.resumable
    cases hm : zf.method <;> simp [hm] at hc ⊢

theorem startsAt_unique {A : Archive} {D : Decomp} {zf : ZFile} {ck : ECkpt} {o o' : Nat} (h : StartsAt A D zf ck o) (h' : StartsAt A D zf ck o') : o = o' := by
  rcases h with ⟨a, b⟩ | ⟨c, a, b⟩
  · rcases h' with ⟨a', b'⟩ | ⟨c', a', b'⟩
    · omega
    · rw [a] at a'; cases a'
  · rcases h' with ⟨a', b'⟩ | ⟨c', a', b'⟩
    · rw [a] at a'; cases a'
    · rw [a] at a'; cases a'
      have := fileCk_off b
      have := fileCk_off b'
      omega

/-- The current writer has written member `i` up to `o`, or drops it. -/
structure Written (lo : Nat) (A : Archive) (D : Decomp) (P : PathLaw K) (zf : ZFile) (i o : Nat) (s : K.St) : Prop where
  holds : HoldsFrom lo A D P.shown (P.node s) i o
  node : P.shown zf.name = true → ∃ c, P.node s zf.name = some (.file c) ∧ c.length = o ∧ P.At s zf.name o ∧
    (Unshadowed A i → c = (zipContent A D zf).1.take o)
  deaf : P.shown zf.name = false → P.Deaf s
  inv : P.Inv s

/-- However a run ends: the checkpoints are fine, and so is the checkpoint object after a stop. -/
def PathEnd (lo : Nat) (A : Archive) (D : Decomp) (P : PathLaw K) (before : List ECkpt) (w : XW K V) : Prop :=
  P.Inv w.sink ∧
  (∃ i o, CurLe A D P.shown before w.log i o ∧ HoldsFrom lo A D P.shown (P.node w.sink) i o) ∧
  (w.stopErr = true → w.ck.entry = none → w.ck.srcCk = none ∧ (∃ ck, lastSave w.log = some ck ∧ ck.entryIndex = w.ck.entryIndex) ∧
    ∃ i : Nat, w.ck.entryIndex = i ∧ HoldsFrom lo A D P.shown (P.node w.sink) i 0)

theorem PathEnd.of {lo : Nat} {A : Archive} {D : Decomp} {P : PathLaw K} {before : List ECkpt} {w : XW K V} {i o : Nat} (h0 : P.Inv w.sink)
    (h1 : CurLe A D P.shown before w.log i o) (h2 : HoldsFrom lo A D P.shown (P.node w.sink) i o) (h3 : w.stopErr = false ∨ w.ck.entry ≠ none) :
    PathEnd lo A D P before w := by
  refine ⟨h0, ⟨i, o, h1, h2⟩, fun a b => ?_⟩
  rcases h3 with h3 | h3
  · rw [h3] at a; cases a
  · exact absurd b h3

/-- The steps of an extraction into a path sink. -/
def pathSteps (lo : Nat) (A : Archive) (D : Decomp) (env : ZEnv) (hh : env.Honest A) (total : Int) (K : SinkM) (P : PathLaw K) (hfit : P.FitsAll A) (V : SaveCons)
    (before : List ECkpt) : ZipSteps A D env total K V where
  Beg i w := PathBeg lo A D P before i w
  Mid i _ o w := ∃ zf, A.files[i]? = some zf ∧ (zipFileEntry zf).kind = .file ∧ Written lo A D P zf i o w.sink ∧ CurLe A D P.shown before w.log i o ∧
    w.ck.entryIndex = i ∧ w.ck.entry = some { zipFileEntry zf with woff := shownOff P.shown zf o } ∧
    (w.stopErr = true → ∃ ck, lastSave w.log = some ck ∧ ck.entryIndex = i)
  Cop i xs w := ∃ zf, A.files[i]? = some zf ∧ (zipFileEntry zf).kind = .file ∧ ¬ zf.resumable ∧ HoldsFrom lo A D P.shown (P.node w.sink) i 0 ∧
    CurLe A D P.shown before w.log i 0 ∧
    (P.shown zf.name = true → P.node w.sink zf.name = some (.file xs) ∧ P.At w.sink zf.name xs.length) ∧
    (P.shown zf.name = false → P.Deaf w.sink) ∧ P.Inv w.sink ∧
    w.stopErr = false
  Bad w := PathEnd lo A D P before w
  beg_bad := by rintro i w ⟨o, h1, h2, _, h3, hinv⟩; exact .of hinv h2 h1 (Or.inl h3)
  beg_kind := by
    intro i zf w h hzf
    obtain ⟨o, h1, _⟩ := pathBeg_entry h hzf
    rw [h1]
  beg_src := by
    intro i zf w h hzf _ _
    obtain ⟨o, _, _, _, h1, _⟩ := pathBeg_entry h hzf
    exact ⟨o, h1⟩
  enter_bad := by rintro i zf w ⟨o, h1, h2, _, h3, hinv⟩ _; exact .of hinv h2 h1 (Or.inl h3)
  zero_bad := by rintro i zf w ⟨o, h1, h2, _, h3, hinv⟩ _ _ _ _; exact .of hinv h2 h1 (Or.inl h3)
  mkdir := by
    rintro i zf w h hzf _ hk w' rfl
    obtain ⟨hse, hinv⟩ : w.stopErr = false ∧ P.Inv w.sink := h.choose_spec.2.2.2
    obtain ⟨o, h1, h2, h3, _, h5⟩ := pathBeg_entry h hzf
    have ho : o = 0 := by
      rcases h5 with h5 | ⟨h5, _⟩
      · exact h5
      · rw [hk] at h5; cases h5
    subst ho
    have hcur := curLe_say (ev := .mkdir (w.ck.entry.getD (zipFileEntry zf)) (K.mkdir (w.ck.entry.getD (zipFileEntry zf)) w.sink).1) h3 (by simp)
    have hpath : (w.ck.entry.getD (zipFileEntry zf)).path = zf.name := by rw [h1]; rfl
    have hmem := List.mem_of_getElem? hzf
    have hf : P.Fits (w.ck.entry.getD (zipFileEntry zf)).path .dir := by rw [hpath, ← hk]; exact hfit zf hmem
    have hfr : ∀ z ∈ A.files, ∀ n, z.name ≠ zf.name → P.node w.sink z.name = some n →
        P.node (K.mkdir (w.ck.entry.getD (zipFileEntry zf)) w.sink).2 z.name = some n := by
      intro z hz n hp; exact P.mkdir_frame _ _ _ _ _ hinv hf (hfit z hz) (by rw [hpath]; exact hp)
    have hinv' := P.mkdir_inv _ _ hinv hf
    refine ⟨fun hok => ⟨0, h2.next hzf hfr (fun hs _ => ?_), hcur.le (Or.inl (by omega)), Or.inl ⟨rfl, rfl, rfl⟩, hse, hinv'⟩, fun _ => ?_⟩
    · have := P.mkdir_ok _ _ hinv hf (by rw [hpath]; exact hs) hok
      rw [hpath] at this
      unfold zipNodeOf
      rw [hk]; exact this
    · exact .of hinv' hcur (h2.frame hzf hfr (fun h => absurd h (Nat.lt_irrefl 0))) (Or.inl hse)
  symlink := by
    rintro i zf w chunks h hzf _ hk hop w' rfl
    obtain ⟨hse, hinv⟩ : w.stopErr = false ∧ P.Inv w.sink := h.choose_spec.2.2.2
    obtain ⟨o, h1, h2, h3, _, h5⟩ := pathBeg_entry h hzf
    have ho : o = 0 := by
      rcases h5 with h5 | ⟨h5, _⟩
      · exact h5
      · rw [hk] at h5; cases h5
    subst ho
    have hcur := curLe_say (ev := .symlink (w.ck.entry.getD (zipFileEntry zf)) chunks.flatten (K.symlink (w.ck.entry.getD (zipFileEntry zf)) chunks.flatten w.sink).1) h3 (by simp)
    have hpath : (w.ck.entry.getD (zipFileEntry zf)).path = zf.name := by rw [h1]; rfl
    have hmem := List.mem_of_getElem? hzf
    have hf : P.Fits (w.ck.entry.getD (zipFileEntry zf)).path .symlink := by rw [hpath, ← hk]; exact hfit zf hmem
    have hfr : ∀ z ∈ A.files, ∀ n, z.name ≠ zf.name → P.node w.sink z.name = some n →
        P.node (K.symlink (w.ck.entry.getD (zipFileEntry zf)) chunks.flatten w.sink).2 z.name = some n := by
      intro z hz n hp; exact P.symlink_frame _ _ _ _ _ _ hinv hf (hfit z hz) (by rw [hpath]; exact hp)
    have hinv' := P.symlink_inv _ chunks.flatten _ hinv hf
    refine ⟨fun hok => ⟨0, h2.next hzf hfr (fun hs _ => ?_), hcur.le (Or.inl (by omega)), Or.inl ⟨rfl, rfl, rfl⟩, hse, hinv'⟩, fun _ => ?_⟩
    · have := P.symlink_ok _ _ _ hinv hf (by rw [hpath]; exact hs) (by rw [h1]; simp [shownOff]) hok
      rw [hpath, hh i zf hzf chunks hop] at this
      unfold zipNodeOf
      rw [hk]
      rw [hh i zf hzf chunks hop]
      exact this
    · exact .of hinv' hcur (h2.frame hzf hfr (fun h => absurd h (Nat.lt_irrefl 0))) (Or.inl hse)
  open_ := by
    intro i zf w o0 oc h hzf _ hk hrs hsa hoc
    obtain ⟨hse, hinv⟩ : w.stopErr = false ∧ P.Inv w.sink := h.choose_spec.2.2.2
    obtain ⟨o, h1, h2, h3, h4, h5⟩ := pathBeg_entry h hzf
    have heq := startsAt_unique hsa h4
    subst heq
    have hcur := curLe_say (ev := .openW (w.ck.entry.getD (zipFileEntry zf)) (K.getWriter (w.ck.entry.getD (zipFileEntry zf)) w.sink).1) h3 (by simp)
    have hpath : (w.ck.entry.getD (zipFileEntry zf)).path = zf.name := by rw [h1]; rfl
    have hmem := List.mem_of_getElem? hzf
    have hf : P.Fits (w.ck.entry.getD (zipFileEntry zf)).path .file := by rw [hpath, ← hk]; exact hfit zf hmem
    have hfr : ∀ z ∈ A.files, ∀ n, z.name ≠ zf.name → P.node w.sink z.name = some n →
        P.node (K.getWriter (w.ck.entry.getD (zipFileEntry zf)) w.sink).2 z.name = some n := by
      intro z hz n hp; exact P.open_frame _ _ _ _ _ hinv hf (hfit z hz) (by rw [hpath]; exact hp)
    have hinv' := P.open_inv _ _ hinv hf
    cases hs : P.shown zf.name with
    | true =>
      have hso : shownOff P.shown zf o0 = o0 := by unfold shownOff; rw [hs]; rfl
      have hoc' : oc = o0 := (hoc o0 (by rw [h1, hso])).2.1 rfl
      subst hoc'
      have hwoff : (w.ck.entry.getD (zipFileEntry zf)).woff = oc := by rw [h1, hso]
      refine ⟨fun hok _ hlen => ?_, fun hbad => ?_⟩
      · have hok' : (K.getWriter (w.ck.entry.getD (zipFileEntry zf)) w.sink).1 = none := hok
        obtain ⟨c, g1, g2, g3, g4⟩ := P.open_ok _ _ oc hinv hf (by rw [hpath]; exact hs) hwoff hok'
        rw [hpath] at g1 g3 g4
        have hc : Unshadowed A i → c = (zipContent A D zf).1.take oc := by
          intro hu
          rcases Nat.eq_zero_or_pos oc with hz | hz
          · subst hz
            simpa using g2
          · obtain ⟨c0, k1, k2, k3⟩ := h2.part zf hzf hs hu hz
            rw [g4 c0 k1 k2, k3]
        refine ⟨zf, hzf, hk, ⟨h2.frame hzf hfr ?_, fun _ => ⟨c, g1, g2, g3, hc⟩, fun h => (by rw [hs] at h; cases h), hinv'⟩, hcur, rfl, ?_, fun h => ?_⟩
        · intro _ _ hu
          exact ⟨c, g1, by omega, by rw [hc hu, List.take_take, Nat.min_self]⟩
        · show some (w.ck.entry.getD (zipFileEntry zf)) = _
          rw [h1]
        · have : w.stopErr = true := h
          rw [hse] at this; cases this
      · have hbad' : (K.getWriter (w.ck.entry.getD (zipFileEntry zf)) w.sink).1 ≠ none := hbad
        refine .of hinv' hcur (h2.frame hzf hfr ?_) (Or.inl hse)
        intro hpos _ hu
        obtain ⟨c0, k1, k2, k3⟩ := h2.part zf hzf hs hu hpos
        have := P.open_fail _ _ oc hinv hf (by rw [hpath]; exact hs) hwoff hbad' c0 (by rw [hpath]; exact k1) k2
        rw [hpath] at this
        obtain ⟨c, g1, g2, g3⟩ := this
        exact ⟨c, g1, g2, by rw [g3, k3]⟩
    | false =>
      have hso : ∀ o, shownOff P.shown zf o = 0 := by intro o; unfold shownOff; rw [hs]; rfl
      have hhold : HoldsFrom lo A D P.shown (P.node (K.getWriter (w.ck.entry.getD (zipFileEntry zf)) w.sink).2) i 0 :=
        h2.zero.frame hzf hfr (fun h => absurd h (Nat.lt_irrefl 0))
      refine ⟨fun hok _ hlen => ?_, fun hbad => .of hinv' hcur (hhold.hidden hzf hs) (Or.inl hse)⟩
      refine ⟨zf, hzf, hk, ⟨hhold.hidden hzf hs, fun h => (by rw [hs] at h; cases h), fun _ => ?_, hinv'⟩,
        hcur.le (Or.inr ⟨rfl, Or.inr ⟨zf, hzf, hs⟩⟩), rfl, ?_, fun h => ?_⟩
      · exact P.open_deaf _ _ hinv hf (by rw [hpath]; exact hs) hok
      · show some (w.ck.entry.getD (zipFileEntry zf)) = _
        rw [h1, hso, hso]
      · have : w.stopErr = true := h
        rw [hse] at this; cases this
  save := by
    rintro i zf' w o0 o c ⟨zf, h1, h2, h3, h4, hi, h5, _⟩ hzf ho _ hc hst0 hse0 _
    have hsf : w.stopErr = false := by rw [← hse0]; exact hst0
    obtain rfl : zf = zf' := Option.some.inj (h1.symm.trans hzf)
    have hst := zipOnSave_log total c w
    have hkeep : (zipOnSave total c w).1.sink = (K.sync w.sink).2 ∧ (zipOnSave total c w).1.ck.entry = w.ck.entry ∧
        (zipOnSave total c w).1.ck.entryIndex = w.ck.entryIndex := by
      unfold zipOnSave
      simp only
      split
      · exact ⟨rfl, rfl, rfl⟩
      · split <;> exact ⟨rfl, rfl, rfl⟩
    obtain ⟨s0, s1, s2, s3⟩ := P.sync_spec w.sink h3.inv
    refine ⟨zf, h1, h2, ?_, ?_, by rw [hkeep.2.2]; exact hi, by rw [hkeep.2.1]; exact h5, ?_⟩
    rotate_left 2
    · intro hs
      rcases hst with ⟨y, e1, e2⟩ | ⟨a, e1, _⟩
      · rw [e2, hsf] at hs; cases hs
      · rw [e1, lastSave_save]
        exact ⟨_, rfl, hi⟩
    · rw [hkeep.1]
      obtain ⟨k1, k2, k3, k4⟩ := h3
      refine ⟨by rw [s1]; exact k1, fun hs => ?_, fun hs => s3 (k3 hs), s0⟩
      obtain ⟨cc, k2, k3, k4, k5⟩ := k2 hs
      exact ⟨cc, by rw [s1]; exact k2, k3, s2 _ _ k4, k5⟩
    · rcases hst with ⟨y, e1, _⟩ | ⟨a, e1, _⟩
      · rw [e1]; exact curLe_say h4 (by simp)
      · rw [e1]
        show UpTo A D P.shown (before ++ savedCks _) i o
        rw [savedCks_save, ← List.append_assoc]
        exact UpTo.snoc (curLe_say h4 (by simp)) (Or.inl ⟨zf, ⟨h1, hi, ⟨_, h5⟩, c, rfl, hc⟩, h2, h5, ho⟩)
  write := by
    rintro i zf' w o0 o bs ⟨zf, h1, h2, ⟨k1, kn, kd, kinv⟩, h4, hi, h5, hst⟩ hzf hbs hol
    obtain rfl : zf = zf' := Option.some.inj (h1.symm.trans hzf)
    have hcur := curLe_say (ev := .write bs (K.write bs w.sink).1.1 (K.write bs w.sink).1.2.2) h4 (by simp)
    have hmem := List.mem_of_getElem? h1
    cases hs : P.shown zf.name with
    | true =>
      have hso : ∀ o, shownOff P.shown zf o = o := by intro o; unfold shownOff; rw [hs]; rfl
      obtain ⟨c, k2, k3, k4, k5⟩ := kn hs
      subst k3
      obtain ⟨k, g1, g2, g3, g4, g5, g0, g6⟩ := P.write_spec bs w.sink zf.name c kinv (by rw [← h2]; exact hfit zf hmem) k2 k4
      have g6' : ∀ z ∈ A.files, ∀ n, z.name ≠ zf.name → P.node w.sink z.name = some n → P.node (K.write bs w.sink).2 z.name = some n :=
        fun z hz n hne => g6 _ _ n (hfit z hz) hne
      refine ⟨fun hok => ?_, fun _ => ?_⟩
      · have hok' : (K.write bs w.sink).1.2.2 = none := hok
        obtain ⟨hk, _⟩ := g5 hok'
        subst hk
        rw [List.take_length] at g2
        have hcc : Unshadowed A i → c ++ bs = (zipContent A D zf).1.take (c.length + bs.length) := by
          intro hu
          rw [List.take_add, ← hbs, ← k5 hu]
        refine ⟨zf, h1, h2, ⟨?_, fun _ => ⟨c ++ bs, g2, by simp, g3, hcc⟩, fun h => (by rw [hs] at h; cases h), g0⟩,
          hcur.le (Or.inr ⟨rfl, Or.inl (by omega)⟩), hi, ?_, ?_⟩
        rotate_left 2
        · intro h
          obtain ⟨ck, a, b⟩ := hst h
          exact ⟨ck, by rw [← a]; exact lastSave_say _ _ (by simp), b⟩
        · refine ⟨(k1.zero.frame h1 g6' (fun h => absurd h (Nat.lt_irrefl 0))).done, ?_⟩
          intro z hz _ hu hpos
          obtain rfl : zf = z := Option.some.inj (h1.symm.trans hz)
          exact ⟨c ++ bs, g2, by simp, by rw [hcc hu, List.take_take, Nat.min_self]⟩
        · show w.ck.entry.map _ = _
          rw [h5, g4, hso, hso]
          simp
      · refine .of g0 hcur (k1.frame h1 g6' ?_) (Or.inr ?_)
        rotate_left
        · show w.ck.entry.map _ ≠ none
          rw [h5]; simp
        intro _ _ hu
        refine ⟨_, g2, by simp, ?_⟩
        rw [List.take_left, ← k5 hu]
    | false =>
      have hso : ∀ o, shownOff P.shown zf o = 0 := by intro o; unfold shownOff; rw [hs]; rfl
      obtain ⟨d1, d2, d3, d4⟩ := P.write_deaf bs w.sink kinv (kd hs)
      have hhold : HoldsFrom lo A D P.shown (P.node (K.write bs w.sink).2) i o := by rw [d3]; exact k1
      refine ⟨fun _ => ?_, fun _ => .of d1 hcur hhold (Or.inr ?_)⟩
      · refine ⟨zf, h1, h2, ⟨hhold.hidden h1 hs, fun h => (by rw [hs] at h; cases h), fun _ => d2, d1⟩,
          hcur.le (Or.inr ⟨rfl, Or.inl (by omega)⟩), hi, ?_, ?_⟩
        · show w.ck.entry.map _ = _
          rw [h5, d4, hso, hso]
          simp
        · intro h
          obtain ⟨ck, a, b⟩ := hst h
          exact ⟨ck, by rw [← a]; exact lastSave_say _ _ (by simp), b⟩
      · show w.ck.entry.map _ ≠ none
        rw [h5]; simp
  should := by rintro i w o0 o n h; exact h
  emit := by
    rintro i w o0 o ⟨zf, h1, h2, h3, h4, hi, h5, hs⟩
    refine ⟨zf, h1, h2, h3, curLe_say h4 (by simp), hi, h5, ?_⟩
    intro h
    obtain ⟨ck, a, b⟩ := hs h
    exact ⟨ck, by rw [← a]; exact lastSave_say _ _ (by simp), b⟩
  mid_bad := by rintro i w o0 o ⟨zf, _, _, h3, h4, _, h5, _⟩; exact .of h3.inv h4 h3.holds (Or.inr (by rw [h5]; simp))
  mid_stop := by
    rintro i zf w o0 o ⟨zf, h1, _, h3, h4, hi, _, hs⟩ _ hst
    refine ⟨h3.inv, ⟨i, o, h4, h3.holds⟩, fun _ _ => ⟨rfl, ?_, i, hi, h3.holds.zero⟩⟩
    obtain ⟨ck, a, b⟩ := hs hst
    exact ⟨ck, a, b.trans hi.symm⟩
  mid_end := by
    rintro i zf' w o0 ⟨zf, h1, h2, ⟨k1, kn, kd, kinv⟩, h4, hi, h5, _⟩ hzf _ hse
    obtain rfl : zf = zf' := Option.some.inj (h1.symm.trans hzf)
    refine ⟨0, ?_, h4.le (Or.inl (by omega)), Or.inl ⟨rfl, rfl, rfl⟩, hse, kinv⟩
    refine k1.zero.next h1 (fun _ _ _ _ h => h) (fun hs hu => ?_)
    obtain ⟨c, k2, k3, k4, k5⟩ := kn hs
    unfold zipNodeOf
    rw [h2]
    have := k5 hu
    rw [List.take_length] at this
    rw [← this]; exact k2
  copy := by
    intro i zf w h hzf _ hk hrs
    obtain ⟨hse, hinv⟩ : w.stopErr = false ∧ P.Inv w.sink := h.choose_spec.2.2.2
    obtain ⟨o, h1, h2, h3, h4, h5⟩ := pathBeg_entry h hzf
    have ho : o = 0 := by
      rcases h5 with h5 | ⟨_, h5⟩
      · exact h5
      · exact absurd h5 hrs
    subst ho
    have hcur := curLe_say (ev := .openW { w.ck.entry.getD (zipFileEntry zf) with woff := 0 } (K.getWriter { w.ck.entry.getD (zipFileEntry zf) with woff := 0 } w.sink).1) h3 (by simp)
    have hpath : (w.ck.entry.getD (zipFileEntry zf)).path = zf.name := by rw [h1]; rfl
    have hmem := List.mem_of_getElem? hzf
    have hf : P.Fits ({ w.ck.entry.getD (zipFileEntry zf) with woff := 0 } : Entry).path .file := by
      show P.Fits (w.ck.entry.getD (zipFileEntry zf)).path .file
      rw [hpath, ← hk]; exact hfit zf hmem
    have hfr : ∀ z ∈ A.files, ∀ n, z.name ≠ zf.name → P.node w.sink z.name = some n →
        P.node (K.getWriter { w.ck.entry.getD (zipFileEntry zf) with woff := 0 } w.sink).2 z.name = some n := by
      intro z hz n hp
      exact P.open_frame _ _ _ _ _ hinv hf (hfit z hz) (by show z.name ≠ (w.ck.entry.getD (zipFileEntry zf)).path; rw [hpath]; exact hp)
    have hinv' := P.open_inv _ _ hinv hf
    have hh0 := h2.frame hzf hfr (fun h => absurd h (Nat.lt_irrefl 0))
    refine ⟨fun hok => ?_, fun _ => .of hinv' hcur hh0 (Or.inl hse)⟩
    have hok' : (K.getWriter { w.ck.entry.getD (zipFileEntry zf) with woff := 0 } w.sink).1 = none := hok
    refine ⟨zf, hzf, hk, hrs, hh0, hcur, fun hs => ?_, fun hs => ?_, hinv', hse⟩
    · obtain ⟨c, g1, g2, g3, _⟩ := P.open_ok _ _ 0 hinv hf (by show P.shown (w.ck.entry.getD (zipFileEntry zf)).path = true; rw [hpath]; exact hs) rfl hok'
      have g1' : P.node (K.getWriter { w.ck.entry.getD (zipFileEntry zf) with woff := 0 } w.sink).2 zf.name = some (.file c) := by rw [← hpath]; exact g1
      have g3' : P.At (K.getWriter { w.ck.entry.getD (zipFileEntry zf) with woff := 0 } w.sink).2 zf.name 0 := by rw [← hpath]; exact g3
      have hc : c = [] := List.length_eq_zero_iff.mp g2
      subst hc
      exact ⟨g1', g3'⟩
    · exact P.open_deaf _ _ hinv hf (by show P.shown (w.ck.entry.getD (zipFileEntry zf)).path = false; rw [hpath]; exact hs) hok'
  copy_write := by
    rintro i w xs bs ⟨zf, h1, h2, hrs, h3, h4, h5, h6, hinv, hse⟩ _
    have hcur := curLe_say (ev := .write bs (K.write bs w.sink).1.1 (K.write bs w.sink).1.2.2) h4 (by simp)
    have hmem := List.mem_of_getElem? h1
    cases hs : P.shown zf.name with
    | true =>
      obtain ⟨k2, k4⟩ := h5 hs
      obtain ⟨k, g1, g2, g3, g4, g5, g0, g6⟩ := P.write_spec bs w.sink zf.name xs hinv (by rw [← h2]; exact hfit zf hmem) k2 k4
      have hh0 := h3.frame h1 (fun z hz n hne => g6 _ _ n (hfit z hz) hne) (fun h => absurd h (Nat.lt_irrefl 0))
      refine ⟨fun hok _ => ?_, .of g0 hcur hh0 (Or.inl hse)⟩
      have hok' : (K.write bs w.sink).1.2.2 = none := hok
      obtain ⟨hk, _⟩ := g5 hok'
      subst hk
      rw [List.take_length] at g2
      exact ⟨zf, h1, h2, hrs, hh0, hcur, fun _ => ⟨g2, by rw [List.length_append]; exact g3⟩, fun h => (by rw [hs] at h; cases h), g0, hse⟩
    | false =>
      obtain ⟨d1, d2, d3, d4⟩ := P.write_deaf bs w.sink hinv (h6 hs)
      have hh0 : HoldsFrom lo A D P.shown (P.node (K.write bs w.sink).2) i 0 := by rw [d3]; exact h3
      exact ⟨fun _ _ => ⟨zf, h1, h2, hrs, hh0, hcur, fun h => (by rw [hs] at h; cases h), fun _ => d2, d1, hse⟩, .of d1 hcur hh0 (Or.inl hse)⟩
  copy_bad := by rintro i w xs ⟨zf, h1, h2, hrs, h3, h4, _, _, hinv, hse⟩; exact .of hinv h4 h3 (Or.inl hse)
  copy_end := by
    rintro i zf' w chunks ⟨zf, h1, h2, hrs, h3, h4, h5, h6, hinv, hse⟩ hzf hop
    obtain rfl : zf = zf' := Option.some.inj (h1.symm.trans hzf)
    refine ⟨0, h3.next h1 (fun _ _ _ _ h => h) (fun hs _ => ?_), h4.le (Or.inl (by omega)), Or.inl ⟨rfl, rfl, rfl⟩, hse, hinv⟩
    have h5 := (h5 hs).1
    rw [hh i zf h1 chunks hop] at h5
    unfold zipNodeOf zipContent
    rw [h2]
    unfold ZFile.resumable at hrs
    cases hm : zf.method <;> simp [hm] at hrs ⊢ <;> exact h5

theorem zipStop_ck (A : Archive) (env : ZEnv) (D : Decomp) (F : Nat) (total : Int) : ∀ (fs : List ZFile) (i : Nat) (w : XW K V), w.stopErr = false →
    (zipLoop A env D F total fs i w).1 = none → (zipLoop A env D F total fs i w).2.stopErr = true → (zipLoop A env D F total fs i w).2.ck.entry = none := by
  intro fs
  have hstop : ∀ (fs : List ZFile) (j : Nat) (w' : XW K V), w'.stopErr = true → zipLoop A env D F total fs j w' = (none, w') := by
    intro fs j w' h
    cases fs with
    | nil => rfl
    | cons z fs => unfold zipLoop; simp [h]
  induction fs with
  | nil => intro i w h _ h2; unfold zipLoop at h2; rw [h] at h2; cases h2
  | cons zf fs ih =>
    intro i w h h1 h2
    unfold zipLoop at h1 h2 ⊢
    simp only [h, Bool.false_eq_true, if_false] at h1 h2 ⊢
    cases hr : (zipEntry A env D F total i zf w).1 with
    | some e => rw [hr] at h1; cases h1
    | none =>
      rw [hr] at h1 h2
      simp only at h1 h2 ⊢
      cases hs : (zipEntry A env D F total i zf w).2.stopErr with
      | false => exact ih _ _ rfl (by rw [hs] at h1; exact h1) (by rw [hs] at h2; exact h2)
      | true => rw [hstop _ _ _ rfl]

/-- The sink's invariant through preallocation. -/
theorem zipPrealloc_inv {A : Archive} (P : PathLaw K) (hfit : P.FitsAll A) : ∀ (fs : List ZFile) (w : XW K V), (∀ z ∈ fs, z ∈ A.files) → P.Inv w.sink →
    P.Inv (zipPrealloc fs w).2.sink := by
  intro fs
  induction fs with
  | nil => intro w _ h; exact h
  | cons z fs ih =>
    intro w hm h
    unfold zipPrealloc
    split
    · rename_i hk
      have hi : P.Inv (K.preallocate (zipFileEntry z) w.sink).2 := by
        refine P.prealloc_inv _ _ h ?_
        have := hfit z (hm z (by simp))
        rw [hk] at this
        exact this
      simp only
      split
      · exact hi
      · exact ih _ (fun x hx => hm x (by simp [hx])) hi
    · exact ih _ (fun x hx => hm x (by simp [hx])) h

/-- What can be resumed from. -/
def PathOK (A : Archive) (D : Decomp) (P : PathLaw K) (hist : List ECkpt) (k : K.St) : Prop :=
  P.Inv k ∧ ∃ i o, UpTo A D P.shown hist i o ∧ HoldsFrom 0 A D P.shown (P.node k) i o

/-- What a run can start from: nothing, or a checkpoint for `(i, o)` up to which everything (from `lo` on) is in place. -/
inductive PathStart (lo : Nat) (A : Archive) (D : Decomp) (P : PathLaw K) (k : K.St) : Option ECkpt → List ECkpt → Prop
  | fresh : PathStart lo A D P k none []
  | pick {c : ECkpt} {before : List ECkpt} {i o : Nat} : PathCk A D P.shown c i o → UpTo A D P.shown before i o →
      HoldsFrom lo A D P.shown (P.node k) i o → PathStart lo A D P k (some c) before

theorem pathStart_steps {lo : Nat} {A : Archive} {D : Decomp} {env : ZEnv} (hh : env.Honest A) (P : PathLaw K) (hfit : P.FitsAll A)
    (before : List ECkpt) (ck : Option ECkpt) (k : K.St) (u : V.St) (hinv : P.Inv k) (hst : PathStart lo A D P k ck before) (r : Option Err × XW K V)
    (hr : zipPrepare A ck (zipInit A ck k u) = r) :
    (pathSteps lo A D env hh (zipSum A.files) K P hfit V before).Bad r.2 ∧
    (r.1 = none → ∃ i : Nat, (ck.getD freshCk).entryIndex = i ∧ (pathSteps lo A D env hh (zipSum A.files) K P hfit V before).Beg i r.2) ∧ r.2.stopErr = false := by
  obtain ⟨h1, h2, h3, _⟩ := zipPrepare_log A ck k u r hr
  have hsv : savedCks r.2.log = [] := by unfold savedCks; rw [saves_prealloc _ h1]; rfl
  have hcur : ∀ i o, UpTo A D P.shown before i o → CurLe A D P.shown before r.2.log i o := by
    intro i o h
    unfold CurLe
    rw [hsv, List.append_nil]; exact h
  cases hst with
  | fresh =>
    have hc : CurLe A D P.shown [] r.2.log 0 0 := hcur _ _ (UpTo.nil ..)
    have hi : P.Inv r.2.sink := by
      subst hr
      exact zipPrealloc_inv P hfit A.files _ (fun _ h => h) hinv
    have hh0 : HoldsFrom lo A D P.shown (P.node r.2.sink) 0 0 := .nothing ..
    exact ⟨.of hi hc hh0 (Or.inl h3), fun _ => ⟨0, rfl, 0, hh0, hc, Or.inl ⟨rfl, by rw [h2]; rfl, by rw [h2]; rfl⟩, h3, hi⟩, h3⟩
  | @pick c _ i o hp hub hh =>
    have hsink : r.2.sink = k := by
      subst hr
      rfl
    have hc := hcur _ _ hub
    rw [← hsink] at hh hinv
    refine ⟨.of hinv hc hh (Or.inl h3), fun _ => ⟨i, ?_, o, hh, hc, ?_, h3, hinv⟩, h3⟩
    · rcases hp with ⟨zf, hp⟩ | ⟨hp, _⟩
      · exact hp.saved.index
      · exact hp
    · rw [h2]
      rcases hp with ⟨zf, hp⟩ | ⟨_, a, b, d⟩
      · exact Or.inr ⟨zf, hp⟩
      · exact Or.inl ⟨d, a, b⟩

/-- What one run does. -/
theorem zipResume_path {A : Archive} {D : Decomp} {F : Nat} (hwf : ZipWF A D F) (env : ZEnv) (hh : env.Honest A) (P : PathLaw K) (hfit : P.FitsAll A)
    (hist before : List ECkpt) (ck : Option ECkpt) (k : K.St) (u : V.St) (hok : PathOK A D P hist k) (hck : ChooseCk hist ck before) :
    PathEnd 0 A D P before (zipResume A env D F K V ck k u).2 ∧
    (∀ res, (zipResume A env D F K V ck k u).1 = .ok res → HoldsFrom 0 A D P.shown (P.node (zipResume A env D F K V ck k u).2.sink) A.files.length 0) ∧
    ((zipResume A env D F K V ck k u).1 = .error .stop → (zipResume A env D F K V ck k u).2.stopErr = true) := by
  obtain ⟨hinv, i0, o0, hup, hhold⟩ := hok
  have hst : PathStart 0 A D P k ck before := by
    cases ck with
    | none => cases hck; exact .fresh
    | some c =>
      obtain ⟨i, o, hp, hle, hub⟩ := hup.choose hck
      exact .pick hp hub (hhold.mono (pathCk_le hp) hle (Nat.zero_le _))
  have key := zipResume_steps hwf (pathSteps 0 A D env hh (zipSum A.files) K P hfit V before) ck k u
    (fun r hr => pathStart_steps hh P hfit before ck k u hinv hst r hr)
  refine ⟨key.1, ?_, key.2.2⟩
  intro res hres
  obtain ⟨_, _, j, hj, o, hb, _⟩ := key.2.1 res hres
  exact ⟨fun h z hl hlt hz hs hu => hb.done h z hl (by omega) hz hs hu, fun _ _ _ _ h => absurd h (Nat.lt_irrefl 0)⟩

/-- After a stop the checkpoint object describes the start of a member. -/
theorem zipResume_stop_ck (A : Archive) (env : ZEnv) (D : Decomp) (F : Nat) (ck : Option ECkpt) (k : K.St) (u : V.St)
    (h : (zipResume A env D F K V ck k u).1 = .error .stop) (hs : (zipResume A env D F K V ck k u).2.stopErr = true) :
    (zipResume A env D F K V ck k u).2.ck.entry = none := by
  unfold zipResume at h hs ⊢
  simp only at h hs ⊢
  have hp := (zipPrepare_log (V := V) A ck k u _ rfl).2.2.1
  generalize zipPrepare A ck (zipInit A ck k u : XW K V) = Q at *
  obtain ⟨pe, pw⟩ := Q
  cases pe with
  | some e => simp only at hp hs; rw [hp] at hs; cases hs
  | none =>
    simp only at h hs hp ⊢
    split at h
    · cases h
    · rename_i hi
      rw [if_neg hi] at hs ⊢
      have hl := zipStop_ck A env D F (zipSum A.files) (A.files.drop (ck.getD freshCk).entryIndex.toNat) (ck.getD freshCk).entryIndex.toNat pw hp
      have hne : ∀ (fs : List ZFile) (i : Nat) (w : XW K V) x, (zipLoop A env D F (zipSum A.files) fs i w).1 = some x → x ≠ .stop := by
        intro fs
        induction fs with
        | nil => intro i w x h; cases h
        | cons z fs ih =>
          intro i w x h
          unfold zipLoop at h
          split at h
          · cases h
          · simp only at h
            split at h
            · simp at h; rw [← h]; simp
            · exact ih _ _ _ h
      have hne' := hne (A.files.drop (ck.getD freshCk).entryIndex.toNat) (ck.getD freshCk).entryIndex.toNat pw
      generalize zipLoop A env D F (zipSum A.files) (A.files.drop (ck.getD freshCk).entryIndex.toNat) (ck.getD freshCk).entryIndex.toNat pw = R at *
      obtain ⟨re, rw'⟩ := R
      cases re with
      | some x => simp only at h; simp at h; exact absurd h (hne' x rfl)
      | none =>
        simp only at h hs hl ⊢
        cases hse : rw'.stopErr with
        | true => simp only [if_true]; exact hl trivial hse
        | false => rw [hse] at h; simp at h

/-- The last member of a name is the one the path ends up as. -/
theorem holdsTo_zipNode {A : Archive} {D : Decomp} {sh : Str → Bool} {node : Str → Option PNode} (h : HoldsFrom 0 A D sh node A.files.length 0) (p : Str) (n : PNode)
    (hs : sh p = true) (hn : zipNode A D p = some n) : node p = some n := by
  unfold zipNode at hn
  cases hl : (A.files.filter fun zf => zf.name = p).getLast? with
  | none => rw [hl] at hn; cases hn
  | some z =>
    rw [hl] at hn
    simp at hn
    subst hn
    -- find the index
    have hidx : ∃ i, A.files[i]? = some z ∧ z.name = p ∧ Unshadowed A i := by
      have gen : ∀ (fs : List ZFile), (fs.filter fun zf => zf.name = p).getLast? = some z →
          ∃ i, fs[i]? = some z ∧ z.name = p ∧ ∀ (h' : Nat) (z' : ZFile), i < h' → fs[h']? = some z' → z'.name ≠ p := by
        intro fs
        induction fs with
        | nil => intro h; cases h
        | cons a fs ih =>
          intro h
          cases hr : (fs.filter fun zf => zf.name = p).getLast? with
          | some y =>
            have : y = z := by
              by_cases ha : a.name = p
              · simp [ha, List.getLast?_cons, hr] at h; exact h
              · simp [ha, hr] at h; exact h
            subst this
            obtain ⟨i, h1, h2, h3⟩ := ih hr
            refine ⟨i + 1, by simpa using h1, h2, ?_⟩
            intro h' z' hlt hz'
            cases h' with
            | zero => omega
            | succ h' => exact h3 h' z' (by omega) (by simpa using hz')
          | none =>
            have hnil : fs.filter (fun zf => zf.name = p) = [] := List.getLast?_eq_none_iff.mp hr
            by_cases ha : a.name = p
            · simp [ha, hnil] at h
              subst h
              refine ⟨0, rfl, ha, ?_⟩
              intro h' z' hlt hz' hne
              cases h' with
              | zero => omega
              | succ h' =>
                have hm : z' ∈ fs := List.mem_of_getElem? (by simpa using hz')
                have : z' ∈ fs.filter (fun zf => zf.name = p) := by simp [hm, hne]
                rw [hnil] at this; cases this
            · simp [ha, hnil] at h
      obtain ⟨i, h1, h2, h3⟩ := gen A.files hl
      refine ⟨i, h1, h2, ?_⟩
      intro h' z1 z' hlt hz1 hz'
      obtain rfl : z = z1 := Option.some.inj (h1.symm.trans hz1)
      rw [h2]
      exact h3 h' z' hlt hz'
    obtain ⟨i, h1, h2, h3⟩ := hidx
    rw [← h2]
    exact h.done i z (Nat.zero_le _) (List.getElem?_eq_some_iff.mp h1).1 h1 (by rw [h2]; exact hs) h3

end
end Savior
