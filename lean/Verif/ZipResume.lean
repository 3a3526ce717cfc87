import Verif.ZipLemmas
import Verif.Spec.Zip
/-!
# Stop/resume correctness of the zip extractor
-/

namespace Savior
open Seek (Geo GoodS AtS)

/-- Geometry of a member's data (with a dummy schedule). -/
def zipGeo (A : Archive) (zf : ZFile) : Geo := ⟨zipRawBytes A zf, fun _ => .full, 0, zf.csize.toNat⟩

/-- `c` is a checkpoint of a member's source at offset `o`. -/
def fileCk (A : Archive) (D : Decomp) (zf : ZFile) (c : Ckpt) (o : Nat) : Prop :=
  match zf.method with
  | .store => Seek.CkS (zipGeo A zf) c o
  | .deflate => CkW (seekLawful (zipGeo A zf)) flateCfg D c o
  | _ => False

/-- Members with a resumable source. -/
def ZFile.resumable (zf : ZFile) : Prop := zf.method = .store ∨ zf.method = .deflate

section
variable {K : SinkM} {V : SaveCons}

theorem zipGeo_stream (A : Archive) (zf : ZFile) (sched : Nat → RsAct) :
    Geo.stream ⟨zipRawBytes A zf, sched, 0, zf.csize.toNat⟩ = zipRawBytes A zf := by
  simp [Geo.stream, window, zipRawBytes, List.take_take]

/-- A member's source is lawful. -/
theorem zipFile_src {A : Archive} {D : Decomp} {F : Nat} (hD : D.Law) (env : ZEnv) (total : Int) (i : Nat) (zf : ZFile)
    (hsup : zf.resumable) (hcs : 0 ≤ zf.csize) (hb : zipBudget A D zf ≤ F) :
    (∃ x, ∀ w : XW K V, zipFile A env D F total i zf w = (some x, w)) ∧ env.dataOff i ≠ none ∨
    ∃ (S : SourceM) (L : Lawful S (zipContent A D zf).1 (zipContent A D zf).2) (src : S.St),
      (∀ w : XW K V, zipFile A env D F total i zf w = zipRunFile S F total src w) ∧ L.Good src ∧ L.Quiet src ∧
      (∀ c o, L.CkFor c o ↔ fileCk A D zf c o) ∧ L.rankMax < F ∧
      (NoFault (env.sched i) → LazySched (env.sched i) → (∀ st, D.canSave st = true → D.saveOK st = true) → L.nice) ∧
      ((∀ st, D.canSave st = true → D.dec (D.enc st) = some st) → L.exact) := by
  have hgood : GoodS ⟨zipRawBytes A zf, env.sched i, 0, zf.csize.toNat⟩ (Seek.newWithSize (zipRaw A env i zf) zf.csize) := by
    refine ⟨rfl, rfl, rfl, ?_⟩
    show zf.csize = _
    simp; omega
  have hstr := zipGeo_stream A zf (env.sched i)
  rcases hsup with hm | hm
  · cases hd : env.dataOff i with
    | some x => left; refine ⟨⟨.wrapped x, fun w => ?_⟩, by simp⟩; simp [zipFile, hm, hd]
    | none =>
      right
      have hc : zipContent A D zf = (Geo.stream ⟨zipRawBytes A zf, env.sched i, 0, zf.csize.toNat⟩, true) := by
        simp only [zipContent, hm, hstr]
      rw [hc]
      refine ⟨seekM, seekLawful ⟨zipRawBytes A zf, env.sched i, 0, zf.csize.toNat⟩,
        Seek.newWithSize (zipRaw A env i zf) zf.csize, fun w => by simp only [zipFile, hm, hd], hgood, rfl, ?_, ?_, fun h _ _ => h, fun _ => trivial⟩
      · intro c o
        simp only [fileCk, hm]
        rfl
      · show zf.csize.toNat < F
        unfold zipBudget at hb; omega
  · cases hd : env.dataOff i with
    | some x => left; refine ⟨⟨.wrapped x, fun w => ?_⟩, by simp⟩; simp [zipFile, hm, hd]
    | none =>
      right
      have hc : zipContent A D zf = D.decode D.start (Geo.stream ⟨zipRawBytes A zf, env.sched i, 0, zf.csize.toNat⟩) true := by
        simp only [zipContent, hm, hstr]
      unfold zipBudget at hb
      rw [hc] at hb ⊢
      have hF : (seekLawful ⟨zipRawBytes A zf, env.sched i, 0, zf.csize.toNat⟩).rankMax + 2 ≤ F := by
        show zf.csize.toNat + 2 ≤ F
        omega
      refine ⟨wrapM flateCfg D seekM F, wrapLawful flateCfg hD (Or.inr (seekLawfulByte _)) hF,
        Wrap.new D seekM (Seek.newWithSize (zipRaw A env i zf) zf.csize), fun w => by simp only [zipFile, hm, hd], ⟨hgood, fun _ => rfl⟩,
        ⟨rfl, by intro r hr; cases hr⟩, ?_, ?_, fun h1 h2 h3 => ⟨h1, h2, h3⟩, id⟩
      · intro c o
        simp only [fileCk, hm]
        rfl
      · show _ + 2 * zf.csize.toNat + 2 < F
        omega

theorem saves_append (a b : List Ev) : saves (a ++ b) = saves a ++ saves b := by
  induction a with
  | nil => rfl
  | cons x a ih => cases x <;> simp [saves, ih]

theorem lastSave_say (log : List Ev) (ev : Ev) (h : ∀ ck a, ev ≠ .save ck a) : lastSave (log ++ [ev]) = lastSave log := by
  have : saves [ev] = [] := by cases ev <;> simp [saves] at h ⊢
  simp [lastSave, saves_append, this]

theorem lastSave_save (log : List Ev) (ck : ECkpt) (a : Except Err Action) : lastSave (log ++ [.save ck a]) = some ck := by
  simp [lastSave, saves_append, saves]

/-- The entry of a member with `o` bytes written, as the checkpoint sees it. -/
def entryAt (M : SinkLaw K) (zf : ZFile) (o : Nat) : Entry :=
  { zipFileEntry zf with woff := if M.counts (zipFileEntry zf) then (o : Int) else 0 }

/-- `ck` is a checkpoint within member `i`, with `o` bytes of it extracted. -/
def CkIn (M : SinkLaw K) (A : Archive) (D : Decomp) (i : Nat) (zf : ZFile) (ck : ECkpt) (o : Nat) : Prop :=
  ck.entryIndex = i ∧ ck.entry = some (entryAt M zf o) ∧ ∃ c, ck.srcCk = some c ∧ fileCk A D zf c o

/-- The view after `o` bytes of a member went to the sink (which was `v` before). -/
def fileView (M : SinkLaw K) (A : Archive) (D : Decomp) (v : M.W) (zf : ZFile) (o : Nat) : M.W :=
  M.write ((zipContent A D zf).1.take o) (M.open_ (zipFileEntry zf) v)

/-- Invariant while a resumable member is copied. -/
structure FInv (M : SinkLaw K) (A : Archive) (D : Decomp) (v : M.W) (i : Nat) (zf : ZFile) (o : Nat) (w : XW K V) : Prop where
  index : w.ck.entryIndex = i
  entry : w.ck.entry = some (entryAt M zf o)
  view : M.view w.sink = fileView M A D v zf o
  ok : M.openOK (zipFileEntry zf) v
  flags : w.stop = w.stopErr
  saved : w.stopErr = true → ∃ ck os, lastSave w.log = some ck ∧ os ≤ o ∧ CkIn M A D i zf ck os

variable {M : SinkLaw K} {A : Archive} {D : Decomp}

theorem fileView_counting (v : M.W) (zf : ZFile) (o : Nat) :
    M.counting (fileView M A D v zf o) = M.counts (zipFileEntry zf) := by
  unfold fileView
  rw [M.write_counting, M.open_counting]

theorem finv_write {v : M.W} {i : Nat} {zf : ZFile} {o : Nat} {w : XW K V} {bs : List Byte} (h : FInv M A D v i zf o w)
    (hbs : bs = ((zipContent A D zf).1.drop o).take bs.length) (hok : (w.write bs).1.2 = none) :
    FInv M A D v i zf (o + bs.length) (w.write bs).2 := by
  have hk : (K.write bs w.sink).1.2.2 = none := hok
  obtain ⟨h1, h2, h3⟩ := M.write_ok bs w.sink hk
  rw [h.view, fileView_counting] at h2
  refine ⟨h.index, ?_, ?_, h.ok, h.flags, ?_⟩
  · show w.ck.entry.map _ = _
    rw [h.entry, h2]
    simp only [Option.map_some, entryAt]
    split <;> simp
  · show M.view (K.write bs w.sink).2 = _
    rw [h3, h.view]
    unfold fileView
    rw [← M.write_append]
    congr 1
    rw [List.take_add, ← hbs]
  · intro hs
    obtain ⟨ck, os, a, b, c⟩ := h.saved hs
    refine ⟨ck, os, ?_, by omega, c⟩
    show lastSave (w.log ++ [_]) = _
    rw [lastSave_say _ _ (by simp)]
    exact a

theorem finv_save {v : M.W} {i : Nat} {zf : ZFile} {o : Nat} {w : XW K V} (total : Int) {c : Ckpt} (h : FInv M A D v i zf o w)
    (hc : fileCk A D zf c o) (hst : w.stop = false) : FInv M A D v i zf o (zipOnSave total c w).1 := by
  have hse : w.stopErr = false := by rw [← h.flags]; exact hst
  unfold zipOnSave
  simp only
  cases hs : (K.sync w.sink).1 with
  | some x =>
    simp only
    refine ⟨h.index, h.entry, ?_, h.ok, h.flags, ?_⟩
    · show M.view (K.sync w.sink).2 = _
      rw [M.sync_view]; exact h.view
    · intro h'; have : w.stopErr = true := h'; rw [hse] at this; cases this
  | none =>
    simp only
    split
    · refine ⟨h.index, h.entry, ?_, h.ok, h.flags, ?_⟩
      · show M.view (K.sync w.sink).2 = _
        rw [M.sync_view]; exact h.view
      · intro h'; have : w.stopErr = true := h'; rw [hse] at this; cases this
    · refine ⟨h.index, h.entry, ?_, h.ok, rfl, ?_⟩
      · show M.view (K.sync w.sink).2 = _
        rw [M.sync_view]; exact h.view
      · intro _
        exact ⟨_, o, lastSave_save _ _ _, Nat.le_refl _, h.index, h.entry, c, rfl, hc⟩
    · refine ⟨h.index, h.entry, ?_, h.ok, h.flags, ?_⟩
      · show M.view (K.sync w.sink).2 = _
        rw [M.sync_view]; exact h.view
      · intro h'; have : w.stopErr = true := h'; rw [hse] at this; cases this

/-- How an entry may start: from nothing, or from a checkpoint within it; `x` is the sink's view, `v` the ideal view before
this entry. -/
inductive EStart (M : SinkLaw K) (A : Archive) (D : Decomp) (v : M.W) (zf : ZFile) (ck : ECkpt) (x : M.W) : Prop
  | fresh : ck.entry = none → ck.srcCk = none → x = v → EStart M A D v zf ck x
  | resumed (o : Nat) (ys : List Byte) : zf.resumable → (zipFileEntry zf).kind = .file → o ≤ (zipContent A D zf).1.length →
      ck.entry = some (entryAt M zf o) → (∃ c, ck.srcCk = some c ∧ fileCk A D zf c o) → M.openOK (zipFileEntry zf) v →
      M.detach x = M.detach (M.write ((zipContent A D zf).1.take o ++ ys) (M.open_ (zipFileEntry zf) v)) → EStart M A D v zf ck x

theorem entryAt_zero (zf : ZFile) : entryAt M zf 0 = zipFileEntry zf := by
  unfold entryAt zipFileEntry
  simp

theorem entryAt_counts (zf : ZFile) (o : Nat) : M.counts (entryAt M zf o) = M.counts (zipFileEntry zf) := M.counts_woff _ _

/-- Opening a resumable member, fresh or at a checkpoint, puts the sink at the checkpoint's offset. -/
theorem open_estart {v : M.W} {zf : ZFile} {o : Nat} {x : M.W} {ys : List Byte} (hlen : o ≤ (zipContent A D zf).1.length)
    (hx : M.detach x = M.detach (M.write ((zipContent A D zf).1.take o ++ ys) (M.open_ (zipFileEntry zf) v))) (hok : M.openOK (zipFileEntry zf) v) :
    M.open_ (entryAt M zf o) x = fileView M A D v zf o := by
  rw [← M.open_detach, hx, M.open_detach]
  by_cases hc : M.counts (zipFileEntry zf) = true
  · have := M.reopen (zipFileEntry zf) v ((zipContent A D zf).1.take o) ys hc rfl hok
    rw [List.length_take, Nat.min_eq_left hlen] at this
    unfold entryAt fileView
    rw [if_pos hc]
    exact this
  · have hc' : M.counts (zipFileEntry zf) = false := by simpa using hc
    have he : entryAt M zf o = zipFileEntry zf := by
      unfold entryAt
      rw [if_neg hc]
      rfl
    rw [he]
    unfold fileView
    rw [(M.ignored _ v _ hc' rfl).1, (M.ignored _ v _ hc' rfl).1, (M.ignored _ v [] hc' rfl).2]

theorem zipRunFile_finv {S : SourceM} {v : M.W} {i : Nat} {zf : ZFile} (total : Int) (F : Nat)
    (L : Lawful S (zipContent A D zf).1 (zipContent A D zf).2) (src : S.St) (hg : L.Good src) (hq : L.Quiet src)
    (hck : ∀ c o, L.CkFor c o ↔ fileCk A D zf c o) (hF : L.rankMax < F) (w : XW K V) (o : Nat)
    (hi : w.ck.entryIndex = i) (hse : w.stopErr = false)
    (hent : w.ck.entry = some (entryAt M zf o))
    (hst : (w.ck.srcCk = none ∧ o = 0) ∨ (∃ c, w.ck.srcCk = some c ∧ fileCk A D zf c o))
    (hopen : M.openOK (entryAt M zf o) (M.view w.sink) → M.openOK (zipFileEntry zf) v ∧ M.open_ (entryAt M zf o) (M.view w.sink) = fileView M A D v zf o)
    (hres : (zipRunFile S F total src w).1 = none) :
    (∃ o', FInv M A D v i zf o' (zipRunFile S F total src w).2 ∧
      ((zipRunFile S F total src w).2.stop = true ∨ o' = (zipContent A D zf).1.length)) := by
  have key := (zipRunFile_rule L total F hF src w (entryAt M zf o) (if M.counts (zipFileEntry zf) then (o : Int) else 0) o
    (FInv M A D v i zf) (fun _ => True) hg hq hent (by unfold entryAt; rfl) ?_ ?_ ?_ ?_ ?_ ?_).1
  · rcases key with ⟨h, _⟩ | ⟨h, _⟩ | ⟨o', h1, h2, h3⟩ | ⟨h, _⟩
    · exact absurd hres h
    · exact absurd hres h
    · refine ⟨o', h2, ?_⟩
      rcases h3 hres with h | h
      · exact Or.inl h
      · exact Or.inr h.1
    · exact absurd hres h
  · rcases hst with h | ⟨c, h1, h2⟩
    · exact Or.inl h
    · exact Or.inr ⟨c, h1, (hck c o).mpr h2⟩
  · intro oc hoc1 hoc2 _ _ _ hop
    unfold zipOpen at hop ⊢
    rw [hent] at hop ⊢
    simp only at hop ⊢
    obtain ⟨g1, g2⟩ := M.getWriter_ok _ _ hop
    obtain ⟨g3, g4⟩ := hopen g1
    have hoc : entryAt M zf oc = entryAt M zf o ∧ fileView M A D v zf oc = fileView M A D v zf o := by
      by_cases hc : M.counts (zipFileEntry zf) = true
      · rw [if_pos hc] at hoc2
        rw [hoc2 rfl]; exact ⟨rfl, rfl⟩
      · have hc' : M.counts (zipFileEntry zf) = false := by simpa using hc
        unfold entryAt fileView
        rw [if_neg hc, if_neg hc, (M.ignored _ v _ hc' rfl).1, (M.ignored _ v _ hc' rfl).1]
        exact ⟨rfl, rfl⟩
    refine ⟨hi, ?_, ?_, g3, hse.symm, ?_⟩
    · show w.ck.entry = _
      rw [hent, hoc.1]
    · show M.view (K.getWriter _ w.sink).2 = _
      rw [g2, g4, hoc.2]
    · intro h; have : w.stopErr = true := h; rw [hse] at this; cases this
  · intro oc _ _ o' w' c hinv _ hc hs _
    exact finv_save total hinv ((hck c o').mp hc) hs
  · intro o' w' bs hinv hbs _
    exact ⟨fun h => finv_write hinv hbs h, fun _ => trivial⟩
  · intro o' w' n hinv
    exact ⟨hinv.index, hinv.entry, hinv.view, hinv.ok, hinv.flags, hinv.saved⟩
  · intro o' w' hinv
    refine ⟨hinv.index, hinv.entry, hinv.view, hinv.ok, hinv.flags, ?_⟩
    intro h
    obtain ⟨ck, os, a, b⟩ := hinv.saved h
    exact ⟨ck, os, by rw [← a]; exact lastSave_say _ _ (by simp), b⟩

/-- `io.Copy` of a member opened through the zip package. -/
theorem ioCopy_spec : ∀ (chunks : List (List Byte)) (e : Option Err) (w : XW K V), (ioCopy chunks e w).1 = none →
    e = none ∧ M.view (ioCopy chunks e w).2.sink = M.write chunks.flatten (M.view w.sink) ∧
    (ioCopy chunks e w).2.stopErr = w.stopErr ∧ (ioCopy chunks e w).2.stop = w.stop ∧
    (ioCopy chunks e w).2.ck.entryIndex = w.ck.entryIndex := by
  intro chunks
  induction chunks with
  | nil => intro e w h; exact ⟨h, (M.write_nil _).symm, rfl, rfl, rfl⟩
  | cons c cs ih =>
    intro e w h
    unfold ioCopy at h ⊢
    by_cases hc : c = []
    · subst hc
      simp only [if_true] at h ⊢
      simpa using ih e w h
    · simp only [if_neg hc] at h ⊢
      cases hw : (w.write c).1.2 with
      | some x => rw [hw] at h; cases h
      | none =>
        rw [hw] at h
        simp only at h ⊢
        split at h
        · cases h
        · rename_i hn
          rw [if_neg hn]
          obtain ⟨h1, h2, h3, h4, h5⟩ := ih e _ h
          have hk : (K.write c w.sink).1.2.2 = none := hw
          refine ⟨h1, ?_, h3, h4, h5⟩
          rw [h2]
          show M.write _ (M.view (K.write c w.sink).2) = _
          rw [(M.write_ok _ _ hk).2.2, ← M.write_append, List.flatten_cons]

/-- One entry of the loop, if it does not fail. -/
theorem zipEntry_ok {F : Nat} (hwf : ZipWF A D F) (env : ZEnv) (hh : env.Honest A) (total : Int) (i : Nat) (zf : ZFile)
    (hzf : A.files[i]? = some zf) (v : M.W) (w : XW K V) (hs : EStart M A D v zf w.ck (M.view w.sink)) (hse : w.stopErr = false)
    (hres : (zipEntry A env D F total i zf w).1 = none) :
    ((zipEntry A env D F total i zf w).2.stopErr = false ∧ M.view (zipEntry A env D F total i zf w).2.sink = zipPut M A D v zf) ∨
    ((zipEntry A env D F total i zf w).2.stopErr = true ∧ ∃ ck, lastSave (zipEntry A env D F total i zf w).2.log = some ck ∧
      ck.entryIndex = i ∧ ck.entry ≠ none ∧ EStart M A D v zf ck (M.view (zipEntry A env D F total i zf w).2.sink)) := by
  have hmem : zf ∈ A.files := List.mem_of_getElem? hzf
  have hcs := hwf.csize zf hmem
  have hbud := hwf.budget zf hmem
  unfold zipEntry at hres ⊢
  simp only at hres ⊢
  cases henc : zf.encrypted with
  | true => rw [henc] at hres; simp at hres
  | false =>
    simp only [henc, Bool.false_eq_true, if_false] at hres ⊢
    -- the entry used
    have hk : (w.ck.entry.getD (zipFileEntry zf)).kind = (zipFileEntry zf).kind := by
      rcases hs with ⟨h1, _⟩ | ⟨o, ys, _, _, _, h1, _⟩
      · rw [h1]; rfl
      · rw [h1]; rfl
    have hgen : ∀ (r : Option Err × XW K V), (match r.1 with
        | some e => (some e, r.2)
        | none => (none, { r.2 with done := wrap64 (r.2.done + zf.usize) })).1 = none →
        (r.2.stopErr = false ∧ M.view r.2.sink = zipPut M A D v zf ∨ r.2.stopErr = true ∧ ∃ ck, lastSave r.2.log = some ck ∧
          ck.entryIndex = i ∧ ck.entry ≠ none ∧ EStart M A D v zf ck (M.view r.2.sink)) →
        ((match r.1 with
        | some e => (some e, r.2)
        | none => (none, { r.2 with done := wrap64 (r.2.done + zf.usize) })).2.stopErr = false ∧ M.view (match r.1 with
        | some e => (some e, r.2)
        | none => (none, { r.2 with done := wrap64 (r.2.done + zf.usize) })).2.sink = zipPut M A D v zf ∨
        (match r.1 with
        | some e => (some e, r.2)
        | none => (none, { r.2 with done := wrap64 (r.2.done + zf.usize) })).2.stopErr = true ∧ ∃ ck, lastSave (match r.1 with
        | some e => (some e, r.2)
        | none => (none, { r.2 with done := wrap64 (r.2.done + zf.usize) })).2.log = some ck ∧
          ck.entryIndex = i ∧ ck.entry ≠ none ∧ EStart M A D v zf ck (M.view (match r.1 with
        | some e => (some e, r.2)
        | none => (none, { r.2 with done := wrap64 (r.2.done + zf.usize) })).2.sink)) := by
      rintro ⟨re, rw'⟩ h1 h2
      cases re with
      | some e => cases h1
      | none => exact h2
    have hres1 : ∀ (r : Option Err × XW K V), (match r.1 with
        | some e => (some e, r.2)
        | none => (none, { r.2 with done := wrap64 (r.2.done + zf.usize) })).1 = none → r.1 = none := by
      rintro ⟨re, rw'⟩ h1
      cases re with
      | some e => cases h1
      | none => rfl
    refine hgen _ hres ?_
    replace hres := hres1 _ hres
    clear hgen hres1
    rw [hk] at hres ⊢
    cases hkind : (zipFileEntry zf).kind with
    | dir =>
      rcases hs with ⟨h1, h2, h3⟩ | ⟨o, ys, _, h, _⟩
      · left
        simp only [hkind, h1, Option.getD_none] at hres ⊢
        refine ⟨hse, ?_⟩
        have : (K.mkdir (zipFileEntry zf) w.sink).1 = none := by simpa using hres
        show M.view (K.mkdir (zipFileEntry zf) w.sink).2 = _
        rw [M.mkdir_ok _ _ this, h3]
        simp [zipPut, hkind]
      · rw [hkind] at h; cases h
    | symlink =>
      rcases hs with ⟨h1, h2, h3⟩ | ⟨o, ys, _, h, _⟩
      · left
        simp only [hkind, h1, Option.getD_none] at hres ⊢
        cases ho : env.opens i with
        | error x => rw [ho] at hres; simp at hres
        | ok p =>
          obtain ⟨chunks, e⟩ := p
          rw [ho] at hres
          cases e with
          | some x => simp at hres
          | none =>
            simp only at hres ⊢
            refine ⟨hse, ?_⟩
            have : (K.symlink (zipFileEntry zf) chunks.flatten w.sink).1 = none := by simpa using hres
            show M.view (K.symlink (zipFileEntry zf) chunks.flatten w.sink).2 = _
            rw [M.symlink_ok _ _ _ this, h3, hh i zf hzf chunks ho]
            simp [zipPut, hkind]
      · rw [hkind] at h; cases h
    | file =>
      simp only [hkind] at hres ⊢
      have hput : zipPut M A D v zf = fileView M A D v zf (zipContent A D zf).1.length := by
        simp [zipPut, hkind, fileView]
      by_cases hrs : zf.resumable
      · -- resumable
        have hstart : ∃ o, o ≤ (zipContent A D zf).1.length ∧ w.ck.entry.getD (zipFileEntry zf) = entryAt M zf o ∧
            ((w.ck.srcCk = none ∧ o = 0) ∨ (∃ c, w.ck.srcCk = some c ∧ fileCk A D zf c o)) ∧
            (M.openOK (entryAt M zf o) (M.view w.sink) → M.openOK (zipFileEntry zf) v ∧
              M.open_ (entryAt M zf o) (M.view w.sink) = fileView M A D v zf o) := by
          rcases hs with ⟨h1, h2, h3⟩ | ⟨o, ys, _, _, hlen, h1, h2, h3, h4⟩
          · refine ⟨0, Nat.zero_le _, by rw [h1, entryAt_zero]; rfl, Or.inl ⟨h2, rfl⟩, ?_⟩
            rw [entryAt_zero, h3]
            intro h
            exact ⟨h, by simp [fileView, M.write_nil]⟩
          · exact ⟨o, hlen, by rw [h1]; rfl, Or.inr h2, fun _ => ⟨h3, open_estart hlen h4 h3⟩⟩
        obtain ⟨o, hlen, he, hst, hop⟩ := hstart
        rw [he] at hres ⊢
        rcases zipFile_src (K := K) (V := V) hwf.law env total i zf hrs hcs hbud with ⟨⟨x, hx⟩, _⟩ | ⟨S, L, src, h1, h2, h3, h4, h5, _⟩
        · rw [hx] at hres; cases hres
        · rw [h1] at hres ⊢
          obtain ⟨o', g1, g2⟩ := zipRunFile_finv (M := M) (v := v) (i := i) total F L src h2 h3 h4 h5
            { w with ck := { w.ck with entryIndex := i, entry := some (entryAt M zf o) } } o rfl hse rfl hst hop hres
          generalize (zipRunFile S F total src { w with ck := { w.ck with entryIndex := i, entry := some (entryAt M zf o) } }).2 = w' at *
          cases hse' : w'.stopErr with
          | true =>
            right
            refine ⟨rfl, ?_⟩
            obtain ⟨ck, os, a, b, c⟩ := g1.saved hse'
            refine ⟨ck, a, c.1, by rw [c.2.1]; simp, ?_⟩
            have hosl : os ≤ (zipContent A D zf).1.length := by
              obtain ⟨_, _, k, _, hk2⟩ := c
              exact L.ck_le ((h4 k os).mpr hk2)
            refine .resumed os (((zipContent A D zf).1.drop os).take (o' - os)) hrs hkind hosl c.2.1 c.2.2 g1.ok ?_
            rw [g1.view]
            unfold fileView
            congr 2
            rw [show o' = os + (o' - os) from by omega, List.take_add, show os + (o' - os) - os = o' - os from by omega]
          | false =>
            left
            refine ⟨rfl, ?_⟩
            rcases g2 with h | h
            · rw [g1.flags, hse'] at h; cases h
            · rw [g1.view, hput, h]
      · -- opened through the zip package
        rcases hs with ⟨h1, h2, h3⟩ | ⟨o, ys, h, _⟩
        · left
          rw [h1] at hres ⊢
          simp only [Option.getD_none] at hres ⊢
          have hzc : ∀ w' : XW K V, zipFile A env D F total i zf w' = zipCopyFile env i w' := by
            intro w'
            unfold zipFile
            unfold ZFile.resumable at hrs
            cases hm : zf.method <;> simp [hm] at hrs ⊢
          have hzcont : zipContent A D zf = zf.opened := by
            unfold zipContent
            unfold ZFile.resumable at hrs
            cases hm : zf.method <;> simp [hm] at hrs ⊢
          rw [hzc] at hres ⊢
          unfold zipCopyFile at hres ⊢
          simp only [Option.map_some] at hres ⊢
          cases ho : env.opens i with
          | error x => rw [ho] at hres; cases hres
          | ok p =>
            obtain ⟨chunks, e⟩ := p
            rw [ho] at hres
            simp only [zipOpen] at hres ⊢
            have hent0 : ({ zipFileEntry zf with woff := 0 } : Entry) = zipFileEntry zf := rfl
            rw [hent0] at hres ⊢
            cases hg : (K.getWriter (zipFileEntry zf) w.sink).1 with
            | some x => rw [hg] at hres; cases hres
            | none =>
              rw [hg] at hres
              simp only at hres ⊢
              have hres' := by simpa using hres
              obtain ⟨a1, a2, a3, a4, a5⟩ := ioCopy_spec (M := M) chunks e _ hres'
              refine ⟨by rw [a3]; exact hse, ?_⟩
              rw [a2]
              subst a1
              show M.write _ (M.view (K.getWriter (zipFileEntry zf) w.sink).2) = _
              rw [(M.getWriter_ok _ _ hg).2, hh i zf hzf chunks ho, h3]
              simp only [zipPut, hkind, hzcont]
        · exact absurd h hrs

/-- The ideal view before member `i`, preallocation done. -/
def idealAt (M : SinkLaw K) (A : Archive) (D : Decomp) (v0 : M.W) (i : Nat) : M.W :=
  (A.files.take i).foldl (zipPut M A D) (A.files.foldl (zipPre M) v0)

theorem idealAt_succ {v0 : M.W} {i : Nat} {zf : ZFile} (h : A.files[i]? = some zf) :
    idealAt M A D v0 (i + 1) = zipPut M A D (idealAt M A D v0 i) zf := by
  unfold idealAt
  rw [List.take_add_one, h]
  simp

theorem idealAt_all {v0 : M.W} {i : Nat} (h : A.files.length ≤ i) : idealAt M A D v0 i = zipIdeal M A D v0 := by
  unfold idealAt zipIdeal
  rw [List.take_of_length_le h]

/-- A resumable position: the last saved checkpoint `ck` and the sink's view `x` agree. -/
def Resumable (M : SinkLaw K) (A : Archive) (D : Decomp) (v0 : M.W) (ck : ECkpt) (x : M.W) : Prop :=
  ∃ (j : Nat) (zf : ZFile), A.files[j]? = some zf ∧ ck.entryIndex = j ∧ ck.entry ≠ none ∧ EStart M A D (idealAt M A D v0 j) zf ck x

/-- Only what is stored counts: the writer may be gone. -/
theorem Resumable.detach {v0 : M.W} {ck : ECkpt} {x y : M.W} (h : Resumable M A D v0 ck x) (hxy : M.detach y = M.detach x) :
    Resumable M A D v0 ck y := by
  obtain ⟨j, zf, a, b, c, d⟩ := h
  refine ⟨j, zf, a, b, c, ?_⟩
  rcases d with ⟨d, _⟩ | ⟨o, ys, d1, d2, d3, d4, d5, d6, d7⟩
  · exact absurd d c
  · exact .resumed o ys d1 d2 d3 d4 d5 d6 (hxy.trans d7)

theorem zipLoop_ok {F : Nat} (hwf : ZipWF A D F) (env : ZEnv) (hh : env.Honest A) (total : Int) (v0 : M.W) :
    ∀ (fs : List ZFile) (i : Nat) (w : XW K V), fs = A.files.drop i → w.stopErr = false →
    (∀ zf, A.files[i]? = some zf → EStart M A D (idealAt M A D v0 i) zf w.ck (M.view w.sink)) →
    (A.files[i]? = none → M.view w.sink = idealAt M A D v0 i) →
    (zipLoop A env D F total fs i w).1 = none →
    ((zipLoop A env D F total fs i w).2.stopErr = false ∧ M.view (zipLoop A env D F total fs i w).2.sink = zipIdeal M A D v0) ∨
    ((zipLoop A env D F total fs i w).2.stopErr = true ∧ ∃ ck, lastSave (zipLoop A env D F total fs i w).2.log = some ck ∧
      Resumable M A D v0 ck (M.view (zipLoop A env D F total fs i w).2.sink)) := by
  intro fs
  induction fs with
  | nil =>
    intro i w hfs hse _ h2 _
    left
    have hl : A.files.length ≤ i := List.drop_eq_nil_iff.mp hfs.symm
    refine ⟨hse, ?_⟩
    show M.view w.sink = _
    rw [h2 (List.getElem?_eq_none hl), idealAt_all hl]
  | cons zf fs ih =>
    intro i w hfs hse h1 h2 hres
    have hi : A.files[i]? = some zf := by
      have := congrArg List.head? hfs
      rw [List.head?_drop] at this
      exact this.symm
    have hfs' : fs = A.files.drop (i + 1) := by
      have := congrArg List.tail hfs
      rw [List.tail_drop] at this
      exact this
    unfold zipLoop at hres ⊢
    simp only [hse, Bool.false_eq_true, if_false] at hres ⊢
    cases hr : (zipEntry A env D F total i zf w).1 with
    | some x => rw [hr] at hres; cases hres
    | none =>
      rw [hr] at hres
      simp only at hres ⊢
      have key := zipEntry_ok hwf env hh total i zf hi _ w (h1 zf hi) hse hr
      rcases key with ⟨k1, k2⟩ | ⟨k1, ck, k2, k3, k4⟩
      · exact ih (i + 1) _ hfs' k1 (fun zf' _ => .fresh rfl rfl (by rw [idealAt_succ hi]; exact k2))
          (fun _ => by rw [idealAt_succ hi]; exact k2) hres
      · right
        have hstop : ∀ (fs : List ZFile) (j : Nat) (w' : XW K V), w'.stopErr = true → zipLoop A env D F total fs j w' = (none, w') := by
          intro fs j w' h
          cases fs with
          | nil => rfl
          | cons z fs => unfold zipLoop; simp [h]
        rw [hstop _ _ _ (by exact k1)]
        exact ⟨k1, ck, k2, i, zf, hi, k3, k4⟩

theorem zipPrealloc_ok : ∀ (fs : List ZFile) (w : XW K V), (zipPrealloc fs w).1 = none →
    M.view (zipPrealloc fs w).2.sink = fs.foldl (zipPre M) (M.view w.sink) ∧ (zipPrealloc fs w).2.ck = w.ck ∧
    (zipPrealloc fs w).2.stopErr = w.stopErr := by
  intro fs
  induction fs with
  | nil => intro w _; exact ⟨rfl, rfl, rfl⟩
  | cons zf fs ih =>
    intro w h
    unfold zipPrealloc at h ⊢
    by_cases hk : (zipFileEntry zf).kind = .file
    · simp only [if_pos hk] at h ⊢
      cases hp : (K.preallocate (zipFileEntry zf) w.sink).1 with
      | some x => rw [hp] at h; cases h
      | none =>
        rw [hp] at h
        simp only at h ⊢
        obtain ⟨a, b, c⟩ := ih _ h
        refine ⟨?_, b, c⟩
        rw [a]
        show fs.foldl (zipPre M) (M.view (K.preallocate (zipFileEntry zf) w.sink).2) = _
        rw [M.prealloc_ok _ _ hp]
        simp [zipPre, hk]
    · simp only [if_neg hk] at h ⊢
      obtain ⟨a, b, c⟩ := ih _ h
      refine ⟨?_, b, c⟩
      rw [a]
      simp [zipPre, hk]

/-- One whole run, from nothing or from a checkpoint that agrees with the sink. -/
theorem zipResume_ok {F : Nat} (hwf : ZipWF A D F) (env : ZEnv) (hh : env.Honest A) (v0 : M.W) (ck : Option ECkpt) (k : K.St)
    (u : V.St) (h0 : ck = none → M.view k = v0) (h1 : ∀ c, ck = some c → Resumable M A D v0 c (M.view k)) :
    (∀ res, (zipResume A env D F K V ck k u).1 = .ok res → res = A.files.map zipFileEntry ∧
      M.view (zipResume A env D F K V ck k u).2.sink = zipIdeal M A D v0) ∧
    ((zipResume A env D F K V ck k u).1 = .error .stop → ∃ c, lastSave (zipResume A env D F K V ck k u).2.log = some c ∧
      Resumable M A D v0 c (M.view (zipResume A env D F K V ck k u).2.sink)) := by
  unfold zipResume
  simp only
  generalize hw0 : (zipInit A ck k u : XW K V) = w0
  -- the state the loop starts in
  have hpre : (∃ x, (zipPrepare A ck w0).1 = some (.wrapped x)) ∨
      ((zipPrepare A ck w0).1 = none ∧
       (zipPrepare A ck w0).2.stopErr = false ∧
       ∃ j : Nat, (ck.getD freshCk).entryIndex = j ∧
         (∀ zf, A.files[j]? = some zf → EStart M A D (idealAt M A D v0 j) zf
            (zipPrepare A ck w0).2.ck
            (M.view (zipPrepare A ck w0).2.sink)) ∧
         (A.files[j]? = none → M.view (zipPrepare A ck w0).2.sink = idealAt M A D v0 j)) := by
    unfold zipPrepare
    cases ck with
    | none =>
      simp only [Option.isNone_none, if_true]
      cases hp : (zipPrealloc A.files w0).1 with
      | some x =>
        left
        have : ∀ (fs : List ZFile) (w : XW K V) x, (zipPrealloc fs w).1 = some x → ∃ y, x = .wrapped y := by
          intro fs
          induction fs with
          | nil => intro w x h; cases h
          | cons zf fs ih =>
            intro w x h
            unfold zipPrealloc at h
            split at h
            · simp only at h
              split at h
              · simp at h; exact ⟨_, h.symm⟩
              · exact ih _ _ h
            · exact ih _ _ h
        obtain ⟨y, hy⟩ := this _ _ _ hp
        exact ⟨y, by rw [hy]⟩
      | none =>
        right
        obtain ⟨a, b, c⟩ := zipPrealloc_ok (M := M) A.files w0 hp
        have hview : M.view (zipPrealloc A.files w0).2.sink = idealAt M A D v0 0 := by
          rw [a, ← hw0]
          show A.files.foldl (zipPre M) (M.view k) = _
          rw [h0 rfl]
          rfl
        refine ⟨rfl, ?_, 0, rfl, fun zf _ => .fresh ?_ ?_ hview, fun _ => hview⟩
        · rw [c, ← hw0]; rfl
        · rw [b, ← hw0]; rfl
        · rw [b, ← hw0]; rfl
    | some c =>
      right
      obtain ⟨j, zf, g1, g2, _, g3⟩ := h1 c rfl
      simp only [Option.isNone_some, Bool.false_eq_true, if_false, Option.getD_some]
      refine ⟨trivial, by rw [← hw0]; rfl, j, g2, ?_, ?_⟩
      · intro zf' hz
        rw [g1] at hz
        cases hz
        rw [← hw0]
        exact g3
      · intro h; rw [g1] at h; cases h
  generalize (zipPrepare A ck w0) = P at *
  obtain ⟨pe, pw⟩ := P
  rcases hpre with ⟨x, hx⟩ | ⟨hp, hse, j, hj, hs1, hs2⟩
  · simp only at hx
    subst hx
    exact ⟨by simp, by simp⟩
  · simp only at hp hse hs1 hs2 ⊢
    subst hp
    rw [hj]
    simp only [Int.toNat_natCast]
    rw [if_neg (by omega)]
    have hl := zipLoop_ok hwf env hh (zipSum A.files) v0 (A.files.drop j) j pw rfl hse hs1 hs2
    have hne : ∀ (fs : List ZFile) (i : Nat) (w : XW K V) x, (zipLoop A env D F (zipSum A.files) fs i w).1 = some x → x ≠ .stop := by
      intro fs
      induction fs with
      | nil => intro i w x h; cases h
      | cons z fs ih =>
        intro i w x h
        unfold zipLoop at h
        split at h
        · cases h
        · simp only at h
          split at h
          · simp at h; rw [← h]; simp
          · exact ih _ _ _ h
    have hne' := hne (A.files.drop j) j pw
    generalize zipLoop A env D F (zipSum A.files) (A.files.drop j) j pw = R at *
    obtain ⟨re, rw'⟩ := R
    cases re with
    | some x => exact ⟨by simp, fun h => by simp at h; exact absurd h (hne' x rfl)⟩
    | none =>
      simp only at hl ⊢
      rcases hl trivial with ⟨a, b⟩ | ⟨a, b⟩
      · rw [a]
        refine ⟨?_, by simp⟩
        intro res hr
        simp at hr
        exact ⟨hr.symm, b⟩
      · rw [a]
        exact ⟨by simp, fun _ => b⟩

end
end Savior
