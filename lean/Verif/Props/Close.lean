import Verif.Close
import Verif.Toy
import Verif.Gzip
import Verif.SeekSource
/-!
# Closing a gzip source (C93)
-/

namespace Savior

/-- What the caller saw of the last `Resume` of a history: `none` if there was none, otherwise whether it succeeded. -/
def lastResume : List (SrcOp × SrcOut) → Option Bool
  | [] => none
  | (_, .resumed r) :: l => match lastResume l with | none => some r.toBool | some b => some b
  | _ :: l => lastResume l

/-- Whether a `Resume` succeeded in a history. -/
def everResumed (l : List (SrcOp × SrcOut)) : Prop := ∃ op o, (op, SrcOut.resumed (.ok o)) ∈ l

section
variable {D : Decomp} {I : SourceM} {F : Nat} {cfg : WrapCfg}

private theorem fromStart_some {s s' : WrapSt D I} {o : Int} (h : Wrap.fromStart cfg D I F s = (.ok o, s')) : s'.sr ≠ none := by
  unfold Wrap.fromStart at h
  simp only at h
  split at h
  · simp at h
  · split at h
    · simp at h
    · split at h
      · simp at h
      · split at h
        · simp at h
        · simp only [Prod.mk.injEq] at h
          rw [← h.2]; nofun

private theorem aligned_some {so ckOff o : Int} {dc : DCk} {s s' : WrapSt D I} (h : Wrap.aligned cfg D I F so ckOff dc s = (.ok o, s')) : s'.sr ≠ none := by
  unfold Wrap.aligned at h
  split at h
  · split at h
    · simp only [Prod.mk.injEq] at h
      rw [← h.2]; nofun
    · simp only at h
      split at h
      · simp at h
      · exact fromStart_some h
  · exact fromStart_some h

private theorem resume_some {c : Option Ckpt} {s s' : WrapSt D I} {o : Int} (h : Wrap.resume cfg D I F c s = (.ok o, s')) : s'.sr ≠ none := by
  unfold Wrap.resume at h
  split at h
  · split at h
    · simp only at h
      split at h
      · simp at h
      · split at h
        · split at h
          · simp at h
          · split at h
            · simp at h
            · exact aligned_some h
        · exact aligned_some h
    · exact fromStart_some h
  · exact fromStart_some h

private theorem fromStart_none {s s' : WrapSt D I} {e : Err} (hs : s.sr = none) (h : Wrap.fromStart cfg D I F s = (.error e, s')) : s'.sr = none := by
  unfold Wrap.fromStart at h
  simp only at h
  split at h
  · simp only [Prod.mk.injEq] at h; rw [← h.2]; exact hs
  · split at h
    · simp only [Prod.mk.injEq] at h; rw [← h.2]; exact hs
    · split at h
      · simp only [Prod.mk.injEq] at h; rw [← h.2]; exact hs
      · split at h
        · simp only [Prod.mk.injEq] at h
          rw [← h.2]
          simp only [hs, Wrap.poke, Option.map_none]
          split <;> rfl
        · simp at h

private theorem aligned_none {so ckOff : Int} {dc : DCk} {s s' : WrapSt D I} {e : Err} (hs : s.sr = none)
    (h : Wrap.aligned cfg D I F so ckOff dc s = (.error e, s')) : s'.sr = none := by
  unfold Wrap.aligned at h
  split at h
  · split at h
    · simp at h
    · simp only at h
      split at h
      · simp only [Prod.mk.injEq] at h; rw [← h.2]
      · exact fromStart_none rfl h
  · exact fromStart_none hs h

private theorem resume_none {c : Option Ckpt} {s s' : WrapSt D I} {e : Err} (hs : s.sr = none) (h : Wrap.resume cfg D I F c s = (.error e, s')) : s'.sr = none := by
  unfold Wrap.resume at h
  split at h
  · split at h
    · simp only at h
      split at h
      · simp only [Prod.mk.injEq] at h; rw [← h.2]; exact hs
      · split at h
        · split at h
          · simp only [Prod.mk.injEq] at h; rw [← h.2]; exact hs
          · split at h
            · simp only [Prod.mk.injEq] at h
              rw [← h.2]
              simp only [hs, Wrap.poke, Option.map_none]
            · exact aligned_none (by exact hs) h
        · exact aligned_none (by exact hs) h
    · exact fromStart_none hs h
  · exact fromStart_none hs h

private theorem read_sr {C : Type} (cb : Callback C) (n : Nat) (s : WrapSt D I) (c : C) :
    (Wrap.read cfg D I F cb n s c).2.1.sr = none ↔ s.sr = none := by
  unfold Wrap.read
  cases hs : s.sr with
  | none => simp [hs]
  | some r =>
    simp only [reduceCtorEq, iff_false]
    split
    · split
      · nofun
      · split
        · nofun
        · split
          · nofun
          · nofun
    · nofun

private theorem store_sr (bs : List Byte) (s : WrapSt D I) : (Wrap.storeByte D I bs s).sr = s.sr := by
  cases bs <;> rfl

private theorem readByte_sr {C : Type} (cb : Callback C) (s : WrapSt D I) (c : C) :
    (Wrap.readByte cfg D I F cb s c).2.1.sr = none ↔ s.sr = none := by
  unfold Wrap.readByte
  cases hs : s.sr with
  | none => simp [hs]
  | some r =>
    simp only
    split
    · simp only [store_sr, read_sr, hs]
    · simp only [store_sr, read_sr, hs]

/-- What one call does to the decompressor's presence, by what the caller sees of it. -/
private theorem step_sr (answer : Nat → Option Err) (op : SrcOp) (s : WrapSt D I) (log : List (Ckpt × Option Err)) :
    match (srcStep (wrapM cfg D I F) answer op s log).1 with
    | .resumed (.ok _) => WrapSt.sr (srcStep (wrapM cfg D I F) answer op s log).2.1 ≠ none
    | .resumed (.error _) => s.sr = none → WrapSt.sr (srcStep (wrapM cfg D I F) answer op s log).2.1 = none
    | _ => WrapSt.sr (srcStep (wrapM cfg D I F) answer op s log).2.1 = none ↔ s.sr = none := by
  have hres : ∀ c : Option Ckpt, match (Wrap.resume cfg D I F c s).1 with
      | .ok _ => (Wrap.resume cfg D I F c s).2.sr ≠ none
      | .error _ => s.sr = none → (Wrap.resume cfg D I F c s).2.sr = none := by
    intro c
    generalize hq : Wrap.resume cfg D I F c s = q
    obtain ⟨q1, q2⟩ := q
    cases q1 with
    | ok o => exact resume_some hq
    | error e => exact fun hs => resume_none hs hq
  cases op with
  | resumeNil =>
    have := hres none
    simp only [srcStep]
    change match SrcOut.resumed (Wrap.resume cfg D I F none s).1 with
      | .resumed (.ok _) => (Wrap.resume cfg D I F none s).2.sr ≠ none
      | .resumed (.error _) => s.sr = none → (Wrap.resume cfg D I F none s).2.sr = none
      | _ => (Wrap.resume cfg D I F none s).2.sr = none ↔ s.sr = none
    revert this
    generalize Wrap.resume cfg D I F none s = q
    obtain ⟨q1, q2⟩ := q
    cases q1 <;> exact id
  | resumeCk i =>
    simp only [srcStep]
    cases hi : log[i]? with
    | none => exact Iff.rfl
    | some ck =>
      have := hres (some ck.1)
      change match SrcOut.resumed (Wrap.resume cfg D I F (some ck.1) s).1 with
        | .resumed (.ok _) => (Wrap.resume cfg D I F (some ck.1) s).2.sr ≠ none
        | .resumed (.error _) => s.sr = none → (Wrap.resume cfg D I F (some ck.1) s).2.sr = none
        | _ => (Wrap.resume cfg D I F (some ck.1) s).2.sr = none ↔ s.sr = none
      revert this
      generalize Wrap.resume cfg D I F (some ck.1) s = q
      obtain ⟨q1, q2⟩ := q
      cases q1 <;> exact id
  | read n => exact read_sr _ _ _ _
  | readByte => exact readByte_sr _ _ _
  | wantSave => exact Iff.rfl
  | setSSC b => exact Iff.rfl

/-- After any history: if the last `Resume` in it succeeded there is a decompressor; if there was one before and there was no `Resume`, there still is. -/
private theorem run_some (answer : Nat → Option Err) : ∀ (ops : List SrcOp) (s : WrapSt D I) (log : List (Ckpt × Option Err)),
    (lastResume (srcRun (wrapM cfg D I F) answer ops s log).1 = some true →
      WrapSt.sr (srcRun (wrapM cfg D I F) answer ops s log).2.1 ≠ none) ∧
    (lastResume (srcRun (wrapM cfg D I F) answer ops s log).1 = none → s.sr ≠ none →
      WrapSt.sr (srcRun (wrapM cfg D I F) answer ops s log).2.1 ≠ none)
  | [], s, log => ⟨nofun, fun _ h => h⟩
  | op :: ops, s, log => by
    have h1 := step_sr (cfg := cfg) (F := F) answer op s log
    simp only [srcRun]
    generalize srcStep (wrapM cfg D I F) answer op s log = q at h1
    obtain ⟨out, s1, log1⟩ := q
    have ih := run_some answer ops s1 log1
    simp only at h1 ⊢
    cases out with
    | resumed r =>
      cases r with
      | ok o =>
        simp only [lastResume, Except.toBool]
        cases hl : lastResume (srcRun (wrapM cfg D I F) answer ops s1 log1).1 with
        | none => exact ⟨fun _ => ih.2 hl h1, nofun⟩
        | some b => exact ⟨fun h => ih.1 (by rw [hl]; exact h), nofun⟩
      | error e =>
        simp only [lastResume, Except.toBool]
        cases hl : lastResume (srcRun (wrapM cfg D I F) answer ops s1 log1).1 with
        | none => exact ⟨nofun, nofun⟩
        | some b => exact ⟨fun h => ih.1 (by rw [hl]; exact h), nofun⟩
    | none => exact ⟨fun h => ih.1 h, fun h hs => ih.2 h (fun hh => hs (h1.mp hh))⟩
    | data bs e em => exact ⟨fun h => ih.1 h, fun h hs => ih.2 h (fun hh => hs (h1.mp hh))⟩
    | byte b e em => exact ⟨fun h => ih.1 h, fun h hs => ih.2 h (fun hh => hs (h1.mp hh))⟩

/-- As long as no `Resume` succeeds there is no decompressor. -/
private theorem run_none (answer : Nat → Option Err) : ∀ (ops : List SrcOp) (s : WrapSt D I) (log : List (Ckpt × Option Err)),
    s.sr = none → ¬ everResumed (srcRun (wrapM cfg D I F) answer ops s log).1 → WrapSt.sr (srcRun (wrapM cfg D I F) answer ops s log).2.1 = none
  | [], s, log, hs, _ => hs
  | op :: ops, s, log, hs, hn => by
    have h1 := step_sr (cfg := cfg) (F := F) answer op s log
    simp only [srcRun] at hn ⊢
    generalize srcStep (wrapM cfg D I F) answer op s log = q at h1 hn
    obtain ⟨out, s1, log1⟩ := q
    simp only at h1 hn ⊢
    have hn' : ¬ everResumed (srcRun (wrapM cfg D I F) answer ops s1 log1).1 := by
      rintro ⟨op', o, hm⟩
      exact hn ⟨op', o, List.mem_cons_of_mem _ hm⟩
    refine run_none answer ops s1 log1 ?_ hn'
    cases out with
    | resumed r =>
      cases r with
      | ok o => exact absurd ⟨op, o, List.mem_cons_self⟩ hn
      | error e => exact h1 hs
    | none => exact h1.mpr hs
    | data bs e em => exact h1.mpr hs
    | byte b e em => exact h1.mpr hs

end

/-- **C93 (what holds).** A gzip source over any source, after any history of calls whose last `Resume` succeeded (whatever reads failed before or since): `Close`
is the decompressor's `Close`, so it does not panic unless that does. -/
theorem C93_close_partial (D : Decomp) (I : SourceM) (F : Nat) (src : I.St) (answer : Nat → Option Err) (ops : List SrcOp)
    (ext : SR D → Option Err) (hext : ∀ r, ext r ≠ some .panic)
    (h : lastResume (srcRun (wrapM gzipCfg D I F) answer ops (Wrap.new D I src) []).1 = some true) :
    gzipClose ext (srcRun (wrapM gzipCfg D I F) answer ops (Wrap.new D I src) []).2.1 ≠ some .panic := by
  have := (run_some (cfg := gzipCfg) (F := F) answer ops (Wrap.new D I src) []).1 h
  revert this
  generalize (srcRun (wrapM gzipCfg D I F) answer ops (Wrap.new D I src) []).2.1 = s
  intro hs
  unfold gzipClose
  cases hr : WrapSt.sr s with
  | none => exact absurd hr hs
  | some r => exact hext r

/-- **C93 (what does not).** After any history of calls in which no `Resume` succeeded, in particular before the first one and when the data turned out not to be gzip
data, `Close` panics. -/
theorem C93_false_before_resume (D : Decomp) (I : SourceM) (F : Nat) (src : I.St) (answer : Nat → Option Err) (ops : List SrcOp)
    (ext : SR D → Option Err) (h : ¬ everResumed (srcRun (wrapM gzipCfg D I F) answer ops (Wrap.new D I src) []).1) :
    gzipClose ext (srcRun (wrapM gzipCfg D I F) answer ops (Wrap.new D I src) []).2.1 = some .panic := by
  have := run_none (cfg := gzipCfg) (F := F) answer ops (Wrap.new D I src) [] rfl h
  revert this
  generalize (srcRun (wrapM gzipCfg D I F) answer ops (Wrap.new D I src) []).2.1 = s
  intro hs
  unfold gzipClose
  rw [hs]

/-- A successful `Resume`, a read, and a request to save: `Close` is the decompressor's. -/
example : let s := Wrap.new (gunzip true) seekM (Seek.fromBytes gzipTwo)
    let r := srcRun (wrapM gzipCfg (gunzip true) seekM 100) (fun _ => none) [.wantSave, .resumeNil, .read 2, .setSSC true] s []
    lastResume r.1 = some true ∧ gzipClose (fun _ => none) r.2.1 = none := by decide +kernel

/-- Data that is not gzip data: `Resume` fails, and `Close` panics. -/
example : let s := Wrap.new (gunzip true) seekM (Seek.fromBytes [1, 2, 3])
    let r := srcRun (wrapM gzipCfg (gunzip true) seekM 100) (fun _ => none) [.resumeNil] s []
    lastResume r.1 = some false ∧ gzipClose (fun _ => none) r.2.1 = some .panic := by decide +kernel

example : ¬ everResumed (srcRun (wrapM gzipCfg (gunzip true) seekM 100) (fun _ => none) [.setSSC true] (Wrap.new (gunzip true) seekM (Seek.fromBytes gzipTwo)) []).1 := by
  rintro ⟨op, o, h⟩
  simp [srcRun, srcStep] at h

/-- A file read five bytes at a time, of which the `k`-th system call fails. -/
def faultyGzip (k : Nat) : WrapSt (gunzip true) seekM :=
  Wrap.new (gunzip true) seekM (Seek.newWithSize ⟨gzipTwo, 0, fun t => if t = k then ⟨4, false, some 5⟩ else ⟨4, false, none⟩, 0⟩ gzipTwo.length)

/-- **C93 (in between).** When a `Resume` succeeded and the last one failed, `Close` may or may not panic, and the caller cannot tell: the same two calls, with the same
results but for the error (the second seek fails, or the read after it). -/
theorem C93_in_between :
    let r5 := srcRun (wrapM gzipCfg (gunzip true) seekM 100) (fun _ => none) [.resumeNil, .resumeNil] (faultyGzip 5) []
    let r6 := srcRun (wrapM gzipCfg (gunzip true) seekM 100) (fun _ => none) [.resumeNil, .resumeNil] (faultyGzip 6) []
    lastResume (r5.1.take 1) = some true ∧ lastResume r5.1 = some false ∧ gzipClose (fun _ => none) r5.2.1 = none ∧
    lastResume (r6.1.take 1) = some true ∧ lastResume r6.1 = some false ∧ gzipClose (fun _ => none) r6.2.1 = some .panic := by decide +kernel

end Savior
