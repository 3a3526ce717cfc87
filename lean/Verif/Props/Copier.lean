import Verif.Copier
import Verif.Spec.Throttle
/-!
# Properties of the copier (C29–C32)

All theorems quantify over every `CopyIO W`: every behaviour of source, destination, consumer and callbacks.
-/

namespace Savior

/-- One round of the loop. -/
structure CopyIter where
  bs : List Byte
  rerr : Option Err
  m : Nat
  werr : Option Err
  fire : Bool
  ans : Bool

/-- The calls of one round, in order. -/
def CopyIter.events (i : CopyIter) : List CopyEv :=
  [.read false i.bs i.rerr, .write i.bs i.m i.werr] ++
  (if i.werr = none then
    (if i.fire then [.emit] else []) ++
    (if i.rerr = none then .should i.bs.length i.ans :: (if i.ans then [.want] else []) else [])
   else [])

/-- A round after which the loop goes on. -/
def CopyIter.cont (i : CopyIter) : Prop := i.rerr = none ∧ i.werr = none

/-- What the last round says about the result. -/
def CopyIter.result (i : CopyIter) : Option Err :=
  match i.werr with
  | some e => some (.wrapped e)
  | none => match i.rerr with
    | some e => if e = .eof then none else some (.wrapped e)
    | none => none

/-- The structure of every run: rounds, all but possibly the last of which go on; the progress callback fires as
`throttle` says; the result is the last round's, or nil because the stop flag was found set (or the step budget ran
out). -/
theorem copyLoop_rounds {W : Type} (io : CopyIO W) : ∀ (fuel counter : Nat) (w : W),
    ∃ its : List CopyIter, (copyLoop io fuel counter w).2.2 = its.flatMap CopyIter.events ∧
      its.map (·.fire) = throttle progressThreshold counter ((its.filter (·.werr.isNone)).map (·.m)) ++
        (its.filter (·.werr.isSome)).map (fun _ => false) ∧
      (((∀ i ∈ its, i.cont) ∧ (((copyLoop io fuel counter w).1 = none ∧ io.stopped (copyLoop io fuel counter w).2.1 = true) ∨
          (copyLoop io fuel counter w).1 = some .diverge)) ∨
       (∃ init last, its = init ++ [last] ∧ (∀ i ∈ init, i.cont) ∧ ¬ last.cont ∧
          (copyLoop io fuel counter w).1 = last.result)) := by
  intro fuel
  induction fuel with
  | zero => intro counter w; exact ⟨[], rfl, by simp [throttle], Or.inl ⟨by simp, Or.inr rfl⟩⟩
  | succ fuel ih =>
    intro counter w
    unfold copyLoop
    by_cases hs : io.stopped w = true
    · simp only [hs, if_true]
      exact ⟨[], rfl, by simp [throttle], Or.inl (by simp [hs])⟩
    · have hs' : io.stopped w = false := by simpa using hs
      simp only [hs']
      simp only [if_neg (show ¬ (false = true) by decide)]
      generalize io.read w = R
      obtain ⟨⟨bs, re⟩, w1⟩ := R
      simp only
      generalize io.write bs w1 = M
      obtain ⟨⟨m, we⟩, w2⟩ := M
      simp only
      cases we with
      | some e =>
        exact ⟨[⟨bs, re, m, some e, false, false⟩], by simp [CopyIter.events], by simp [throttle],
          Or.inr ⟨[], _, rfl, by simp, by simp [CopyIter.cont], rfl⟩⟩
      | none =>
        cases re with
        | some e =>
          refine ⟨[⟨bs, some e, m, none, decide (progressThreshold < counter + m), false⟩], ?_, ?_,
            Or.inr ⟨[], _, rfl, by simp, by simp [CopyIter.cont], ?_⟩⟩
          · by_cases hf : progressThreshold < counter + m <;> simp [CopyIter.events, hf]
          · by_cases hf : progressThreshold < counter + m <;> simp [throttle, hf]
          · simp [CopyIter.result]
        | none =>
          simp only
          generalize (if decide (progressThreshold < counter + m) = true then io.emit w2 else w2) = w3
          generalize io.shouldSave bs.length w3 = Q
          obtain ⟨ans, w4⟩ := Q
          simp only
          obtain ⟨its, g1, g2, g3⟩ := ih (if decide (progressThreshold < counter + m) = true then 0 else counter + m) (if ans = true then io.wantSave w4 else w4)
          refine ⟨⟨bs, none, m, none, decide (progressThreshold < counter + m), ans⟩ :: its, ?_, ?_, ?_⟩
          · rw [g1]
            simp only [List.flatMap_cons, CopyIter.events]
            by_cases hf : progressThreshold < counter + m <;> simp [hf]
          · simp only [List.map_cons, g2, List.filter_cons, Option.isNone_none, if_true, throttle, Option.isSome_none]
            by_cases hf : progressThreshold < counter + m <;> simp [hf]
          · rcases g3 with ⟨a, b⟩ | ⟨init, last, a, b, d, e⟩
            · exact Or.inl ⟨by intro i hi; rcases List.mem_cons.mp hi with hi | hi
                               · subst hi; exact ⟨rfl, rfl⟩
                               · exact a i hi, b⟩
            · refine Or.inr ⟨_ :: init, last, by rw [a]; rfl, ?_, d, e⟩
              intro i hi
              rcases List.mem_cons.mp hi with hi | hi
              · subst hi; exact ⟨rfl, rfl⟩
              · exact b i hi

/-! ## What the caller of `Do` can observe -/

/-- The chunks read, in order. -/
def chunksRead : List CopyEv → List (List Byte)
  | [] => []
  | .read _ bs _ :: t => bs :: chunksRead t
  | _ :: t => chunksRead t

/-- The chunks handed to `Dst.Write`, in order. -/
def chunksWritten : List CopyEv → List (List Byte)
  | [] => []
  | .write bs _ _ :: t => bs :: chunksWritten t
  | _ :: t => chunksWritten t

/-- An error event. -/
def CopyEv.isErr : CopyEv → Bool
  | .read _ _ (some _) => true
  | .write _ _ (some _) => true
  | _ => false

/-- A read event. -/
def CopyEv.isRead : CopyEv → Bool
  | .read .. => true
  | _ => false

theorem chunksRead_append (a b : List CopyEv) : chunksRead (a ++ b) = chunksRead a ++ chunksRead b := by
  induction a with
  | nil => rfl
  | cons x a ih => cases x <;> simp [chunksRead, ih]

theorem chunksWritten_append (a b : List CopyEv) : chunksWritten (a ++ b) = chunksWritten a ++ chunksWritten b := by
  induction a with
  | nil => rfl
  | cons x a ih => cases x <;> simp [chunksWritten, ih]

/-- **C29 (bytes).** The chunks handed to `Dst` are exactly the chunks `Src` returned, one write per read, in order —
including chunks returned together with an error or EOF, and empty ones. -/
theorem C29_bytes {W : Type} (io : CopyIO W) (fuel : Nat) (w : W) :
    chunksWritten (copyDo io fuel w).2.2 = chunksRead (copyDo io fuel w).2.2 := by
  obtain ⟨its, h, hrest⟩ := copyLoop_rounds io fuel 0 (io.clearStop w)
  unfold copyDo
  rw [h]
  clear h hrest
  induction its with
  | nil => rfl
  | cons i its ih =>
    simp only [List.flatMap_cons, chunksRead_append, chunksWritten_append, ih]
    congr 1
    obtain ⟨bs, re, m, we, fire, ans⟩ := i
    cases we <;> cases fire <;> cases re <;> cases ans <;> simp [CopyIter.events, chunksRead, chunksWritten]

/-- **C29 (result).** `Do` returns nil only if the last read reported EOF (and the write before it succeeded) or the copier
was stopped; every other result is the (stack-annotated) error of the write or read that ended the loop. -/
theorem C29_result {W : Type} (io : CopyIO W) (fuel : Nat) (w : W) (hfuel : (copyDo io fuel w).1 ≠ some .diverge) :
    ((copyDo io fuel w).1 = none ∧ io.stopped (copyDo io fuel w).2.1 = true ∧ ∀ ev ∈ (copyDo io fuel w).2.2, ev.isErr = false) ∨
    ((copyDo io fuel w).1 = none ∧ ∃ pre bs m post, (copyDo io fuel w).2.2 =
        pre ++ [.read false bs (some .eof), .write bs m none] ++ post ∧ (post = [] ∨ post = [.emit])) ∨
    (∃ e pre bs re m, (copyDo io fuel w).1 = some (.wrapped e) ∧ (copyDo io fuel w).2.2 =
        pre ++ [.read false bs re, .write bs m (some e)]) ∨
    (∃ e pre bs m post, e ≠ .eof ∧ (copyDo io fuel w).1 = some (.wrapped e) ∧ (copyDo io fuel w).2.2 =
        pre ++ [.read false bs (some e), .write bs m none] ++ post ∧ (post = [] ∨ post = [.emit])) := by
  obtain ⟨its, h, _, h3⟩ := copyLoop_rounds io fuel 0 (io.clearStop w)
  unfold copyDo at hfuel ⊢
  rw [h]
  rcases h3 with ⟨a, ⟨b, d⟩ | b⟩ | ⟨init, last, a, b, d, e⟩
  · left
    refine ⟨b, d, ?_⟩
    intro ev hev
    obtain ⟨i, hi, hev⟩ := List.mem_flatMap.mp hev
    obtain ⟨c1, c2⟩ := a i hi
    obtain ⟨bs, re, m, we, fire, ans⟩ := i
    simp only at c1 c2
    subst c1 c2
    cases fire <;> cases ans <;> simp [CopyIter.events] at hev <;> rcases hev with h | h | h | h | h <;> simp_all [CopyEv.isErr]
  · exact absurd b hfuel
  · right
    subst a
    obtain ⟨bs, re, m, we, fire, ans⟩ := last
    cases we with
    | some x =>
      right; left
      exact ⟨x, init.flatMap CopyIter.events, bs, re, m, e, by simp [CopyIter.events]⟩
    | none =>
      cases re with
      | none => exact absurd ⟨rfl, rfl⟩ d
      | some x =>
        by_cases hx : x = .eof
        · subst hx
          left
          refine ⟨e, init.flatMap CopyIter.events, bs, m, if fire then [.emit] else [], ?_, by cases fire <;> simp⟩
          simp [CopyIter.events]
        · right; right
          refine ⟨x, init.flatMap CopyIter.events, bs, m, if fire then [.emit] else [], hx, ?_, ?_, by cases fire <;> simp⟩
          · rw [e]; simp [CopyIter.result, hx]
          · simp [CopyIter.events]

/-- **C29 (stops at the first error).** Nothing is read after the first error of a read or a write. -/
theorem C29_nothing_after_error {W : Type} (io : CopyIO W) (fuel : Nat) (w : W) (pre post : List CopyEv) (ev : CopyEv)
    (h : (copyDo io fuel w).2.2 = pre ++ ev :: post) (hev : ev.isErr = true) : ∀ x ∈ post, x.isRead = false := by
  have key : ∀ (its : List CopyIter) (last : List CopyIter), (∀ i ∈ its, i.cont) → last.length ≤ 1 →
      ∀ pre, its.flatMap CopyIter.events ++ last.flatMap CopyIter.events = pre ++ ev :: post → ∀ x ∈ post, x.isRead = false := by
    intro its
    induction its with
    | nil =>
      intro last _ hl pre h x hx
      cases last with
      | nil => simp at h
      | cons i t =>
        have ht : t = [] := by simp at hl; exact hl
        subst ht
        obtain ⟨bs, re, m, we, fire, ans⟩ := i
        simp only [List.flatMap_nil, List.nil_append, List.flatMap_cons, List.append_nil] at h
        cases hxr : x.isRead with
        | false => rfl
        | true =>
          exfalso
          -- the only read is the first event; so `pre` would have to be negative
          have : ∀ y ∈ (CopyIter.events ⟨bs, re, m, we, fire, ans⟩).tail, y.isRead = false := by
            intro y hy
            cases we <;> cases fire <;> cases re <;> cases ans <;>
              simp [CopyIter.events] at hy <;> (try rcases hy with hy | hy | hy | hy) <;> simp_all [CopyEv.isRead]
          have hx2 : x ∈ (CopyIter.events ⟨bs, re, m, we, fire, ans⟩).tail := by
            rw [h]
            cases pre with
            | nil => simpa using hx
            | cons p pre => simp [hx]
          rw [this x hx2] at hxr; cases hxr
    | cons i its ih =>
      intro last hc hl pre h x hx
      have hno : ∀ y ∈ i.events, y.isErr = false := by
        obtain ⟨c1, c2⟩ := hc i (by simp)
        obtain ⟨bs, re, m, we, fire, ans⟩ := i
        simp only at c1 c2
        subst c1 c2
        intro y hy
        cases fire <;> cases ans <;> simp [CopyIter.events] at hy <;> rcases hy with hy | hy | hy | hy | hy <;> simp_all [CopyEv.isErr]
      rw [List.flatMap_cons, List.append_assoc] at h
      rcases List.append_eq_append_iff.mp h with ⟨as, h1, h2⟩ | ⟨bs, h1, h2⟩
      · exact ih last (fun j hj => hc j (by simp [hj])) hl as h2 x hx
      · cases bs with
        | nil => exact ih last (fun j hj => hc j (by simp [hj])) hl [] (by simpa using h2.symm) x hx
        | cons y ys =>
          simp at h2
          have : ev ∈ i.events := by rw [h1, h2.1]; simp
          rw [hno ev this] at hev; cases hev
  obtain ⟨its, h1, _, h3⟩ := copyLoop_rounds io fuel 0 (io.clearStop w)
  unfold copyDo at h
  rw [h1] at h
  rcases h3 with ⟨a, _⟩ | ⟨init, last, a, b, _⟩
  · exact key its [] a (by simp) pre (by simpa using h)
  · subst a
    exact key init [last] b (by simp) pre (by simpa using h)

/-- **C30 (no read once stopped).** Whenever `Do` reads, the stop flag was not set at that moment. -/
theorem C30_no_read_when_stopped {W : Type} (io : CopyIO W) (fuel : Nat) (w : W) (st : Bool) (bs : List Byte) (e : Option Err)
    (h : CopyEv.read st bs e ∈ (copyDo io fuel w).2.2) : st = false := by
  obtain ⟨its, h1, _⟩ := copyLoop_rounds io fuel 0 (io.clearStop w)
  unfold copyDo at h
  rw [h1] at h
  obtain ⟨i, _, hi⟩ := List.mem_flatMap.mp h
  obtain ⟨bs, re, m, we, fire, ans⟩ := i
  cases we <;> cases fire <;> cases re <;> cases ans <;> simp [CopyIter.events] at hi <;> exact hi.1

/-- **C30 (the current chunk is still written).** If a read succeeds, its chunk is written successfully, and the stop flag
is up when the round is over (for instance because `Stop` was called from the save callback during the read), then `Do` returns
nil having read exactly once more, and having written that chunk. -/
theorem C30_stop_after_chunk {W : Type} (io : CopyIO W) (fuel counter : Nat) (w : W) (hw : io.stopped w = false)
    (hr : (io.read w).1.2 = none) (hm : (io.write (io.read w).1.1 (io.read w).2).1.2 = none)
    (hstop : ∀ w', w' = (if progressThreshold < counter + (io.write (io.read w).1.1 (io.read w).2).1.1
          then io.emit (io.write (io.read w).1.1 (io.read w).2).2 else (io.write (io.read w).1.1 (io.read w).2).2) →
        io.stopped (if (io.shouldSave (io.read w).1.1.length w').1 then io.wantSave (io.shouldSave (io.read w).1.1.length w').2
          else (io.shouldSave (io.read w).1.1.length w').2) = true) :
    (copyLoop io (fuel + 2) counter w).1 = none ∧
    chunksRead (copyLoop io (fuel + 2) counter w).2.2 = [(io.read w).1.1] ∧
    chunksWritten (copyLoop io (fuel + 2) counter w).2.2 = [(io.read w).1.1] := by
  have h2 := hstop _ rfl
  rw [copyLoop]
  simp only [hw, hr, hm, decide_eq_true_eq]
  simp only [if_neg (show ¬ (false = true) by decide)]
  rw [copyLoop]
  simp only [h2, if_true]
  refine ⟨trivial, ?_, ?_⟩ <;> (simp only [chunksRead_append, chunksWritten_append]) <;>
    (by_cases hf : progressThreshold < counter + (io.write (io.read w).1.1 (io.read w).2).1.1) <;>
    simp only [hf, if_true, if_false] <;> split <;> simp [chunksRead, chunksWritten]

/-- **C30 (a stop before `Do` is forgotten).** `Do` clears the flag first: two worlds that differ only in it behave alike. -/
theorem C30_early_stop_forgotten {W : Type} (io : CopyIO W) (setStop : W → W) (h : ∀ w, io.clearStop (setStop w) = io.clearStop w)
    (fuel : Nat) (w : W) : copyDo io fuel (setStop w) = copyDo io fuel w := by
  unfold copyDo; rw [h]

/-- The byte counts `ShouldSave` must be asked with: one for every read without error whose chunk was written. -/
def expectShould : List CopyEv → List Nat
  | [] => []
  | .read _ bs none :: .write _ _ none :: t => bs.length :: expectShould t
  | _ :: t => expectShould t

/-- The byte counts `ShouldSave` was asked with. -/
def shoulds : List CopyEv → List Nat
  | [] => []
  | .should n _ :: t => n :: shoulds t
  | _ :: t => shoulds t

/-- Every `ShouldSave` that said true is directly followed by `WantSave`, and there is no other `WantSave`. -/
def wantsMatch : List CopyEv → Bool
  | [] => true
  | .should _ true :: .want :: t => wantsMatch t
  | .should _ true :: _ => false
  | .want :: _ => false
  | _ :: t => wantsMatch t

theorem shoulds_append (a b : List CopyEv) : shoulds (a ++ b) = shoulds a ++ shoulds b := by
  induction a with
  | nil => rfl
  | cons x a ih => cases x <;> simp [shoulds, ih]

/-- **C31.** `ShouldSave` is called exactly once after every error-free read (whose chunk was written), with that read's
byte count, zero included, and for no other read; `WantSave` is called exactly when it said true, immediately. -/
theorem C31_save_accounting {W : Type} (io : CopyIO W) (fuel : Nat) (w : W) :
    shoulds (copyDo io fuel w).2.2 = expectShould (copyDo io fuel w).2.2 ∧ wantsMatch (copyDo io fuel w).2.2 = true := by
  obtain ⟨its, h, hrest⟩ := copyLoop_rounds io fuel 0 (io.clearStop w)
  unfold copyDo
  rw [h]
  clear h hrest
  induction its with
  | nil => exact ⟨rfl, rfl⟩
  | cons i its ih =>
    obtain ⟨h1, h2⟩ := ih
    simp only [List.flatMap_cons]
    obtain ⟨bs, re, m, we, fire, ans⟩ := i
    cases we <;> cases fire <;> cases re <;> cases ans <;>
      simp [CopyIter.events, shoulds, expectShould, wantsMatch, h1, h2]

/-- The byte counts of successful writes. -/
def okWrites : List CopyEv → List Nat
  | [] => []
  | .write _ m none :: t => m :: okWrites t
  | _ :: t => okWrites t

/-- For every successful write, whether `EmitProgress` was called right after it. -/
def emitFlags : List CopyEv → List Bool
  | [] => []
  | .write _ _ none :: .emit :: t => true :: emitFlags t
  | .write _ _ none :: t => false :: emitFlags t
  | _ :: t => emitFlags t

/-- Number of `EmitProgress` calls. -/
def emits : List CopyEv → Nat
  | [] => 0
  | .emit :: t => emits t + 1
  | _ :: t => emits t

theorem emits_append (a b : List CopyEv) : emits (a ++ b) = emits a + emits b := by
  induction a with
  | nil => simp [emits]
  | cons x a ih => cases x <;> simp [emits, ih]; omega

/-- **C32.** `EmitProgress` is called exactly after those writes after which more than 512 KiB have been written since the
previous call (or the start) — `throttle`, whose gap bounds are `throttle_gap` and `throttle_fire` — and at no other time. -/
theorem C32_progress_throttled {W : Type} (io : CopyIO W) (fuel : Nat) (w : W) :
    emitFlags (copyDo io fuel w).2.2 = throttle 524288 0 (okWrites (copyDo io fuel w).2.2) ∧
    emits (copyDo io fuel w).2.2 = (emitFlags (copyDo io fuel w).2.2).count true := by
  obtain ⟨its, h, h2, h3⟩ := copyLoop_rounds io fuel 0 (io.clearStop w)
  unfold copyDo
  rw [h]
  have hflags : emitFlags (its.flatMap CopyIter.events) = (its.filter (·.werr.isNone)).map (·.fire) ∧
      okWrites (its.flatMap CopyIter.events) = (its.filter (·.werr.isNone)).map (·.m) ∧
      emits (its.flatMap CopyIter.events) = ((its.filter (·.werr.isNone)).map (·.fire)).count true := by
    clear h h2 h3
    induction its with
    | nil => exact ⟨rfl, rfl, rfl⟩
    | cons i its ih =>
      obtain ⟨h1, h2, h3⟩ := ih
      simp only [List.flatMap_cons]
      obtain ⟨bs, re, m, we, fire, ans⟩ := i
      have hread : ∀ t, its.flatMap CopyIter.events = CopyEv.emit :: t → False := by
        intro t ht
        cases its with
        | nil => simp at ht
        | cons j its => simp [CopyIter.events] at ht
      have hef : ∀ (bs : List Byte) (m : Nat), emitFlags (CopyEv.write bs m none :: its.flatMap CopyIter.events) =
          false :: emitFlags (its.flatMap CopyIter.events) := by
        intro bs m
        rw [emitFlags]
        intro t ht; exact hread t ht
      cases we <;> cases fire <;> cases re <;> cases ans <;>
        simp [CopyIter.events, emitFlags, okWrites, emits, h1, h2, h3, hef]
  obtain ⟨e1, e2, e3⟩ := hflags
  rw [e1, e2, e3]
  refine ⟨?_, rfl⟩
  -- the fire flags of the successful rounds
  rcases h3 with ⟨a, _⟩ | ⟨init, last, a, b, d, _⟩
  · have hall : its.filter (fun i => i.werr.isNone) = its := List.filter_eq_self.mpr (fun i hi => by simp [(a i hi).2])
    have hnone : its.filter (fun i => i.werr.isSome) = [] := List.filter_eq_nil_iff.mpr (fun i hi => by simp [(a i hi).2])
    rw [hall, hnone] at h2
    rw [hall, h2]; simp [progressThreshold]
  · subst a
    have hall : init.filter (fun i => i.werr.isNone) = init := List.filter_eq_self.mpr (fun i hi => by simp [(b i hi).2])
    have hnone : init.filter (fun i => i.werr.isSome) = [] := List.filter_eq_nil_iff.mpr (fun i hi => by simp [(b i hi).2])
    simp only [List.filter_append, List.map_append, hall, hnone] at h2 ⊢
    obtain ⟨bs, re, m, we, fire, ans⟩ := last
    cases we with
    | none => simp at h2 ⊢; rw [h2]; simp [progressThreshold]
    | some e =>
      simp at h2 ⊢
      rw [h2.1]; simp [progressThreshold]

/-- A scripted world: reads come from a list; the destination, the consumer and the stop flag are arbitrary data. -/
structure ScriptW where
  reads : List (List Byte × Option Err × Bool)
  out : List Byte
  stop : Bool

/-- The read script may raise the stop flag (third component), as a save callback does. -/
def scriptIO : CopyIO ScriptW where
  read w := match w.reads with
    | [] => (([], some .eof), w)
    | (bs, e, st) :: t => ((bs, e), { w with reads := t, stop := w.stop || st })
  write bs w := ((bs.length, none), { w with out := w.out ++ bs })
  shouldSave n w := (n % 2 == 0, w)
  wantSave w := w
  emit w := w
  stopped w := w.stop
  clearStop w := { w with stop := false }

/-- Non-vacuity: a stop during the second of three reads; an early stop that is forgotten; data together with EOF. -/
example : (copyDo scriptIO 10 ⟨[([1], none, false), ([2, 3], none, true), ([4], none, false)], [], true⟩).1 = none ∧
    (copyDo scriptIO 10 ⟨[([1], none, false), ([2, 3], none, true), ([4], none, false)], [], true⟩).2.1.out = [1, 2, 3] ∧
    (copyDo scriptIO 10 ⟨[([1], none, false), ([2, 3], some .eof, false), ([4], none, false)], [], false⟩).2.1.out = [1, 2, 3] := ⟨rfl, rfl, rfl⟩

/-- **C29 (no parameters).** `Do(nil)` reports the missing parameters and touches nothing: no read, no write, not even the stop
flag. -/
theorem C29_nil_params {W : Type} (w : W) : copyDoNil w = (some .nilParams, w) := rfl

/-- Applied: in the run whose second read fails (with two bytes in hand), nothing is read after the failure, although the
script has a third chunk to give. -/
example : ∀ x ∈ [CopyEv.write [2, 3] 2 none], x.isRead = false :=
  C29_nothing_after_error scriptIO 10 ⟨[([1], none, false), ([2, 3], some .corrupt, false), ([4], none, false)], [], false⟩
    [.read false [1] none, .write [1] 1 none, .should 1 false] [.write [2, 3] 2 none] (.read false [2, 3] (some .corrupt)) rfl rfl

/-- Applied: the result of that run, which is neither an EOF nor a stop. -/
example : (copyDo scriptIO 10 ⟨[([1], none, false), ([2, 3], some .corrupt, false), ([4], none, false)], [], false⟩).1 =
    some (.wrapped .corrupt) ∧ (some (Err.wrapped .corrupt) : Option Err) ≠ some .diverge := ⟨rfl, nofun⟩

/-- Applied: the stop raised during the read of `[2, 3]` lets that chunk be written and ends the copy with nil. -/
example : (copyLoop scriptIO (5 + 2) 0 ⟨[([2, 3], none, true), ([4], none, false)], [1], false⟩).1 = none ∧
    chunksRead (copyLoop scriptIO (5 + 2) 0 ⟨[([2, 3], none, true), ([4], none, false)], [1], false⟩).2.2 = [[2, 3]] ∧
    chunksWritten (copyLoop scriptIO (5 + 2) 0 ⟨[([2, 3], none, true), ([4], none, false)], [1], false⟩).2.2 = [[2, 3]] :=
  C30_stop_after_chunk scriptIO 5 0 ⟨[([2, 3], none, true), ([4], none, false)], [1], false⟩ rfl rfl rfl
    (by intro w' h; subst h; rfl)

/-- Applied: raising the flag before `Do` makes no difference. -/
example (w : ScriptW) : copyDo scriptIO 10 { w with stop := true } = copyDo scriptIO 10 w :=
  C30_early_stop_forgotten scriptIO (fun w => { w with stop := true }) (fun _ => rfl) 10 w

end Savior
