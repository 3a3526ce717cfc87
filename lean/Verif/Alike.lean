import Verif.Spec.Alike
import Verif.Surface
/-!
# Extractions depend on the sink only through its answers
-/

namespace Savior

theorem seek_indifferent : seekM.Indifferent := by
  intro C C' cb cb' n s c c'
  have hs : ((Seek.handleSave cb s c).2 = c ∧ (Seek.handleSave cb' s c').2 = c' ∨
      ∃ ck, (Seek.handleSave cb s c).2 = (cb ck c).1 ∧ (Seek.handleSave cb' s c').2 = (cb' ck c').1) ∧ (Seek.handleSave cb s c).1 = (Seek.handleSave cb' s c').1 := by
    unfold Seek.handleSave
    split
    · split
      · exact ⟨Or.inr ⟨_, rfl, rfl⟩, rfl⟩
      · exact ⟨Or.inl ⟨rfl, rfl⟩, rfl⟩
    · exact ⟨Or.inl ⟨rfl, rfl⟩, rfl⟩
  simp only [seekM]
  unfold Seek.read
  cases s.br with
  | none => exact Or.inl (by refine ⟨?_, ?_, ?_, ?_⟩ <;> first | rfl | trivial)
  | some b =>
    simp only
    by_cases h0 : n = 0
    · simp only [if_pos h0]; exact Or.inl (by refine ⟨?_, ?_, ?_, ?_⟩ <;> first | rfl | trivial)
    simp only [if_neg h0]
    by_cases h1 : s.size - s.offset = 0
    · simp only [if_pos h1]; exact Or.inl (by refine ⟨?_, ?_, ?_, ?_⟩ <;> first | rfl | trivial)
    simp only [if_neg h1]
    by_cases h2 : (n : Int) > s.size - s.offset ∧ s.size - s.offset < 0
    · simp only [if_pos h2]; exact Or.inl (by refine ⟨?_, ?_, ?_, ?_⟩ <;> first | rfl | trivial)
    simp only [if_neg h2]
    generalize Seek.handleSave cb s c = h at *
    generalize Seek.handleSave cb' s c' = h' at *
    obtain ⟨a, d⟩ := h
    obtain ⟨a', d'⟩ := h'
    obtain ⟨hs, rfl⟩ := hs
    simp only at hs ⊢
    cases a.br with
    | none =>
      rcases hs with ⟨e1, e2⟩ | ⟨ck, e1, e2⟩
      · exact Or.inl (by first | exact ⟨e1, e2, rfl, rfl⟩ | exact ⟨e1, e2, trivial, trivial⟩)
      · exact Or.inr ⟨ck, e1, e2, fun _ => (by constructor <;> first | rfl | trivial)⟩
    | some b =>
      rcases hs with ⟨e1, e2⟩ | ⟨ck, e1, e2⟩
      · exact Or.inl (by first | exact ⟨e1, e2, rfl, rfl⟩ | exact ⟨e1, e2, trivial, trivial⟩)
      · exact Or.inr ⟨ck, e1, e2, fun _ => (by constructor <;> first | rfl | trivial)⟩

theorem wrap_indifferent (cfg : WrapCfg) (D : Decomp) (I : SourceM) (F : Nat) : (wrapM cfg D I F).Indifferent := by
  intro C C' cb cb' n s c c'
  simp only [wrapM]
  unfold Wrap.read
  cases s.sr with
  | none => exact Or.inl (by refine ⟨?_, ?_, ?_, ?_⟩ <;> first | rfl | trivial)
  | some r =>
    simp only
    generalize srLoop D I F n r s.src s.srcCk = q
    by_cases h0 : q.1.2 = some .readyToSave
    · simp only [if_pos h0]
      cases q.2.2.2 with
      | none => exact Or.inl (by refine ⟨?_, ?_, ?_, ?_⟩ <;> first | rfl | trivial)
      | some sck =>
        simp only
        by_cases h1 : s.hasSSC = false
        · simp only [if_pos h1]; exact Or.inl (by refine ⟨?_, ?_, ?_, ?_⟩ <;> first | rfl | trivial)
        simp only [if_neg h1]
        by_cases h2 : D.saveOK q.2.1.st = false
        · simp only [if_pos h2]; exact Or.inl (by refine ⟨?_, ?_, ?_, ?_⟩ <;> first | rfl | trivial)
        simp only [if_neg h2]
        exact Or.inr ⟨_, rfl, rfl, fun h => ⟨by rw [h], (by first | rfl | trivial)⟩⟩
    · simp only [if_neg h0]; exact Or.inl (by refine ⟨?_, ?_, ?_, ?_⟩ <;> first | rfl | trivial)

/-- Two copiers over related worlds, up to a failure (`B`) in the first. -/
theorem copyLoop_alike {W W' : Type} (io : CopyIO W) (io' : CopyIO W') (Q : W → W' → Prop) (B : W → Prop)
    (hstop : ∀ w w', Q w w' → io.stopped w = io'.stopped w')
    (hread : ∀ w w', Q w w' → ((io.read w).1 = (io'.read w').1 ∧ Q (io.read w).2 (io'.read w').2) ∨ B (io.read w).2)
    (hwrite : ∀ bs w w', Q w w' → ((io.write bs w).1 = (io'.write bs w').1 ∧ Q (io.write bs w).2 (io'.write bs w').2) ∨ B (io.write bs w).2)
    (hemit : ∀ w w', Q w w' → Q (io.emit w) (io'.emit w'))
    (hshould : ∀ n w w', Q w w' → (io.shouldSave n w).1 = (io'.shouldSave n w').1 ∧ Q (io.shouldSave n w).2 (io'.shouldSave n w').2)
    (hwant : ∀ w w', Q w w' → Q (io.wantSave w) (io'.wantSave w'))
    (bread : ∀ w, B w → B (io.read w).2) (bwrite : ∀ bs w, B w → B (io.write bs w).2) (bemit : ∀ w, B w → B (io.emit w))
    (bshould : ∀ n w, B w → B (io.shouldSave n w).2) (bwant : ∀ w, B w → B (io.wantSave w)) :
    ∀ fuel counter w, (B w → B (copyLoop io fuel counter w).2.1) ∧ ∀ w', Q w w' →
      ((copyLoop io fuel counter w).1 = (copyLoop io' fuel counter w').1 ∧ Q (copyLoop io fuel counter w).2.1 (copyLoop io' fuel counter w').2.1) ∨
      B (copyLoop io fuel counter w).2.1 := by
  intro fuel
  induction fuel with
  | zero => exact fun counter w => ⟨fun h => h, fun w' h => Or.inl ⟨rfl, h⟩⟩
  | succ fuel ih =>
    intro counter w
    have hB : B (io.write (io.read w).1.1 (io.read w).2).2 → io.stopped w = false → B (copyLoop io (fuel + 1) counter w).2.1 := by
      intro h hs
      unfold copyLoop
      rw [hs]
      simp only [Bool.false_eq_true, if_false]
      cases (io.write (io.read w).1.1 (io.read w).2).1.2 with
      | some e => exact h
      | none =>
        simp only
        have h1 : B (if decide (progressThreshold < counter + (io.write (io.read w).1.1 (io.read w).2).1.1) = true then io.emit (io.write (io.read w).1.1 (io.read w).2).2 else (io.write (io.read w).1.1 (io.read w).2).2) := by
          split
          · exact bemit _ h
          · exact h
        generalize (if decide (progressThreshold < counter + (io.write (io.read w).1.1 (io.read w).2).1.1) = true then io.emit (io.write (io.read w).1.1 (io.read w).2).2 else (io.write (io.read w).1.1 (io.read w).2).2) = w1 at *
        cases (io.read w).1.2 with
        | some e => exact h1
        | none =>
          refine (ih _ _).1 ?_
          split
          · exact bwant _ (bshould _ _ h1)
          · exact bshould _ _ h1
    constructor
    · intro h
      cases hs : io.stopped w with
      | true => unfold copyLoop; rw [hs]; exact h
      | false => exact hB (bwrite _ _ (bread _ h)) hs
    · intro w' hq
      cases hs : io.stopped w with
      | true =>
        unfold copyLoop
        rw [← hstop w w' hq, hs]
        exact Or.inl ⟨rfl, hq⟩
      | false =>
        rcases hread w w' hq with ⟨r1, r2⟩ | hb
        · rcases hwrite (io.read w).1.1 _ _ r2 with ⟨m1, m2⟩ | hb
          · unfold copyLoop
            rw [← hstop w w' hq, hs]
            simp only [Bool.false_eq_true, if_false]
            rw [← r1, ← m1]
            cases (io.write (io.read w).1.1 (io.read w).2).1.2 with
            | some e => exact Or.inl ⟨rfl, m2⟩
            | none =>
              simp only
              have h1 : Q (if decide (progressThreshold < counter + (io.write (io.read w).1.1 (io.read w).2).1.1) = true then io.emit (io.write (io.read w).1.1 (io.read w).2).2 else (io.write (io.read w).1.1 (io.read w).2).2)
                  (if decide (progressThreshold < counter + (io.write (io.read w).1.1 (io.read w).2).1.1) = true then io'.emit (io'.write (io.read w).1.1 (io'.read w').2).2 else (io'.write (io.read w).1.1 (io'.read w').2).2) := by
                split
                · exact hemit _ _ m2
                · exact m2
              generalize (if decide (progressThreshold < counter + (io.write (io.read w).1.1 (io.read w).2).1.1) = true then io.emit (io.write (io.read w).1.1 (io.read w).2).2 else (io.write (io.read w).1.1 (io.read w).2).2) = w1 at *
              generalize (if decide (progressThreshold < counter + (io.write (io.read w).1.1 (io.read w).2).1.1) = true then io'.emit (io'.write (io.read w).1.1 (io'.read w').2).2 else (io'.write (io.read w).1.1 (io'.read w').2).2) = w1' at *
              cases (io.read w).1.2 with
              | some e => exact Or.inl ⟨rfl, h1⟩
              | none =>
                obtain ⟨s1, s2⟩ := hshould (io.read w).1.1.length _ _ h1
                refine (ih _ _).2 _ ?_
                rw [← s1]
                split
                · exact hwant _ _ s2
                · exact s2
          · exact Or.inr (hB hb hs)
        · exact Or.inr (hB (bwrite _ _ hb) hs)

section
variable {tol : Prop} {K K' : SinkM} {V : SaveCons} {R : K.St → K'.St → Prop}

/-- Related worlds. -/
structure XRel (R : K.St → K'.St → Prop) (w : XW K V) (w' : XW K' V) : Prop where
  sink : R w.sink w'.sink
  cons : w.cons = w'.cons
  ck : w.ck = w'.ck
  stop : w.stop = w'.stop
  stopErr : w.stopErr = w'.stopErr
  done : w.done = w'.done
  log : w.log = w'.log

/-- A tolerated failure has happened. -/
def XBad (tol : Prop) (w : XW K V) : Prop := tol ∧ SinkFailed w.log

theorem SinkFailed.more {l : List Ev} (h : SinkFailed l) (l' : List Ev) : SinkFailed (l ++ l') := by
  obtain ⟨ev, a, b⟩ := h
  exact ⟨ev, List.mem_append_left _ a, b⟩

theorem SinkFailed.last {l : List Ev} {ev : Ev} (h : ev.sinkError ≠ none) : SinkFailed (l ++ [ev]) := ⟨ev, by simp, h⟩

theorem XBad.say {w : XW K V} (h : XBad tol w) (ev : Ev) : XBad tol (w.say ev) := ⟨h.1, h.2.more _⟩

/-- A pair of outcomes: alike, or the first failed. -/
def Both (tol : Prop) (R : K.St → K'.St → Prop) {α : Type} (r : α × XW K V) (r' : α × XW K' V) : Prop := (r.1 = r'.1 ∧ XRel R r.2 r'.2) ∨ XBad tol r.2

theorem XRel.say {w : XW K V} {w' : XW K' V} (h : XRel R w w') (ev : Ev) : XRel R (w.say ev) (w'.say ev) :=
  ⟨h.sink, h.cons, h.ck, h.stop, h.stopErr, h.done, by show w.log ++ [ev] = w'.log ++ [ev]; rw [h.log]⟩

/-- A call whose error is logged. -/
theorem call_alike {w : XW K V} {w' : XW K' V} (h : XRel R w w') (q : Option Err × K.St) (q' : Option Err × K'.St) (mkEv : Option Err → Ev)
    (hev : ∀ r, (mkEv r).sinkError = r) (hq : (q.1 = q'.1 ∧ R q.2 q'.2) ∨ (tol ∧ q.1 ≠ none)) :
    Both tol R (q.1, ({ w with sink := q.2 } : XW K V).say (mkEv q.1)) (q'.1, ({ w' with sink := q'.2 } : XW K' V).say (mkEv q'.1)) := by
  rcases hq with ⟨h1, h2⟩ | ⟨ht, h1⟩
  · refine Or.inl ⟨h1, ?_⟩
    simp only
    rw [← h1]
    exact ⟨h2, h.cons, h.ck, h.stop, h.stopErr, h.done, by show w.log ++ [_] = w'.log ++ [_]; rw [h.log]⟩
  · exact Or.inr ⟨ht, SinkFailed.last (by rw [hev]; exact h1)⟩

theorem write_alike (L : Alike tol K K' R) (bs : List Byte) {w : XW K V} {w' : XW K' V} (h : XRel R w w') : Both tol R (w.write bs) (w'.write bs) := by
  rcases L.write bs _ _ h.sink with ⟨h1, h2⟩ | ⟨ht, h1⟩
  · refine Or.inl ⟨by show ((K.write bs w.sink).1.1, (K.write bs w.sink).1.2.2) = ((K'.write bs w'.sink).1.1, (K'.write bs w'.sink).1.2.2); rw [h1], ?_⟩
    refine ⟨h2, h.cons, ?_, h.stop, h.stopErr, h.done, ?_⟩
    · show ({ w.ck with entry := w.ck.entry.map fun e => { e with woff := e.woff + (K.write bs w.sink).1.2.1 } } : ECkpt) =
        { w'.ck with entry := w'.ck.entry.map fun e => { e with woff := e.woff + (K'.write bs w'.sink).1.2.1 } }
      rw [h.ck, h1]
    · show w.log ++ [_] = w'.log ++ [_]
      rw [h.log, h1]
  · exact Or.inr ⟨ht, SinkFailed.last h1⟩

theorem write_bad {w : XW K V} (h : XBad tol w) (bs : List Byte) : XBad tol (w.write bs).2 := ⟨h.1, h.2.more _⟩

theorem Both.wrap {r : Option Err × XW K V} {r' : Option Err × XW K' V} (h : Both tol R r r') : Both tol R (r.1.map Err.wrapped, r.2) (r'.1.map Err.wrapped, r'.2) := by
  rcases h with ⟨a, b⟩ | b
  · exact Or.inl ⟨by rw [a], b⟩
  · exact Or.inr b

/-! ## zip -/

theorem zipOnSave_bad {total : Int} {ck : Ckpt} {w : XW K V} (h : XBad tol w) : XBad tol (zipOnSave total ck w).1 := by
  unfold zipOnSave
  simp only
  split
  · exact ⟨h.1, h.2.more _⟩
  · split <;> exact ⟨h.1, (h.2.more _).more _⟩

theorem zipOnSave_alike (L : Alike tol K K' R) (total : Int) (ck : Ckpt) {w : XW K V} {w' : XW K' V} (h : XRel R w w') :
    ((zipOnSave total ck w).2 = (zipOnSave total ck w').2 ∧ XRel R (zipOnSave total ck w).1 (zipOnSave total ck w').1) ∨ XBad tol (zipOnSave total ck w).1 := by
  have hq := L.sync _ _ h.sink
  unfold zipOnSave
  simp only
  generalize K.sync w.sink = q at *
  generalize K'.sync w'.sink = q' at *
  rcases hq with ⟨h1, h2⟩ | ⟨ht, h1⟩
  · obtain ⟨q1, q2⟩ := q
    obtain ⟨q1', q2'⟩ := q'
    simp only at h1 h2 ⊢
    subst h1
    obtain ⟨s, c, k, st, se, d, l⟩ := w
    obtain ⟨s', c', k', st', se', d', l'⟩ := w'
    obtain ⟨g1, g2, g3, g4, g5, g6, g7⟩ := h
    simp only at g1 g2 g3 g4 g5 g6 g7
    subst g2 g3 g4 g5 g6 g7
    cases q1 with
    | some e => exact Or.inl ⟨rfl, ⟨h2, rfl, rfl, rfl, rfl, rfl, rfl⟩⟩
    | none =>
      simp only [XW.say, zipProgress]
      split
      · rename_i e he
        simp only [he]
        exact Or.inl ⟨trivial, ⟨h2, rfl, rfl, rfl, rfl, rfl, rfl⟩⟩
      · rename_i he
        simp only [he]
        exact Or.inl ⟨trivial, ⟨h2, rfl, rfl, rfl, rfl, rfl, rfl⟩⟩
      · rename_i he
        simp only [he]
        exact Or.inl ⟨trivial, ⟨h2, rfl, rfl, rfl, rfl, rfl, rfl⟩⟩
  · cases hq1 : q.1 with
    | none => exact absurd hq1 h1
    | some e => exact Or.inr ⟨ht, SinkFailed.last (by simp [Ev.sinkError, Ev.failed])⟩

theorem zipOpen_alike (L : Alike tol K K' R) {w : XW K V} {w' : XW K' V} (h : XRel R w w') : Both tol R (zipOpen w) (zipOpen w') := by
  have hk := h.ck
  unfold zipOpen
  cases he : w.ck.entry with
  | none => rw [hk] at he; rw [he]; exact Or.inl ⟨rfl, h⟩
  | some e => rw [hk] at he; rw [he]; exact call_alike h _ _ (.openW e) (fun _ => rfl) (L.getWriter e _ _ h.sink)

theorem zipOpen_bad {w : XW K V} (h : XBad tol w) : XBad tol (zipOpen w).2 := by
  unfold zipOpen
  split
  · exact h
  · exact ⟨h.1, h.2.more _⟩

theorem zipCopy_alike (L : Alike tol K K' R) (S : SourceM) (hS : S.Indifferent) (total : Int) (F : Nat) (s : S.St) {w : XW K V} {w' : XW K' V} :
    (XBad tol w → XBad tol (copyDo (zipIO S total) F (s, w)).2.1.2) ∧
    (XRel R w w' → ((copyDo (zipIO S total) F (s, w)).1 = (copyDo (zipIO S total) F (s, w')).1 ∧
      XRel R (copyDo (zipIO S total) F (s, w)).2.1.2 (copyDo (zipIO S total) F (s, w')).2.1.2) ∨ XBad tol (copyDo (zipIO S total) F (s, w)).2.1.2) := by
  have key := copyLoop_alike (zipIO (K := K) (V := V) S total) (zipIO (K := K') (V := V) S total) (fun q q' => q.1 = q'.1 ∧ XRel R q.2 q'.2) (fun q => XBad tol q.2)
    (fun q q' h => h.2.stop)
    (by
      rintro ⟨a, w⟩ ⟨a', w'⟩ ⟨h1, h2⟩
      simp only at h1 h2
      subst h1
      rcases hS _ _ (zipOnSave total) (zipOnSave total) 32768 a w w' with ⟨g1, g2, g3, g4⟩ | ⟨ck, g1, g2, g3⟩
      · exact Or.inl ⟨g3, g4, by show XRel R (S.read _ _ _ _).2.2 (S.read _ _ _ _).2.2; rw [g1, g2]; exact h2⟩
      · rcases zipOnSave_alike L total ck h2 with ⟨e1, e2⟩ | hb
        · obtain ⟨g3, g4⟩ := g3 e1
          exact Or.inl ⟨g3, g4, by show XRel R (S.read _ _ _ _).2.2 (S.read _ _ _ _).2.2; rw [g1, g2]; exact e2⟩
        · exact Or.inr (by show XBad tol (S.read _ _ _ _).2.2; rw [g1]; exact hb))
    (by
      rintro bs ⟨a, w⟩ ⟨a', w'⟩ ⟨h1, h2⟩
      rcases write_alike L bs h2 with ⟨e1, e2⟩ | hb
      · exact Or.inl ⟨e1, h1, e2⟩
      · exact Or.inr hb)
    (by
      rintro ⟨a, w⟩ ⟨a', w'⟩ ⟨h1, h2⟩
      refine ⟨h1, ?_⟩
      have : zipProgress total w = zipProgress total w' := by unfold zipProgress; rw [h2.done, h2.ck]
      show XRel R (w.say _) (w'.say _)
      rw [this]
      exact h2.say _)
    (by
      rintro n ⟨a, w⟩ ⟨a', w'⟩ ⟨h1, h2⟩
      refine ⟨by show (V.shouldSave n w.cons).1 = (V.shouldSave n w'.cons).1; rw [h2.cons], h1, ?_⟩
      exact ⟨h2.sink, by show (V.shouldSave n w.cons).2 = (V.shouldSave n w'.cons).2; rw [h2.cons], h2.ck, h2.stop, h2.stopErr, h2.done, h2.log⟩)
    (by
      rintro ⟨a, w⟩ ⟨a', w'⟩ ⟨h1, h2⟩
      exact ⟨congrArg S.wantSave h1, h2⟩)
    (by
      rintro ⟨a, w⟩ h
      show XBad tol (S.read _ _ _ _).2.2
      rcases hS _ _ (zipOnSave total) (zipOnSave total) 32768 a w w with ⟨g1, _⟩ | ⟨ck, g1, _⟩
      · rw [g1]; exact h
      · rw [g1]; exact zipOnSave_bad h)
    (fun bs q h => write_bad h bs) (fun q h => h.say _) (fun n q h => h) (fun q h => h) F 0
    ((zipIO S total).clearStop (s, w))
  refine ⟨fun h => key.1 h, fun h => ?_⟩
  rcases key.2 ((zipIO S total).clearStop (s, w')) ⟨rfl, ⟨h.sink, h.cons, h.ck, rfl, h.stopErr, h.done, h.log⟩⟩ with ⟨a, _, b⟩ | b
  · exact Or.inl ⟨a, b⟩
  · exact Or.inr b

theorem zipRunFile_alike (L : Alike tol K K' R) (S : SourceM) (hS : S.Indifferent) (total : Int) (F : Nat) (src : S.St) {w : XW K V} {w' : XW K' V} (h : XRel R w w') :
    Both tol R (zipRunFile S F total src w) (zipRunFile S F total src w') := by
  unfold zipRunFile
  rw [← h.ck]
  simp only
  split
  · exact Or.inl ⟨rfl, h⟩
  · split
    · exact Or.inl ⟨rfl, h⟩
    · rcases zipOpen_alike L h with ⟨e1, e2⟩ | hb
      · rw [← e1]
        split
        · exact Or.inl ⟨rfl, e2⟩
        · rcases (zipCopy_alike L S hS total F _).2 e2 with ⟨a, b⟩ | b
          · exact Or.inl ⟨by rw [a], b⟩
          · exact Or.inr b
      · split
        · exact Or.inr hb
        · exact Or.inr ((zipCopy_alike (w' := w') L S hS total F _).1 hb)

theorem ioCopy_bad : ∀ (cs : List (List Byte)) (e : Option Err) {w : XW K V}, XBad tol w → XBad tol (ioCopy cs e w).2 := by
  intro cs
  induction cs with
  | nil => intro e w h; exact h
  | cons c cs ih =>
    intro e w h
    unfold ioCopy
    split
    · exact ih e h
    · simp only
      split
      · exact write_bad h c
      · split
        · exact write_bad h c
        · exact ih e (write_bad h c)

theorem ioCopy_alike (L : Alike tol K K' R) : ∀ (cs : List (List Byte)) (e : Option Err) {w : XW K V} {w' : XW K' V}, XRel R w w' →
    Both tol R (ioCopy cs e w) (ioCopy cs e w') := by
  intro cs
  induction cs with
  | nil => intro e w w' h; exact Or.inl ⟨rfl, h⟩
  | cons c cs ih =>
    intro e w w' h
    unfold ioCopy
    by_cases hc : c = []
    · simp only [if_pos hc]; exact ih e h
    · simp only [if_neg hc]
      rcases write_alike L c h with ⟨e1, e2⟩ | hb
      · rw [← e1]
        split
        · exact Or.inl ⟨rfl, e2⟩
        · split
          · exact Or.inl ⟨rfl, e2⟩
          · exact ih e e2
      · refine Or.inr ?_
        split
        · exact hb
        · split
          · exact hb
          · exact ioCopy_bad cs e hb

theorem zipCopyFile_alike (L : Alike tol K K' R) (env : ZEnv) (i : Nat) {w : XW K V} {w' : XW K' V} (h : XRel R w w') :
    Both tol R (zipCopyFile env i w) (zipCopyFile env i w') := by
  unfold zipCopyFile
  have h0 : XRel R ({ w with ck := { w.ck with entry := w.ck.entry.map fun e => { e with woff := 0 } } } : XW K V)
      ({ w' with ck := { w'.ck with entry := w'.ck.entry.map fun e => { e with woff := 0 } } } : XW K' V) :=
    ⟨h.sink, h.cons, by show ({ w.ck with entry := w.ck.entry.map fun e => { e with woff := 0 } } : ECkpt) = { w'.ck with entry := w'.ck.entry.map fun e => { e with woff := 0 } }; rw [h.ck], h.stop, h.stopErr, h.done, h.log⟩
  have key : ∀ (w : XW K V) (w' : XW K' V), XRel R w w' → Both tol R
      (match env.opens i with
        | .error e => (some (Err.wrapped e), w)
        | .ok (chunks, e) => (let g := zipOpen w; match g.1 with
          | some e => (some (Err.wrapped e), g.2)
          | none => (let q := ioCopy chunks e g.2; (q.1.map Err.wrapped, q.2))))
      (match env.opens i with
        | .error e => (some (Err.wrapped e), w')
        | .ok (chunks, e) => (let g := zipOpen w'; match g.1 with
          | some e => (some (Err.wrapped e), g.2)
          | none => (let q := ioCopy chunks e g.2; (q.1.map Err.wrapped, q.2)))) := by
    intro w w' h0
    cases env.opens i with
    | error e => exact Or.inl ⟨rfl, h0⟩
    | ok p =>
      simp only
      rcases zipOpen_alike L h0 with ⟨e1, e2⟩ | hb
      · rw [← e1]
        split
        · exact Or.inl ⟨rfl, e2⟩
        · exact (ioCopy_alike L _ _ e2).wrap
      · refine Or.inr ?_
        split
        · exact hb
        · exact ioCopy_bad _ _ hb
  exact key _ _ h0

theorem zipFile_alike (L : Alike tol K K' R) (A : Archive) (env : ZEnv) (D : Decomp) (F : Nat) (total : Int) (i : Nat) (zf : ZFile) {w : XW K V} {w' : XW K' V} (h : XRel R w w') :
    Both tol R (zipFile A env D F total i zf w) (zipFile A env D F total i zf w') := by
  unfold zipFile
  split
  · split
    · exact Or.inl ⟨rfl, h⟩
    · exact zipRunFile_alike L _ seek_indifferent total F _ h
  · split
    · exact Or.inl ⟨rfl, h⟩
    · exact zipRunFile_alike L _ (wrap_indifferent flateCfg D seekM F) total F _ h
  · exact zipCopyFile_alike L env i h

theorem zipEntry_alike (L : Alike tol K K' R) (A : Archive) (env : ZEnv) (D : Decomp) (F : Nat) (total : Int) (i : Nat) (zf : ZFile) {w : XW K V} {w' : XW K' V} (h : XRel R w w') :
    Both tol R (zipEntry A env D F total i zf w) (zipEntry A env D F total i zf w') := by
  unfold zipEntry
  rw [← h.ck]
  have h0 : XRel R ({ w with ck := { w.ck with entryIndex := (i : Int), entry := some (w.ck.entry.getD (zipFileEntry zf)) } } : XW K V)
      ({ w' with ck := { w.ck with entryIndex := (i : Int), entry := some (w.ck.entry.getD (zipFileEntry zf)) } } : XW K' V) :=
    ⟨h.sink, h.cons, rfl, h.stop, h.stopErr, h.done, h.log⟩
  simp only
  have key : ∀ (r : Option Err × XW K V) (r' : Option Err × XW K' V), Both tol R r r' → Both tol R (match r.1 with
      | some e => (some e, r.2)
      | none => (none, { r.2 with done := wrap64 (r.2.done + zf.usize) })) (match r'.1 with
      | some e => (some e, r'.2)
      | none => (none, { r'.2 with done := wrap64 (r'.2.done + zf.usize) })) := by
    rintro ⟨a, w⟩ ⟨a', w'⟩ (⟨h1, h2⟩ | hb)
    · simp only at h1 h2
      subst h1
      cases a with
      | some e => exact Or.inl ⟨rfl, h2⟩
      | none => exact Or.inl ⟨rfl, ⟨h2.sink, h2.cons, h2.ck, h2.stop, h2.stopErr, by show wrap64 _ = wrap64 _; rw [h2.done], h2.log⟩⟩
    · cases a <;> exact Or.inr hb
  split
  · exact Or.inl ⟨rfl, h0⟩
  · refine key _ _ ?_
    split
    · exact (call_alike h0 _ _ (.mkdir _) (fun _ => rfl) (L.mkdir _ _ _ h.sink)).wrap
    · split
      · exact Or.inl ⟨rfl, h0⟩
      · exact Or.inl ⟨rfl, h0⟩
      · exact (call_alike h0 _ _ (.symlink _ _) (fun _ => rfl) (L.symlink _ _ _ _ h.sink)).wrap
    · exact zipFile_alike L A env D F total i zf h0

theorem zipCopy_bad (S : SourceM) (hS : S.Conduit) (total : Int) (F : Nat) (s : S.St) {w : XW K V} (h : XBad tol w) : XBad tol (copyDo (zipIO S total) F (s, w)).2.1.2 := by
  refine (copyLoop_alike (zipIO (K := K) (V := V) S total) (zipIO (K := K) (V := V) S total) (fun _ _ => False) (fun q => XBad tol q.2)
    (fun _ _ h => h.elim) (fun _ _ h => h.elim) (fun _ _ _ h => h.elim) (fun _ _ h => h.elim) (fun _ _ _ h => h.elim) (fun _ _ h => h.elim)
    ?_ (fun bs q h => write_bad h bs) (fun q h => h.say _) (fun n q h => h) (fun q h => h) F 0 ((zipIO S total).clearStop (s, w))).1 h
  rintro ⟨a, w⟩ h
  show XBad tol (S.read _ _ _ _).2.2
  rcases hS _ (zipOnSave total) 32768 a w with g1 | ⟨ck, g1⟩
  · rw [g1]; exact h
  · rw [g1]; exact zipOnSave_bad h

theorem zipEntry_bad (A : Archive) (env : ZEnv) (D : Decomp) (F : Nat) (total : Int) (i : Nat) (zf : ZFile) {w : XW K V} (h : XBad tol w) :
    XBad tol (zipEntry A env D F total i zf w).2 := by
  have hrun : ∀ (S : SourceM) (_ : S.Conduit) (src : S.St) (w : XW K V), XBad tol w → XBad tol (zipRunFile S F total src w).2 := by
    intro S hS src w h
    unfold zipRunFile
    simp only
    split
    · exact h
    · split
      · exact h
      · split
        · exact zipOpen_bad h
        · exact zipCopy_bad S hS total F _ (zipOpen_bad h)
  have h0 : XBad tol ({ w with ck := { w.ck with entryIndex := (i : Int), entry := some (w.ck.entry.getD (zipFileEntry zf)) } } : XW K V) := h
  unfold zipEntry
  simp only
  have key : ∀ (r : Option Err × XW K V), XBad tol r.2 → XBad tol (match r.1 with
      | some e => (some e, r.2)
      | none => (none, { r.2 with done := wrap64 (r.2.done + zf.usize) })).2 := by
    rintro ⟨a, w⟩ hb
    cases a <;> exact hb
  split
  · exact h0
  · refine key _ ?_
    split
    · exact ⟨h.1, h.2.more _⟩
    · split
      · exact h0
      · exact h0
      · exact ⟨h.1, h.2.more _⟩
    · unfold zipFile
      split
      · split
        · exact h0
        · exact hrun _ seek_conduit _ _ h0
      · split
        · exact h0
        · exact hrun _ (wrap_reports flateCfg D seekM F).conduit _ _ h0
      · unfold zipCopyFile
        simp only
        split
        · exact h0
        · split
          · exact zipOpen_bad h0
          · exact ioCopy_bad _ _ (zipOpen_bad h0)

theorem zipLoop_bad (A : Archive) (env : ZEnv) (D : Decomp) (F : Nat) (total : Int) : ∀ (fs : List ZFile) (i : Nat) {w : XW K V}, XBad tol w →
    XBad tol (zipLoop A env D F total fs i w).2 := by
  intro fs
  induction fs with
  | nil => intro i w h; exact h
  | cons zf fs ih =>
    intro i w h
    unfold zipLoop
    split
    · exact h
    · simp only
      have := zipEntry_bad A env D F total i zf h
      split
      · exact this
      · exact ih _ this

theorem zipLoop_alike (L : Alike tol K K' R) (A : Archive) (env : ZEnv) (D : Decomp) (F : Nat) (total : Int) : ∀ (fs : List ZFile) (i : Nat) {w : XW K V} {w' : XW K' V}, XRel R w w' →
    Both tol R (zipLoop A env D F total fs i w) (zipLoop A env D F total fs i w') := by
  intro fs
  induction fs with
  | nil => intro i w w' h; exact Or.inl ⟨rfl, h⟩
  | cons zf fs ih =>
    intro i w w' h
    unfold zipLoop
    rw [← h.stopErr]
    split
    · exact Or.inl ⟨rfl, h⟩
    · simp only
      rcases zipEntry_alike L A env D F total i zf h with ⟨a, b⟩ | b
      · rw [← a]
        split
        · exact Or.inl ⟨rfl, b⟩
        · refine ih _ ⟨b.sink, b.cons, ?_, b.stop, b.stopErr, b.done, b.log⟩
          show ({ (zipEntry A env D F total i zf w).2.ck with srcCk := none, entry := none } : ECkpt) = { (zipEntry A env D F total i zf w').2.ck with srcCk := none, entry := none }
          rw [b.ck]
      · refine Or.inr ?_
        split
        · exact b
        · exact zipLoop_bad A env D F total fs _ b

theorem zipPrealloc_alike (L : Alike tol K K' R) : ∀ (fs : List ZFile) {w : XW K V} {w' : XW K' V}, XRel R w w' → Both tol R (zipPrealloc fs w) (zipPrealloc fs w') := by
  intro fs
  induction fs with
  | nil => intro w w' h; exact Or.inl ⟨rfl, h⟩
  | cons zf fs ih =>
    intro w w' h
    unfold zipPrealloc
    split
    · simp only
      rcases call_alike h _ _ (.prealloc (zipFileEntry zf)) (fun _ => rfl) (L.preallocate (zipFileEntry zf) _ _ h.sink) with ⟨a, b⟩ | b
      · simp only at a b
        rw [← a] at b ⊢
        split
        · exact Or.inl ⟨rfl, b⟩
        · exact ih b
      · refine Or.inr ?_
        split
        · exact b
        · obtain ⟨_, hb⟩ := b
          have hg : ∀ (fs : List ZFile) (w : XW K V), SinkFailed w.log → SinkFailed (zipPrealloc fs w).2.log := by
            intro fs
            induction fs with
            | nil => intro w h; exact h
            | cons z fs ih =>
              intro w h
              unfold zipPrealloc
              split
              · simp only
                split
                · exact h.more _
                · exact ih _ (h.more _)
              · exact ih _ h
          exact ⟨‹tol›, hg _ _ hb⟩
    · exact ih h

/-- A zip extraction into sinks that answer alike. -/
theorem zipResume_alike (L : Alike tol K K' R) (A : Archive) (env : ZEnv) (D : Decomp) (F : Nat) (ck : Option ECkpt) (k : K.St) (k' : K'.St) (hk : R k k') (u : V.St) :
    Both tol R (zipResume A env D F K V ck k u) (zipResume A env D F K' V ck k' u) := by
  have h0 : XRel R (zipInit A ck k u : XW K V) (zipInit A ck k' u : XW K' V) := ⟨hk, rfl, rfl, rfl, rfl, rfl, rfl⟩
  have hp : Both tol R (zipPrepare A ck (zipInit A ck k u : XW K V)) (zipPrepare A ck (zipInit A ck k' u : XW K' V)) := by
    unfold zipPrepare
    split
    · exact zipPrealloc_alike L _ h0
    · exact Or.inl ⟨rfl, h0⟩
  unfold zipResume
  simp only
  generalize zipPrepare A ck (zipInit A ck k u : XW K V) = p at *
  generalize zipPrepare A ck (zipInit A ck k' u : XW K' V) = p' at *
  rcases hp with ⟨a, b⟩ | b
  · rw [← a]
    split
    · exact Or.inl ⟨rfl, b⟩
    · split
      · exact Or.inl ⟨rfl, b⟩
      · rcases zipLoop_alike L A env D F (zipSum A.files) (A.files.drop (ck.getD freshCk).entryIndex.toNat) (ck.getD freshCk).entryIndex.toNat b with ⟨c, d⟩ | d
        · rw [← c, ← d.stopErr]
          split
          · exact Or.inl ⟨rfl, d⟩
          · split <;> exact Or.inl ⟨rfl, d⟩
        · refine Or.inr ?_
          split
          · exact d
          · split <;> exact d
  · refine Or.inr ?_
    split
    · exact b
    · split
      · exact b
      · have := zipLoop_bad A env D F (zipSum A.files) (A.files.drop (ck.getD freshCk).entryIndex.toNat) (ck.getD freshCk).entryIndex.toNat b
        split
        · exact this
        · split <;> exact this

/-! ## tar -/

variable {T : TarFmt}

/-- Related worlds of a tar extraction. -/
structure TRel (R : K.St → K'.St → Prop) (c : TC T K V) (c' : TC T K' V) : Prop where
  rd : c.rd = c'.rd
  roff : c.roff = c'.roff
  xw : XRel R c.xw c'.xw
  res : c.res = c'.res
  cur : c.cur = c'.cur

theorem tarOnSave_bad {pr : Ckpt → Int × Int} {ck : Ckpt} {c : TC T K V} (h : XBad tol c.xw) : XBad tol (tarOnSave T pr ck c).1.xw := by
  unfold tarOnSave
  split
  · exact h
  · split
    · exact h
    · simp only
      split <;> exact ⟨h.1, h.2.more _⟩

theorem tarOnSave_alike (pr : Ckpt → Int × Int) (ck : Ckpt) {c : TC T K V} {c' : TC T K' V} (h : TRel R c c') :
    (tarOnSave T pr ck c).2 = (tarOnSave T pr ck c').2 ∧ TRel R (tarOnSave T pr ck c).1 (tarOnSave T pr ck c').1 := by
  obtain ⟨rd, ro, ⟨s, u, k, st, se, d, l⟩, rs, cu⟩ := c
  obtain ⟨rd', ro', ⟨s', u', k', st', se', d', l'⟩, rs', cu'⟩ := c'
  obtain ⟨h1, h2, ⟨g1, g2, g3, g4, g5, g6, g7⟩, h3, h4⟩ := h
  simp only at h1 h2 g1 g2 g3 g4 g5 g6 g7 h3 h4
  subst h1 h2 g2 g3 g4 g5 g6 g7 h3 h4
  have hr : ∀ (k : ECkpt) (v : V.St) (st se : Bool) (l : List Ev),
      TRel R (⟨rd, ro, ⟨s, v, k, st, se, d, l⟩, rs, cu⟩ : TC T K V) ⟨rd, ro, ⟨s', v, k, st, se, d, l⟩, rs, cu⟩ :=
    fun _ _ _ _ _ => ⟨rfl, rfl, ⟨g1, rfl, rfl, rfl, rfl, rfl, rfl⟩, rfl, rfl⟩
  unfold tarOnSave
  simp only
  by_cases hcu : cu = false
  · simp only [if_pos hcu]
    exact ⟨trivial, hr ..⟩
  · simp only [if_neg hcu]
    cases T.save rd with
    | none => exact ⟨rfl, hr ..⟩
    | some im =>
      simp only
      split
      · rename_i he
        simp only [he]
        exact ⟨trivial, hr ..⟩
      · rename_i he
        simp only [he]
        exact ⟨trivial, hr ..⟩
      · rename_i he
        simp only [he]
        exact ⟨trivial, hr ..⟩

/-- Reading from the source of a tar extraction. -/
theorem tarSrc_alike {S : SourceM} (hS : S.Indifferent) (pr : Ckpt → Int × Int) (n : Nat) (s : S.St) {c : TC T K V} {c' : TC T K' V} (h : TRel R c c') :
    (S.read (tarOnSave T pr) n s c).1 = (S.read (tarOnSave T pr) n s c').1 ∧ (S.read (tarOnSave T pr) n s c).2.1 = (S.read (tarOnSave T pr) n s c').2.1 ∧
    TRel R (S.read (tarOnSave T pr) n s c).2.2 (S.read (tarOnSave T pr) n s c').2.2 := by
  rcases hS _ _ (tarOnSave T pr) (tarOnSave T pr) n s c c' with ⟨g1, g2, g3, g4⟩ | ⟨ck, g1, g2, g3⟩
  · exact ⟨g3, g4, by rw [g1, g2]; exact h⟩
  · obtain ⟨e1, e2⟩ := tarOnSave_alike pr ck h
    obtain ⟨g3, g4⟩ := g3 e1
    exact ⟨g3, g4, by rw [g1, g2]; exact e2⟩

theorem SourceM.Indifferent.conduit {S : SourceM} (h : S.Indifferent) : S.Conduit := by
  intro C cb n s c
  rcases h C C cb cb n s c c with ⟨a, _⟩ | ⟨ck, a, _⟩
  · exact Or.inl a
  · exact Or.inr ⟨ck, a⟩

theorem tarSrc_bad {S : SourceM} (hS : S.Indifferent) (pr : Ckpt → Int × Int) (n : Nat) (s : S.St) {c : TC T K V} (h : XBad tol c.xw) :
    XBad tol (S.read (tarOnSave T pr) n s c).2.2.xw := by
  rcases hS.conduit _ (tarOnSave T pr) n s c with g | ⟨ck, g⟩
  · rw [g]; exact h
  · rw [g]; exact tarOnSave_bad h

theorem tarNext_bad {S : SourceM} (hS : S.Indifferent) (pr : Ckpt → Int × Int) : ∀ (fuel : Nat) (s : S.St) {c : TC T K V}, XBad tol c.xw →
    XBad tol (tarNext S T (tarOnSave T pr) fuel s c).2.2.xw := by
  intro fuel
  induction fuel with
  | zero => intro s c h; exact h
  | succ fuel ih =>
    intro s c h
    unfold tarNext
    split
    · exact h
    · exact h
    · exact h
    · rename_i n _
      have hb := tarSrc_bad hS pr n s h
      simp only
      split
      · exact ih _ hb
      · split
        · split
          · exact ih _ hb
          · split <;> exact hb
        · exact hb

theorem tarNext_alike {S : SourceM} (hS : S.Indifferent) (pr : Ckpt → Int × Int) : ∀ (fuel : Nat) (s : S.St) {c : TC T K V} {c' : TC T K' V}, TRel R c c' →
    (tarNext S T (tarOnSave T pr) fuel s c).1 = (tarNext S T (tarOnSave T pr) fuel s c').1 ∧
    (tarNext S T (tarOnSave T pr) fuel s c).2.1 = (tarNext S T (tarOnSave T pr) fuel s c').2.1 ∧
    TRel R (tarNext S T (tarOnSave T pr) fuel s c).2.2 (tarNext S T (tarOnSave T pr) fuel s c').2.2 := by
  intro fuel
  induction fuel with
  | zero => intro s c c' h; exact ⟨rfl, rfl, h⟩
  | succ fuel ih =>
    intro s c c' h
    unfold tarNext
    rw [← h.rd]
    cases hw : T.want c.rd with
    | hdr x => exact ⟨rfl, rfl, ⟨rfl, h.roff, h.xw, h.res, h.cur⟩⟩
    | done => exact ⟨rfl, rfl, h⟩
    | bad => exact ⟨rfl, rfl, h⟩
    | more n =>
      simp only
      obtain ⟨r1, r2, r3⟩ := tarSrc_alike hS pr n s h
      generalize S.read (tarOnSave T pr) n s c = r at *
      generalize S.read (tarOnSave T pr) n s c' = r' at *
      obtain ⟨q, s1, d⟩ := r
      obtain ⟨q', s1', d'⟩ := r'
      simp only at r1 r2 r3 ⊢
      subst r1 r2
      have hd : TRel R ({ d with rd := T.feed q.1 d.rd, roff := d.roff + q.1.length } : TC T K V) ({ d' with rd := T.feed q.1 d'.rd, roff := d'.roff + q.1.length } : TC T K' V) :=
        ⟨by show T.feed _ _ = T.feed _ _; rw [r3.rd], by show d.roff + _ = d'.roff + _; rw [r3.roff], r3.xw, r3.res, r3.cur⟩
      cases q.2 with
      | none => exact ih _ hd
      | some e =>
        simp only
        by_cases he : e = .eof
        · simp only [if_pos he]
          by_cases hn : q.1.length = n
          · simp only [if_pos hn]; exact ih _ hd
          · simp only [if_neg hn]
            have hq : T.eofOK (T.feed q.1 d'.rd) = T.eofOK (T.feed q.1 d.rd) := by rw [r3.rd]
            rw [hq]
            split <;> exact ⟨rfl, rfl, hd⟩
        · simp only [if_neg he]
          exact ⟨trivial, trivial, hd⟩

theorem tarRead_bad {S : SourceM} (hS : S.Indifferent) (pr : Ckpt → Int × Int) (s : S.St) {c : TC T K V} (h : XBad tol c.xw) : XBad tol (tarRead S T pr s c).2.2.xw := by
  unfold tarRead
  split
  · exact h
  · exact tarSrc_bad hS pr _ s h

theorem tarRead_alike {S : SourceM} (hS : S.Indifferent) (pr : Ckpt → Int × Int) (s : S.St) {c : TC T K V} {c' : TC T K' V} (h : TRel R c c') :
    (tarRead S T pr s c).1 = (tarRead S T pr s c').1 ∧ (tarRead S T pr s c).2.1 = (tarRead S T pr s c').2.1 ∧ TRel R (tarRead S T pr s c).2.2 (tarRead S T pr s c').2.2 := by
  unfold tarRead
  rw [← h.rd]
  split
  · exact ⟨rfl, rfl, h⟩
  · simp only
    obtain ⟨r1, r2, r3⟩ := tarSrc_alike hS pr (min 32768 (T.rem c.rd)) s h
    generalize S.read (tarOnSave T pr) (min 32768 (T.rem c.rd)) s c = r at *
    generalize S.read (tarOnSave T pr) (min 32768 (T.rem c.rd)) s c' = r' at *
    obtain ⟨q, s1, d⟩ := r
    obtain ⟨q', s1', d'⟩ := r'
    simp only at r1 r2 r3 ⊢
    subst r1 r2
    rw [r3.rd]
    refine ⟨rfl, rfl, ⟨rfl, by show d.roff + _ = d'.roff + _; rw [r3.roff], r3.xw, r3.res, r3.cur⟩⟩

theorem tarCopy_alike (L : Alike tol K K' R) {S : SourceM} (hS : S.Indifferent) (pr : Ckpt → Int × Int) (F : Nat) (s : S.St) {c : TC T K V} {c' : TC T K' V} :
    (XBad tol c.xw → XBad tol (copyDo (tarIO S T pr) F (s, c)).2.1.2.xw) ∧
    (TRel R c c' → ((copyDo (tarIO S T pr) F (s, c)).1 = (copyDo (tarIO S T pr) F (s, c')).1 ∧
      (copyDo (tarIO S T pr) F (s, c)).2.1.1 = (copyDo (tarIO S T pr) F (s, c')).2.1.1 ∧
      TRel R (copyDo (tarIO S T pr) F (s, c)).2.1.2 (copyDo (tarIO S T pr) F (s, c')).2.1.2) ∨ XBad tol (copyDo (tarIO S T pr) F (s, c)).2.1.2.xw) := by
  have key := copyLoop_alike (tarIO (K := K) (V := V) S T pr) (tarIO (K := K') (V := V) S T pr) (fun q q' => q.1 = q'.1 ∧ TRel R q.2 q'.2) (fun q => XBad tol q.2.xw)
    (fun q q' h => h.2.xw.stop)
    (by
      rintro ⟨a, w⟩ ⟨a', w'⟩ ⟨h1, h2⟩
      simp only at h1 h2
      subst h1
      exact Or.inl (tarRead_alike hS pr a h2))
    (by
      rintro bs ⟨a, w⟩ ⟨a', w'⟩ ⟨h1, h2⟩
      rcases write_alike L bs h2.xw with ⟨e1, e2⟩ | hb
      · exact Or.inl ⟨e1, h1, ⟨h2.rd, h2.roff, e2, h2.res, h2.cur⟩⟩
      · exact Or.inr hb)
    (by
      rintro ⟨a, w⟩ ⟨a', w'⟩ ⟨h1, h2⟩
      simp only at h1 h2
      subst h1
      exact ⟨rfl, ⟨h2.rd, h2.roff, h2.xw.say _, h2.res, h2.cur⟩⟩)
    (by
      rintro n ⟨a, w⟩ ⟨a', w'⟩ ⟨h1, h2⟩
      refine ⟨by show (V.shouldSave n w.xw.cons).1 = (V.shouldSave n w'.xw.cons).1; rw [h2.xw.cons], h1, ⟨h2.rd, h2.roff, ?_, h2.res, h2.cur⟩⟩
      exact ⟨h2.xw.sink, by show (V.shouldSave n w.xw.cons).2 = (V.shouldSave n w'.xw.cons).2; rw [h2.xw.cons], h2.xw.ck, h2.xw.stop, h2.xw.stopErr, h2.xw.done, h2.xw.log⟩)
    (by
      rintro ⟨a, w⟩ ⟨a', w'⟩ ⟨h1, h2⟩
      exact ⟨congrArg S.wantSave h1, h2⟩)
    (fun q h => tarRead_bad hS pr q.1 h) (fun bs q h => write_bad h bs) (fun q h => h.say _) (fun n q h => h) (fun q h => h) F 0
    ((tarIO S T pr).clearStop (s, c))
  refine ⟨fun h => key.1 h, fun h => ?_⟩
  rcases key.2 ((tarIO S T pr).clearStop (s, c')) ⟨rfl, ⟨h.rd, h.roff, ⟨h.xw.sink, h.xw.cons, h.xw.ck, rfl, h.xw.stopErr, h.xw.done, h.xw.log⟩, h.res, h.cur⟩⟩ with ⟨a, b⟩ | b
  · exact Or.inl ⟨a, b⟩
  · exact Or.inr b

/-- A pair of outcomes of a part of a tar extraction. -/
def BothT (tol : Prop) (R : K.St → K'.St → Prop) {S : SourceM} {α : Type} (r : α × S.St × TC T K V) (r' : α × S.St × TC T K' V) : Prop :=
  (r.1 = r'.1 ∧ r.2.1 = r'.2.1 ∧ TRel R r.2.2 r'.2.2) ∨ XBad tol r.2.2.xw

theorem tarFile_bad {S : SourceM} (hS : S.Indifferent) (pr : Ckpt → Int × Int) (F : Nat) (e : Entry) (s : S.St) {c : TC T K V} (h : XBad tol c.xw) :
    XBad tol (tarFile S T pr F e s c).2.2.xw := by
  unfold tarFile
  have hl : XBad tol (({ c.xw with sink := (K.getWriter e c.xw.sink).2 } : XW K V).say (.openW e (K.getWriter e c.xw.sink).1)) := ⟨h.1, h.2.more _⟩
  simp only
  split
  · exact hl
  · have hc := (tarCopy_alike (K' := K) (c' := c) (R := Eq) (c := { c with xw := ({ c.xw with sink := (K.getWriter e c.xw.sink).2 } : XW K V).say (.openW e (K.getWriter e c.xw.sink).1) })
      ⟨fun _ _ _ h => Or.inl (by rw [h]; exact ⟨rfl, rfl⟩), fun _ _ _ _ h => Or.inl (by rw [h]; exact ⟨rfl, rfl⟩), fun _ _ _ h => Or.inl (by rw [h]; exact ⟨rfl, rfl⟩),
        fun _ _ _ h => Or.inl (by rw [h]; exact ⟨rfl, rfl⟩), fun _ _ _ h => Or.inl (by rw [h]; exact ⟨rfl, rfl⟩), fun _ _ h => Or.inl (by rw [h]; exact ⟨rfl, rfl⟩), fun _ _ h => by rw [h]⟩
      hS pr F s).1 hl
    split
    · exact hc
    · exact ⟨hc.1, hc.2.more _⟩

theorem tarFile_alike (L : Alike tol K K' R) {S : SourceM} (hS : S.Indifferent) (pr : Ckpt → Int × Int) (F : Nat) (e : Entry) (s : S.St) {c : TC T K V} {c' : TC T K' V} (h : TRel R c c') :
    BothT tol R (tarFile S T pr F e s c) (tarFile S T pr F e s c') := by
  have keyB : ∀ (x : Option Err) (c : TC T K V), XBad tol c.xw → XBad tol
      ((match x with
        | some x => (some (Err.wrapped x), s, c)
        | none =>
          let r := copyDo (tarIO S T pr) F (s, c)
          let c' : TC T K V := r.2.1.2
          match r.1 with
          | some x => (some (Err.wrapped x), r.2.1.1, { c' with xw := { c'.xw with sink := K.closeWriter c'.xw.sink } })
          | none => (none, r.2.1.1,
              { c' with
                res := c'.res ++ c'.xw.ck.entry.toList
                xw := ({ c'.xw with sink := K.closeWriter c'.xw.sink }).say (.progress (S.progress r.2.1.1)) })) : Option Err × S.St × TC T K V).2.2.xw := by
    intro x c h
    cases x with
    | some x => exact h
    | none =>
      have g := (tarCopy_alike (c' := c') L hS pr F s).1 h
      simp only
      split
      · exact g
      · exact ⟨g.1, g.2.more _⟩
  have key : ∀ (x : Option Err) (c : TC T K V) (c' : TC T K' V), TRel R c c' → BothT tol R
      ((match x with
        | some x => (some (Err.wrapped x), s, c)
        | none =>
          let r := copyDo (tarIO S T pr) F (s, c)
          let c' : TC T K V := r.2.1.2
          match r.1 with
          | some x => (some (Err.wrapped x), r.2.1.1, { c' with xw := { c'.xw with sink := K.closeWriter c'.xw.sink } })
          | none => (none, r.2.1.1,
              { c' with
                res := c'.res ++ c'.xw.ck.entry.toList
                xw := ({ c'.xw with sink := K.closeWriter c'.xw.sink }).say (.progress (S.progress r.2.1.1)) })) : Option Err × S.St × TC T K V)
      ((match x with
        | some x => (some (Err.wrapped x), s, c')
        | none =>
          let r := copyDo (tarIO S T pr) F (s, c')
          let c' : TC T K' V := r.2.1.2
          match r.1 with
          | some x => (some (Err.wrapped x), r.2.1.1, { c' with xw := { c'.xw with sink := K'.closeWriter c'.xw.sink } })
          | none => (none, r.2.1.1,
              { c' with
                res := c'.res ++ c'.xw.ck.entry.toList
                xw := ({ c'.xw with sink := K'.closeWriter c'.xw.sink }).say (.progress (S.progress r.2.1.1)) })) : Option Err × S.St × TC T K' V) := by
    intro x c c' hb
    cases x with
    | some x => exact Or.inl ⟨rfl, rfl, hb⟩
    | none =>
      simp only
      have hc := (tarCopy_alike L hS pr F s).2 hb
      generalize copyDo (tarIO S T pr) F (s, c) = m at *
      generalize copyDo (tarIO S T pr) F (s, c') = m' at *
      obtain ⟨a, ⟨b, d⟩, _⟩ := m
      obtain ⟨a', ⟨b', d'⟩, _⟩ := m'
      rcases hc with ⟨g1, g2, g3⟩ | g
      · simp only at g1 g2 g3
        subst g1 g2
        have hx : XRel R ({ d.xw with sink := K.closeWriter d.xw.sink } : XW K V) ({ d'.xw with sink := K'.closeWriter d'.xw.sink } : XW K' V) :=
          ⟨L.closeWriter _ _ g3.xw.sink, g3.xw.cons, g3.xw.ck, g3.xw.stop, g3.xw.stopErr, g3.xw.done, g3.xw.log⟩
        cases a with
        | some x => exact Or.inl ⟨rfl, rfl, ⟨g3.rd, g3.roff, hx, g3.res, g3.cur⟩⟩
        | none => exact Or.inl ⟨rfl, rfl, ⟨g3.rd, g3.roff, hx.say _, by show _ ++ _ = _ ++ _; rw [g3.res, g3.xw.ck], g3.cur⟩⟩
      · refine Or.inr ?_
        split
        · exact g
        · exact ⟨g.1, g.2.more _⟩
  unfold tarFile
  simp only
  rcases call_alike h.xw _ _ (.openW e) (fun _ => rfl) (L.getWriter e _ _ h.xw.sink) with ⟨a, b⟩ | b
  · simp only at a b
    rw [← a] at b ⊢
    exact key _ _ _ ⟨h.rd, h.roff, b, h.res, h.cur⟩
  · exact Or.inr (keyB _ { c with xw := ({ c.xw with sink := (K.getWriter e c.xw.sink).2 } : XW K V).say (.openW e (K.getWriter e c.xw.sink).1) } b)

theorem tarExtract_bad {S : SourceM} (hS : S.Indifferent) (pr : Ckpt → Int × Int) (F : Nat) (e : Entry) (s : S.St) {c : TC T K V} (h : XBad tol c.xw) :
    XBad tol (tarExtract S T pr F e s c).2.2.xw := by
  have key : ∀ (r : Option Err × S.St × TC T K V), XBad tol r.2.2.xw → XBad tol (match r.1 with
      | some x => (some x, r.2)
      | none => (none, r.2.1, { r.2.2 with xw := { r.2.2.xw with ck := { r.2.2.xw.ck with entry := none, srcCk := none, data := none } } })).2.2.xw := by
    rintro ⟨a, b, c⟩ h
    cases a <;> exact h
  have h0 : XBad tol ({ c with cur := true, xw := { c.xw with ck := { c.xw.ck with entry := some e } } } : TC T K V).xw := h
  unfold tarExtract
  simp only
  refine key _ ?_
  split
  · exact ⟨h.1, h.2.more _⟩
  · exact ⟨h.1, h.2.more _⟩
  · exact tarFile_bad hS pr F e s h0

theorem tarExtract_alike (L : Alike tol K K' R) {S : SourceM} (hS : S.Indifferent) (pr : Ckpt → Int × Int) (F : Nat) (e : Entry) (s : S.St) {c : TC T K V} {c' : TC T K' V} (h : TRel R c c') :
    BothT tol R (tarExtract S T pr F e s c) (tarExtract S T pr F e s c') := by
  have key : ∀ (r : Option Err × S.St × TC T K V) (r' : Option Err × S.St × TC T K' V), BothT tol R r r' → BothT tol R (match r.1 with
      | some x => (some x, r.2)
      | none => (none, r.2.1, { r.2.2 with xw := { r.2.2.xw with ck := { r.2.2.xw.ck with entry := none, srcCk := none, data := none } } }))
      (match r'.1 with
      | some x => (some x, r'.2)
      | none => (none, r'.2.1, { r'.2.2 with xw := { r'.2.2.xw with ck := { r'.2.2.xw.ck with entry := none, srcCk := none, data := none } } })) := by
    rintro ⟨a, b, c⟩ ⟨a', b', c'⟩ (⟨h1, h2, h3⟩ | hb)
    · simp only at h1 h2 h3
      subst h1 h2
      cases a with
      | some x => exact Or.inl ⟨rfl, rfl, h3⟩
      | none =>
        refine Or.inl ⟨rfl, rfl, ⟨h3.rd, h3.roff, ⟨h3.xw.sink, h3.xw.cons, ?_, h3.xw.stop, h3.xw.stopErr, h3.xw.done, h3.xw.log⟩, h3.res, h3.cur⟩⟩
        show ({ c.xw.ck with entry := none, srcCk := none, data := none } : ECkpt) = { c'.xw.ck with entry := none, srcCk := none, data := none }
        rw [h3.xw.ck]
    · cases a <;> exact Or.inr hb
  have h0 : TRel R ({ c with cur := true, xw := { c.xw with ck := { c.xw.ck with entry := some e } } } : TC T K V) ({ c' with cur := true, xw := { c'.xw with ck := { c'.xw.ck with entry := some e } } } : TC T K' V) :=
    ⟨h.rd, h.roff, ⟨h.xw.sink, h.xw.cons, by show ({ c.xw.ck with entry := some e } : ECkpt) = { c'.xw.ck with entry := some e }; rw [h.xw.ck], h.xw.stop, h.xw.stopErr, h.xw.done, h.xw.log⟩, h.res, rfl⟩
  unfold tarExtract
  simp only
  refine key _ _ ?_
  split
  · rcases call_alike h0.xw _ _ (.mkdir e) (fun _ => rfl) (L.mkdir e _ _ h.xw.sink) with ⟨a, b⟩ | b
    · exact Or.inl ⟨congrArg (Option.map Err.wrapped) a, rfl, ⟨h.rd, h.roff, b, h.res, rfl⟩⟩
    · exact Or.inr b
  · rcases call_alike h0.xw _ _ (.symlink e e.link) (fun _ => rfl) (L.symlink e e.link _ _ h.xw.sink) with ⟨a, b⟩ | b
    · exact Or.inl ⟨congrArg (Option.map Err.wrapped) a, rfl, ⟨h.rd, h.roff, b, h.res, rfl⟩⟩
    · exact Or.inr b
  · exact tarFile_alike L hS pr F e s h0

theorem tarStep_bad {S : SourceM} (hS : S.Indifferent) (pr : Ckpt → Int × Int) (F : Nat) (idx : Int) (s : S.St) {c : TC T K V} (h : XBad tol c.xw) :
    XBad tol (tarStep S T pr F idx s c).2.2.xw := by
  have h0 : XBad tol ({ c with cur := false, xw := { c.xw with ck := { c.xw.ck with entryIndex := idx } } } : TC T K V).xw := h
  unfold tarStep
  simp only
  split
  · exact tarExtract_bad hS pr F _ s h0
  · have hn := tarNext_bad hS pr F s h0
    split
    · exact hn
    · split
      · exact hn
      · exact tarExtract_bad hS pr F _ _ hn

theorem tarStep_alike (L : Alike tol K K' R) {S : SourceM} (hS : S.Indifferent) (pr : Ckpt → Int × Int) (F : Nat) (idx : Int) (s : S.St) {c : TC T K V} {c' : TC T K' V} (h : TRel R c c') :
    BothT tol R (tarStep S T pr F idx s c) (tarStep S T pr F idx s c') := by
  have key : ∀ (c : TC T K V) (c' : TC T K' V), TRel R c c' → BothT tol R
      (match c.xw.ck.entry with
        | some e => (let r := tarExtract S T pr F e s c; ((match r.1 with | some x => Except.error x | none => Except.ok false : Except Err Bool), r.2))
        | none => (let n := tarNext S T (tarOnSave T pr) F s c
          match n.1 with
          | .error x => (if x = .eof then Except.ok true else Except.error (Err.wrapped x), n.2)
          | .ok h => if h.typ = .other then (Except.ok false, n.2) else
              (let r := tarExtract S T pr F (tarEntryOf h) n.2.1 n.2.2
              ((match r.1 with | some x => Except.error x | none => Except.ok false : Except Err Bool), r.2))))
      (match c'.xw.ck.entry with
        | some e => (let r := tarExtract S T pr F e s c'; ((match r.1 with | some x => Except.error x | none => Except.ok false : Except Err Bool), r.2))
        | none => (let n := tarNext S T (tarOnSave T pr) F s c'
          match n.1 with
          | .error x => (if x = .eof then Except.ok true else Except.error (Err.wrapped x), n.2)
          | .ok h => if h.typ = .other then (Except.ok false, n.2) else
              (let r := tarExtract S T pr F (tarEntryOf h) n.2.1 n.2.2
              ((match r.1 with | some x => Except.error x | none => Except.ok false : Except Err Bool), r.2)))) := by
    intro c c' h
    rw [← h.xw.ck]
    cases c.xw.ck.entry with
    | some e =>
      simp only
      rcases tarExtract_alike L hS pr F e s h with ⟨a, b, d⟩ | b
      · rw [← a]; exact Or.inl ⟨rfl, b, d⟩
      · exact Or.inr b
    | none =>
      simp only
      obtain ⟨a, b, d⟩ := tarNext_alike hS pr F s h
      rw [← a]
      split
      · exact Or.inl ⟨rfl, b, d⟩
      · split
        · exact Or.inl ⟨rfl, b, d⟩
        · rw [← b]
          rcases tarExtract_alike L hS pr F (tarEntryOf _) (tarNext S T (tarOnSave T pr) F s c).2.1 d with ⟨a', b', d'⟩ | b'
          · rw [← a']; exact Or.inl ⟨rfl, b', d'⟩
          · exact Or.inr b'
  refine key _ _ ⟨h.rd, h.roff, ⟨h.xw.sink, h.xw.cons, ?_, h.xw.stop, h.xw.stopErr, h.xw.done, h.xw.log⟩, h.res, rfl⟩
  show ({ c.xw.ck with entryIndex := idx } : ECkpt) = { c'.xw.ck with entryIndex := idx }
  rw [h.xw.ck]

theorem tarLoop_bad {S : SourceM} (hS : S.Indifferent) (pr : Ckpt → Int × Int) (F : Nat) : ∀ (fuel : Nat) (idx : Int) (s : S.St) {c : TC T K V}, XBad tol c.xw →
    XBad tol (tarLoop S T pr F fuel idx s c).2.2.xw := by
  intro fuel
  induction fuel with
  | zero => intro idx s c h; exact h
  | succ fuel ih =>
    intro idx s c h
    unfold tarLoop
    split
    · exact h
    · have hb := tarStep_bad hS pr F idx s h
      simp only
      split
      · exact hb
      · exact hb
      · exact ih _ _ hb

theorem tarLoop_alike (L : Alike tol K K' R) {S : SourceM} (hS : S.Indifferent) (pr : Ckpt → Int × Int) (F : Nat) : ∀ (fuel : Nat) (idx : Int) (s : S.St) {c : TC T K V} {c' : TC T K' V}, TRel R c c' →
    BothT tol R (tarLoop S T pr F fuel idx s c) (tarLoop S T pr F fuel idx s c') := by
  intro fuel
  induction fuel with
  | zero => intro idx s c c' h; exact Or.inl ⟨rfl, rfl, h⟩
  | succ fuel ih =>
    intro idx s c c' h
    unfold tarLoop
    rw [← h.xw.stopErr]
    split
    · exact Or.inl ⟨rfl, rfl, h⟩
    · simp only
      rcases tarStep_alike L hS pr F idx s h with ⟨a, b, d⟩ | b
      · rw [← a, ← b]
        split
        · exact Or.inl ⟨rfl, b, d⟩
        · exact Or.inl ⟨rfl, b, d⟩
        · exact ih _ _ d
      · refine Or.inr ?_
        split
        · exact b
        · exact b
        · exact tarLoop_bad hS pr F fuel _ _ b

theorem tarBegin_alike {S : SourceM} (F : Nat) (ck : Option ECkpt) (src : S.St) (k : K.St) (k' : K'.St) (hk : R k k') (u : V.St) :
    (tarBegin S T F ck src k u).1 = (tarBegin S T F ck src k' u).1 ∧ (tarBegin S T F ck src k u).2.1 = (tarBegin S T F ck src k' u).2.1 ∧
    TRel R (tarBegin S T F ck src k u : Option Err × S.St × TC T K V).2.2 (tarBegin S T F ck src k' u : Option Err × S.St × TC T K' V).2.2 := by
  have hw : ∀ (c : ECkpt) (st : T.St) (ro : Int) (rs : List Entry), TRel R (⟨st, ro, tarWorld c k u, rs, false⟩ : TC T K V) ⟨st, ro, tarWorld c k' u, rs, false⟩ :=
    fun _ _ _ _ => ⟨rfl, rfl, ⟨hk, rfl, rfl, rfl, rfl, rfl, rfl⟩, rfl, rfl⟩
  have hf : (tarFresh S T src k u).1 = (tarFresh S T src k' u).1 ∧ (tarFresh S T src k u).2.1 = (tarFresh S T src k' u).2.1 ∧
    TRel R (tarFresh S T src k u : Option Err × S.St × TC T K V).2.2 (tarFresh S T src k' u : Option Err × S.St × TC T K' V).2.2 := by
    unfold tarFresh
    simp only
    split <;> exact ⟨rfl, rfl, hw ..⟩
  unfold tarBegin
  split
  · split
    · unfold tarAgain
      simp only
      split
      · exact ⟨rfl, rfl, hw ..⟩
      · split
        · exact ⟨rfl, rfl, hw ..⟩
        · split <;> exact ⟨rfl, rfl, hw ..⟩
    · exact hf
  · exact hf

/-- A tar extraction into sinks that answer alike. -/
theorem tarResume_alike (L : Alike tol K K' R) {S : SourceM} (hS : S.Indifferent) (T : TarFmt) (pr : Ckpt → Int × Int) (F : Nat) (ck : Option ECkpt) (src : S.St) (k : K.St) (k' : K'.St)
    (hk : R k k') (u : V.St) :
    ((tarResume S T pr F K V ck src k u).1 = (tarResume S T pr F K' V ck src k' u).1 ∧ (tarResume S T pr F K V ck src k u).2.1 = (tarResume S T pr F K' V ck src k' u).2.1 ∧
      XRel R (tarResume S T pr F K V ck src k u).2.2 (tarResume S T pr F K' V ck src k' u).2.2) ∨ XBad tol (tarResume S T pr F K V ck src k u).2.2 := by
  obtain ⟨b1, b2, b3⟩ := tarBegin_alike (T := T) F ck src k k' hk u
  unfold tarResume
  simp only
  generalize (tarBegin S T F ck src k u : Option Err × S.St × TC T K V) = p at *
  generalize (tarBegin S T F ck src k' u : Option Err × S.St × TC T K' V) = p' at *
  rw [← b1, ← b2, ← b3.xw.ck]
  split
  · exact Or.inl ⟨rfl, rfl, b3.xw⟩
  · rcases tarLoop_alike L hS pr F F p.2.2.xw.ck.entryIndex (S.setSSC true p.2.1) b3 with ⟨c, d, e⟩ | d
    · rw [← c]
      split
      · exact Or.inl ⟨rfl, d, e.xw⟩
      · refine Or.inl ⟨?_, d, e.xw⟩
        simp only
        rw [← e.xw.stopErr, ← e.res]
    · refine Or.inr ?_
      split <;> exact d

end
end Savior
