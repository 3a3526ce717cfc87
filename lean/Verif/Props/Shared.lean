import Verif.Shared
import Verif.Props.Seek
/-!
# Several sources over one file (C80)
-/

namespace Savior
open Seek

theorem family_run (g : Geo) (answer : Nat → Nat → Option Err) (i : Nat) (ops : List FamOp) (f : Family) (s : SeekSt) (log : ConsumerLog) (sp : ShSt)
    (hi : f.srcs[i]? = some (s, log)) (h : ShCorr g { s with rs := f.rs } log sp) :
    ∃ sp', ShRun g.cfg sp ((famRun answer ops f).1.flatMap (seenBy i)) sp' ∧
      ∃ s' log', (famRun answer ops f).2.srcs[i]? = some (s', log') ∧ ShCorr g { s' with rs := (famRun answer ops f).2.rs } log' sp' := by
  induction ops generalizing f s log sp with
  | nil => exact ⟨sp, .nil, s, log, hi, h⟩
  | cons op ops ih =>
    have hlt : i < f.srcs.length := (List.getElem?_eq_some_iff.1 hi).1
    show ∃ sp', ShRun g.cfg sp (seenBy i (op, (famStep answer op f).1) ++ (famRun answer ops (famStep answer op f).2).1.flatMap (seenBy i)) sp' ∧
      ∃ s' log', (famRun answer ops (famStep answer op f).2).2.srcs[i]? = some (s', log') ∧
        ShCorr g { s' with rs := (famRun answer ops (famStep answer op f).2).2.rs } log' sp'
    cases op with
    | sec j a z =>
      have hk : (famStep answer (.sec j a z) f).2.srcs[i]? = some (s, log) ∧ (famStep answer (.sec j a z) f).2.rs = f.rs := by
        unfold famStep
        dsimp only
        split
        · exact ⟨hi, rfl⟩
        · split
          · exact ⟨(List.getElem?_append_left hlt).trans hi, rfl⟩
          · exact ⟨hi, rfl⟩
      exact ih _ s log sp hk.1 (by rw [hk.2]; exact h)
    | call j op =>
      by_cases hj : j = i
      · subst hj
        have hs : famStep answer (.call j op) f =
            ((srcStep seekM (answer j) op ({ s with rs := f.rs } : SeekSt) log).1,
              ⟨((srcStep seekM (answer j) op ({ s with rs := f.rs } : SeekSt) log).2.1 : SeekSt).rs,
                f.srcs.set j (srcStep seekM (answer j) op ({ s with rs := f.rs } : SeekSt) log).2⟩) := by
          unfold famStep; dsimp only; rw [hi]
        rw [hs]
        obtain ⟨sp1, h1, h2⟩ := own_step g (answer j) op { s with rs := f.rs } log sp h
        generalize srcStep seekM (answer j) op ({ s with rs := f.rs } : SeekSt) log = r at h1 h2 ⊢
        obtain ⟨out, s', log'⟩ := r
        obtain ⟨sp2, h3, h4⟩ := ih ⟨SeekSt.rs s', f.srcs.set j (s', log')⟩ s' log' sp1 (List.getElem?_set_self hlt) h2
        refine ⟨sp2, ?_, h4⟩
        simp only [seenBy, if_pos, List.cons_append, List.nil_append]
        exact .cons h1 h3
      · have hk : (famStep answer (.call j op) f).2.srcs[i]? = some (s, log) ∧
            (famStep answer (.call j op) f).2.rs.content = f.rs.content ∧ (famStep answer (.call j op) f).2.rs.sched = f.rs.sched ∧
            (op.touches = false → (famStep answer (.call j op) f).2.rs = f.rs) := by
          unfold famStep
          dsimp only
          split
          · exact ⟨hi, rfl, rfl, fun _ => rfl⟩
          · rename_i x hx
            have := srcStep_same (answer j) op { x.1 with rs := f.rs } x.2
            refine ⟨(List.getElem?_set_ne hj).trans hi, this.1, this.2.1, ?_⟩
            intro ht
            cases op with
            | wantSave => rfl
            | setSSC b => rfl
            | _ => cases ht
        simp only [seenBy, if_neg hj]
        by_cases ht : op.touches = true
        · rw [if_pos ht]
          obtain ⟨sp2, h3, h4⟩ := ih _ s log _ hk.1 (other_step h _ hk.2.1 hk.2.2.1)
          exact ⟨sp2, .cons .other h3, h4⟩
        · rw [if_neg ht]
          exact ih _ s log sp hk.1 (by rw [hk.2.2.2 (by simpa using ht)]; exact h)

/-- **C80.** A file and any number of sources over it (`Section`s, sections of sections), used in any order: what the user of one of them
sees, from its creation on, is a cursor over that source's bytes, which is lost whenever `Resume`, `Read` or `ReadByte` is called on
another one, and found again by `Resume`. -/
theorem C80_shared (answer : Nat → Nat → Option Err) (ops : List FamOp) (f : Family) (i start size : Nat) (s : SeekSt)
    (hi : f.srcs[i]? = some (s, [])) (hnew : s.br = none ∧ s.wantSave = false ∧ s.hasSSC = false) (hw : s.sectionStart = start ∧ s.size = size) :
    ∃ sp', ShRun ⟨(f.rs.content.drop start).take size, size, NoFault f.rs.sched⟩ ⟨.fresh, false, false, []⟩
      ((famRun answer ops f).1.flatMap (seenBy i)) sp' := by
  obtain ⟨sp', h, _⟩ := family_run ⟨f.rs.content, f.rs.sched, start, size⟩ answer i ops f s [] ⟨.fresh, false, false, []⟩ hi
    ⟨⟨rfl, rfl, hw.1, hw.2⟩, hnew.2.1, hnew.2.2, rfl, by intro i x o h; simp at h, hnew.1⟩
  exact ⟨sp', h⟩

/-- **C80.** In particular: right after `Resume(nil)` on one of them, whatever happened before to it and to the others, reads that nothing
interrupts deliver its bytes from the start: here, the first one. -/
theorem C80_resume_read (answer : Nat → Nat → Option Err) (ops : List FamOp) (f : Family) (i start size : Nat) (s : SeekSt)
    (hi : f.srcs[i]? = some (s, [])) (hnew : s.br = none ∧ s.wantSave = false ∧ s.hasSSC = false) (hw : s.sectionStart = start ∧ s.size = size)
    (hn : NoFault f.rs.sched) (n : Nat) :
    ∃ bs e em, (famRun answer (ops ++ [.call i .resumeNil, .call i (.read n)]) f).1.getLast? = some (.call i (.read n), .data bs e em) ∧
      bs = ((f.rs.content.drop start).take size).take bs.length ∧
      ((e = none ∧ bs ≠ []) ∨ (e = some .eof ∧ bs = (f.rs.content.drop start).take size)) := by
  have happ : ∀ (ops ops' : List FamOp) (f : Family), famRun answer (ops ++ ops') f =
      ((famRun answer ops f).1 ++ (famRun answer ops' (famRun answer ops f).2).1, (famRun answer ops' (famRun answer ops f).2).2) := by
    intro ops
    induction ops with
    | nil => intro ops' f; rfl
    | cons op ops ih => intro ops' f; simp only [List.cons_append, famRun, ih]
  obtain ⟨sp1, _, s1, log1, h1, h2⟩ := family_run ⟨f.rs.content, f.rs.sched, start, size⟩ answer i ops f s [] ⟨.fresh, false, false, []⟩ hi
    ⟨⟨rfl, rfl, hw.1, hw.2⟩, hnew.2.1, hnew.2.2, rfl, by intro i x o h; simp at h, hnew.1⟩
  obtain ⟨sp2, hrun, _⟩ := family_run ⟨f.rs.content, f.rs.sched, start, size⟩ answer i [.call i .resumeNil, .call i (.read n)] (famRun answer ops f).2 s1 log1 sp1 h1 h2
  rw [happ]
  generalize hq : (famRun answer [.call i .resumeNil, .call i (.read n)] (famRun answer ops f).2).1 = q at hrun ⊢
  obtain ⟨o1, o2, rfl⟩ : ∃ o1 o2, q = [(.call i .resumeNil, o1), (.call i (.read n), o2)] := ⟨_, _, hq.symm⟩
  simp only [seenBy, List.flatMap_cons, List.flatMap_nil, if_pos, List.cons_append, List.nil_append] at hrun
  have hlast : ∀ (l : List (FamOp × SrcOut)) a b, (l ++ [a, b]).getLast? = some b := by intro l a b; simp [List.getLast?_append]
  rw [hlast]
  cases hrun with
  | cons a b =>
    cases a with
    | resumeNil =>
      cases b with
      | cons a b =>
        cases a with
        | data h3 h4 h5 h6 =>
          refine ⟨_, _, _, rfl, ?_, Or.inl ⟨rfl, h3⟩⟩
          simpa [Seek.Geo.cfg, Seek.Geo.stream, window] using h5
        | @eof _ _ _ _ _ bs em h3 h4 h5 =>
          have h4 : bs = (f.rs.content.drop start).take size := by simpa [Seek.Geo.cfg, Seek.Geo.stream, window] using h4
          refine ⟨_, _, _, rfl, ?_, Or.inr ⟨rfl, h4⟩⟩
          refine (List.take_of_length_le ?_).symm.trans (congrArg (List.take _) h4)
          exact Nat.le_refl _
        | error h3 => exact absurd hn h3
    | resumeNilErr h3 => exact absurd hn h3

/-- **C80.** `Section` at any time: a section that lies within its source is, for its user, a new source over its bytes, whatever was done
before to the others (`ops`) and is done later to all (`ops'`); one that does not is refused, and nothing changes. -/
theorem C80_section (answer : Nat → Nat → Option Err) (ops ops' : List FamOp) (f : Family) (i start size : Nat) (s : SeekSt)
    (hi : f.srcs[i]? = some (s, [])) (hnew : s.br = none ∧ s.wantSave = false ∧ s.hasSSC = false) (hw : s.sectionStart = start ∧ s.size = size)
    (hsz : start + size < 2 ^ 63) (a z : Int) (ha : a < 2 ^ 62) (hz : z < 2 ^ 62) :
    let before := (famRun answer ops f).2
    let after := (famStep answer (.sec i a z) before).2
    (0 ≤ a ∧ 0 ≤ z ∧ a + z ≤ size → ∃ sp', ShRun ⟨(f.rs.content.drop (start + a.toNat)).take z.toNat, z.toNat, NoFault f.rs.sched⟩ ⟨.fresh, false, false, []⟩
      ((famRun answer ops' after).1.flatMap (seenBy before.srcs.length)) sp') ∧
    (¬ (0 ≤ a ∧ 0 ≤ z ∧ a + z ≤ size) → after = before) := by
  dsimp only
  obtain ⟨sp1, _, s1, log1, h1, h2⟩ := family_run ⟨f.rs.content, f.rs.sched, start, size⟩ answer i ops f s [] ⟨.fresh, false, false, []⟩ hi
    ⟨⟨rfl, rfl, hw.1, hw.2⟩, hnew.2.1, hnew.2.2, rfl, by intro i x o h; simp at h, hnew.1⟩
  generalize (famRun answer ops f).2 = f1 at h1 h2 ⊢
  obtain ⟨g1, g2, g3, g4⟩ := h2.1
  have g1 : f1.rs.content = f.rs.content := g1
  have g2 : f1.rs.sched = f.rs.sched := g2
  have g3 : s1.sectionStart = start := g3
  have g4 : s1.size = size := g4
  constructor
  · rintro ⟨p1, p2, p3⟩
    have hsec : section_ a z { s1 with rs := f1.rs } = .ok { rs := f1.rs, br := none, hasSSC := false, wantSave := false, sectionStart := ((start + a.toNat : Nat) : Int), offset := 0, size := z } := by
      unfold section_
      rw [if_neg (by omega), if_neg (by omega), if_neg (by show ¬ wrap64 (a + z) > s1.size; rw [g4]; unfold wrap64; omega)]
      show Except.ok _ = _
      congr 2
      show wrap64 (s1.sectionStart + a) = _
      rw [g3]; unfold wrap64; omega
    have hst : famStep answer (.sec i a z) f1 = (.none, { f1 with srcs := f1.srcs ++ [({ rs := f1.rs, br := none, hasSSC := false, wantSave := false, sectionStart := ((start + a.toNat : Nat) : Int), offset := 0, size := z }, [])] }) := by
      unfold famStep
      simp only [h1, hsec]
    rw [hst, ← g1, ← g2]
    exact C80_shared answer ops' { f1 with srcs := f1.srcs ++ [({ rs := f1.rs, br := none, hasSSC := false, wantSave := false, sectionStart := ((start + a.toNat : Nat) : Int), offset := 0, size := z }, [])] }
      f1.srcs.length (start + a.toNat) z.toNat { rs := f1.rs, br := none, hasSSC := false, wantSave := false, sectionStart := ((start + a.toNat : Nat) : Int), offset := 0, size := z }
      List.getElem?_concat_length ⟨rfl, rfl, rfl⟩ ⟨rfl, by show z = _; omega⟩
  · intro hn
    have hsec : ∃ e, section_ a z { s1 with rs := f1.rs } = .error e := by
      unfold section_
      split
      · exact ⟨_, rfl⟩
      · split
        · exact ⟨_, rfl⟩
        · rw [if_pos (by show wrap64 (a + z) > s1.size; rw [g4]; unfold wrap64; omega)]
          exact ⟨_, rfl⟩
    obtain ⟨e, he⟩ := hsec
    unfold famStep
    simp only [h1, he]

/-- Two sections of a file of 8292 bytes; the file gives all it is asked for. -/
def twoSections : Family :=
  ⟨⟨List.replicate 4096 1 ++ List.replicate 4096 2 ++ List.replicate 100 3, 0, fun _ => .full, 0⟩,
   [(newWithSize ⟨[], 0, fun _ => .full, 0⟩ 8292, [])]⟩

/-- **C80: without the loss it is false.** One source is read, then the other is resumed and read, then the first is read again: it returns,
with no error, a byte from another place (3 instead of 2). -/
theorem C80_false_interleaved :
    ((famRun (fun _ _ => none) [.sec 0 4096 100, .call 0 .resumeNil, .call 0 (.read 4095), .call 1 .resumeNil, .call 1 (.read 0), .call 0 (.read 0)] twoSections).1.map
      fun x => match x.2 with | .data bs e _ => (bs.length, bs.head?, e) | _ => (0, none, none)) =
    [(0, none, none), (0, none, none), (4096, some 1, none), (0, none, none), (1, some 2, none), (1, some 3, none)] ∧
    twoSections.rs.content[4096]? = some 2 := by
  decide +kernel

/-- The hypotheses of C80 hold of the whole file and of the section. -/
example : ∃ s, twoSections.srcs[0]? = some (s, []) ∧ (s.br = none ∧ s.wantSave = false ∧ s.hasSSC = false) ∧ s.sectionStart = ((0 : Nat) : Int) ∧ s.size = ((8292 : Nat) : Int) :=
  ⟨_, rfl, ⟨rfl, rfl, rfl⟩, rfl, rfl⟩

example : ∃ s, (famStep (fun _ _ => none) (.sec 0 4096 100) twoSections).2.srcs[1]? = some (s, []) ∧
    (s.br = none ∧ s.wantSave = false ∧ s.hasSSC = false) ∧ s.sectionStart = ((4096 : Nat) : Int) ∧ s.size = ((100 : Nat) : Int) := ⟨_, rfl, ⟨rfl, rfl, rfl⟩, rfl, rfl⟩

end Savior
