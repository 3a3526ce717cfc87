import Verif.SeekLemmas
import Verif.History
import Verif.Spec.Shared
/-!
# Seek sources over one file

`Section` (seeksource.go:104-123) hands the new source the same `io.ReadSeeker`: a file and its sections, and sections of these, all move
the same position. Each has its own `bufio.Reader`.
-/

namespace Savior
open Seek

/-- A file and the sources over it, each with what its save consumer was given. The sources' own copies of `rs` are not used: `famStep` puts
in the common one. -/
structure Family where
  rs : Rs
  srcs : List (SeekSt × List (Ckpt × Option Err))

/-- A call: `Section` of the `i`-th source (the new source is added at the end of the list), or something on the `i`-th source. -/
inductive FamOp
  | sec (i : Nat) (start size : Int)
  | call (i : Nat) (op : SrcOp)

/-- Execute one call (seeksource.go:72-176, on a shared `rs`). -/
def famStep (answer : Nat → Nat → Option Err) : FamOp → Family → SrcOut × Family
  | .sec i a z, f =>
    match f.srcs[i]? with
    | none => (.none, f)
    | some x =>
      match section_ a z { x.1 with rs := f.rs } with
      | .ok s => (.none, { f with srcs := f.srcs ++ [(s, [])] })
      | .error _ => (.none, f)
  | .call i op, f =>
    match f.srcs[i]? with
    | none => (.none, f)
    | some x =>
      let r : SrcOut × SeekSt × List (Ckpt × Option Err) := srcStep seekM (answer i) op { x.1 with rs := f.rs } x.2
      (r.1, ⟨r.2.1.rs, f.srcs.set i r.2⟩)

/-- Execute a list of calls. -/
def famRun (answer : Nat → Nat → Option Err) : List FamOp → Family → List (FamOp × SrcOut) × Family
  | [], f => ([], f)
  | op :: ops, f =>
    let r := famStep answer op f
    let q := famRun answer ops r.2
    ((op, r.1) :: q.1, q.2)

/-- The calls that use the file. -/
def SrcOp.touches : SrcOp → Bool
  | .resumeNil => true
  | .resumeCk _ => true
  | .read _ => true
  | .readByte => true
  | .wantSave => false
  | .setSSC _ => false

/-- What the user of the `i`-th source sees of a call. -/
def seenBy (i : Nat) : FamOp × SrcOut → List ShEv
  | (.sec _ _ _, _) => []
  | (.call j op, out) => if j = i then [.call op out] else if op.touches then [.other] else []

/-- Same file, same window. -/
def SameFile (s s' : SeekSt) : Prop :=
  s'.rs.content = s.rs.content ∧ s'.rs.sched = s.rs.sched ∧ s'.sectionStart = s.sectionStart ∧ s'.size = s.size

theorem rs_read_same (rs : Rs) (k : Nat) : (rs.read k).2.content = rs.content ∧ (rs.read k).2.sched = rs.sched := by
  unfold Rs.read
  repeat' (first | exact ⟨rfl, rfl⟩ | (dsimp only; split) | split)

theorem rs_seek_same (rs : Rs) (k : Int) : (rs.seek k).2.content = rs.content ∧ (rs.seek k).2.sched = rs.sched := by
  unfold Rs.seek
  repeat' (first | exact ⟨rfl, rfl⟩ | (dsimp only; split) | split)

theorem bufio_read_same (b : Bufio) (rs : Rs) (k : Nat) : (b.read rs k).2.2.content = rs.content ∧ (b.read rs k).2.2.sched = rs.sched := by
  unfold Bufio.read
  repeat' (first | exact ⟨rfl, rfl⟩ | exact rs_read_same rs _ | (dsimp only; split) | split)

theorem bufio_readByte_same (b : Bufio) (rs : Rs) : (b.readByte rs).2.2.content = rs.content ∧ (b.readByte rs).2.2.sched = rs.sched := by
  unfold Bufio.readByte
  repeat' (first | exact ⟨rfl, rfl⟩ | exact rs_read_same rs _ | (dsimp only; split) | split)

theorem resume_same (c : Option Ckpt) (s : SeekSt) : SameFile s (Seek.resume c s).2 := by
  have go : ∀ s : SeekSt, SameFile s (Seek.resume.go s).2 := by
    intro s
    have := rs_seek_same s.rs (s.sectionStart + s.offset)
    unfold Seek.resume.go
    dsimp only
    split <;> exact ⟨this.1, this.2, rfl, rfl⟩
  unfold Seek.resume
  split
  · split
    · exact ⟨rfl, rfl, rfl, rfl⟩
    · exact go _
  · exact go _

theorem read_same {C : Type} (cb : Callback C) (n : Nat) (s : SeekSt) (c : C) : SameFile s (Seek.read cb n s c).2.1 := by
  unfold Seek.read
  rw [handleSave_eq]
  repeat' (first | exact ⟨rfl, rfl, rfl, rfl⟩ | exact ⟨(bufio_read_same _ _ _).1, (bufio_read_same _ _ _).2, rfl, rfl⟩ | (dsimp only; split) | split)

theorem readByte_same {C : Type} (cb : Callback C) (s : SeekSt) (c : C) : SameFile s (Seek.readByte cb s c).2.1 := by
  unfold Seek.readByte
  rw [handleSave_eq]
  repeat' (first | exact ⟨rfl, rfl, rfl, rfl⟩ | exact ⟨(bufio_readByte_same _ _).1, (bufio_readByte_same _ _).2, rfl, rfl⟩ | (dsimp only; split) | split)

theorem read_ssc {C : Type} (cb : Callback C) (n : Nat) (s : SeekSt) (c : C) : (Seek.read cb n s c).2.1.hasSSC = s.hasSSC := by
  unfold Seek.read
  rw [handleSave_eq]
  repeat' (first | rfl | (dsimp only; split) | split)

theorem readByte_ssc {C : Type} (cb : Callback C) (s : SeekSt) (c : C) : (Seek.readByte cb s c).2.1.hasSSC = s.hasSSC := by
  unfold Seek.readByte
  rw [handleSave_eq]
  repeat' (first | rfl | (dsimp only; split) | split)

/-- Whatever the state, reads hand the consumer at most what `emitted` says. -/
theorem read_log {C : Type} (cb : Callback C) (n : Nat) (s : SeekSt) (c : C) :
    ∃ em, (Seek.read cb n s c).2.2 = deliver cb em c := by
  unfold Seek.read
  rw [handleSave_eq]
  repeat' (first | exact ⟨.none, rfl⟩ | exact ⟨emitted s, rfl⟩ | (dsimp only; split) | split)

theorem readByte_log {C : Type} (cb : Callback C) (s : SeekSt) (c : C) :
    ∃ em, (Seek.readByte cb s c).2.2 = deliver cb em c := by
  unfold Seek.readByte
  rw [handleSave_eq]
  repeat' (first | exact ⟨.none, rfl⟩ | exact ⟨emitted s, rfl⟩ | (dsimp only; split) | split)

theorem resume_flags (c : Option Ckpt) (s : SeekSt) : (Seek.resume c s).2.hasSSC = s.hasSSC ∧ (Seek.resume c s).2.wantSave = s.wantSave := by
  have go : ∀ s : SeekSt, (Seek.resume.go s).2.hasSSC = s.hasSSC ∧ (Seek.resume.go s).2.wantSave = s.wantSave := by
    intro s
    unfold Seek.resume.go
    dsimp only
    split <;> exact ⟨rfl, rfl⟩
  unfold Seek.resume
  split
  · split
    · exact ⟨rfl, rfl⟩
    · exact go _
  · exact go _

theorem srcStep_same (answer : Nat → Option Err) (op : SrcOp) (s : SeekSt) (log : List (Ckpt × Option Err)) :
    SameFile s ((srcStep seekM answer op s log).2.1 : SeekSt) := by
  cases op with
  | resumeNil => exact resume_same .none s
  | resumeCk i =>
    unfold srcStep
    dsimp only
    cases log[i]? with
    | none => exact ⟨rfl, rfl, rfl, rfl⟩
    | some x => exact resume_same (some x.1) s
  | read n => exact read_same _ _ s _
  | readByte => exact readByte_same _ s _
  | wantSave => exact ⟨rfl, rfl, rfl, rfl⟩
  | setSSC b => exact ⟨rfl, rfl, rfl, rfl⟩

/-- How the `i`-th source's state corresponds to the specification's. -/
def ShCorr (g : Geo) (s : SeekSt) (log : List (Ckpt × Option Err)) (sp : ShSt) : Prop :=
  GoodS g s ∧ s.wantSave = sp.want ∧ s.hasSSC = sp.ssc ∧ sp.cks.length = log.length ∧
  (∀ (i : Nat) (x : Ckpt × Option Err) (o : Nat), log[i]? = some x → sp.cks[i]? = some (some o) → CkS g x.1 o) ∧
  (match sp.cur with
   | .fresh => s.br = none
   | .at o => AtS g s o
   | .lost => True
   | .dead => False)

/-- The specification's parameters for a window of a file. -/
def Seek.Geo.cfg (g : Geo) : ShCfg := ⟨g.stream, g.size, NoFault g.sched⟩

theorem saves_of (g : Geo) (answer : Nat → Option Err) (s : SeekSt) (o : Nat) (hs : s.offset = o) (log : List (Ckpt × Option Err)) :
    g.cfg.saves s.wantSave s.hasSSC o
      (((if o = g.size then none else emitted s).map fun ck => (ck, answer log.length)).toList.map fun x => (x.1.offset, x.2)) := by
  unfold ShCfg.saves emitted Seek.Geo.cfg
  by_cases ho : o = g.size
  · rw [if_pos ho]; simp [ho]
  · rw [if_neg ho]
    cases hw : s.wantSave <;> cases hb : s.hasSSC <;> simp [ho, hs]
    rfl

theorem cks_grow (g : Geo) (answer : Nat → Option Err) (s : SeekSt) (o : Nat) (h : AtS g s o) {log : List (Ckpt × Option Err)} {ks : List (Option Nat)}
    (hl : ks.length = log.length) (hk : ∀ (i : Nat) (x : Ckpt × Option Err) (o : Nat), log[i]? = some x → ks[i]? = some (some o) → CkS g x.1 o) :
    let new := ((if o = g.size then none else emitted s).map fun ck => (ck, answer log.length)).toList
    (ks ++ (new.map fun x => (x.1.offset, x.2)).map fun _ => some o).length = (log ++ new).length ∧
    ∀ (i : Nat) (x : Ckpt × Option Err) (o' : Nat), (log ++ new)[i]? = some x →
      (ks ++ (new.map fun x => (x.1.offset, x.2)).map fun _ => some o)[i]? = some (some o') → CkS g x.1 o' := by
  intro new
  refine ⟨by simp [hl], ?_⟩
  intro i x o' h1 h2
  by_cases hi : i < log.length
  · rw [List.getElem?_append_left hi] at h1
    rw [List.getElem?_append_left (by omega)] at h2
    exact hk i x o' h1 h2
  · rw [List.getElem?_append_right (by omega)] at h1
    rw [List.getElem?_append_right (by omega), hl] at h2
    have hm := List.mem_of_getElem? h1
    have h3 := List.mem_of_getElem? h2
    simp only [List.mem_map, List.map_map] at h3
    obtain ⟨y, _, hy⟩ := h3
    simp at hy
    subst hy
    cases hem : (if o = g.size then none else emitted s) with
    | none => simp [new, hem] at hm
    | some ck =>
      simp [new, hem] at hm
      subst hm
      exact emitted_ck g s o h ck hem

theorem cks_bad (g : Geo) {log new : List (Ckpt × Option Err)} {ks : List (Option Nat)}
    (hl : ks.length = log.length) (hk : ∀ (i : Nat) (x : Ckpt × Option Err) (o : Nat), log[i]? = some x → ks[i]? = some (some o) → CkS g x.1 o) :
    (ks ++ (new.map fun x => (x.1.offset, x.2)).map fun _ => (none : Option Nat)).length = (log ++ new).length ∧
    ∀ (i : Nat) (x : Ckpt × Option Err) (o' : Nat), (log ++ new)[i]? = some x →
      (ks ++ (new.map fun x => (x.1.offset, x.2)).map fun _ => (none : Option Nat))[i]? = some (some o') → CkS g x.1 o' := by
  refine ⟨by simp [hl], ?_⟩
  intro i x o' h1 h2
  by_cases hi : i < log.length
  · rw [List.getElem?_append_left hi] at h1
    rw [List.getElem?_append_left (by omega)] at h2
    exact hk i x o' h1 h2
  · rw [List.getElem?_append_right (by omega), hl] at h2
    have h3 := List.mem_of_getElem? h2
    simp at h3

/-- A call on the source itself. -/
theorem own_step (g : Geo) (answer : Nat → Option Err) (op : SrcOp) (s : SeekSt) (log : List (Ckpt × Option Err)) (sp : ShSt) (h : ShCorr g s log sp) :
    ∃ sp', ShStep g.cfg sp (.call op (srcStep seekM answer op s log).1) sp' ∧
      ShCorr g (srcStep seekM answer op s log).2.1 (srcStep seekM answer op s log).2.2 sp' := by
  obtain ⟨c, w, b, ks⟩ := sp
  obtain ⟨hg, hw, hb, hl, hk, hc⟩ := h
  simp only at hw hb hl hk hc
  cases op with
  | wantSave =>
    refine ⟨⟨c, true, b, ks⟩, .wantSave, hg, rfl, hb, hl, hk, ?_⟩
    cases c <;> exact hc
  | setSSC b' =>
    refine ⟨⟨c, w, b', ks⟩, .setSSC, hg, hw, rfl, hl, hk, ?_⟩
    cases c <;> exact hc
  | resumeNil =>
    have hf := resume_flags none s
    have hsame := resume_same none s
    rcases resume_nil_spec g s hg with ⟨s', h1, h2, _⟩ | ⟨e, s', h1, h2, _⟩
    · refine ⟨⟨.at 0, w, b, ks⟩, ?_, ?_⟩
      · show ShStep g.cfg _ (.call .resumeNil (.resumed (Seek.resume none s).1)) _
        rw [h1]; exact .resumeNil
      · show ShCorr g (Seek.resume none s).2 log _
        rw [h1] at hf ⊢
        exact ⟨h2.1, hf.2.trans hw, hf.1.trans hb, hl, hk, h2⟩
    · refine ⟨⟨.lost, w, b, ks⟩, ?_, ?_⟩
      · show ShStep g.cfg _ (.call .resumeNil (.resumed (Seek.resume none s).1)) _
        rw [h1]; exact .resumeNilErr h2
      · show ShCorr g (Seek.resume none s).2 log _
        exact ⟨⟨hsame.1.trans hg.1, hsame.2.1.trans hg.2.1, hsame.2.2.1.trans hg.2.2.1, hsame.2.2.2.trans hg.2.2.2⟩, hf.2.trans hw, hf.1.trans hb, hl, hk, trivial⟩
  | resumeCk i =>
    cases hi : log[i]? with
    | none =>
      have hn : ks[i]? = none := by
        rw [List.getElem?_eq_none_iff] at hi ⊢; omega
      have hstep : srcStep seekM answer (.resumeCk i) s log = (.none, s, log) := by
        unfold srcStep; dsimp only; rw [hi]; try rfl
      rw [hstep]
      exact ⟨⟨c, w, b, ks⟩, .resumeNoCk hn, hg, hw, hb, hl, hk, hc⟩
    | some x =>
      have hstep : srcStep seekM answer (.resumeCk i) s log = (.resumed (Seek.resume (some x.1) s).1, (Seek.resume (some x.1) s).2, log) := by
        unfold srcStep; dsimp only; rw [hi]; rfl
      rw [hstep]
      have hf := resume_flags (some x.1) s
      have hsame := resume_same (some x.1) s
      have hlt : i < ks.length := by rw [hl]; exact (List.getElem?_eq_some_iff.1 hi).1
      have hgood : GoodS g (Seek.resume (some x.1) s).2 :=
        ⟨hsame.1.trans hg.1, hsame.2.1.trans hg.2.1, hsame.2.2.1.trans hg.2.2.1, hsame.2.2.2.trans hg.2.2.2⟩
      cases ho : ks[i]? with
      | none => rw [List.getElem?_eq_none_iff] at ho; omega
      | some oo =>
        cases oo with
        | none => exact ⟨⟨.lost, w, b, ks⟩, .resumeBad ho, hgood, hf.2.trans hw, hf.1.trans hb, hl, hk, trivial⟩
        | some o =>
          rcases resume_ck_spec g s x.1 o hg (hk i x o hi ho) with ⟨s', h1, h2, _⟩ | ⟨e, s', h1, h2, _⟩
          · refine ⟨⟨.at o, w, b, ks⟩, ?_, ?_⟩
            · rw [h1]; exact .resumeCk ho
            · rw [h1] at hf ⊢
              exact ⟨h2.1, hf.2.trans hw, hf.1.trans hb, hl, hk, h2⟩
          · refine ⟨⟨.lost, w, b, ks⟩, ?_, hgood, hf.2.trans hw, hf.1.trans hb, hl, hk, trivial⟩
            rw [h1]; exact .resumeCkErr ho h2
  | read n =>
    have hstep : srcStep seekM answer (.read n) s log =
        (.data (Seek.read (logCb answer) (n + 1) s log).1.1 (Seek.read (logCb answer) (n + 1) s log).1.2
          (((Seek.read (logCb answer) (n + 1) s log).2.2.drop log.length).map fun x => (x.1.offset, x.2)),
         (Seek.read (logCb answer) (n + 1) s log).2.1, (Seek.read (logCb answer) (n + 1) s log).2.2) := rfl
    rw [hstep]
    cases c with
    | dead => exact hc.elim
    | fresh =>
      have hr : Seek.read (logCb answer) (n + 1) s log = (([], some (.wrapped .uninit)), s, log) := by
        unfold Seek.read; simp only [show s.br = none from hc]
      rw [hr]
      simp only [List.drop_length, List.map_nil]
      exact ⟨_, .freshRead, hg, hw, hb, hl, hk, hc⟩
    | lost =>
      obtain ⟨em, hem⟩ := read_log (logCb answer) (n + 1) s log
      have hsame := read_same (logCb answer) (n + 1) s log
      rw [hem, deliver_log, List.drop_left]
      have hnew := cks_bad g (new := (em.map fun ck => (ck, answer log.length)).toList) hl hk
      exact ⟨⟨.lost, (Seek.read (logCb answer) (n + 1) s log).2.1.wantSave, b, _⟩, .lostRead,
        ⟨hsame.1.trans hg.1, hsame.2.1.trans hg.2.1, hsame.2.2.1.trans hg.2.2.1, hsame.2.2.2.trans hg.2.2.2⟩, rfl,
        (read_ssc _ _ _ _).trans hb, hnew.1, hnew.2, trivial⟩
    | «at» o =>
      have hc : AtS g s o := hc
      obtain ⟨bs, e, s', em, h1, h2, h3, h4, h5, h6, h7, h8⟩ := read_spec g (logCb answer) s o (n + 1) log hc (by omega)
      rw [h1, deliver_log]
      simp only [List.drop_left]
      have hsv := saves_of g answer s o hc.2.1 log
      have hnew := cks_grow g answer s o hc hl hk
      rw [← h2, hw, hb] at hsv
      simp only [← h2] at hnew
      have hww : s'.wantSave = (w && o == g.cfg.size) := by
        rw [h4, hw]; show _ = (w && o == g.size)
        by_cases ho : o = g.size <;> simp [ho]
      rcases h8 with ⟨a1, a2⟩ | ⟨a1, a2, a3⟩ | ⟨x, a1, a2, a3, _, _, a6⟩
      · subst a1
        exact ⟨⟨.at (o + bs.length), w && o == g.cfg.size, b, _⟩, .data a2 h5 h6 hsv, h7.1, hww, h3.trans hb, hnew.1, hnew.2, h7⟩
      · subst a1
        have hle := hc.2.2.1
        have hfull : bs = g.stream.drop o := by
          rw [h6]
          apply List.take_of_length_le
          rw [List.length_drop]; omega
        refine ⟨⟨.at g.cfg.Y.length, w && o == g.cfg.size, b, _⟩, .eof h5 hfull hsv, h7.1, hww, h3.trans hb, hnew.1, hnew.2, ?_⟩
        show AtS g s' g.stream.length
        rw [← a2]; exact h7
      · subst a1
        exact ⟨⟨.at (o + bs.length), w && o == g.cfg.size, b, _⟩, .error a6 a2 a3 h5 h6 h7.2.2.1 hsv, h7.1, hww, h3.trans hb, hnew.1, hnew.2, h7⟩
  | readByte =>
    have hstep : srcStep seekM answer .readByte s log =
        (.byte (Seek.readByte (logCb answer) s log).1.1 (Seek.readByte (logCb answer) s log).1.2
          (((Seek.readByte (logCb answer) s log).2.2.drop log.length).map fun x => (x.1.offset, x.2)),
         (Seek.readByte (logCb answer) s log).2.1, (Seek.readByte (logCb answer) s log).2.2) := rfl
    rw [hstep]
    cases c with
    | dead => exact hc.elim
    | fresh =>
      have hr : Seek.readByte (logCb answer) s log = ((0, some (.wrapped .uninit)), s, log) := by
        unfold Seek.readByte; simp only [show s.br = none from hc]
      rw [hr]
      simp only [List.drop_length, List.map_nil]
      exact ⟨_, .freshByte, hg, hw, hb, hl, hk, hc⟩
    | lost =>
      obtain ⟨em, hem⟩ := readByte_log (logCb answer) s log
      have hsame := readByte_same (logCb answer) s log
      rw [hem, deliver_log, List.drop_left]
      have hnew := cks_bad g (new := (em.map fun ck => (ck, answer log.length)).toList) hl hk
      exact ⟨⟨.lost, (Seek.readByte (logCb answer) s log).2.1.wantSave, b, _⟩, .lostByte,
        ⟨hsame.1.trans hg.1, hsame.2.1.trans hg.2.1, hsame.2.2.1.trans hg.2.2.1, hsame.2.2.2.trans hg.2.2.2⟩, rfl,
        (readByte_ssc _ _ _).trans hb, hnew.1, hnew.2, trivial⟩
    | «at» o =>
      have hc : AtS g s o := hc
      obtain ⟨y, e, s', em, h1, h2, h3, h4, h8⟩ := readByte_spec g (logCb answer) s o log hc
      rw [h1, deliver_log]
      simp only [List.drop_left]
      have hsv := saves_of g answer s o hc.2.1 log
      have hnew := cks_grow g answer s o hc hl hk
      rw [← h2, hw, hb] at hsv
      simp only [← h2] at hnew
      have hww : s'.wantSave = (w && o == g.cfg.size) := by
        rw [h4, hw]; show _ = (w && o == g.size)
        by_cases ho : o = g.size <;> simp [ho]
      rcases h8 with ⟨a1, a2, h7⟩ | ⟨a1, a2, h7⟩ | ⟨x, a1, a2, a3, _, _, a6, h7⟩
      · subst a1
        refine ⟨⟨.at (o + 1), w && o == g.cfg.size, b, _⟩, .byte ?_ hsv, h7.1, hww, h3.trans hb, hnew.1, hnew.2, h7⟩
        show g.stream[o]? = some y
        rw [← a2]; simp
      · subst a1
        exact ⟨⟨.at o, w && o == g.cfg.size, b, _⟩, .byteEof a2 hsv, h7.1, hww, h3.trans hb, hnew.1, hnew.2, h7⟩
      · subst a1
        exact ⟨⟨.at o, w && o == g.cfg.size, b, _⟩, .byteErr a6 a2 a3 hsv, h7.1, hww, h3.trans hb, hnew.1, hnew.2, h7⟩

/-- A call on another source, or none of its business. -/
theorem other_step {g : Geo} {s : SeekSt} {log : List (Ckpt × Option Err)} {sp : ShSt} (h : ShCorr g s log sp) (rs : Rs)
    (h1 : rs.content = s.rs.content) (h2 : rs.sched = s.rs.sched) :
    ShCorr g { s with rs := rs } log ⟨match sp.cur with | .fresh => .fresh | _ => .lost, sp.want, sp.ssc, sp.cks⟩ := by
  obtain ⟨hg, hw, hb, hl, hk, hc⟩ := h
  refine ⟨⟨h1.trans hg.1, h2.trans hg.2.1, hg.2.2.1, hg.2.2.2⟩, hw, hb, hl, hk, ?_⟩
  obtain ⟨c, w, b, ks⟩ := sp
  cases c with
  | fresh => exact hc
  | dead => exact hc.elim
  | _ => trivial

end Savior
