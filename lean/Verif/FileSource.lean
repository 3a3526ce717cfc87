import Verif.Shared
/-!
# filesource (filesource/filesource.go)

`eos.Open` (external: a local file or one read over HTTP) is a parameter; the file it gives is an `Rs`.
-/

namespace Savior
open Seek

/-- What `eos.Open` returns and what `Stat` will say of the file. -/
structure FileEnv where
  opened : Except Err Rs
  stat : Except Err Nat

/-- A `fileSource` (filesource.go:38-42): a seek source, and whether the file was closed. -/
structure FileSt where
  src : SeekSt
  closed : Bool

/-- `OpenPaused` (filesource.go:10-22), and the number of files it leaves open. -/
def openPaused (env : FileEnv) : Except Err FileSt × Int :=
  match env.opened with
  | .error e => (.error e, 0)
  | .ok rs => (.ok ⟨fromFile rs env.stat, false⟩, 1)

/-- `Open` (filesource.go:24-36), and the number of files it leaves open: if `Resume` fails the file is not closed. -/
def openFile (env : FileEnv) : Except Err FileSt × Int :=
  let o := openPaused env
  match o.1 with
  | .error e => (.error e, o.2)
  | .ok f =>
    let r := Seek.resume none f.src
    match r.1 with
    | .error e => (.error e, o.2)
    | .ok _ => (.ok { f with src := r.2 }, o.2)

/-- A closed file: every further call fails. -/
def Rs.shut (rs : Rs) : Rs := { rs with sched := fun t => if t < rs.tick then rs.sched t else ⟨0, false, some 9⟩ }

/-- `Close` (filesource.go:44-46), and the change in the number of open files. The file may report an error (`err`); it is closed all the
same. Closing twice is an error. -/
def FileSt.close (err : Option Err) (f : FileSt) : Option Err × FileSt × Int :=
  if f.closed then (some .closed, f, 0)
  else (err, ⟨{ f.src with rs := f.src.rs.shut }, true⟩, -1)

/-- A call on a file source. -/
inductive FileOp
  | call (op : SrcOp)
  | close (err : Option Err)

/-- What the caller sees. -/
inductive FileOut
  | call (out : SrcOut)
  | closed (r : Option Err)

/-- Execute calls; the number is that of files open. -/
def fileRun (answer : Nat → Option Err) : List FileOp → FileSt → List (Ckpt × Option Err) → Int → List (FileOp × FileOut) × FileSt × Int
  | [], f, _, n => ([], f, n)
  | .call op :: ops, f, log, n =>
    let r := srcStep seekM answer op f.src log
    let q := fileRun answer ops { f with src := r.2.1 } r.2.2 n
    ((.call op, .call r.1) :: q.1, q.2)
  | .close err :: ops, f, log, n =>
    let r := f.close err
    let q := fileRun answer ops r.2.1 log (n + r.2.2)
    ((.close err, .closed r.1) :: q.1, q.2)

/-- **Specification**: a cursor (`ShStep`), until `Close`; from then on the file fails, so that reads can only deliver what was already read from
it (still the right bytes) and `Resume` is always refused; a second `Close` is refused. -/
inductive FileSpec (p : ShCfg) : Bool → ShSt → List (FileOp × FileOut) → Prop
  | nil {c sp} : FileSpec p c sp []
  | call {c sp op out sp' h} : ShStep ⟨p.Y, p.size, p.nice ∧ c = false⟩ sp (.call op out) sp' → (c = true → ∀ o, out ≠ .resumed (.ok o)) → FileSpec p c sp' h →
      FileSpec p c sp ((.call op, .call out) :: h)
  | close {sp err h} : FileSpec p true sp h → FileSpec p false sp ((.close err, .closed err) :: h)
  | again {sp err h} : FileSpec p true sp h → FileSpec p true sp ((.close err, .closed (some .closed)) :: h)

theorem shut_corr {g : Geo} {s : SeekSt} {log : List (Ckpt × Option Err)} {sp : ShSt} (h : ShCorr g s log sp) :
    ShCorr ⟨g.raw, s.rs.shut.sched, g.start, g.size⟩ { s with rs := s.rs.shut } log sp := by
  obtain ⟨hg, hw, hb, hl, hk, hc⟩ := h
  refine ⟨⟨hg.1, rfl, hg.2.2.1, hg.2.2.2⟩, hw, hb, hl, hk, ?_⟩
  obtain ⟨c, w, b, ks⟩ := sp
  cases c with
  | fresh => exact hc
  | dead => exact hc
  | lost => trivial
  | «at» o =>
    obtain ⟨h1, h2, h3, b, h4, h5, h6, h7, h8⟩ := (show AtS g s o from hc)
    refine ⟨⟨hg.1, rfl, hg.2.2.1, hg.2.2.2⟩, h2, h3, b, h4, h5, rfl, h7, ?_⟩
    intro x hx hne
    refine ⟨?_, (h8 x hx hne).2⟩
    intro hn
    have := hn s.rs.tick
    simp [Rs.shut] at this

/-- After closing, at time `t`, the schedule fails for good. -/
def Shut (f : FileSt) : Prop := ∃ t, t ≤ f.src.rs.tick ∧ ∀ t', t ≤ t' → (f.src.rs.sched t').fault = some 9

theorem read_tick (rs : Rs) (k : Nat) : rs.tick ≤ (rs.read k).2.tick := by
  unfold Rs.read
  repeat' (first | exact Nat.le_succ _ | (dsimp only; split) | split)

theorem bufio_read_tick (b : Bufio) (rs : Rs) (k : Nat) : rs.tick ≤ (b.read rs k).2.2.tick := by
  unfold Bufio.read
  repeat' (first | exact Nat.le_refl _ | exact read_tick rs _ | (dsimp only; split) | split)

theorem bufio_readByte_tick (b : Bufio) (rs : Rs) : rs.tick ≤ (b.readByte rs).2.2.tick := by
  unfold Bufio.readByte
  repeat' (first | exact Nat.le_refl _ | exact read_tick rs _ | (dsimp only; split) | split)

theorem resume_tick (c : Option Ckpt) (s : SeekSt) : s.rs.tick ≤ (Seek.resume c s).2.rs.tick := by
  have go : ∀ s : SeekSt, s.rs.tick ≤ (Seek.resume.go s).2.rs.tick := by
    intro s
    unfold Seek.resume.go Rs.seek
    repeat' (first | exact Nat.le_succ _ | (dsimp only; split) | split)
  unfold Seek.resume
  split
  · split
    · exact Nat.le_refl _
    · rename_i ck _; exact go { s with offset := ck.offset }
  · exact go { s with offset := 0 }

theorem srcStep_tick (answer : Nat → Option Err) (op : SrcOp) (s : SeekSt) (log : List (Ckpt × Option Err)) :
    s.rs.tick ≤ ((srcStep seekM answer op s log).2.1 : SeekSt).rs.tick := by
  cases op with
  | resumeNil => exact resume_tick none s
  | resumeCk i =>
    unfold srcStep
    dsimp only
    cases log[i]? with
    | none => exact Nat.le_refl _
    | some x => exact resume_tick (some x.1) s
  | read n =>
    show s.rs.tick ≤ (Seek.read (logCb answer) (n + 1) s log).2.1.rs.tick
    unfold Seek.read
    rw [handleSave_eq]
    repeat' (first | exact Nat.le_refl _ | exact bufio_read_tick _ _ _ | (dsimp only; split) | split)
  | readByte =>
    show s.rs.tick ≤ (Seek.readByte (logCb answer) s log).2.1.rs.tick
    unfold Seek.readByte
    rw [handleSave_eq]
    repeat' (first | exact Nat.le_refl _ | exact bufio_readByte_tick _ _ | (dsimp only; split) | split)
  | wantSave => exact Nat.le_refl _
  | setSSC b => exact Nat.le_refl _

theorem shut_step {f : FileSt} (h : Shut f) (answer : Nat → Option Err) (op : SrcOp) (log : List (Ckpt × Option Err)) :
    Shut { f with src := (srcStep seekM answer op f.src log).2.1 } := by
  obtain ⟨t, h1, h2⟩ := h
  refine ⟨t, Nat.le_trans h1 (srcStep_tick answer op f.src log), ?_⟩
  show ∀ t', t ≤ t' → (((srcStep seekM answer op f.src log).2.1 : SeekSt).rs.sched t').fault = some 9
  rw [(srcStep_same answer op f.src log).2.1]
  exact h2

theorem shut_resume {s : SeekSt} (h : (s.rs.sched s.rs.tick).fault = some 9) (c : Option Ckpt) : ∃ e, (Seek.resume c s).1 = .error e := by
  have go : ∀ s : SeekSt, (s.rs.sched s.rs.tick).fault = some 9 → ∃ e, (Seek.resume.go s).1 = .error e := by
    intro s h
    unfold Seek.resume.go Rs.seek
    rw [h]
    exact ⟨_, rfl⟩
  unfold Seek.resume
  split
  · split
    · exact ⟨_, rfl⟩
    · exact go _ h
  · exact go _ h

theorem shut_refuses {f : FileSt} (h : Shut f) (answer : Nat → Option Err) (op : SrcOp) (log : List (Ckpt × Option Err)) (o : Int) :
    (srcStep seekM answer op f.src log).1 ≠ .resumed (.ok o) := by
  obtain ⟨t, h1, h2⟩ := h
  have hf := h2 _ h1
  cases op with
  | resumeNil =>
    obtain ⟨e, he⟩ := shut_resume hf none
    show SrcOut.resumed (Seek.resume none f.src).1 ≠ _
    rw [he]; nofun
  | resumeCk i =>
    unfold srcStep
    dsimp only
    cases log[i]? with
    | none => nofun
    | some x =>
      obtain ⟨e, he⟩ := shut_resume hf (some x.1)
      show SrcOut.resumed (Seek.resume (some x.1) f.src).1 ≠ _
      rw [he]; nofun
  | read n => intro h; cases h
  | readByte => intro h; cases h
  | wantSave => intro h; cases h
  | setSSC b => intro h; cases h

/-- A shut file's source satisfies the specification with "the file never fails" replaced by false. -/
theorem step_weaken {Y : List Byte} {n : Nat} {P Q : Prop} (h : Q → P) {sp sp' : ShSt} {ev : ShEv} (hs : ShStep ⟨Y, n, P⟩ sp ev sp') : ShStep ⟨Y, n, Q⟩ sp ev sp' := by
  cases hs with
  | resumeNil => exact .resumeNil
  | resumeNilErr a => exact .resumeNilErr (fun q => a (h q))
  | resumeCk a => exact .resumeCk a
  | resumeCkErr a b => exact .resumeCkErr a (fun q => b (h q))
  | resumeBad a => exact .resumeBad a
  | resumeNoCk a => exact .resumeNoCk a
  | data a b c d => exact .data a b c d
  | eof a b c => exact .eof a b c
  | error a b c d e f g => exact .error (fun q => a (h q)) b c d e f g
  | byte a b => exact .byte a b
  | byteEof a b => exact .byteEof a b
  | byteErr a b c d => exact .byteErr (fun q => a (h q)) b c d
  | wantSave => exact .wantSave
  | setSSC => exact .setSSC
  | freshRead => exact .freshRead
  | freshByte => exact .freshByte
  | lostRead => exact .lostRead
  | lostByte => exact .lostByte
  | other => exact .other

theorem file_run (g : Geo) (answer : Nat → Option Err) (P : Prop) (ops : List FileOp) (f : FileSt) (log : List (Ckpt × Option Err)) (n : Int) (sp : ShSt)
    (h : ShCorr g f.src log sp) (ho : f.closed = false → P → NoFault g.sched) (hc : f.closed = true → Shut f) :
    FileSpec ⟨g.stream, g.size, P⟩ f.closed sp (fileRun answer ops f log n).1 := by
  induction ops generalizing f log n sp g with
  | nil => exact .nil
  | cons op ops ih =>
    cases op with
    | call op =>
      obtain ⟨sp1, h1, h2⟩ := own_step g answer op f.src log sp h
      have := ih g { f with src := (srcStep seekM answer op f.src log).2.1 } (srcStep seekM answer op f.src log).2.2 n sp1 h2 ho
        (fun hcl => shut_step (hc hcl) answer op log)
      exact .call (step_weaken (fun q => ho q.2 q.1) h1) (fun hcl o => shut_refuses (hc hcl) answer op log o) this
    | close err =>
      cases hcl : f.closed with
      | false =>
        have e : f.close err = (err, ⟨{ f.src with rs := f.src.rs.shut }, true⟩, -1) := by unfold FileSt.close; rw [hcl]; rfl
        show FileSpec _ false sp ((.close err, .closed (f.close err).1) :: (fileRun answer ops (f.close err).2.1 log (n + (f.close err).2.2)).1)
        rw [e]
        refine .close ?_
        refine ih ⟨g.raw, f.src.rs.shut.sched, g.start, g.size⟩ ⟨{ f.src with rs := f.src.rs.shut }, true⟩ log (n + -1) sp (shut_corr h) nofun ?_
        intro _
        refine ⟨f.src.rs.tick, Nat.le_refl _, ?_⟩
        intro t' ht
        show ((fun t => if t < f.src.rs.tick then f.src.rs.sched t else (⟨0, false, some 9⟩ : RsAct)) t').fault = some 9
        simp only
        rw [if_neg (by omega)]
      | true =>
        have e : f.close err = (some .closed, f, 0) := by unfold FileSt.close; rw [hcl]; rfl
        show FileSpec _ true sp ((.close err, .closed (f.close err).1) :: (fileRun answer ops (f.close err).2.1 log (n + (f.close err).2.2)).1)
        rw [e]
        have := ih g f log (n + 0) sp h ho hc
        rw [hcl] at this
        exact .again this

end Savior
