import Verif.Alike
import Verif.Props.ZipRuns
import Verif.Props.TarCases
import Verif.Props.Extraction
import Verif.Props.ZipAlignment
import Verif.Props.Oracle
/-!
# Nothing but the sink's answers matters (C68, C69)
-/

namespace Savior

/-- A sink with its failures hidden. -/
def forgiving (K : SinkM) : SinkM where
  St := K.St
  mkdir e s := (none, (K.mkdir e s).2)
  symlink e t s := (none, (K.symlink e t s).2)
  preallocate e s := (none, (K.preallocate e s).2)
  getWriter e s := (none, (K.getWriter e s).2)
  write bs s := ((bs.length, (K.write bs s).1.2.1, none), (K.write bs s).2)
  sync s := (none, (K.sync s).2)
  closeWriter s := K.closeWriter s
  reborn s := K.reborn s

theorem hidden {α : Type} (q : Option Err × α) : (q.1 = none ∧ q.2 = q.2) ∨ (True ∧ q.1 ≠ none) := by
  cases h : q.1 with
  | none => exact Or.inl ⟨rfl, rfl⟩
  | some x => exact Or.inr ⟨trivial, by simp⟩

theorem forgiving_alike (K : SinkM) (hK : K.Full) : Alike True K (forgiving K) Eq where
  mkdir e s s' h := by subst h; exact hidden _
  symlink e t s s' h := by subst h; exact hidden _
  preallocate e s s' h := by subst h; exact hidden _
  getWriter e s s' h := by subst h; exact hidden _
  write bs s s' h := by
    subst h
    cases h : (K.write bs s).1.2.2 with
    | none =>
      have := hK bs s h
      exact Or.inl ⟨by show (K.write bs s).1 = (bs.length, (K.write bs s).1.2.1, none); rw [← this, ← h], rfl⟩
    | some x => exact Or.inr ⟨trivial, by simp⟩
  sync s s' h := by subst h; exact hidden _
  closeWriter s s' h := by subst h; rfl

def forgiving_good (K : SinkM) : GoodSink (forgiving K) where
  OK _ := True
  Open _ := True
  open_ok _ _ := trivial
  mkdir _ _ _ := ⟨rfl, trivial⟩
  symlink _ _ _ _ := ⟨rfl, trivial⟩
  prealloc _ _ _ := ⟨rfl, trivial⟩
  getWriter _ _ _ _ := ⟨rfl, trivial⟩
  write _ _ _ := ⟨rfl, rfl, trivial⟩
  sync _ _ := ⟨rfl, trivial⟩
  close _ _ := trivial
  reborn _ _ := trivial

/-- **C68.** In a healthy environment but with any sink whatsoever, a zip extraction, fresh or resumed from any checkpoint saved
before, lists all members, or was asked to stop, or some call of the sink failed. -/
theorem C68_zip {A : Archive} {D : Decomp} {F : Nat} (hwf : ZipWF A D F) (hpl : ZipPlain A) (hs : ZipSound A D) (env : ZEnv) (he : env.Good A)
    (K : SinkM) (hK : K.Full) (V : SaveCons) (hV : V.Good) (ck : Option ECkpt) (hck : ZipStart A D F SinkM.Counting ck) (k : K.St) (u : V.St) :
    (zipResume A env D F K V ck k u).1 = .ok (A.files.map zipFileEntry) ∨ (zipResume A env D F K V ck k u).1 = .error .stop ∨
    SinkFailed (zipResume A env D F K V ck k u).2.log := by
  rcases zipResume_alike (V := V) (forgiving_alike K hK) A env D F ck k k rfl u with ⟨a, _⟩ | ⟨_, b⟩
  · rw [a]
    rcases (zipResume_good (u := u) hwf hpl hs he (forgiving_good K) hV ck (by
      intro c hc
      obtain ⟨n, hn⟩ := hck c hc
      exact zipSaved_saneCk hwf hn) k trivial).1 with g | g
    · exact Or.inl g
    · exact Or.inr (Or.inl g)
  · exact Or.inr (Or.inr b)

/-- **C68**, for tar streams. -/
theorem C68_tar {Y : List Byte} {Ck : Ckpt → Nat → Prop} {F : Nat} {T : TarFmt} (hT : T.Law) (hX : T.Exact) (ms : List (THdr × List Byte))
    (hY : TarHas T true Y ms) (hF : Y.length + 3 ≤ F) (X : TarSrc Y true Ck F) (hh : X.Healthy) (hi : X.S.Indifferent) (pr : Ckpt → Int × Int)
    (K : SinkM) (hK : K.Full) (V : SaveCons) (hV : V.Good) (ck : Option ECkpt) (hck : TarCanStart Y true Ck F T ck) (k : K.St) (u : V.St) :
    (∃ res, (tarRun X T pr K V ck k u).1 = .ok res) ∨ (tarRun X T pr K V ck k u).1 = .error .stop ∨ SinkFailed (tarRun X T pr K V ck k u).2.2.log := by
  obtain ⟨o0, hst⟩ := tarCanStart_from hT hck
  rcases tarResume_alike (V := V) (forgiving_alike K hK) hi T pr F ck X.src k k rfl u with ⟨a, _⟩ | ⟨_, b⟩
  · have a' : (tarRun X T pr K V ck k u).1 = (tarRun X T pr (forgiving K) V ck k u).1 := a
    rw [a']
    rcases (tarRun_good_open (K := forgiving K) hT hX hY X hh hF pr (forgiving_good K) hV ck k trivial u hst fun _ _ _ _ => ⟨rfl, trivial⟩).1 with g | g
    · exact Or.inl g
    · exact Or.inr (Or.inl g)
  · exact Or.inr (Or.inr b)

/-- The sources the extractors are used with satisfy the condition of `C68_tar` and `C69_tar`: plain files, and anything decompressed. -/
theorem C68_sources : seekM.Indifferent ∧ ∀ (cfg : WrapCfg) (D : Decomp) (I : SourceM) (F : Nat), (wrapM cfg D I F).Indifferent :=
  ⟨seek_indifferent, wrap_indifferent⟩

/-- A sink that says yes to everything, counting what should be. -/
def yesSink (counts : Str → Bool) : SinkM where
  St := Bool
  mkdir _ s := (none, s)
  symlink _ _ s := (none, s)
  preallocate _ s := (none, s)
  getWriter e _ := (none, counts e.path)
  write bs s := ((bs.length, if s then (bs.length : Int) else 0, none), s)
  sync s := (none, s)
  closeWriter s := s
  reborn s := s

theorem says {α : Type} (q : Option Err × α) {P : Prop} (h : q.1 = none → P) : (q.1 = none ∧ P) ∨ (True ∧ q.1 ≠ none) := by
  cases h' : q.1 with
  | none => exact Or.inl ⟨rfl, h h'⟩
  | some x => exact Or.inr ⟨trivial, by simp⟩

theorem yes_alike {K : SinkM} {counts : Str → Bool} (C : Counted K counts) : Alike True K (yesSink counts) (fun s b => C.on s = b) where
  mkdir e s s' h := says _ fun g => (C.mkdir e s g).trans h
  symlink e t s s' h := says _ fun g => (C.symlink e t s g).trans h
  preallocate e s s' h := says _ fun g => (C.prealloc e s g).trans h
  getWriter e s s' h := says _ fun g => C.getWriter e s g
  write bs s s' h := by
    cases h1 : (K.write bs s).1.2.2 with
    | none =>
      obtain ⟨a, b, c⟩ := C.write bs s h1
      subst h
      exact Or.inl ⟨by show (K.write bs s).1 = (bs.length, (if C.on s then (bs.length : Int) else 0), none); rw [← h1, ← b]; simp only [← a], c⟩
    | some x => exact Or.inr ⟨trivial, by simp⟩
  sync s s' h := says _ fun g => (C.sync s g).trans h
  closeWriter s s' h := (C.close s).trans h

section
variable {K K' : SinkM} {counts : Str → Bool} {V : SaveCons}

/-- **C69.** What a zip extraction does does not depend on what kind of sink it is given or on what is in there already: if no
call fails, two extractions from the same checkpoint make the same calls in the same order and with the same arguments, save the
same checkpoints, and have the same result. -/
theorem C69_zip (C : Counted K counts) (C' : Counted K' counts) (A : Archive) (env : ZEnv) (D : Decomp) (F : Nat) (ck : Option ECkpt)
    (k : K.St) (k' : K'.St) (hk : C.on k = C'.on k') (u : V.St) (h : ¬ SinkFailed (zipResume A env D F K V ck k u).2.log) (h' : ¬ SinkFailed (zipResume A env D F K' V ck k' u).2.log) :
    (zipResume A env D F K V ck k u).2.log = (zipResume A env D F K' V ck k' u).2.log ∧
    (zipResume A env D F K V ck k u).1 = (zipResume A env D F K' V ck k' u).1 ∧
    (zipResume A env D F K V ck k u).2.cons = (zipResume A env D F K' V ck k' u).2.cons := by
  rcases zipResume_alike (V := V) (yes_alike C) A env D F ck k _ hk u with ⟨a, b⟩ | ⟨_, b⟩
  · rcases zipResume_alike (V := V) (yes_alike C') A env D F ck k' _ rfl u with ⟨a', b'⟩ | ⟨_, b'⟩
    · exact ⟨by rw [b.log, b'.log], by rw [a, a'], by rw [b.cons, b'.cons]⟩
    · exact absurd b' h'
  · exact absurd b h

/-- **C69**, for tar streams. -/
theorem C69_tar (C : Counted K counts) (C' : Counted K' counts) {S : SourceM} (hS : S.Indifferent) (T : TarFmt) (pr : Ckpt → Int × Int)
    (F : Nat) (ck : Option ECkpt) (src : S.St) (k : K.St) (k' : K'.St) (hk : C.on k = C'.on k') (u : V.St)
    (h : ¬ SinkFailed (tarResume S T pr F K V ck src k u).2.2.log) (h' : ¬ SinkFailed (tarResume S T pr F K' V ck src k' u).2.2.log) :
    (tarResume S T pr F K V ck src k u).2.2.log = (tarResume S T pr F K' V ck src k' u).2.2.log ∧
    (tarResume S T pr F K V ck src k u).1 = (tarResume S T pr F K' V ck src k' u).1 ∧
    (tarResume S T pr F K V ck src k u).2.2.cons = (tarResume S T pr F K' V ck src k' u).2.2.cons := by
  rcases tarResume_alike (V := V) (yes_alike C) hS T pr F ck src k _ hk u with ⟨a, _, b⟩ | ⟨_, b⟩
  · rcases tarResume_alike (V := V) (yes_alike C') hS T pr F ck src k' _ rfl u with ⟨a', _, b'⟩ | ⟨_, b'⟩
    · exact ⟨by rw [b.log, b'.log], by rw [a, a'], by rw [b.cons, b'.cons]⟩
    · exact absurd b' h'
  · exact absurd b h

/-- **C69** (failures included). Two sinks that answer each call alike, failing alike, are exchangeable altogether. -/
theorem C69_zip_alike {R : K.St → K'.St → Prop} (L : Alike False K K' R) (A : Archive) (env : ZEnv) (D : Decomp) (F : Nat) (ck : Option ECkpt)
    (k : K.St) (k' : K'.St) (hk : R k k') (u : V.St) :
    (zipResume A env D F K V ck k u).1 = (zipResume A env D F K' V ck k' u).1 ∧
    (zipResume A env D F K V ck k u).2.log = (zipResume A env D F K' V ck k' u).2.log ∧
    R (zipResume A env D F K V ck k u).2.sink (zipResume A env D F K' V ck k' u).2.sink := by
  rcases zipResume_alike (V := V) L A env D F ck k k' hk u with ⟨a, b⟩ | ⟨b, _⟩
  · exact ⟨a, b.log, b.sink⟩
  · exact b.elim

/-- **C69** (failures included), for tar streams. -/
theorem C69_tar_alike {R : K.St → K'.St → Prop} (L : Alike False K K' R) {S : SourceM} (hS : S.Indifferent) (T : TarFmt) (pr : Ckpt → Int × Int)
    (F : Nat) (ck : Option ECkpt) (src : S.St) (k : K.St) (k' : K'.St) (hk : R k k') (u : V.St) :
    (tarResume S T pr F K V ck src k u).1 = (tarResume S T pr F K' V ck src k' u).1 ∧
    (tarResume S T pr F K V ck src k u).2.2.log = (tarResume S T pr F K' V ck src k' u).2.2.log ∧
    R (tarResume S T pr F K V ck src k u).2.2.sink (tarResume S T pr F K' V ck src k' u).2.2.sink := by
  rcases tarResume_alike (V := V) L hS T pr F ck src k k' hk u with ⟨a, _, b⟩ | ⟨b, _⟩
  · exact ⟨a, b.log, b.sink⟩
  · exact b.elim

end

/-! ## The sinks at hand -/

/-- A sink that counts everything. -/
def countedAll {K : SinkM} (hK : K.Full) (hP : K.Precise) : Counted K (fun _ => true) where
  on _ := true
  mkdir _ _ _ := rfl
  symlink _ _ _ _ := rfl
  prealloc _ _ _ := rfl
  getWriter _ _ _ := rfl
  write bs s h := ⟨hK bs s h, hP bs s h, rfl⟩
  sync _ _ := rfl
  close _ := rfl

/-- The last writer is not that of an ignored entry. -/
def fsOn (s : FSink) : Bool := match s.ws[s.ws.length - 1]? with | some .nop => false | _ => true

theorem fsOn_snoc (os : OS) (l : List Wr) (r : Option Nat) (w : Wr) : fsOn ⟨os, l ++ [w], r⟩ = (match w with | .nop => false | _ => true) := by
  unfold fsOn
  simp
  cases w <;> rfl

theorem folder_ws {cfg : FCfg} (e : Entry) (t : Str) (s : FSink) :
    (s.mkdir cfg e).2.ws = s.ws ∧ (s.symlink cfg e t).2.ws = s.ws ∧ (s.preallocate cfg e).2.ws = s.ws := by
  refine ⟨?_, ?_, ?_⟩
  · unfold FSink.mkdir; repeat' (first | rfl | (dsimp only; split) | split)
  · unfold FSink.symlink; repeat' (first | rfl | (dsimp only; split) | split)
  · unfold FSink.preallocate
    split
    · rfl
    · dsimp only
      split <;> rfl

theorem fsOn_ws {s s' : FSink} (h : s'.ws = s.ws) : fsOn s' = fsOn s := by unfold fsOn; rw [h]

theorem fsOn_set (os os' : OS) (l : List Wr) (r r' : Option Nat) (k i o : Nat) (op : Bool) (h : ∃ i o op, l[k]? = some (.real i o op)) :
    fsOn ⟨os, l.set k (.real i o op), r⟩ = fsOn ⟨os', l, r'⟩ := by
  obtain ⟨i', o', op', h⟩ := h
  unfold fsOn
  simp only [List.length_set]
  by_cases hk : k = l.length - 1
  · subst hk
    rw [h]
    rw [List.getElem?_set]
    have : l.length - 1 < l.length := by
      rw [List.getElem?_eq_some_iff] at h
      exact h.1
    simp [this]
  · rw [List.getElem?_set_ne hk]

/-- FolderSink counts everything but ignored names. -/
def countedFolder (cfg : FCfg) : Counted (folderSink cfg) (fun p => !shouldIgnore p) where
  on := fsOn
  mkdir e s _ := fsOn_ws (folder_ws e [] s).1
  symlink e t s _ := fsOn_ws (folder_ws e t s).2.1
  prealloc e s _ := fsOn_ws (folder_ws e [] s).2.2
  getWriter e s h := by
    have h : (s.getWriter cfg e).1 = none := h
    show fsOn (s.getWriter cfg e).2 = _
    unfold FSink.getWriter at h ⊢
    split
    · rename_i hi
      rw [fsOn_snoc, hi]; rfl
    · rename_i hi
      rw [if_neg hi] at h
      simp only at h ⊢
      split
      · rename_i g; rw [g] at h; cases h
      · rename_i g
        rw [g] at h
        simp only at h ⊢
        split
        · rename_i g; rw [g] at h; cases h
        · rw [fsOn_snoc]
          simp only [Bool.not_eq_true] at hi
          rw [hi]; rfl
  write bs s h := by
    have h : (s.writeAt cfg (s.ws.length - 1) bs).1.2.2 = none := h
    show (s.writeAt cfg (s.ws.length - 1) bs).1.1 = _ ∧ (s.writeAt cfg (s.ws.length - 1) bs).1.2.1 = _ ∧ fsOn (s.writeAt cfg (s.ws.length - 1) bs).2 = _
    cases hw : s.ws[s.ws.length - 1]? with
    | none => unfold FSink.writeAt at h; rw [hw] at h; simp at h
    | some w =>
      cases w with
      | nop =>
        have hon : fsOn s = false := by unfold fsOn; rw [hw]
        rw [hon]
        unfold FSink.writeAt
        rw [hw]
        exact ⟨rfl, rfl, hon⟩
      | real i o op =>
        have hon : fsOn s = true := by unfold fsOn; rw [hw]
        cases op with
        | false => unfold FSink.writeAt at h; rw [hw] at h; simp at h
        | true =>
          rcases FSink.write_cases cfg _ bs s i o hw with ⟨x, n, a, _⟩ | ⟨a, b, c, _⟩
          · rw [a] at h; cases h
          · refine ⟨by rw [a], by rw [a, hon]; rfl, ?_⟩
            unfold FSink.writeAt
            rw [hw]
            exact fsOn_set _ _ _ _ _ _ _ _ _ ⟨_, _, _, hw⟩
  sync s h := by
    refine fsOn_ws ?_
    show (s.syncAt cfg _).2.ws = _
    unfold FSink.syncAt
    split <;> rfl
  close s := by
    show fsOn (s.closeAt cfg (s.ws.length - 1)).2 = _
    unfold FSink.closeAt
    split
    · rename_i hw
      exact fsOn_set _ _ _ _ _ _ _ _ _ ⟨_, _, _, hw⟩
    · rfl

/-- The checking sink counts everything. -/
theorem cCheck_full (data : List Byte) : ∀ (bs : List Byte) (off : Nat), (cCheck data off bs).2 = none → (cCheck data off bs).1 = bs.length := by
  intro bs
  induction bs with
  | nil => intro off _; rfl
  | cons b bs ih =>
    intro off h
    unfold cCheck at h ⊢
    split at h
    · cases h
    · rename_i x hx
      simp only at h ⊢
      split at h
      · cases h
      · rename_i hb
        simp only [if_neg hb, List.length_cons]
        rw [ih _ h]

theorem checkFull : checkSink.Full ∧ checkSink.Precise := by
  have key : ∀ (k : Nat) (bs : List Byte) (s : CSt), (cWrite k bs s).1.2 = none → (cWrite k bs s).1.1 = bs.length := by
    intro k bs s h
    unfold cWrite at h ⊢
    split at h
    · cases h
    · exact cCheck_full _ _ _ h
  exact ⟨fun bs s h => key _ bs s h, fun bs s h => by have := key _ bs s h; exact congrArg Int.ofNat this⟩

/-! ## Non-vacuity -/

theorem memFull (faults : Nat → Option Nat) : (memSink faults).Full := by
  intro bs s h
  simp only [memSink] at h ⊢
  split at h
  · cases h
  · rename_i hc
    cases hf : faults s.tick with
    | none => simp only [if_neg hc]
    | some x => rw [hf] at h; cases h

/-- C68 applies to the toy archive and an in-memory sink of which one call fails, and that is the case in which it ends. -/
def faultyRun := zipResume toyArchive toyEnv (toy false false) 100 (memSink oneFault) stopCons none memEmpty ()

example : faultyRun.1 = .ok (toyArchive.files.map zipFileEntry) ∨ faultyRun.1 = .error .stop ∨ SinkFailed faultyRun.2.log :=
  C68_zip toy_wf (by unfold ZipPlain; decide) toy_sound toyEnv toy_good _ (memFull _) stopCons (fun _ _ => ⟨_, rfl⟩) none (by intro c h; cases h) memEmpty ()

example : ∃ x, faultyRun.1 = .error (.wrapped x) := ⟨_, by rfl⟩

example (K : SinkM) (hK : K.Full) (k : K.St) :
    (∃ res, (tarRun (plainSrc toyStream 100 (by decide)) (toyTar true) (fun _ => (0, 1)) K stopCons none k ()).1 = .ok res) ∨
    (tarRun (plainSrc toyStream 100 (by decide)) (toyTar true) (fun _ => (0, 1)) K stopCons none k ()).1 = .error .stop ∨
    SinkFailed (tarRun (plainSrc toyStream 100 (by decide)) (toyTar true) (fun _ => (0, 1)) K stopCons none k ()).2.2.log :=
  C68_tar (toyTar_law true) (toyTar_exact true) toyMembers toy_has (by decide) _ ⟨fun _ => rfl, trivial⟩ seek_indifferent _ K hK stopCons (fun _ _ => ⟨_, rfl⟩) none
    (by intro c h; cases h) k ()

/-- C69 applies to an extraction into the checking sink and one into memory: the same calls, though one compares and the other stores. -/
def memSide := zipResume oracleArchive toyEnv (toy false false) 100 (memSink noFaults) listCons none memEmpty [.ok .stop]

theorem no_fail {l : List Ev} (h : (l.all fun ev => ev.sinkError = none) = true) : ¬ SinkFailed l := by
  rintro ⟨ev, a, b⟩
  exact b (by simpa using List.all_eq_true.1 h ev a)

theorem sides (A : Archive) (items : List CItem) (u : List (Except Err Action)) (h : ¬ SinkFailed (zipResume A toyEnv (toy false false) 100 checkSink listCons none (cNew items) u).2.log)
    (h' : ¬ SinkFailed (zipResume A toyEnv (toy false false) 100 (memSink noFaults) listCons none memEmpty u).2.log) :
    (zipResume A toyEnv (toy false false) 100 checkSink listCons none (cNew items) u).2.log = (zipResume A toyEnv (toy false false) 100 (memSink noFaults) listCons none memEmpty u).2.log :=
  (C69_zip (V := listCons) (countedAll checkFull.1 checkFull.2) (countedAll (memFull noFaults) (memPrecise noFaults)) A toyEnv (toy false false) 100 none (cNew items) memEmpty rfl
    u h h').1

theorem side1 : ((oracle1 oracleItems).2.log.all fun ev => ev.sinkError = none) = true := by rfl
theorem side2 : (memSide.2.log.all fun ev => ev.sinkError = none) = true := by rfl

example : (oracle1 oracleItems).2.log = memSide.2.log := sides oracleArchive oracleItems [.ok .stop] (no_fail side1) (no_fail side2)

end Savior
