import Verif.Reuse
import Verif.History
import Verif.TarStack
import Verif.Props.Tar
import Verif.Props.ZipRuns
/-!
# Using a source for another tar run (C89)
-/

namespace Savior
open Seek (Geo GoodS)

section
variable {Y : List Byte} {clean : Bool} {Ck : Ckpt → Nat → Prop} {F : Nat} {T : TarFmt} {K : SinkM} {V : SaveCons}

/-- If the old callback is not run while skipping, it is never run. -/
theorem tarReuse_plain (S : SourceM) (pr : Ckpt → Int × Int) (old : TC T K V) (ck : Option ECkpt) (src : S.St) (k : K.St)
    (h : ∀ c res tck offset, ck = some c → c.data = some ⟨some res, some tck⟩ → (S.resume c.srcCk src).1 = .ok offset → offset < tck.roff →
      discard S (tarOnSave T pr) F (tck.roff - offset) (S.resume c.srcCk src).2 old =
        ((discard S (fun _ c => (c, none)) F (tck.roff - offset) (S.resume c.srcCk src).2 ()).1,
         (discard S (fun _ c => (c, none)) F (tck.roff - offset) (S.resume c.srcCk src).2 ()).2.1, old)) :
    tarReuse S T pr F K V old ck src k = (tarFirst S T pr F K V ck src k old.xw.cons, old) := by
  match ck with
  | none => rfl
  | some ⟨sck, idx, e, p, none⟩ => rfl
  | some ⟨sck, idx, e, p, some ⟨none, t⟩⟩ => rfl
  | some ⟨sck, idx, e, p, some ⟨some res, none⟩⟩ => rfl
  | some ⟨sck, idx, e, p, some ⟨some res, some tck⟩⟩ =>
    have h := fun offset => h _ res tck offset rfl rfl
    unfold tarReuse tarFirst tarBegin tarAgain
    simp only at h ⊢
    generalize S.resume sck src = q at h ⊢
    obtain ⟨r, s⟩ := q
    cases r with
    | error x => rfl
    | ok offset =>
      simp only at h ⊢
      by_cases hl : offset < tck.roff
      · rw [if_pos hl, if_pos hl, h offset rfl hl]
        generalize discard S (fun _ c => (c, none)) F (tck.roff - offset) s () = d
        obtain ⟨e', s', c'⟩ := d
        cases e' with
        | some x => rfl
        | none =>
          simp only
          cases T.dec tck.blob <;> rfl
      · rw [if_neg hl, if_neg hl]
        simp only
        cases T.dec tck.blob <;> rfl

/-- A checkpoint that may be resumed from: where its source checkpoint and its tar reader are. -/
theorem tarCanStart_data (hT : T.Law) {ck : Option ECkpt} (h : TarCanStart Y clean Ck F T ck) {c : ECkpt} (hc : ck = some c) :
    ∃ (o : Nat) (sck : Ckpt) (res : List Entry) (im : List Nat), c.srcCk = some sck ∧ Ck sck o ∧ c.data = some ⟨some res, some ⟨o, im⟩⟩ := by
  obtain ⟨n, hn⟩ := h c hc
  obtain ⟨i, o, ⟨ms, h', R, z0, st0, e, a, _⟩, _⟩ := tarSaved_at hT hn
  obtain ⟨im, b, _⟩ := a.data
  obtain ⟨sck, d, f⟩ := a.src
  exact ⟨o, sck, R, im, d, f, b⟩

/-- The old callback is not run, whatever was left pending. -/
theorem tarReuse_same {S : SourceM} (hT : T.Law) (L : Lawful S Y clean) (hU : S.Uniform) (hf : ∀ c o, Ck c o → L.CkFor c o) {src : S.St} (hg : L.Good src)
    (pr : Ckpt → Int × Int) (old : TC T K V) (ck : Option ECkpt) (hck : TarCanStart Y clean Ck F T ck) (k : K.St) :
    tarReuse S T pr F K V old ck src k = (tarFirst S T pr F K V ck src k old.xw.cons, old) := by
  refine tarReuse_plain (F := F) S pr old ck src k ?_
  intro c res tck offset hc hd hr hl
  obtain ⟨o, sck, res', im, a1, a2, a3⟩ := tarCanStart_data hT hck hc
  rw [a3] at hd
  obtain rfl : tck = ⟨o, im⟩ := by simp only [Option.some.injEq, TarState.mk.injEq] at hd; exact hd.2.symm
  rw [a1] at hr ⊢
  rcases L.resume_ck hg (hf sck o a2) with ⟨o', s', b1, _, b3, b4, _⟩ | ⟨e, s', b1, _⟩
  · by_cases hp : L.plain
    · rw [b1] at hr
      have : (o' : Int) = offset := Except.ok.inj hr
      rw [b3 (L.plain_exact hp)] at this
      simp only at hl
      omega
    · have hq := L.resume_quiet hp hg (hf sck o a2) b1
      rw [b1]
      exact discard_quiet hU L _ _ _ _ F _ s' o' b4 hq
  · rw [b1] at hr; cases hr

/-- **C89.** Another run of the same extractor on the same source object, whatever the earlier run (`old`) was, and whatever save requests
it left pending: the same result, source, sink, and calls as when no callback is registered on the source (`tarRun`). The callback of the
earlier run is not run: its variables stay as they were. And unless the source's own `Resume` failed, the source is fit for yet another
run. -/
theorem C89_reuse (hT : T.Law) (X : TarSrc Y clean Ck F) (hU : X.S.Uniform) (pr : Ckpt → Int × Int) (old : TC T K V) (ck : Option ECkpt)
    (hck : TarCanStart Y clean Ck F T ck) (k : K.St) :
    let r := tarReuse X.S T pr F K V old ck X.src k
    (r.1.1, r.1.2.1, r.1.2.2.xw) = tarRun X T pr K V ck k old.xw.cons ∧ r.2 = old ∧
    (X.L.Good r.1.2.1 ∨ ∃ x, X.S.resume (ck.bind (·.srcCk)) X.src = (.error x, r.1.2.1)) := by
  show ((tarReuse X.S T pr F K V old ck X.src k).1.1, (tarReuse X.S T pr F K V old ck X.src k).1.2.1, (tarReuse X.S T pr F K V old ck X.src k).1.2.2.xw) = _ ∧
    (tarReuse X.S T pr F K V old ck X.src k).2 = old ∧
    (X.L.Good (tarReuse X.S T pr F K V old ck X.src k).1.2.1 ∨ ∃ x, X.S.resume (ck.bind (·.srcCk)) X.src = (.error x, (tarReuse X.S T pr F K V old ck X.src k).1.2.1))
  have h := tarReuse_same hT X.L hU (fun c o => (X.family c o).mpr) X.good pr old ck hck k
  rw [h]
  have hr : tarRun X T pr K V ck k old.xw.cons = _ := tarFirst_resume X.S T pr F K V ck X.src k old.xw.cons
  have hfrom : ∃ o0, TarFrom T clean Y Ck ck o0 := by
    cases hc : ck with
    | none => exact ⟨0, Or.inl ⟨rfl, rfl⟩⟩
    | some c =>
      obtain ⟨n, hn⟩ := hck c hc
      obtain ⟨i, o, a, _⟩ := tarSaved_at hT hn
      exact ⟨o, Or.inr ⟨c, i, rfl, a⟩⟩
  obtain ⟨o0, hfrom⟩ := hfrom
  have hl := tarRun_live (K := K) (V := V) hT X pr ck k old.xw.cons hfrom
  rw [hr] at hl ⊢
  exact ⟨rfl, rfl, hl.imp X.L.live_good id⟩

/-- Runs of one extractor, one after another on one source object `X.src`, each from no checkpoint or from one saved by any runs over
this stream, ending in whatever way except that the source's `Resume` fails. The source they leave, and the variables of the last. -/
inductive TarTurns (X : TarSrc Y clean Ck F) (T : TarFmt) (pr : Ckpt → Int × Int) (K : SinkM) (V : SaveCons) : X.S.St → TC T K V → Prop
  | first (ck : Option ECkpt) (k : K.St) (u : V.St) : TarCanStart Y clean Ck F T ck →
      (∀ x, (X.S.resume (ck.bind (·.srcCk)) X.src).1 ≠ .error x) →
      TarTurns X T pr K V (tarFirst X.S T pr F K V ck X.src k u).2.1 (tarFirst X.S T pr F K V ck X.src k u).2.2
  | next {src old} (ck : Option ECkpt) (k : K.St) : TarTurns X T pr K V src old → TarCanStart Y clean Ck F T ck →
      (∀ x, (X.S.resume (ck.bind (·.srcCk)) src).1 ≠ .error x) →
      TarTurns X T pr K V (tarReuse X.S T pr F K V old ck src k).1.2.1 (tarReuse X.S T pr F K V old ck src k).1.2.2

/-- **C89, any number of runs.** After any such series of runs on one source object, the next run on it is as if none of the callbacks
registered by the runs before existed. -/
theorem C89_turns (hT : T.Law) (X : TarSrc Y clean Ck F) (hU : X.S.Uniform) (pr : Ckpt → Int × Int) {src : X.S.St} {old : TC T K V}
    (h : TarTurns X T pr K V src old) (ck : Option ECkpt) (hck : TarCanStart Y clean Ck F T ck) (k : K.St) :
    tarReuse X.S T pr F K V old ck src k = (tarFirst X.S T pr F K V ck src k old.xw.cons, old) := by
  have hfrom : ∀ ck, TarCanStart Y clean Ck F T ck → ∃ o0, TarFrom T clean Y Ck ck o0 := by
    intro ck hck
    cases hc : ck with
    | none => exact ⟨0, Or.inl ⟨rfl, rfl⟩⟩
    | some c =>
      obtain ⟨n, hn⟩ := hck c hc
      obtain ⟨i, o, a, _⟩ := tarSaved_at hT hn
      exact ⟨o, Or.inr ⟨c, i, rfl, a⟩⟩
  have step : ∀ (src : X.S.St), X.L.Good src → ∀ (ck : Option ECkpt) (k : K.St) (u : V.St), TarCanStart Y clean Ck F T ck →
      (∀ x, (X.S.resume (ck.bind (·.srcCk)) src).1 ≠ .error x) → X.L.Good (tarFirst X.S T pr F K V ck src k u).2.1 := by
    intro src hg ck k u hc hr
    obtain ⟨o0, ho⟩ := hfrom ck hc
    have hl := tarRun_live (K := K) (V := V) hT { X with src := src, good := hg } pr ck k u ho
    have he : tarRun { X with src := src, good := hg } T pr K V ck k u = _ := tarFirst_resume X.S T pr F K V ck src k u
    rw [he] at hl
    rcases hl with hl | ⟨x, hx⟩
    · exact X.L.live_good hl
    · exact absurd (congrArg Prod.fst hx) (hr x)
  have good : X.L.Good src := by
    clear hck
    induction h with
    | first ck k u hc hr => exact step X.src X.good ck k u hc hr
    | next ck k _ hc hr ih =>
      rw [tarReuse_same hT X.L hU (fun c o => (X.family c o).mpr) ih pr _ ck hc k]
      exact step _ ih ck k _ hc hr
  exact tarReuse_same hT X.L hU (fun c o => (X.family c o).mpr) good pr old ck hck k

/-- **C89, for decompressing sources.** A stack of decompressing sources over a file that has been used in any way whatever (`ops`: resumed,
read, asked for saves, given save consumers, in any order), short of what voids it (`Cur.dead`). The tar extractor's run on it is as if
no callback were registered. -/
theorem C89_stack (hT : T.Law) (raw : List Byte) (sched : Nat → RsAct) (start size : Nat) (s : SeekSt)
    (hs : s.rs.content = raw ∧ s.rs.sched = sched ∧ s.sectionStart = start ∧ s.size = size) (hq : s.wantSave = false)
    (ls : List Layer) (hw : WellStacked ls) (hF : stackRank ls ((raw.drop start).take size) size ≤ F)
    (answer : Nat → Option Err) (ops : List SrcOp) (hops : (∀ m ∈ ls, m.D.ByteLaw) ∨ SrcOp.readByte ∉ ops) :
    ∃ (nice exact early : Prop) (sp' : SpecSt),
      SpecRun ⟨(stackDecode ls ((raw.drop start).take size)).1, (stackDecode ls ((raw.drop start).take size)).2, nice, exact, early⟩
        ⟨.fresh, []⟩ (srcRun (stackM F ls) answer ops (stackNew F ls s) []).1 sp' ∧
      (sp'.cur ≠ .dead → ∀ (pr : Ckpt → Int × Int) (old : TC T K V) (ck : Option ECkpt) (k : K.St),
        TarCanStart (stackDecode ls ((raw.drop start).take size)).1 (stackDecode ls ((raw.drop start).take size)).2
          (stackCk ((raw.drop start).take size) ls) F T ck →
        tarReuse (stackM F ls) T pr F K V old ck (srcRun (stackM F ls) answer ops (stackNew F ls s) []).2.1 k =
          (tarFirst (stackM F ls) T pr F K V ck (srcRun (stackM F ls) answer ops (stackNew F ls s) []).2.1 k old.xw.cons, old)) := by
  obtain ⟨L, k1, k2, k3, _, _, _, _, k8, _⟩ := stack_lawful_ck ⟨raw, sched, start, size⟩ F s hs hq ls hw hF
  obtain ⟨sp', h1, h2⟩ := run_spec L answer ops (stackNew F ls s) [] ⟨.fresh, []⟩ (hops.imp k1 id) ⟨k2, rfl, by simp⟩
  refine ⟨L.nice, L.exact, L.early, sp', h1, fun hd pr old ck k hck => ?_⟩
  exact tarReuse_same hT L (stack_uniform F ls) (fun c o => (k8 c o).mpr) (corr_good L h2 hd).1 pr old ck hck k

end

/-! ## An example: a decompressor that refuses its own checkpoints, a request left pending -/

/-- A decompressor that refuses its own checkpoints. -/
def fussy : Decomp := { toy false false with dec := fun _ => none }

theorem fussy_law : fussy.Law where
  start_fin := rfl
  header_fin := by intro st h; cases h
  header_out := by intro st b st' out h; cases h
  header_back := by intro st b st' out _ h; cases h
  save_fin := (toy_law false false).save_fin
  dec_enc := fun st h => .inr ⟨rfl, rfl⟩

/-- An archive with one file of six bytes, compressed in three blocks (the toy format adds one to each byte). -/
def reuseArchive : List Byte := [4, 0, 96, 5, 9, 2, 19, 29, 4, 39, 49, 59, 255, 0]

def reuseS : SourceM := stackM 200 [⟨flateCfg, fussy⟩]

def reuseNew : reuseS.St := stackNew 200 [⟨flateCfg, fussy⟩] (Seek.fromBytes reuseArchive)

/-- The first run: stopped at the first checkpoint, in the middle of the file. -/
def reuse1 : Except Err (List Entry) × reuseS.St × TC (toyTar false) (memSink noFaults) listCons :=
  tarFirst reuseS (toyTar false) (fun _ => (0, 1)) 200 (memSink noFaults) listCons none reuseNew memEmpty [.ok .stop]

/-- Its checkpoint. -/
def reuseCk1 : Option ECkpt := lastSave reuse1.2.2.xw.log

/-- The second run, by the same extractor on the same source, from that checkpoint. -/
def reuse2 := tarReuse reuseS (toyTar false) (fun _ => (0, 1)) 200 (memSink noFaults) listCons reuse1.2.2 reuseCk1 reuse1.2.1 reuse1.2.2.xw.sink


/-- The first run was stopped in the middle of the file, with a save request pending in the file source. -/
example : (match reuse1.1 with | .error .stop => true | _ => false) = true ∧ reuse1.2.1.src.wantSave = true ∧ (saves reuse1.2.2.xw.log).length = 1 := by
  decide +kernel

/-- The second run skips what the first had read (the decompressor started over), and finishes; no checkpoint was made for the first. -/
example : (match reuse2.1.1 with | .ok _ => true | _ => false) = true ∧ saves reuse2.1.2.2.xw.log = [] ∧ (saves reuse2.2.xw.log).length = 1 := by
  decide +kernel

noncomputable def reuseSrc : TarSrc (stackDecode [⟨flateCfg, fussy⟩] reuseArchive).1 (stackDecode [⟨flateCfg, fussy⟩] reuseArchive).2
    (stackCk reuseArchive [⟨flateCfg, fussy⟩]) 200 :=
  stackSrc reuseArchive [⟨flateCfg, fussy⟩] 200 ⟨reuseArchive, fun _ => .full, 0, 14⟩ rfl (Seek.fromBytes reuseArchive) ⟨rfl, rfl, rfl, rfl⟩ rfl
    ⟨fussy_law, .inr (by simp), trivial⟩ (by decide +kernel)

theorem reuseCk1_start : TarCanStart (stackDecode [⟨flateCfg, fussy⟩] reuseArchive).1 (stackDecode [⟨flateCfg, fussy⟩] reuseArchive).2
    (stackCk reuseArchive [⟨flateCfg, fussy⟩]) 200 (toyTar false) reuseCk1 := by
  intro c hc
  obtain ⟨a, ha⟩ : ∃ a, (c, a) ∈ saves reuse1.2.2.xw.log := by
    unfold reuseCk1 lastSave at hc
    obtain ⟨⟨c', a⟩, h1, rfl⟩ := Option.map_eq_some_iff.mp hc
    exact ⟨a, List.mem_of_getLast? h1⟩
  refine ⟨1, .first reuseSrc (fun _ => (0, 1)) (memSink noFaults) listCons memEmpty [.ok .stop] (a := a) (fun h => h.elim) ?_⟩
  have h : tarRun reuseSrc (toyTar false) (fun _ => (0, 1)) (memSink noFaults) listCons none memEmpty [.ok .stop] = _ :=
    tarFirst_resume reuseS (toyTar false) (fun _ => (0, 1)) 200 (memSink noFaults) listCons none reuseNew memEmpty [.ok .stop]
  rw [h]
  exact ha

/-- The hypotheses of `C89_turns` are met by these runs. -/
example : ∃ src old, TarTurns reuseSrc (toyTar false) (fun _ => (0, 1)) (memSink noFaults) listCons src old ∧
    tarReuse reuseSrc.S (toyTar false) (fun _ => (0, 1)) 200 (memSink noFaults) listCons old reuseCk1 src reuse1.2.2.xw.sink =
      (tarFirst reuseSrc.S (toyTar false) (fun _ => (0, 1)) 200 (memSink noFaults) listCons reuseCk1 src reuse1.2.2.xw.sink old.xw.cons, old) :=
  have h := TarTurns.first (X := reuseSrc) (T := toyTar false) (pr := fun _ => (0, 1)) (K := memSink noFaults) (V := listCons) none memEmpty [.ok .stop] (by nofun) (by
      intro x hx
      have hx : (reuseS.resume none reuseNew).1 = .error x := hx
      cases hx)
  ⟨_, _, h, C89_turns (toyTar_law false) reuseSrc (stack_uniform 200 [⟨flateCfg, fussy⟩]) _ h reuseCk1 reuseCk1_start reuse1.2.2.xw.sink⟩

end Savior
