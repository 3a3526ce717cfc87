import Verif.Stack
import Verif.History
import Verif.Toy
/-!
# Properties of decompressing sources (C16, C19–C25, C28)
-/

namespace Savior
open Seek (Geo GoodS AtS)

/-! ## C16 -/

/-- **C16 (flate, gzip, bzip2, brotli).** A decompressing source that was never resumed refuses to be read, whatever
`WantSave`/`SetSourceSaveConsumer` calls came before; nothing changes and the consumer is not called. -/
theorem C16_wrap_uninit (cfg : WrapCfg) (D : Decomp) (I : SourceM) (F : Nat) (src : I.St) (pre : List SrcOp)
    (hpre : ∀ op ∈ pre, op = .wantSave ∨ ∃ b, op = .setSSC b)
    (answer : Nat → Option Err) {C : Type} (cb : Callback C) (n : Nat) (c : C) :
    let s := (srcRun (wrapM cfg D I F) answer pre (Wrap.new D I src) []).2.1
    (wrapM cfg D I F).read cb n s c = (([], some (.wrapped .uninit)), s, c) ∧
    (wrapM cfg D I F).readByte cb s c = ((0, some (.wrapped .uninit)), s, c) := by
  have key : ∀ (pre : List SrcOp) (s : WrapSt D I) (log), (∀ op ∈ pre, op = .wantSave ∨ ∃ b, op = .setSSC b) → s.sr = none →
      ((srcRun (wrapM cfg D I F) answer pre s log).2.1 : WrapSt D I).sr = none := by
    intro pre
    induction pre with
    | nil => intro s log _ h; exact h
    | cons op l ih =>
      intro s log h1 h2
      simp only [srcRun]
      rcases h1 op (by simp) with h | ⟨b, h⟩
      · subst h; exact ih _ _ (fun o ho => h1 o (by simp [ho])) h2
      · subst h; exact ih _ _ (fun o ho => h1 o (by simp [ho])) h2
  have hb := key pre (Wrap.new D I src) [] hpre rfl
  intro s
  have hb : WrapSt.sr s = none := hb
  constructor
  · show Wrap.read cfg D I F cb n s c = _
    unfold Wrap.read; simp only [hb]; rfl
  · show Wrap.readByte cfg D I F cb s c = _
    unfold Wrap.readByte; simp only [hb]; rfl

/-! ## C19, C23, C24: histories -/

/-- **C19.** A flate/gzip/bzip2/brotli source over *any* lawful source of the compressed bytes `Z`: for every
decompressor `D` obeying the `SaverReader` contract and every history of `Resume(nil)`, `Resume(emitted checkpoint)`, `Read`,
`WantSave`, `SetSourceSaveConsumer`, the caller sees a resumable cursor over the decoded bytes (so what is delivered after a
`Resume` returning `o` is `decoded[o..]`, and every checkpoint carries the number of decoded bytes before it). -/
theorem C19_decompressing_cursor {I : SourceM} {Z : List Byte} {cz : Bool} (L : Lawful I Z cz) (cfg : WrapCfg) (D : Decomp)
    (F : Nat) (hD : D.Law) (hB : (∀ st, D.ask st ≠ 0) ∨ LawfulByte L) (hF : L.rankMax + 2 ≤ F) (src : I.St)
    (hg : L.Good src) (hq : L.Quiet src) (answer : Nat → Option Err) (ops : List SrcOp) (hops : SrcOp.readByte ∉ ops) :
    ∃ sp', SpecRun ⟨(D.decode D.start Z cz).1, (D.decode D.start Z cz).2,
          L.nice ∧ L.lazy ∧ ∀ st, D.canSave st = true → D.saveOK st = true,
          ∀ st, D.canSave st = true → D.dec (D.enc st) = some st, False⟩
        ⟨.fresh, []⟩ (srcRun (wrapM cfg D I F) answer ops (Wrap.new D I src) []).1 sp' := by
  obtain ⟨sp', h1, _⟩ := run_spec (wrapLawful cfg hD hB hF) answer ops (Wrap.new D I src) [] ⟨.fresh, []⟩ (Or.inr hops)
    ⟨⟨hg, fun _ => hq⟩, rfl, by simp⟩
  exact ⟨sp', h1⟩

/-- **C24 (and C19, C23 over files).** A stack of any number of decompressing sources over a seek source: every history is
that of a cursor over the layer-by-layer decoding of the file's bytes. `ReadByte` may be used if every layer's format has
reliable `ReadByte` (`ByteLaw`). The last three parameters of the specification say when errors, refused checkpoints and saves
before `Resume` may occur. -/
theorem C24_stack_cursor (raw : List Byte) (sched : Nat → RsAct) (start size F : Nat) (s : SeekSt)
    (hs : s.rs.content = raw ∧ s.rs.sched = sched ∧ s.sectionStart = start ∧ s.size = size) (hq : s.wantSave = false)
    (l : Layer) (ls : List Layer) (hw : WellStacked (l :: ls)) (hF : stackRank (l :: ls) ((raw.drop start).take size) size ≤ F)
    (answer : Nat → Option Err) (ops : List SrcOp)
    (hops : (∀ m ∈ l :: ls, m.D.ByteLaw) ∨ SrcOp.readByte ∉ ops) :
    ∃ (nice exact early : Prop) (sp' : SpecSt),
      SpecRun ⟨(stackDecode (l :: ls) ((raw.drop start).take size)).1, (stackDecode (l :: ls) ((raw.drop start).take size)).2,
          nice, exact, early⟩
        ⟨.fresh, []⟩ (srcRun (stackM F (l :: ls)) answer ops (stackNew F (l :: ls) s) []).1 sp' ∧
      (StackNice sched (l :: ls) → nice) ∧ (StackExact (l :: ls) → exact) := by
  obtain ⟨L, k1, k2, k3, k4, k5, k6, _⟩ := stack_lawful ⟨raw, sched, start, size⟩ F s hs hq (l :: ls) hw hF
  obtain ⟨sp', h1, _⟩ := run_spec L answer ops (stackNew F (l :: ls) s) [] ⟨.fresh, []⟩
    (hops.imp k1 id) ⟨k2, rfl, by simp⟩
  exact ⟨L.nice, L.exact, L.early, sp', h1, k4, k5⟩

/-- **C24 (complete reads).** After `Resume(nil)` on a fresh stack in an environment without faults, reading to the end
delivers exactly the decoded bytes, and EOF exactly when decoding ends well. -/
theorem C24_stack_drain (raw : List Byte) (sched : Nat → RsAct) (start size F : Nat) (s : SeekSt)
    (hs : s.rs.content = raw ∧ s.rs.sched = sched ∧ s.sectionStart = start ∧ s.size = size) (hq : s.wantSave = false)
    (ls : List Layer) (hw : WellStacked ls) (hF : stackRank ls ((raw.drop start).take size) size ≤ F) (hnice : StackNice sched ls)
    (s' : (stackM F ls).St) (hres : (stackM F ls).resume none (stackNew F ls s) = (.ok 0, s'))
    {C : Type} (cb : Callback C) (hcb : ∀ ck c, (cb ck c).2 = none) (n : Nat) (hn : 0 < n) (c : C) (fuel : Nat)
    (hfuel : F < fuel) :
    ∃ e s2 c2, drain (stackM F ls) cb n fuel s' c = (((stackDecode ls ((raw.drop start).take size)).1, some e), s2, c2) ∧
      (e = .eof ↔ (stackDecode ls ((raw.drop start).take size)).2 = true) := by
  obtain ⟨L, k1, k2, k3, k4, k5, k6, _⟩ := stack_lawful ⟨raw, sched, start, size⟩ F s hs hq ls hw hF
  rcases L.resume_nil k2 with ⟨s1, h1, h2, _⟩ | ⟨e, s1, h1, _⟩
  · rw [h1] at hres
    simp at hres
    subst hres
    have hk : L.rankMax ≤ F := by rw [k6]; exact hF
    have := L.rank_le h2
    obtain ⟨bs, e, s2, c2, g1, g2, g3, g4, g5, g6⟩ := drain_spec L cb hcb n hn fuel s1 0 c h2 (by omega)
    obtain ⟨g7, g8⟩ := g6 (k4 hnice)
    rw [List.drop_zero] at g7
    rw [g7] at g1
    exact ⟨e, s2, c2, g1, g8⟩
  · rw [h1] at hres; simp at hres

/-- Non-vacuity: a "gzip in bzip2" stack of toy formats over a four-layer file. -/
def toyStack : List Layer := [⟨gzipCfg, toy false false⟩, ⟨bzip2Cfg, toy false false⟩]

theorem toyStack_well : WellStacked toyStack ∧ (∀ m ∈ toyStack, m.D.ByteLaw) ∧
    StackNice (fun _ => RsAct.full) toyStack ∧ StackExact toyStack := by
  have hl := toy_law false false
  have hb := toy_byteLaw
  refine ⟨⟨hl, Or.inr ?_, hl, Or.inr (by simp), trivial⟩, ?_, ?_, ?_⟩
  · intro m hm; simp at hm; subst hm; exact hb
  · intro m hm; simp [toyStack] at hm; rcases hm with h | h <;> (subst h; exact hb)
  · exact ⟨⟨⟨fun _ => rfl, fun _ => rfl⟩, fun _ _ => rfl⟩, rfl, fun _ _ => rfl⟩
  · intro st h
    simp [toyStack, toy] at h ⊢
    cases st; simp_all

/-- inner content: blocks `[2,7,8] [0]` carry `[8,9]`; it is itself coded by the outer format -/
example : stackDecode toyStack [4, 1, 5, 6, 255, 0] = ([7, 8], true) := by rfl

/-- A concrete history on it: read one byte, ask for a save, read on, get the checkpoint (offset 2), resume from it. -/
example : (srcRun (stackM 100 toyStack) (fun _ => none)
      [.setSSC true, .resumeNil, .read 0, .wantSave, .read 5, .read 5, .read 5, .resumeCk 0, .read 5, .read 5, .read 5]
      (stackNew 100 toyStack (Seek.fromBytes [2, 0, 6, 1, 0, 1, 8, 1, 0, 1, 10, 1, 0, 1, 12, 1, 255, 0])) []).1.map
      (fun x => match x.2 with | .data bs e em => some (bs, e, em) | .resumed (.ok o) => some ([], none, [(o, none)]) | _ => none) =
    [none, some ([], none, [(0, none)]), some ([8], none, []), none, some ([10], none, []), some ([], none, [(2, none)]),
     some ([12], none, []), some ([], none, [(2, none)]), some ([12], none, []), some ([14], none, []),
     some ([], some .eof, [])] := by rfl

/-! ## C20 -/

section
variable {I : SourceM} {Z : List Byte} {cz : Bool} {L : Lawful I Z cz} {D : Decomp} {F : Nat}

theorem aligned_gen (cfg : WrapCfg) (hD : D.Law) (hB : (∀ st, D.ask st ≠ 0) ∨ LawfulByte L) (hF : L.rankMax + 2 ≤ F)
    (s : WrapSt D I) (so : Nat) (ckOff : Int) (dc : DCk) (hat : L.At s.src so)
    (hq : L.Quiet s.src ∨ D.inHeader D.start = false) :
    (∃ s', Wrap.aligned cfg D I F so ckOff dc s = (.ok 0, s') ∧ AtW L D s' 0) ∨
    (∃ st s', Wrap.aligned cfg D I F so ckOff dc s = (.ok (if cfg.ownOffset then ckOff else dc.woff), s') ∧
      (so : Int) = dc.roff ∧ D.dec dc.blob = some st ∧ s'.src = s.src ∧ s'.sr = some (SR.mk' st dc.roff dc.woff)) ∨
    (∃ e s', Wrap.aligned cfg D I F so ckOff dc s = (.error e, s') ∧ e ≠ .panic ∧ e ≠ .diverge) := by
  unfold Wrap.aligned
  by_cases ha : (so : Int) = dc.roff
  · rw [if_pos ha]
    cases hdec : D.dec dc.blob with
    | some st => exact Or.inr (Or.inl ⟨st, _, rfl, ha, rfl, rfl, rfl⟩)
    | none =>
      simp only []
      rcases L.resume_nil (L.live_good (L.at_live hat)) with ⟨s', h1, h2, h3⟩ | ⟨e, s', h1, h2, h3, h4⟩
      · simp only [h1]
        rcases fromStart_spec (cfg := cfg) hD hB hF { s with src := s', sr := none } (L.live_good (L.at_live h2))
            (fun _ => hq.imp h3 id)
          with ⟨s2, g1, g2, g3⟩ | ⟨e, s2, g1, g2, g3, g4⟩
        · exact Or.inl ⟨s2, g1, g2⟩
        · exact Or.inr (Or.inr ⟨e, s2, g1, g3, g4⟩)
      · simp only [h1]
        exact Or.inr (Or.inr ⟨_, _, rfl, by simp, by simp⟩)
  · rw [if_neg ha]
    rcases fromStart_spec (cfg := cfg) hD hB hF s (L.live_good (L.at_live hat)) (fun _ => hq)
      with ⟨s2, g1, g2, g3⟩ | ⟨e, s2, g1, g2, g3, g4⟩
    · exact Or.inl ⟨s2, g1, g2⟩
    · exact Or.inr (Or.inr ⟨e, s2, g1, g3, g4⟩)

/-- **C20 (foreign checkpoints).** A checkpoint of another source type — or of a seek source — is treated exactly like no
checkpoint at all: the source restarts from zero. -/
theorem C20_foreign (cfg : WrapCfg) (ck : Ckpt) (hck : ∀ off sck ckOff dc, ck ≠ .dec cfg.tag off sck ckOff dc) (s : WrapSt D I) :
    (wrapM cfg D I F).resume (some ck) s = (wrapM cfg D I F).resume none s := by
  show Wrap.resume cfg D I F (some ck) s = Wrap.resume cfg D I F none s
  cases ck with
  | plain o => rfl
  | dec tag off sck ckOff dc =>
    simp only [Wrap.resume]
    split
    · rename_i h; exact absurd (by rw [h]) (hck off sck ckOff dc)
    · rfl

/-- **C20 (a source that does not start at its beginning is refused).** If the underlying source, resumed without a checkpoint, does not say it is at its
beginning, a decompressing source resumes only with a checkpoint of its own that its decompressor accepts: it is never decompressed from the middle of the data. -/
theorem C20_start_refused (cfg : WrapCfg) (hI : ∀ s s' o, I.resume none s = (.ok o, s') → o ≠ 0) (c : Option Ckpt) (s s' : WrapSt D I) (o : Int)
    (h : (wrapM cfg D I F).resume c s = (.ok o, s')) :
    ∃ off sck ckOff dc st, c = some (.dec cfg.tag off sck ckOff dc) ∧ D.dec dc.blob = some st ∧ s'.sr = some (SR.mk' st dc.roff dc.woff) := by
  have hf : ∀ (t t' : WrapSt D I) (o : Int), Wrap.fromStart cfg D I F t ≠ (.ok o, t') := by
    intro t t' o hh
    unfold Wrap.fromStart at hh
    generalize hq : I.resume none t.src = q at hh
    obtain ⟨q1, q2⟩ := q
    cases q1 with
    | error e => simp at hh
    | ok so =>
      have := hI _ _ _ hq
      simp [this] at hh
  have ha : ∀ (so ckOff : Int) (dc : DCk) (t : WrapSt D I), Wrap.aligned cfg D I F so ckOff dc t = (.ok o, s') →
      ∃ st, D.dec dc.blob = some st ∧ s'.sr = some (SR.mk' st dc.roff dc.woff) := by
    intro so ckOff dc t hh
    unfold Wrap.aligned at hh
    split at hh
    · split at hh
      · rename_i st hst
        simp only [Prod.mk.injEq] at hh
        exact ⟨st, hst, by rw [← hh.2]⟩
      · simp only at hh
        split at hh
        · simp at hh
        · exact absurd hh (hf _ _ _)
    · exact absurd hh (hf _ _ _)
  replace h : Wrap.resume cfg D I F c s = (.ok o, s') := h
  unfold Wrap.resume at h
  split at h
  · rename_i tag off sck ckOff dc
    split at h
    · rename_i htag
      subst htag
      have key : ∃ st, D.dec dc.blob = some st ∧ s'.sr = some (SR.mk' st dc.roff dc.woff) := by
        simp only at h
        split at h
        · simp at h
        · split at h
          · split at h
            · simp at h
            · split at h
              · simp at h
              · exact ha _ _ _ _ h
          · exact ha _ _ _ _ h
      obtain ⟨st, h1, h2⟩ := key
      exact ⟨off, sck, ckOff, dc, st, rfl, h1, h2⟩
    · exact absurd h (hf _ _ _)
  · exact absurd h (hf _ _ _)

/-- A source that always resumes in the middle meets the hypothesis, and is refused without a checkpoint. -/
example (D : Decomp) (F : Nat) (s s' : WrapSt D { seekM with resume := fun _ s => (.ok 3, s) }) (o : Int) :
    (wrapM gzipCfg D { seekM with resume := fun _ s => (.ok 3, s) } F).resume none s ≠ (.ok o, s') := by
  intro h
  obtain ⟨_, _, _, _, _, h1, _⟩ := C20_start_refused gzipCfg (by intro s s' o h; cases h; decide) none s s' o h
  cases h1

/-- **C20 (no mix-ups).** In particular: a checkpoint one of the four decompressing sources handed to its save consumer is,
for each of the other three and whatever they decompress, no checkpoint at all. -/
theorem C20_formats (cfg cfg' : WrapCfg) (hc : cfg ∈ [flateCfg, gzipCfg, bzip2Cfg, brotliCfg]) (hc' : cfg' ∈ [flateCfg, gzipCfg, bzip2Cfg, brotliCfg])
    (hne : cfg ≠ cfg') (D' : Decomp) (I' : SourceM) (F' n : Nat) (t : WrapSt D' I') (c : List Ckpt) (ck : Ckpt)
    (hck : ck ∈ (Wrap.read cfg' D' I' F' (fun x l => (l ++ [x], none)) n t c).2.2) (hold : ck ∉ c) (s : WrapSt D I) :
    (wrapM cfg D I F).resume (some ck) s = (wrapM cfg D I F).resume none s := by
  have htag : cfg.tag ≠ cfg'.tag := by
    simp only [List.mem_cons, List.not_mem_nil, or_false] at hc hc'
    rcases hc with rfl | rfl | rfl | rfl <;> rcases hc' with rfl | rfl | rfl | rfl <;>
      first | exact absurd rfl hne | decide
  apply C20_foreign
  intro off sck ckOff dc heq
  unfold Wrap.read at hck
  split at hck
  · exact hold hck
  · simp only at hck
    split at hck
    · split at hck
      · exact hold hck
      · split at hck
        · exact hold hck
        · split at hck
          · exact hold hck
          · simp only [List.mem_append, List.mem_singleton] at hck
            rcases hck with hck | hck
            · exact hold hck
            · rw [heq, Wrap.mkCkpt] at hck
              injection hck with h1
              exact htag h1
    · exact hold hck

/-- The premises are met: a gzip source hands out a checkpoint. -/
example : ∃ ck, ck ∈ (srcRun (wrapM gzipCfg (toy false false) seekM 100) (fun _ => none) [.setSSC true, .resumeNil, .wantSave, .read 0, .read 0, .read 0]
      (Wrap.new (toy false false) seekM (Seek.fromBytes [1, 3, 1, 4, 1, 5, 1, 6, 0])) []).2.2.map (·.1) := by
  have h : ∃ ck, ((srcRun (wrapM gzipCfg (toy false false) seekM 100) (fun _ => none) [.setSSC true, .resumeNil, .wantSave, .read 0, .read 0, .read 0]
      (Wrap.new (toy false false) seekM (Seek.fromBytes [1, 3, 1, 4, 1, 5, 1, 6, 0])) []).2.2.map (·.1)).head? = some ck := ⟨_, by rfl⟩
  obtain ⟨ck, h⟩ := h
  exact ⟨ck, List.mem_of_head? h⟩

/-- **C20 (arbitrary checkpoints of the right type).** Whatever the decompressor's image `dc`, offsets `off`, `ckOff` say
(also corrupted ones) — as long as the embedded source checkpoint is one the inner source knows — `Resume` either reports
an error (never a panic), or returns 0 with the cursor at the first byte, or returns the recorded offset with the inner
source standing *exactly* at the decompressor's read offset and the decompressor having accepted its image. In
particular, if the decompressor refuses its image, or the inner source comes back beyond the read offset, it is
one of the first two. `_partial`: a save request must not be pending (or the format has no header), see
`C20_false_pending`. -/
theorem C20_unusable_partial (cfg : WrapCfg) (hD : D.Law) (hB : (∀ st, D.ask st ≠ 0) ∨ LawfulByte L) (hF : L.rankMax + 2 ≤ F)
    (s : WrapSt D I) (hg : L.Good s.src) (hsr : s.sr = none → L.Quiet s.src)
    (hq : L.Quiet s.src ∨ D.inHeader D.start = false) (off ckOff : Int) (sck : Option Ckpt) (dc : DCk)
    (hsck : ∀ x, sck = some x → ∃ oi, L.CkFor x oi) :
    (∃ s', (wrapM cfg D I F).resume (some (.dec cfg.tag off sck ckOff dc)) s = (.ok 0, s') ∧
      (∀ answer ops, (SrcOp.readByte ∉ ops) →
        ∃ sp', SpecRun (wrapLawful cfg hD hB hF).cfg ⟨.at 0, []⟩ (srcRun (wrapM cfg D I F) answer ops s' []).1 sp')) ∨
    (∃ s' st, (wrapM cfg D I F).resume (some (.dec cfg.tag off sck ckOff dc)) s =
        (.ok (if cfg.ownOffset then ckOff else dc.woff), s') ∧ 0 ≤ dc.roff ∧ L.At s'.src dc.roff.toNat ∧
      D.dec dc.blob = some st ∧ s'.sr = some (SR.mk' st dc.roff dc.woff) ∧
      (∀ x oi, sck = some x → L.CkFor x oi → (oi : Int) ≤ dc.roff ∨ ¬ L.exact)) ∨
    (∃ e s', (wrapM cfg D I F).resume (some (.dec cfg.tag off sck ckOff dc)) s = (.error e, s') ∧ e ≠ .panic ∧ e ≠ .diverge) := by
  have h0 : ∀ s' : WrapSt D I, AtW L D s' 0 → ∀ answer ops, (SrcOp.readByte ∉ ops) →
      ∃ sp', SpecRun (wrapLawful cfg hD hB hF).cfg ⟨.at 0, []⟩ (srcRun (wrapM cfg D I F) answer ops s' []).1 sp' := by
    intro s' h answer ops hops
    obtain ⟨sp', h1, _⟩ := run_spec (wrapLawful cfg hD hB hF) answer ops s' [] ⟨.at 0, []⟩ (Or.inr hops) ⟨h, rfl, by simp⟩
    exact ⟨sp', h1⟩
  show (∃ s', Wrap.resume cfg D I F (some (.dec cfg.tag off sck ckOff dc)) s = (.ok 0, s') ∧ _) ∨
    (∃ s' st, Wrap.resume cfg D I F (some (.dec cfg.tag off sck ckOff dc)) s = _ ∧ _) ∨
    (∃ e s', Wrap.resume cfg D I F (some (.dec cfg.tag off sck ckOff dc)) s = (.error e, s') ∧ _)
  simp only [Wrap.resume, if_true]
  -- the inner resume
  have hres : (∃ (so : Nat) (s' : I.St), I.resume sck s.src = (.ok (so : Int), s') ∧ L.At s' so ∧ (L.Quiet s.src → L.Quiet s') ∧
      (∀ x oi, sck = some x → L.CkFor x oi → L.exact → so = oi)) ∨
      (∃ e s', I.resume sck s.src = (.error e, s') ∧ e ≠ .panic ∧ e ≠ .diverge) := by
    cases hx : sck with
    | none =>
      rcases L.resume_nil hg with ⟨s', h1, h2, h3⟩ | ⟨e, s', h1, h2, h3, h4⟩
      · exact Or.inl ⟨0, s', h1, h2, h3, by simp⟩
      · exact Or.inr ⟨e, s', h1, h3, h4⟩
    | some x =>
      obtain ⟨oi, hoi⟩ := hsck x hx
      rcases L.resume_ck hg hoi with ⟨o', s', h1, h2, h3, h4, h5⟩ | ⟨e, s', h1, h2, h3, h4⟩
      · refine Or.inl ⟨o', s', h1, h4, h5, ?_⟩
        intro y oy hy hck hex
        cases hy
        have a1 := L.ck_off hoi
        have a2 := L.ck_off hck
        have := h3 hex
        omega
      · exact Or.inr ⟨e, s', h1, h3, h4⟩
  rcases hres with ⟨so, s1, h1, h2, h3, hexo⟩ | ⟨e, s1, h1, h3, h4⟩
  · simp only [h1]
    have hqs : L.Quiet s1 ∨ D.inHeader D.start = false := hq.imp h3 id
    by_cases hlt : (so : Int) < dc.roff
    · rw [if_pos hlt]
      have hdelta : dc.roff - so = ((dc.roff - so).toNat : Int) := by omega
      have hrk := L.rank_le h2
      obtain ⟨r, s2, c2, d1, _, d3, d4, d5⟩ := discard_spec L srCb (fun _ => True) (fun _ _ _ => trivial) F (dc.roff - so).toNat
        s1 so (s.srcCk, false) h2 (by omega) trivial
      rw [hdelta, d1]
      simp only []
      have hnp : (c2.2 && s.sr.isNone) = false := by
        cases hsn : s.sr with
        | some _ => simp
        | none => rw [(d4 (h3 (hsr hsn))).2]; rfl
      rw [hnp]
      rw [if_neg (by decide)]
      rcases d5 with ⟨e1, e2⟩ | ⟨e, k, e1, e2, e3, _⟩ | ⟨e, ck, c1, e1, e2⟩ | ⟨e, e1, e2, e3, e4, _⟩
      · subst e1
        simp only []
        have hso : ((so + (dc.roff - so).toNat : Nat) : Int) = dc.roff := by omega
        have hqs2 : L.Quiet s2 ∨ D.inHeader D.start = false := hqs.imp (fun h => (d4 h).1) id
        have := aligned_gen cfg hD hB hF { s with src := s2, srcCk := c2.1 } (so + (dc.roff - so).toNat) ckOff dc e2 hqs2
        rw [hso] at this
        rcases this with ⟨s', g1, g2⟩ | ⟨st, s', g1, g2, g3, g4, g5⟩ | h
        · exact Or.inl ⟨s', g1, h0 s' g2⟩
        · refine Or.inr (Or.inl ⟨s', st, g1, by omega, ?_, g3, g5, ?_⟩)
          · rw [g4]
            have : dc.roff.toNat = so + (dc.roff - so).toNat := by omega
            rw [this]; exact e2
          · intro x oi hx hck
            by_cases hex : L.exact
            · left; have := hexo x oi hx hck hex; omega
            · right; exact hex
        · exact Or.inr (Or.inr h)
      · subst e1
        exact Or.inr (Or.inr ⟨_, _, rfl, by simp, by simp⟩)
      · subst e1
        simp [srCb] at e2
      · subst e1
        exact Or.inr (Or.inr ⟨_, _, rfl, by simp, by simp⟩)
    · rw [if_neg hlt]
      rcases aligned_gen cfg hD hB hF { s with src := s1 } so ckOff dc h2 hqs with
        ⟨s', g1, g2⟩ | ⟨st, s', g1, g2, g3, g4, g5⟩ | h
      · exact Or.inl ⟨s', g1, h0 s' g2⟩
      · refine Or.inr (Or.inl ⟨s', st, g1, by omega, ?_, g3, g5, ?_⟩)
        · rw [g4, ← g2]; exact h2
        · intro x oi hx hck
          by_cases hex : L.exact
          · left; have := hexo x oi hx hck hex; omega
          · right; exact hex
      · exact Or.inr (Or.inr h)
  · simp only [h1]
    exact Or.inr (Or.inr ⟨_, _, rfl, by simp, by simp⟩)

end

/-- Non-vacuity of C20: a corrupted image (`[1,2]` is refused), and a source checkpoint beyond the read offset: both
restart at 0. -/
example :
    ((wrapM flateCfg (toy false false) seekM 100).resume (some (.dec .flate 1 (some (.plain 2)) 0 ⟨2, 1, [1, 2]⟩))
      (Wrap.new (toy false false) seekM (Seek.fromBytes [1, 6, 0]))).1 = .ok 0 ∧
    ((wrapM flateCfg (toy false false) seekM 100).resume (some (.dec .flate 1 (some (.plain 3)) 0 ⟨2, 1, [0]⟩))
      (Wrap.new (toy false false) seekM (Seek.fromBytes [1, 6, 0]))).1 = .ok 0 ∧
    ((wrapM flateCfg (toy false false) seekM 100).resume (some (.dec .flate 1 (some (.plain 1)) 0 ⟨2, 1, [0]⟩))
      (Wrap.new (toy false false) seekM (Seek.fromBytes [1, 6, 0]))).1 = .ok 1 := ⟨rfl, rfl, rfl⟩

/-- A toy format with a one-byte header. -/
def toyHdr : Decomp where
  St := Option ToySt
  start := none
  inHeader s := s.isNone
  ask _ := 0
  feed s b := match s with
    | none => some (some ⟨0, false⟩, [])
    | some t => (toyFeed false t b).map fun x => (some x.1, x.2)
  fin s := match s with | none => false | some t => t.fin
  eofOK _ := false
  canSave s := match s with | none => false | some t => t.rem == 0 && !t.fin
  saveOK _ := true
  eager := false
  enc s := match s with | none => [] | some t => [t.rem]
  dec l := match l with | [r] => some (some ⟨r, false⟩) | _ => none

/-- **C20 is false with a save pending**: on a gzip source (whose format has a header) with a registered consumer and a
pending `WantSave`, a checkpoint the decompressor refuses makes `Resume` panic: the refused decompressor is nil when the
save callback fires while the header is read again (gzipsource.go:53-59, 85-118). -/
theorem C20_false_pending :
    ∃ s : (wrapM gzipCfg toyHdr seekM 100).St,
      (wrapM gzipCfg toyHdr seekM 100).resume none ((wrapM gzipCfg toyHdr seekM 100).setSSC true
        (Wrap.new toyHdr seekM (Seek.fromBytes [9, 1, 6, 0]))) = (.ok 0, s) ∧
      ((wrapM gzipCfg toyHdr seekM 100).resume (some (.dec .gzip 1 (some (.plain 3)) 1 ⟨3, 1, [1, 2]⟩))
        ((wrapM gzipCfg toyHdr seekM 100).wantSave s)).1 = .error .panic := ⟨_, rfl, rfl⟩

/-! ## C21 -/

/-- **C21.** A decompressing source over any lawful source of the compressed bytes, positioned anywhere: reading on
delivers a prefix of the rest of what the valid part decodes to; if the compressed data is truncated or corrupt
(decoding does not end well) the reads end with an error that is not EOF; EOF is reported only after every decoded
byte has been delivered and the decoder accepted the stream. -/
theorem C21_no_clean_end {I : SourceM} {Z : List Byte} {cz : Bool} (L : Lawful I Z cz) (cfg : WrapCfg) (D : Decomp)
    (F : Nat) (hD : D.Law) (hB : (∀ st, D.ask st ≠ 0) ∨ LawfulByte L) (hF : L.rankMax + 2 ≤ F)
    (s : WrapSt D I) (o : Nat) (hat : (wrapLawful cfg hD hB hF).At s o)
    {C : Type} (cb : Callback C) (hcb : ∀ ck c, (cb ck c).2 = none) (n : Nat) (hn : 0 < n) (c : C) :
    ∃ fuel0, ∀ fuel ≥ fuel0, ∃ bs e s' c',
      drain (wrapM cfg D I F) cb n fuel s c = ((bs, some e), s', c') ∧
      bs <+: (D.decode D.start Z cz).1.drop o ∧ e ≠ .panic ∧ e ≠ .diverge ∧
      ((D.decode D.start Z cz).2 = false → e ≠ .eof) ∧
      (e = .eof → bs = (D.decode D.start Z cz).1.drop o) := by
  refine ⟨(wrapLawful cfg hD hB hF).rank s + 1, fun fuel hfuel => ?_⟩
  obtain ⟨bs, e, s2, c2, g1, g2, g3, g4, g5, g6⟩ := drain_spec (wrapLawful cfg hD hB hF) cb hcb n hn fuel s o c hat (by omega)
  refine ⟨bs, e, s2, c2, g1, g2, g3, g4, ?_, fun he => (g5 he).1⟩
  intro hbad he
  have := (g5 he).2
  rw [hbad] at this; cases this

/-- Decoding a truncated input yields a prefix of what the whole input yields. -/
theorem decode_prefix (D : Decomp) (c c' : Bool) : ∀ (z z' : List Byte) (st : D.St),
    (D.decode st z c).1 <+: (D.decode st (z ++ z') c').1 := by
  intro z
  induction z with
  | nil => intro z' st; simp [Decomp.decode]
  | cons b z ih =>
    intro z' st
    simp only [List.cons_append, Decomp.decode]
    split
    · exact List.prefix_refl _
    · split
      · exact List.prefix_refl _
      · exact (List.prefix_append_right_inj _).mpr (ih z' _)

/-- The end of the compressed stream is reached within `z`. -/
def Decomp.Ends (D : Decomp) (z : List Byte) : Prop := ∃ k ≤ z.length, (D.feedAll D.start (z.take k)).2.2 = false ∧
  D.fin (D.feedAll D.start (z.take k)).2.1 = true

theorem decode_feedAll (D : Decomp) (c : Bool) : ∀ (z : List Byte) (st : D.St), (D.decode st z c).2 = true →
    (D.feedAll st z).2.2 = false ∧ (D.fin (D.feedAll st z).2.1 = true ∨ D.eofOK (D.feedAll st z).2.1 = true) := by
  intro z
  induction z with
  | nil =>
    intro st h
    simp [Decomp.decode, Decomp.feedAll] at h ⊢
    rcases h with h | h
    · exact Or.inl h
    · exact Or.inr h.2
  | cons b z ih =>
    intro st h
    simp only [Decomp.decode, Decomp.feedAll] at h ⊢
    split at h
    · rename_i hf; simp [hf]
    · rename_i hf
      simp only [hf]
      split at h
      · cases h
      · rename_i st' out heq
        simpa [heq] using ih st' h

/-- **C21 (truncation).** If a format never accepts a mere end of input (`eofOK` is never true) and a prefix `z` of a
compressed file does not contain the end-of-stream mark, decoding `z` fails, and gives a prefix of what the whole file
decodes to. Together with `C21_no_clean_end`: a truncated file never yields a clean EOF. -/
theorem C21_truncated (D : Decomp) (heof : ∀ st, D.eofOK st = false) (z z' : List Byte) (hz : ¬ D.Ends z) (c : Bool) :
    (D.decode D.start z c).2 = false ∧ (D.decode D.start z c).1 <+: (D.decode D.start (z ++ z') true).1 := by
  refine ⟨?_, decode_prefix D c true z z' D.start⟩
  cases h : (D.decode D.start z c).2 with
  | false => rfl
  | true =>
    exfalso
    obtain ⟨h1, h2⟩ := decode_feedAll D c z D.start h
    rw [heof] at h2
    simp at h2
    exact hz ⟨z.length, Nat.le_refl _, by rw [List.take_length]; exact ⟨h1, h2⟩⟩

example : ((toy false false).decode ⟨0, false⟩ [2, 6, 7, 0] true = ([7, 8], true)) ∧
    ((toy false false).decode ⟨0, false⟩ [2, 6] true = ([7], false)) := ⟨rfl, rfl⟩

/-! ## C22 -/

/-- **C22 (decompressing sources).** If during a `Read` the consumer was given a checkpoint and answered with an error, that
very error is what `Read` returns; if it was given none, it was called exactly never. Holds in every state. -/
theorem C22_read_reports (cfg : WrapCfg) (D : Decomp) (I : SourceM) (F : Nat) (answer : Nat → Option Err) (n : Nat)
    (s : WrapSt D I) (log : List (Ckpt × Option Err)) :
    ((wrapM cfg D I F).read (logCb answer) n s log).2.2 = log ∨
    ∃ ck, ((wrapM cfg D I F).read (logCb answer) n s log).2.2 = log ++ [(ck, answer log.length)] ∧
      ((wrapM cfg D I F).read (logCb answer) n s log).1.2 = answer log.length := by
  show (Wrap.read cfg D I F (logCb answer) n s log).2.2 = log ∨
    ∃ ck, (Wrap.read cfg D I F (logCb answer) n s log).2.2 = _ ∧ (Wrap.read cfg D I F (logCb answer) n s log).1.2 = _
  unfold Wrap.read
  split
  · exact Or.inl rfl
  · simp only []
    split
    · split
      · exact Or.inl rfl
      · split
        · exact Or.inl rfl
        · split
          · exact Or.inl rfl
          · exact Or.inr ⟨_, rfl, rfl⟩
    · exact Or.inl rfl

/-- A concrete failing consumer on a flate source: the read that reaches the block boundary reports its error. -/
example : (srcRun (wrapM flateCfg (toy false false) seekM 100) (fun _ => some (.consumer 7))
      [.setSSC true, .resumeNil, .wantSave, .read 5, .read 5]
      (Wrap.new (toy false false) seekM (Seek.fromBytes [1, 6, 0])) []).1.map
      (fun x => match x.2 with | .data bs e em => some (bs, e, em) | _ => none) =
    [none, none, none, some ([7], none, []), some ([], some (.consumer 7), [(1, some (.consumer 7))])] := by rfl

/-- **C22 is false for seek sources**: whatever the consumer answers, `Read` and `ReadByte` return the same as if it had
succeeded. -/
theorem C22_false_seek {C : Type} (cb cb' : Callback C) (n : Nat) (s : SeekSt) (c : C) :
    (seekM.read cb n s c).1 = (seekM.read cb' n s c).1 ∧ (seekM.readByte cb s c).1 = (seekM.readByte cb' s c).1 := by
  constructor
  · show (Seek.read cb n s c).1 = (Seek.read cb' n s c).1
    unfold Seek.read
    split
    · rfl
    · split
      · rfl
      · simp only []
        split
        · rfl
        · split
          · rfl
          · unfold Seek.handleSave
            cases s.wantSave <;> rename_i hb _ _ _ <;> simp [hb]
  · show (Seek.readByte cb s c).1 = (Seek.readByte cb' s c).1
    unfold Seek.readByte
    split
    · rfl
    · split
      · rfl
      · simp only []
        unfold Seek.handleSave
        cases s.wantSave <;> rename_i hb _ <;> simp [hb]

/-! ## C23 -/

/-- The state after `SetSourceSaveConsumer; Resume(nil)` on a flate source over a byte string. -/
def toyResumed (em eg : Bool) (raw : List Byte) : (wrapM flateCfg (toy em eg) seekM 100).St :=
  ((wrapM flateCfg (toy em eg) seekM 100).resume none
    ((wrapM flateCfg (toy em eg) seekM 100).setSSC true (Wrap.new (toy em eg) seekM (Seek.fromBytes raw)))).2

/-- **C23 (the part that holds).** Over any stack position: if the format keeps data and errors apart, reads single bytes
at block boundaries and has output between any two of them (`ByteLaw`), then histories that freely mix `ReadByte` and
`Read` are histories of the same cursor. -/
theorem C23_mixed_partial {I : SourceM} {Z : List Byte} {cz : Bool} (L : Lawful I Z cz) (cfg : WrapCfg) (D : Decomp)
    (F : Nat) (hD : D.Law) (hBL : D.ByteLaw) (hB : LawfulByte L) (hF : L.rankMax + 2 ≤ F) (src : I.St)
    (hg : L.Good src) (hq : L.Quiet src) (answer : Nat → Option Err) (ops : List SrcOp) :
    ∃ sp', SpecRun ⟨(D.decode D.start Z cz).1, (D.decode D.start Z cz).2,
          L.nice ∧ L.lazy ∧ ∀ st, D.canSave st = true → D.saveOK st = true,
          ∀ st, D.canSave st = true → D.dec (D.enc st) = some st, False⟩
        ⟨.fresh, []⟩ (srcRun (wrapM cfg D I F) answer ops (Wrap.new D I src) []).1 sp' := by
  obtain ⟨sp', h1, _⟩ := run_spec (wrapLawful cfg hD (Or.inr hB) hF) answer ops (Wrap.new D I src) [] ⟨.fresh, []⟩
    (Or.inl (wrapLawfulByte cfg hD hBL hB hF)) ⟨⟨hg, fun _ => hq⟩, rfl, by simp⟩
  exact ⟨sp', h1⟩

/-- **C23 is false in general (1).** If the decompressor hands out its last byte together with EOF, `Read` delivers that byte
but `ReadByte` reports EOF with it, so a `ReadByte` caller never gets the last byte. -/
theorem C23_false_eager :
    (drain (wrapM flateCfg (toy false true) seekM 100) (fun _ (c : Unit) => (c, none)) 1 10
      (toyResumed false true [1, 6, 0]) ()).1.1 = [7] ∧
    ((wrapM flateCfg (toy false true) seekM 100).readByte (fun _ (c : Unit) => (c, none)) (toyResumed false true [1, 6, 0]) ()).1.2
      ≠ none := ⟨rfl, by decide⟩

/-- **C23 is false in general (2).** With two saves requested and a format that has empty blocks, `ReadByte` returns a stale
byte (here 0) with a nil error; the byte at the cursor is 10. -/
theorem C23_false_stale :
    (srcRun (wrapM flateCfg (toy true false) seekM 100) (fun _ => none)
      [.setSSC true, .resumeNil, .wantSave, .read 0, .wantSave, .readByte]
      (Wrap.new (toy true false) seekM (Seek.fromBytes [1, 6, 255, 1, 9, 0])) []).1.map
      (fun x => match x.2 with | .data bs e _ => some (bs, e) | .byte b e _ => some ([b], e) | _ => none) =
    [none, none, none, some ([7], none), none, some ([0], none)] ∧
    ((toy true false).decode ⟨0, false⟩ [1, 6, 255, 1, 9, 0] true).1 = [7, 10] := ⟨rfl, rfl⟩

/-- **C22 is false for `ReadByte`**: the save consumer's error is swallowed. -/
theorem C22_false_readByte :
    (srcRun (wrapM flateCfg (toy false false) seekM 100) (fun _ => some (.consumer 7))
      [.setSSC true, .resumeNil, .wantSave, .read 0, .readByte]
      (Wrap.new (toy false false) seekM (Seek.fromBytes [1, 6, 1, 9, 0])) []).1.map
      (fun x => match x.2 with | .data bs e em => some (bs, e, em) | .byte b e em => some ([b], e, em) | _ => none) =
    [none, none, none, some ([7], none, []), some ([10], none, [(1, some (.consumer 7))])] := by rfl

/-! ## C25 -/

/-- **C25.** `DiscardByRead(source, delta)` on a lawful source whose consumer does not fail (`fuel` large enough; the real
loop has no bound): success means the cursor moved by exactly `delta`; with at least `delta` bytes left, in a nice
environment and for a source that keeps data and EOF apart, it does succeed; with fewer it fails; in no case does the
source end up beyond `o + delta`. -/
theorem C25_discard {S : SourceM} {Y : List Byte} {clean : Bool} (L : Lawful S Y clean) {C : Type} (cb : Callback C)
    (hcb : ∀ ck c, (cb ck c).2 = none) (s : S.St) (o : Nat) (h : L.At s o) (delta fuel : Nat) (hf : L.rank s < fuel) (c : C) :
    ∃ r s' c', discard S cb fuel delta s c = (r, s', c') ∧
      (r = none → L.At s' (o + delta)) ∧
      (o + delta ≤ Y.length → L.nice → L.lazy → r = none) ∧
      (Y.length < o + delta → ∃ e, r = some (.wrapped e) ∧ e ≠ .panic ∧ e ≠ .diverge) ∧
      (∀ e, r = some (.wrapped e) → e = .eof → ∃ k ≤ delta, L.At s' (o + k) ∧ o + k = Y.length) := by
  obtain ⟨r, s', c', h1, _, _, _, h4⟩ := discard_spec L cb (fun _ => True) (fun _ _ _ => trivial) fuel delta s o c h hf trivial
  refine ⟨r, s', c', h1, ?_, ?_, ?_, ?_⟩
  · intro hr
    rcases h4 with ⟨_, h⟩ | ⟨e, k, a, _⟩ | ⟨e, ck, c1, a, _⟩ | ⟨e, a, _⟩
    · exact h
    all_goals (rw [hr] at a; cases a)
  · intro hle hn hl
    rcases h4 with ⟨h, _⟩ | ⟨e, k, a, _, _, b, d, f, g, _, _, i⟩ | ⟨e, ck, c1, a, b⟩ | ⟨e, a, _, _, _, b⟩
    · exact h
    · have := i hl; omega
    · rw [hcb] at b; cases b
    · have := (b hn).2 hl; omega
  · intro hlt
    rcases h4 with ⟨_, h⟩ | ⟨e, k, a, b, d, _⟩ | ⟨e, ck, c1, a, b⟩ | ⟨e, a, _, b, d, _⟩
    · have := L.at_le h; omega
    · exact ⟨e, a, b, d⟩
    · rw [hcb] at b; cases b
    · exact ⟨e, a, b, d⟩
  · intro e hr he
    rcases h4 with ⟨h, _⟩ | ⟨e', k, a, _, _, b, _, d, f, _⟩ | ⟨e', ck, c1, a, b⟩ | ⟨e', a, b, _⟩
    · rw [h] at hr; cases hr
    · exact ⟨k, b, d, by omega⟩
    · rw [hcb] at b; cases b
    · rw [a] at hr
      cases hr
      exact absurd he b

/-- Non-vacuity: a seek source at 1 of 4 bytes; discarding 2 works, discarding 5 fails. -/
example : (discard seekM (fun _ (c : Unit) => (c, none)) 10 2 (Seek.resume (some (.plain 1)) (Seek.fromBytes [1, 2, 3, 4])).2 ()).1 = none ∧
    (discard seekM (fun _ (c : Unit) => (c, none)) 10 5 (Seek.resume (some (.plain 1)) (Seek.fromBytes [1, 2, 3, 4])).2 ()).1 =
      some (.wrapped .eof) := ⟨rfl, rfl⟩

/-- **C25 is false for sources that deliver their last bytes together with EOF**: skipping the single byte of this stream
fails although it was skipped. -/
theorem C25_false_eager :
    (discard (wrapM flateCfg (toy false true) seekM 100) (fun _ (c : Unit) => (c, none)) 10 1 (toyResumed false true [1, 6, 0]) ()).1 =
      some (.wrapped .eof) ∧ ((toy false true).decode ⟨0, false⟩ [1, 6, 0] true).1.length = 1 := ⟨rfl, rfl⟩

/-! ## C28 -/

/-- **C28 (decompressing sources).** A decompressing source reports its underlying source's progress. -/
theorem C28_wrap_progress (cfg : WrapCfg) (D : Decomp) (I : SourceM) (F : Nat) (s : WrapSt D I) :
    (wrapM cfg D I F).progress s = I.progress s.src := rfl

/-- **C28 (any lawful source, in particular every stack).** From a resumed state, however many reads are made (up to and
including the first error), the reported progress is a fraction between 0 and 1. -/
theorem C28_progress_range {S : SourceM} {Y : List Byte} {clean : Bool} (L : Lawful S Y clean) {C : Type} (cb : Callback C)
    (n : Nat) (hn : 0 < n) : ∀ (reads : Nat) (s : S.St) (o : Nat) (c : C), L.At s o →
    let s' := (drain S cb n reads s c).2.1
    0 ≤ (S.progress s').1 ∧ (S.progress s').1 ≤ (S.progress s').2 ∧ 0 < (S.progress s').2 := by
  intro reads
  induction reads with
  | zero => intro s o c h; exact L.progress_spec (L.at_live h)
  | succ f ih =>
    intro s o c h
    obtain ⟨bs, e, s', em, h1, _, _, _, _, h6, h7⟩ := L.read_spec cb n c h hn
    simp only [drain, h1]
    cases e with
    | some x => exact L.progress_spec h6
    | none =>
      rcases h7 with ⟨_, b, _⟩ | ⟨a, _⟩ | ⟨_, _, _, _, a, _⟩ | ⟨_, a, _⟩
      · exact ih s' _ _ b
      all_goals cases a

/-! ## The theorems applied to a gzip source of the toy format over a file of nine bytes -/

/-- The file and its decompressed content: four one-byte blocks. -/
def nineGeo : Seek.Geo := ⟨[1, 3, 1, 4, 1, 5, 1, 6, 0], fun _ => .full, 0, 9⟩

theorem nine_rank : (seekLawful nineGeo).rankMax + 2 ≤ 100 := by decide

/-- C19, C23 applied: any history of calls. -/
example (answer : Nat → Option Err) (ops : List SrcOp) (hops : SrcOp.readByte ∉ ops) := C19_decompressing_cursor (seekLawful nineGeo) gzipCfg (toy false false) 100
  (toy_law _ _) (Or.inr (seekLawfulByte nineGeo)) nine_rank (Seek.fromBytes [1, 3, 1, 4, 1, 5, 1, 6, 0]) ⟨rfl, rfl, rfl, rfl⟩ rfl answer ops hops

example (answer : Nat → Option Err) (ops : List SrcOp) := C23_mixed_partial (seekLawful nineGeo) gzipCfg (toy false false) 100
  (toy_law _ _) toy_byteLaw (seekLawfulByte nineGeo) nine_rank (Seek.fromBytes [1, 3, 1, 4, 1, 5, 1, 6, 0]) ⟨rfl, rfl, rfl, rfl⟩ rfl answer ops

/-- C24 applied: the stack of two formats, under any history, mixed reads included. -/
example (answer : Nat → Option Err) (ops : List SrcOp) :
    ∃ (nice exact early : Prop) (sp' : SpecSt), SpecRun ⟨[7, 8], true, nice, exact, early⟩
        ⟨.fresh, []⟩ (srcRun (stackM 100 toyStack) answer ops (stackNew 100 toyStack (Seek.fromBytes [4, 1, 5, 6, 255, 0])) []).1 sp' ∧ nice ∧ exact := by
  obtain ⟨a, b, c, sp, h, h1, h2⟩ := C24_stack_cursor [4, 1, 5, 6, 255, 0] (fun _ => RsAct.full) 0 6 100 (Seek.fromBytes [4, 1, 5, 6, 255, 0]) ⟨rfl, rfl, rfl, rfl⟩ rfl
    ⟨gzipCfg, toy false false⟩ [⟨bzip2Cfg, toy false false⟩] toyStack_well.1 (by decide +kernel) answer ops (Or.inl toyStack_well.2.1)
  exact ⟨a, b, c, sp, h, h1 toyStack_well.2.2.1, h2 toyStack_well.2.2.2⟩

/-- C20 applied: a gzip source given the checkpoint of a flate source starts over. -/
example (s : WrapSt (toy false false) seekM) : (wrapM gzipCfg (toy false false) seekM 100).resume (some (.dec .flate 1 (some (.plain 1)) 0 ⟨2, 1, [0]⟩)) s =
    (wrapM gzipCfg (toy false false) seekM 100).resume none s := C20_foreign gzipCfg _ (by intro a b c d h; cases h) s

/-- C21 applied: cut within a block, the stream does not end. -/
example : ¬ (toy false false).Ends [2, 6] ∧ ((toy false false).decode (toy false false).start [2, 6] true).2 = false ∧
    ((toy false false).decode (toy false false).start [2, 6] true).1 <+: ((toy false false).decode (toy false false).start ([2, 6] ++ [7, 0]) true).1 := by
  have h : ¬ (toy false false).Ends [2, 6] := by
    rintro ⟨k, h1, _, h2⟩
    match k, h1 with
    | 0, _ => exact absurd h2 (by decide)
    | 1, _ => exact absurd h2 (by decide)
    | 2, _ => exact absurd h2 (by decide)
  exact ⟨h, C21_truncated (toy false false) (fun _ => rfl) [2, 6] [7, 0] h true⟩

/-- C25, C28 applied: discarding two bytes of a seek source that stands at byte 1 of four. -/
example (s : SeekSt) (h : Seek.AtS ⟨[1, 2, 3, 4], fun _ => .full, 0, 4⟩ s 1) :
    ∃ s' c', discard seekM (fun _ (c : Unit) => (c, none)) ((seekLawful ⟨[1, 2, 3, 4], fun _ => .full, 0, 4⟩).rank s + 1) 2 s () = (none, s', c') ∧
      Seek.AtS ⟨[1, 2, 3, 4], fun _ => .full, 0, 4⟩ s' 3 := by
  obtain ⟨r, s', c', h1, h2, h3, _⟩ := C25_discard (seekLawful ⟨[1, 2, 3, 4], fun _ => .full, 0, 4⟩) (fun _ (c : Unit) => (c, none)) (fun _ _ => rfl) s 1 h 2
    ((seekLawful ⟨[1, 2, 3, 4], fun _ => .full, 0, 4⟩).rank s + 1) (Nat.lt_succ_self _) ()
  have hr : r = none := h3 (by decide) (fun _ => rfl) (fun _ => rfl)
  subst hr
  exact ⟨s', c', h1, h2 rfl⟩

end Savior
