import Verif.GobLemmas
import Verif.History
import Verif.ZipKept
import Verif.TarStack
import Verif.Props.ZipRuns
import Verif.Props.TarCases
/-!
# C85: checkpoints survive gob
-/

namespace Savior
open Gob

/-- **C85 (source checkpoints).** A source checkpoint whose dynamic types are registered is encoded, unless the message would
reach gob's size limit, and decoding gives back the checkpoint that was encoded, whatever its nesting (`Survives`, Spec/Gob). -/
theorem C85_source (P : Progs) (N : Nat) (ck : Ckpt) (h : CkStorable P N ck) : Survives (ckC P N) ck :=
  fun _ hid => marshal_back hid (ck_back N ck h)

/-- **C85 (extractor checkpoints).** -/
theorem C85_extractor (P : Progs) (N : Nat) (c : ECkpt) (h : ECkStorable P N c) : Survives (eckC P N) c :=
  fun _ hid => marshal_back hid (eck_back h)

/-- The layer is one of the four sources of the repository, and both programs import its package. -/
def LayerKnown (P : Progs) (l : Layer) : Prop :=
  l.cfg ∈ [flateCfg, gzipCfg, bzip2Cfg, brotliCfg] ∧ tagName l.cfg.tag ∈ P.writer ∧ tagName l.cfg.tag ∈ P.reader ∧ I64 (P.ids (tagName l.cfg.tag))

/-- Every stage's stream is shorter than 2^63 bytes. -/
def StagesFit : List Layer → List Byte → Prop
  | [], raw => raw.length < 2 ^ 63
  | l :: ls, raw => (stackDecode (l :: ls) raw).1.length < 2 ^ 63 ∧ StagesFit ls raw

theorem stagesFit_head {ls : List Layer} {raw : List Byte} (h : StagesFit ls raw) : (stackDecode ls raw).1.length < 2 ^ 63 := by
  cases ls with
  | nil => exact h
  | cons l ls => exact h.1

theorem stackCk_storable {P : Progs} {raw : List Byte} : ∀ {ls : List Layer} {ck : Ckpt} {o : Nat}, (∀ l ∈ ls, LayerKnown P l) →
    StagesFit ls raw → stackCk raw ls ck o → CkStorable P (ls.length + 1) ck := by
  intro ls
  induction ls with
  | nil =>
    rintro ck o _ hf ⟨rfl, h⟩
    show I64 _
    unfold StagesFit at hf
    unfold I64; omega
  | cons l ls ih =>
    rintro ck o hk hf ⟨sck, oi, ri, st, rfl, _, h1, _, _, h2, h3, _⟩
    obtain ⟨hc, hw, hr, hi⟩ := hk l (by simp)
    have hz := stagesFit_head hf.2
    have ho := hf.1
    have hoI : I64 (o : Int) := by unfold I64; omega
    refine ⟨hoI, ?_, ?_, ⟨?_, hoI⟩, hw, hr, hi, ?_⟩
    · split
      · exact hoI
      · unfold I64; omega
    · simp only [List.mem_cons, List.not_mem_nil, or_false] at hc
      intro ht
      rcases hc with hc | hc | hc | hc <;> rw [hc] at ht ⊢ <;> simp [flateCfg, gzipCfg, bzip2Cfg, brotliCfg] at ht ⊢
    · show I64 (ri : Int)
      unfold I64; omega
    · intro c hcc
      cases hcc
      exact ih (fun m hm => hk m (by simp [hm])) hf.2 h1

/-- **C85 (what sources emit).** A stack of decompressing sources over a file, used in any way: as long as nothing was done
that voids the cursor (see `SpecRun`), every checkpoint handed to the save consumer can be kept with gob. -/
theorem C85_emitted (P : Progs) (raw : List Byte) (sched : Nat → RsAct) (start size F : Nat) (s : SeekSt)
    (hs : s.rs.content = raw ∧ s.rs.sched = sched ∧ s.sectionStart = start ∧ s.size = size) (hq : s.wantSave = false)
    (ls : List Layer) (hw : WellStacked ls) (hF : stackRank ls ((raw.drop start).take size) size ≤ F)
    (hk : ∀ l ∈ ls, LayerKnown P l) (hf : StagesFit ls ((raw.drop start).take size))
    (answer : Nat → Option Err) (ops : List SrcOp) (hops : (∀ m ∈ ls, m.D.ByteLaw) ∨ SrcOp.readByte ∉ ops) :
    ∃ (nice exact early : Prop) (sp' : SpecSt),
      SpecRun ⟨(stackDecode ls ((raw.drop start).take size)).1, (stackDecode ls ((raw.drop start).take size)).2, nice, exact, early⟩
        ⟨.fresh, []⟩ (srcRun (stackM F ls) answer ops (stackNew F ls s) []).1 sp' ∧
      (sp'.cur ≠ .dead → ∀ x ∈ (srcRun (stackM F ls) answer ops (stackNew F ls s) []).2.2, Survives (ckC P (ls.length + 1)) x.1) := by
  obtain ⟨L, k1, k2, k3, _, _, _, _, k8, _⟩ := stack_lawful_ck ⟨raw, sched, start, size⟩ F s hs hq ls hw hF
  obtain ⟨sp', h1, h2⟩ := run_spec L answer ops (stackNew F ls s) [] ⟨.fresh, []⟩ (hops.imp k1 id) ⟨k2, rfl, by simp⟩
  refine ⟨L.nice, L.exact, L.early, sp', h1, fun hd x hx => ?_⟩
  obtain ⟨o, ho⟩ := (corr_good L h2 hd).2.2 x hx
  exact C85_source P _ _ (stackCk_storable hk hf ((k8 _ _).mp ho))

/-- **C85 (zip).** Checkpoints saved by a zip extraction, or by one resumed from such a checkpoint, and so on, over sinks that
count what they write: they can be kept with gob by programs that know flate checkpoints, if the sizes in the archive are
`int64`s. -/
theorem C85_zip (P : Progs) (A : Archive) (D : Decomp) (F : Nat) (hwf : ZipWF A D F)
    (hP : tagName .flate ∈ P.writer ∧ tagName .flate ∈ P.reader ∧ I64 (P.ids (tagName .flate)))
    (hsz : ∀ zf ∈ A.files, EntryFits (zipFileEntry zf) ∧ (zipRawBytes A zf).length < 2 ^ 63 ∧ (zipContent A D zf).1.length < 2 ^ 63)
    (hn : A.files.length < 2 ^ 63) {n : Nat} {c : ECkpt} (h : ZipSaved A D F SinkM.Counting n c) (N : Nat) (hN : 2 ≤ N) : Survives (eckC P N) c := by
  apply C85_extractor
  obtain ⟨hd, i, zf, o, x, hs, hk, he, hx0, hxo⟩ := zipSaved_kept hwf h
  have hmem := List.mem_of_getElem? hs.file
  obtain ⟨hfit, hraw, hlen⟩ := hsz zf hmem
  have hi := (List.getElem?_eq_some_iff.mp hs.file).1
  obtain ⟨sck, hsck, hck⟩ := hs.src
  have ho := fileCk_le hck
  refine ⟨fun y hy => ?_, ?_, fun e hee => ?_, by rw [hd]; simp⟩
  · rw [hsck] at hy
    cases hy
    obtain ⟨M, rfl⟩ : ∃ M, N = M + 2 := ⟨N - 2, by omega⟩
    have hg : (zipGeo A zf).stream = zipRawBytes A zf := zipGeo_stream A zf _
    unfold fileCk at hck
    split at hck
    · obtain ⟨rfl, _⟩ := hck
      show I64 _
      unfold I64; omega
    · have hck' : CkW (seekLawful (zipGeo A zf)) flateCfg D sck o := hck
      obtain ⟨ick, oi, ri, st, rfl, _, h1, h2, _, h3, _⟩ := hck'
      obtain ⟨rfl, h4⟩ := h1
      rw [hg] at h3
      have : I64 (o : Int) := by unfold I64; omega
      refine ⟨this, by simp [flateCfg, I64], by simp [flateCfg], ⟨?_, this⟩, hP.1, hP.2.1, hP.2.2, ?_⟩
      · show I64 (ri : Int)
        unfold I64; omega
      · intro c hc
        cases hc
        show I64 (oi : Int)
        unfold I64; omega
    · cases hck
  · rw [hs.index]
    unfold I64; omega
  · rw [he] at hee
    cases hee
    obtain ⟨a, b, c', d⟩ := hfit
    exact ⟨a, b, c', by show I64 x; unfold I64; omega⟩

/-- **C85 (tar).** Checkpoints saved by a tar extraction of a stack of sources, or by one resumed from such a checkpoint, and so
on: they can be kept with gob by programs that import the packages of the sources and tarextractor, if the numbers in
them are the `int64`s and `uint32`s they are in Go. -/
theorem C85_tar (P : Progs) (raw : List Byte) (ls : List Layer) (hk : ∀ l ∈ ls, LayerKnown P l) (hf : StagesFit ls raw)
    (hP : tarName ∈ P.writer ∧ tarName ∈ P.reader ∧ I64 (P.ids tarName)) {T : TarFmt} (hT : T.Law) {F n : Nat} {q : Prop} {c : ECkpt}
    (h : TarSaved (stackDecode ls raw).1 (stackDecode ls raw).2 (stackCk raw ls) F T q n c)
    (hi : I64 c.entryIndex) (he : ∀ e, c.entry = some e → EntryFits e)
    (hr : ∀ s l, c.data = some s → s.result = some l → ∀ e ∈ l, EntryFits e) : Survives (eckC P (ls.length + 1)) c := by
  apply C85_extractor
  obtain ⟨i, o, ⟨ms, hh, R, z0, st0, e, hat, _⟩, _⟩ := tarSaved_at hT h
  obtain ⟨im, hd, _⟩ := hat.data
  obtain ⟨sck, hs, hck⟩ := hat.src
  refine ⟨fun y hy => ?_, hi, he, fun s hs' => ⟨hP.1, hP.2.1, hP.2.2, fun l hl => hr s l hs' hl, fun t ht => ?_⟩⟩
  · rw [hs] at hy
    cases hy
    exact stackCk_storable hk hf hck
  · rw [hd] at hs'
    cases hs'
    cases ht
    have := stagesFit_head hf
    have h1 := hat.hi
    have h2 := hat.file.1
    show I64 (o : Int)
    have h3 : o ≤ (stackDecode ls raw).1.length := by
      have : ∀ (ls : List Layer) (ck : Ckpt), stackCk raw ls ck o → o ≤ (stackDecode ls raw).1.length := by
        intro ls ck h
        cases ls with
        | nil => exact h.2
        | cons l ls =>
          obtain ⟨_, _, _, _, _, _, _, _, _, _, h7, _⟩ := h
          exact h7
      exact this ls sck hck
    unfold I64; omega

/-- The checkpoint is one of source kind `t`, or contains one. -/
inductive Ckpt.Uses (t : Tag) : Ckpt → Prop
  | here {o s k d} : Ckpt.Uses t (.dec t o s k d)
  | inside {t' o c k d} : Ckpt.Uses t c → Ckpt.Uses t (.dec t' o (some c) k d)

/-- **C85 (limits).** A program that has not registered the type of a checkpoint cannot encode it … -/
theorem C85_unregistered (P : Progs) (t : Tag) (ht : tagName t ∉ P.writer) (ck : Ckpt) (hu : ck.Uses t) (N limit : Nat) (id : Int) :
    marshal limit (ckC P N) id ck = none := by
  have key : ∀ N, (ckC P N).enc ck = none := by
    induction hu with
    | here =>
      intro N
      cases N with
      | zero => rfl
      | succ N => simp [ckC, structC, ckParts, Fields.cons, ifaceC, ht, intC]
    | @inside t' o c k d _ ih =>
      intro N
      cases N with
      | zero => rfl
      | succ N =>
        have := ih N
        have hd : ((dataC (ckC P N) t').enc ⟨t', some c, k, d⟩) = none := by
          cases t' <;> simp [dataC, structC, Fields.cons, ptrC, this, intC]
        simp [ckC, structC, ckParts, Fields.cons, ifaceC, tagOf_name, hd, intC]
  simp [marshal, key N]

/-- … and a program that has not registered it cannot decode it. -/
theorem C85_unknown_to_reader (P : Progs) (t : Tag) (ht : tagName t ∉ P.reader) (o : Int) (ho : I64 o) (s : Option Ckpt) (k : Int) (d : DCk)
    (N limit : Nat) (hl : limit ≤ 2 ^ 63) (id : Int) (hid : I64 id) (bs : List Byte) (hm : marshal limit (ckC P N) id (.dec t o s k d) = some bs) :
    unmarshal limit (ckC P N) bs = none := by
  cases N with
  | zero => simp [marshal, ckC] at hm
  | succ N =>
    have hif : ∀ e r, (ifaceC P (fun d : Data => tagName d.tag) (fun n => (tagOf n).map (dataC (ckC P N)))).enc (some ⟨t, s, k, d⟩) = some e →
        (ifaceC P (fun d : Data => tagName d.tag) (fun n => (tagOf n).map (dataC (ckC P N)))).dec (e ++ r) = none := by
      intro e r he
      simp only [ifaceC] at he ⊢
      split at he
      · rw [tagOf_name] at he
        simp only [Option.map_some, Option.map_eq_some_iff] at he
        obtain ⟨b, _, rfl⟩ := he
        simp only [List.append_assoc]
        rw [str_back _ (by cases t <;> decide)]
        simp only [if_neg ht]
      · cases he
    have hdec : ∀ e, (ckC P (N + 1)).enc (.dec t o s k d) = some e → (ckC P (N + 1)).dec e = none := by
      intro e he
      generalize hc : ifaceC P (fun d : Data => tagName d.tag) (fun n => (tagOf n).map (dataC (ckC P N))) = ic at hif
      have hus : ic.unsent (some ⟨t, s, k, d⟩) = false := by rw [← hc]; rfl
      simp only [ckC, hc, structC, ckParts, Fields.cons, hus, Bool.false_eq_true, if_false, Fields.nil] at he ⊢
      cases hie : ic.enc (some ⟨t, s, k, d⟩) with
      | none =>
        simp only [hie] at he
        split at he
        · cases he
        · split at he <;> simp_all
      | some ie =>
        have hif' := hif ie
        simp only [hie] at he hif'
        split at he
        · simp only [Option.some.injEq] at he
          subst he
          rw [uint_back _ (by omega)]
          simp [hif']
        · simp only [intC, Option.some.injEq] at he
          subst he
          rw [uint_back _ (show 0 + 1 < 2 ^ 64 by omega)]
          simp only [intC]
          simp [int_back _ ho, uint_back _ (show 1 < 2 ^ 64 by omega), hif']
    unfold marshal at hm
    cases he : (ckC P (N + 1)).enc (.dec t o s k d) with
    | none => rw [he] at hm; cases hm
    | some e =>
      rw [he] at hm
      simp only at hm
      split at hm
      · cases hm
      · rename_i hlt
        simp only [Option.some.injEq] at hm
        subst hm
        unfold unmarshal
        rw [uint_back _ (by omega)]
        simp only [if_neg hlt, Nat.lt_irrefl, if_false, List.take_length, int_back _ hid, hdec e he, Option.map_none]

/-! ## Examples -/

instance (i : Int) : Decidable (I64 i) := inferInstanceAs (Decidable (_ ∧ _))

instance (e : Entry) : Decidable (EntryFits e) := inferInstanceAs (Decidable (_ ∧ _))

/-- Both programs import all of the repository. -/
def allProgs : Progs := ⟨registered, registered, fun _ => 65⟩

theorem allProgs_known (t : Tag) : tagName t ∈ allProgs.writer ∧ tagName t ∈ allProgs.reader ∧ I64 (allProgs.ids (tagName t)) := by
  cases t <;> decide

theorem allProgs_tar : tarName ∈ allProgs.writer ∧ tarName ∈ allProgs.reader ∧ I64 (allProgs.ids tarName) := by decide

/-- A checkpoint of gzip over brotli over a file. -/
def nestedCk : Ckpt := .dec .gzip 300 (some (.dec .brotli 200 (some (.plain 100)) 0 ⟨100, 200, [1, 2]⟩)) 300 ⟨200, 300, [70000, 0]⟩

theorem nestedCk_storable : CkStorable allProgs 3 nestedCk := by
  refine ⟨by decide, by decide, by simp, ⟨by decide, by decide⟩, (allProgs_known _).1, (allProgs_known _).2.1, (allProgs_known _).2.2, fun c hc => ?_⟩
  cases hc
  refine ⟨by decide, by decide, by simp, ⟨by decide, by decide⟩, (allProgs_known _).1, (allProgs_known _).2.1, (allProgs_known _).2.2, fun c hc => ?_⟩
  cases hc
  show I64 100
  decide

example : Survives (ckC allProgs 3) nestedCk := C85_source _ _ _ nestedCk_storable

/-- What the model writes for the checkpoint of a plain file at offset 100: 6 bytes follow, type 65, field 1, 100, end. -/
example : marshal (2 ^ 30) (ckC allProgs 1) 65 (.plain 100) = some [6, 255, 130, 1, 255, 200, 0] := by decide +kernel

/-- A program that does not import gzipsource cannot read it. -/
example : nestedCk.Uses .gzip ∧ nestedCk.Uses .brotli := ⟨.here, .inside .here⟩

/-- Gzip over a file, used in some way: its checkpoints survive. -/
example (P : Progs) (hP : ∀ t, tagName t ∈ P.writer ∧ tagName t ∈ P.reader ∧ I64 (P.ids (tagName t))) (D : Decomp) : LayerKnown P ⟨gzipCfg, D⟩ :=
  ⟨by simp, hP _⟩

/-- The checkpoint saved by the example zip extraction survives. -/
example : Survives (eckC allProgs 2) toyCk1 := by
  refine C85_zip allProgs toyArchive (toy false false) 100 toy_wf (allProgs_known .flate) ?_ (by decide) toy_saved1 2 (by omega)
  decide +kernel

/-- The checkpoint saved by the example tar extraction survives. -/
example : Survives (eckC allProgs 1) tarCk1 := by
  refine C85_tar (F := 100) (n := 1) (q := True) allProgs toyStream [] (by simp) (show toyStream.length < 2 ^ 63 by decide) allProgs_tar (toyTar_law true) ?_ (by decide) ?_ ?_
  · exact tar_saved1
  · intro e he
    cases he
    decide
  · intro s l hs hl
    cases hs
    cases hl
    simp

/-- **C85 (names).** The names under which the packages register their types are all different, so that programs can import any of them together
(`gob.Register` panics when one name is registered for two types) and a name in an encoded checkpoint stands for one type only. -/
theorem C85_names : registered.Pairwise (· ≠ ·) ∧ (∀ t, tagOf (tagName t) = some t) ∧ tagOf tarName = none := by
  refine ⟨by decide +kernel, fun t => ?_, by decide +kernel⟩
  cases t <;> decide +kernel

end Savior
