import Verif.Props.Tar
/-!
# Tar extraction: counterexamples to false properties, and cases meeting the theorems' hypotheses
-/

namespace Savior

theorem toy_path : TarHas (toyTar true) true toyStream toyMembers := by
  refine ⟨TTSt.body 0, [0], ?_, by rfl⟩
  have h1 : TarPath (toyTar true) true (TTSt.body 0) toyStream [(ttHdr 2 100 0, [])] (TTSt.body 0) (toyStream.drop 3) :=
    TarPath.other (ms := []) .nil (by rfl) (by decide)
  have h2 : TarPath (toyTar true) true (TTSt.body 0) toyStream [(ttHdr 2 100 0, []), (ttHdr 1 97 3, [10, 20, 30])] (TTSt.body 0) (toyStream.drop 9) :=
    @TarPath.file (toyTar true) true (TTSt.body 0) toyStream _ _ _ (ttHdr 1 97 3) (TTSt.body 3) (toyStream.drop 6) h1 (by rfl) (by decide) (by decide)
  have h3 : TarPath (toyTar true) true (TTSt.body 0) toyStream [(ttHdr 2 100 0, []), (ttHdr 1 97 3, [10, 20, 30]), (ttHdr 9 120 1, [])] (TTSt.body 1) (toyStream.drop 12) :=
    TarPath.other h2 (by rfl) (by decide)
  have h4 : TarPath (toyTar true) true (TTSt.body 0) toyStream
      [(ttHdr 2 100 0, []), (ttHdr 1 97 3, [10, 20, 30]), (ttHdr 9 120 1, []), (ttHdr 3 108 0, [])] (TTSt.body 0) (toyStream.drop 16) :=
    TarPath.other h3 (by rfl) (by decide)
  exact @TarPath.file (toyTar true) true (TTSt.body 0) toyStream _ _ _ (ttHdr 1 98 2) (TTSt.body 2) (toyStream.drop 19) h4 (by rfl) (by decide) (by decide)

theorem toy_has : TarHas (toyTar true) true (plainGeo toyStream).stream toyMembers := by rw [plain_stream]; exact toy_path

/-- C43 applies to the twice stopped toy run; the file `a` has its content. -/
example : (memLaw noFaults).view (toyTarRun (some tarCk2) tarSink2 []).2.2.sink = tarIdeal (memLaw noFaults) toyMembers ((memLaw noFaults).view memEmpty) :=
  (C43_tar_stop_resume (toyTar_law true) (memLaw noFaults) memEmpty _ _ tar_stops (plainSrc toyStream 100 (by decide)) (fun _ => (0, 1)) listCons []
    _ tar_success).2 toyMembers toy_has

example : (toyTarRun (some tarCk2) tarSink2 []).2.2.sink.nodes [97] = some (.file [10, 20, 30]) := by rfl

/-- C43 for compressed archives: a layer of the toy compressor over a file, whatever the read schedule. -/
example (sched : Nat → RsAct) : ∃ X : TarSrc (stackDecode [⟨gzipCfg, toy false false⟩] [1, 10, 2, 20, 30, 0]).1 true
    (stackCk [1, 10, 2, 20, 30, 0] [⟨gzipCfg, toy false false⟩]) 1000, X.L.Quiet X.src ∧ X.S = stackM 1000 [⟨gzipCfg, toy false false⟩] := by
  refine ⟨stackSrc [1, 10, 2, 20, 30, 0] [⟨gzipCfg, toy false false⟩] 1000 ⟨[1, 10, 2, 20, 30, 0], sched, 0, 6⟩ (by rfl)
    (Seek.newWithSize ⟨[1, 10, 2, 20, 30, 0], 0, sched, 0⟩ 6) ⟨rfl, rfl, rfl, rfl⟩ rfl ⟨toy_law _ _, Or.inr (by simp), trivial⟩ (by
      show 2 * stackRank [⟨gzipCfg, toy false false⟩] [1, 10, 2, 20, 30, 0] 6 + 3 ≤ 1000
      decide +kernel), ?_, rfl⟩
  exact stackSrc_quiet

/-- **C44 is false**: the archive has five members, two of which are listed; the directory and the link are extracted but
not listed. -/
theorem C44_false : TarHas (toyTar true) true (plainGeo toyStream).stream toyMembers ∧ toyMembers.length = 5 ∧
    ∃ res, (toyTarRun none memEmpty []).1 = .ok res ∧ res.length = 2 ∧ (toyTarRun none memEmpty []).2.2.sink.nodes [100] = some .dir ∧
    (toyTarRun none memEmpty []).2.2.sink.nodes [108] = some (.link [109]) ∧ ∀ e ∈ res, e.path ≠ [100] ∧ e.path ≠ [108] :=
  ⟨toy_has, rfl, [⟨[97], .file, 0o644, 0, 3, 3, []⟩, ⟨[98], .file, 0o644, 0, 2, 2, []⟩], by rfl, by rfl, by rfl, by rfl, by decide⟩

/-- **C45 is false**: a byte of `a` is written, and a checkpoint claiming it as written (`WriteOffset` 1) is handed to the
consumer; nothing is synced (by `C45_never_syncs`, not in this run nor in any other). -/
theorem C45_false : ∃ pre post e, (toyTarRun none memEmpty [.ok .stop]).2.2.log = pre ++ [.write [10] 1 none] ++ post ∧
    (saves post).head? = some (tarCk1, .ok .stop) ∧ tarCk1.entry = some e ∧ e.path = [97] ∧ e.woff = 1 ∧
    ∀ r, Ev.sync r ∉ (toyTarRun none memEmpty [.ok .stop]).2.2.log :=
  ⟨(toyTarRun none memEmpty [.ok .stop]).2.2.log.take 2, (toyTarRun none memEmpty [.ok .stop]).2.2.log.drop 3, _, by rfl, by rfl, rfl, rfl, rfl,
    fun r => C45_never_syncs (toyTar_law true) (plainSrc toyStream 100 (by decide)) _ _ _ none (by intro c h; cases h) _ _ r⟩

/-- **C46 is false**: the same archive cut after `a` extracts successfully, without `b`. -/
theorem C46_false : TarHas (toyTar true) true toyStream toyMembers ∧
    (tarRun (plainSrc (toyStream.take 9) 100 (by decide)) (toyTar true) (fun _ => (0, 1)) (memSink noFaults) listCons none memEmpty []).1 =
      .ok [⟨[97], .file, 0o644, 0, 3, 3, []⟩] ∧
    (tarRun (plainSrc (toyStream.take 9) 100 (by decide)) (toyTar true) (fun _ => (0, 1)) (memSink noFaults) listCons none memEmpty []).2.2.sink.nodes [98] = none :=
  ⟨toy_path, by rfl, by rfl⟩

/-- C46 applies: cut within `a`, the stream is no complete archive. -/
theorem toy_cut : ¬ ∃ ms, TarHas (toyTar true) true (plainGeo (toyStream.take 8)).stream ms := by
  rw [plain_stream]
  rintro ⟨ms, hms⟩
  refine tarHas_not_broken hms ⟨[(ttHdr 2 100 0, [])], TTSt.body 0, (toyStream.take 8).drop 3, ?_, Or.inr ⟨ttHdr 1 97 3, TTSt.body 3, (toyStream.take 8).drop 6, ?_, ?_, ?_⟩⟩
  · exact TarPath.other (ms := []) .nil (by rfl) (by decide)
  · rfl
  · decide
  · decide

example (res : List Entry) (u : List (Except Err Action)) :
    (tarRun (plainSrc (toyStream.take 8) 100 (by decide)) (toyTar true) (fun _ => (0, 1)) (memSink noFaults) listCons none memEmpty u).1 ≠ .ok res := by
  have := C46_incomplete_partial (K := memSink noFaults) (toyTar_law true) none (by intro c h; cases h) memEmpty (plainSrc (toyStream.take 8) 100 (by decide))
    (fun _ => (0, 1)) listCons u toy_cut res
  exact this

/-- `C46_truncated` applies to the cut of `C46_false`. -/
example : ∃ n, (memLaw noFaults).view (tarRun (plainSrc (toyStream.take 9) 100 (by decide)) (toyTar true) (fun _ => (0, 1)) (memSink noFaults) listCons none memEmpty []).2.2.sink =
    tarIdeal (memLaw noFaults) (toyMembers.take n) ((memLaw noFaults).view memEmpty) :=
  C46_truncated (toyTar_law true) (memLaw noFaults) memEmpty none memEmpty TarStops.refl _ _ _ _ _ C46_false.2.1 (toyStream.drop 9) toyMembers (by
    rw [plain_stream]; exact toy_path)

theorem tar_saved1 : TarSaved (plainGeo toyStream).stream true (Seek.CkS (plainGeo toyStream)) 100 (toyTar true) True 1 tarCk1 := by
  refine TarSaved.first (plainSrc toyStream 100 (by decide)) (fun _ => (0, 1)) (memSink noFaults) listCons memEmpty [.ok .stop] (a := .ok .stop) (fun _ => rfl) ?_
  have h : saves (toyTarRun none memEmpty [.ok .stop]).2.2.log = [(tarCk1, .ok .stop)] := by rfl
  unfold toyTarRun at h
  rw [h]; exact List.mem_singleton.mpr rfl

/-- C47 applies to the second toy run, which does save. -/
example : tarOffset tarCk1 < tarOffset tarCk2 := by
  have h : (saves (toyTarRun (some tarCk1) tarSink1 [.ok .cont, .ok .stop]).2.2.log).getLast? = some (tarCk2, .ok .stop) := by rfl
  have h' := List.mem_of_getLast? h
  unfold toyTarRun at h'
  exact (C47_strictly_later_partial (toyTar_law true) tar_saved1 (plainSrc toyStream 100 (by decide)) rfl (fun _ => (0, 1)) (memSink noFaults) listCons tarSink1
    [.ok .cont, .ok .stop]).1 (tarCk2, .ok .stop) h'

example : (1 : Int) ≤ tarOffset tarCk1 ∧ tarOffset tarCk1 ≤ (plainGeo toyStream).stream.length := C47_bounded_partial (toyTar_law true) tar_saved1

/-- The source left behind by the first toy run, which still has a save request pending. -/
def usedSrc : TarSrc (plainGeo toyStream).stream true (Seek.CkS (plainGeo toyStream)) 100 where
  S := seekM
  L := seekLawful (plainGeo toyStream)
  src := (toyTarRun none memEmpty [.ok .stop]).2.1
  good := ⟨rfl, rfl, rfl, rfl⟩
  family _ _ := Iff.rfl
  budget := by decide
  conduit := seek_conduit

/-- **C47 is false**: given that source, the resumed run saves the very checkpoint it was resumed from and is stopped
again: an endless loop. -/
theorem C47_false :
    (tarRun usedSrc (toyTar true) (fun _ => (0, 1)) (memSink noFaults) listCons (some tarCk1) tarSink1 [.ok .stop]).1 = .error .stop ∧
    saves (tarRun usedSrc (toyTar true) (fun _ => (0, 1)) (memSink noFaults) listCons (some tarCk1) tarSink1 [.ok .stop]).2.2.log = [(tarCk1, .ok .stop)] :=
  ⟨by rfl, by rfl⟩

/-- C48 applies to the uninterrupted toy run: the device is not touched. -/
example : (toyTarRun none memEmpty []).2.2.log.filterMap Ev.touched =
    [tarEntryOf (ttHdr 2 100 0), tarEntryOf (ttHdr 1 97 3), tarEntryOf (ttHdr 3 108 0), tarEntryOf (ttHdr 1 98 2)] :=
  C48_others_skipped (toyTar_law true) (plainSrc toyStream 100 (by decide)) _ _ _ _ _
    [⟨[97], .file, 0o644, 0, 3, 3, []⟩, ⟨[98], .file, 0o644, 0, 2, 2, []⟩] (by rfl) toyMembers toy_has

/-- A tar stream with one file; a checkpoint whose source is one byte ahead of the tar reader. -/
def oneFile : List Byte := [1, 97, 3, 10, 20, 30, 0]
def tarAheadCk : ECkpt := ⟨some (.plain 5), 0, some ⟨[97], .file, 0o644, 0, 3, 1, []⟩, (0, 1), some ⟨some [], some ⟨4, [0, 2]⟩⟩⟩
def oneSink : MemSt := ⟨fun p => if p = [97] then some (.file [10]) else none, none, 0⟩

/-- **C49 is false** (tar): resuming from it succeeds, and the file's second byte is silently missing. -/
theorem C49_false_tar :
    (tarRun (plainSrc oneFile 100 (by decide)) (toyTar true) (fun _ => (0, 1)) (memSink noFaults) listCons (some tarAheadCk) oneSink []).1 =
      .ok [⟨[97], .file, 0o644, 0, 3, 3, []⟩] ∧
    (tarRun (plainSrc oneFile 100 (by decide)) (toyTar true) (fun _ => (0, 1)) (memSink noFaults) listCons (some tarAheadCk) oneSink []).2.2.sink.nodes [97] =
      some (.file [10, 30, 0]) ∧
    (tarRun (plainSrc oneFile 100 (by decide)) (toyTar true) (fun _ => (0, 1)) (memSink noFaults) listCons none memEmpty []).2.2.sink.nodes [97] =
      some (.file [10, 20, 30]) := ⟨by rfl, by rfl, by rfl⟩

example : ∃ sc, tarCk1.srcCk = some sc ∧ sc.offset = tarOffset tarCk1 := C49_tar_aligned_partial (toyTar_law true) tar_saved1

/-- C38, C54 apply to the first toy run. -/
example : ∃ c, (saves (toyTarRun none memEmpty [.ok .stop]).2.2.log).getLast? = some (c, .ok .stop) :=
  (C38_tar_stop_iff (toyTar_law true) (plainSrc toyStream 100 (by decide)) (fun _ => (0, 1)) (memSink noFaults) listCons none (by intro c h; cases h) memEmpty
    [.ok .stop]).2.1 tar_run1

example : toyTarRun (some (toyTarRun none memEmpty [.ok .stop]).2.2.ck) tarSink1 [] = toyTarRun none tarSink1 [] :=
  C54_tar_retained (toyTar_law true) (plainSrc toyStream 100 (by decide)) (fun _ => (0, 1)) (memSink noFaults) listCons none (by intro c h; cases h) memEmpty
    [.ok .stop] tar_run1 _ _ _ _ _ _

/-- C55 applies to `NopSaveConsumer`. -/
example : saves (tarRun (plainSrc toyStream 100 (by decide)) (toyTar true) (fun _ => (0, 1)) (memSink noFaults) nopCons none memEmpty ()).2.2.log = [] :=
  (C55_tar_never_saves (toyTar_law true) (plainSrc toyStream 100 (by decide)) rfl (fun _ => (0, 1)) (memSink noFaults) nopCons (fun _ _ => rfl) none
    (by intro c h; cases h) memEmpty ()).1

/-- Stopping at every opportunity, the toy archive is still extracted within 23 runs. -/
example : (tarDrive (fun _ => plainSrc toyStream 100 (by decide)) (toyTar true) (fun _ => (0, 1)) (memSink noFaults) stopCons (fun _ => ()) (fun n => n % 2 == 0) 23 none memEmpty).1 =
    .ok (tarListed (memLaw noFaults) toyMembers) :=
  (C57_tar_loop (toyTar_law true) (toyTar_exact true) toyMembers toy_has (by decide) (memLaw noFaults) memGood memEmpty trivial
    _ (fun _ => ⟨fun _ => rfl, trivial⟩) (fun _ => rfl) _ stopCons (fun _ _ => ⟨_, rfl⟩) (fun _ => ()) (fun n => n % 2 == 0) 23 (by decide)).1

example : ∃ res, (tarRun (plainSrc toyStream 100 (by decide)) (toyTar true) (fun _ => (0, 1)) (memSink noFaults) nopCons none memEmpty ()).1 = .ok res :=
  (C57_tar_healthy (toyTar_law true) (toyTar_exact true) toyMembers toy_has (by decide) (memLaw noFaults) memGood memEmpty none memEmpty TarStops.refl trivial
    _ ⟨fun _ => rfl, trivial⟩ _ nopCons (fun _ _ => ⟨_, rfl⟩) ()).2 (by intro c u; simp [nopCons])

/-- C43 and C44 apply: the twice stopped run and an uninterrupted one leave the same, and list the same two files. -/
example (res : List Entry) (h : (toyTarRun none memEmpty []).1 = .ok res) :
    (memLaw noFaults).view (toyTarRun (some tarCk2) tarSink2 []).2.2.sink = (memLaw noFaults).view (toyTarRun none memEmpty []).2.2.sink ∧
    res = (toyMembers.filter fun m => m.1.typ = .reg).map fun m => { path := m.1.name, kind := .file, mode := m.1.mode, csize := 0, usize := m.1.size, woff := m.2.length, link := [] } :=
  ⟨(C43_same (toyTar_law true) (memLaw noFaults) memEmpty _ _ _ _ tar_stops TarStops.refl (plainSrc toyStream 100 (by decide)) (plainSrc toyStream 100 (by decide))
      (fun _ => (0, 1)) (fun _ => (0, 1)) listCons listCons [] [] _ _ tar_success h).1,
    C44_files_listed_partial (toyTar_law true) (memLaw noFaults) memEmpty none memEmpty TarStops.refl (plainSrc toyStream 100 (by decide)) (fun _ => (0, 1)) listCons []
      res h toyMembers toy_has⟩

end Savior
