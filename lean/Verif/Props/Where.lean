import Verif.Where
import Verif.Props.Alike
import Verif.Props.TarCases
import Verif.Props.ZipAlignment
/-!
# Checkpoints say where they are (C87)
-/

namespace Savior

/-- **C87**, tar: a checkpoint handed to a save consumer, by whatever chain of runs into sinks that count what they
write, names a member that is a regular file: `EntryIndex` is the number of members in front of it (unsupported ones
included), `Entry` is what its header records, with `WriteOffset` saying how many bytes of it have been extracted, the
position in the stream is that many bytes after the beginning of its data, the source checkpoint is for that position, and
the entries listed so far are those of the regular files in front of it, complete. -/
theorem C87_tar {T : TarFmt} (hT : T.Law) {Y : List Byte} {clean : Bool} {Ck : Ckpt → Nat → Prop} {F : Nat} {ct : Str → Bool} {c : ECkpt}
    (h : TarSavedIn Y clean Ck F T (SinkM.CountsBy ct) c) :
    ∃ ms hd start size n, TarFileAfter T clean Y ms hd start size ∧ n ≤ size ∧
      c.entryIndex = ms.length ∧ c.entry = some (hd.after ct n) ∧ tarOffset c = (start + n : Nat) ∧
      (∃ sc, c.srcCk = some sc ∧ Ck sc (start + n)) ∧ tarResultIn c = some (writtenFiles ct ms) := by
  obtain ⟨ms, hd, z0, st0, o, a⟩ := tarSavedIn_where hT h
  obtain ⟨im, b, _⟩ := a.data
  obtain ⟨f1, f2, s1, Y1, f3, f4⟩ := a.file
  have := a.lo
  have := a.hi
  have ho : z0 + (o - z0) = o := by omega
  refine ⟨ms, hd, z0, T.rem st0, o - z0, ⟨s1, Y1, st0, _, f3, f4, f2, rfl, f1, rfl⟩, by omega, a.index, a.entry, ?_, ?_, ?_⟩
  · simp [tarOffset, b]; omega
  · rw [ho]; exact a.src
  · simp [tarResultIn, b]

/-- **C87**, tar, whatever the sinks count: index, header, position and source checkpoint are right all the same. -/
theorem C87_tar_any_sink {T : TarFmt} (hT : T.Law) {Y : List Byte} {clean : Bool} {Ck : Ckpt → Nat → Prop} {F : Nat} {q : Prop} {m : Nat} {c : ECkpt}
    (h : TarSaved Y clean Ck F T q m c) :
    ∃ ms hd start size n x, TarFileAfter T clean Y ms hd start size ∧ n ≤ size ∧
      c.entryIndex = (ms.length : Nat) ∧ c.entry = some { hd.recorded with woff := x } ∧ tarOffset c = (start + n : Nat) ∧
      (∃ sc, c.srcCk = some sc ∧ Ck sc (start + n)) := by
  obtain ⟨i, o, ⟨ms, hd, R, z0, st0, e, a, ⟨x, hx⟩, _⟩, _⟩ := tarSaved_at hT h
  obtain ⟨im, b, _⟩ := a.data
  obtain ⟨f1, f2, s1, Y1, f3, f4⟩ := a.file
  have := a.lo
  have := a.hi
  have ho : z0 + (o - z0) = o := by omega
  refine ⟨ms, hd, z0, T.rem st0, o - z0, x, ⟨s1, Y1, st0, _, f3, f4, f2, rfl, f1, rfl⟩, by omega, a.index, ?_, ?_, ?_⟩
  · rw [a.entry, hx, tarEntryOf_recorded]
  · simp [tarOffset, b]; omega
  · rw [ho]; exact a.src

/-- **C87**, tar: what a run that ends well reports, from nothing or from such a checkpoint: all regular files of the archive, in
order, as their headers record them and with the number of bytes they have. -/
theorem C87_tar_result {T : TarFmt} (hT : T.Law) {Y : List Byte} {clean : Bool} {Ck : Ckpt → Nat → Prop} {F : Nat} (X : TarSrc Y clean Ck F)
    (pr : Ckpt → Int × Int) {ct : Str → Bool} {K : SinkM} (hK : SinkM.CountsBy ct K) {V : SaveCons} {ck : Option ECkpt}
    (hck : ∀ c, ck = some c → TarSavedIn Y clean Ck F T (SinkM.CountsBy ct) c) (k : K.St) (u : V.St) {res : List Entry}
    (hok : (tarRun X T pr K V ck k u).1 = .ok res) : ∃ ms, TarHas T clean Y ms ∧ res = writtenFiles ct ms :=
  hK.elim fun hK => (tarRun_where hT X pr hK ck (fun c hc => tarSavedIn_where hT (hck c hc)) k u).2 res hok

/-- **C87**, zip: a checkpoint handed to a save consumer, by whatever chain of runs into sinks that count what they write,
names a member that is a regular file: `EntryIndex` is its index in the central directory, `Entry` is what is recorded
there, with `WriteOffset` saying how many bytes of it have been extracted, which is where the source checkpoint is. -/
theorem C87_zip {ct : Str → Bool} {A : Archive} {D : Decomp} {F : Nat} (hwf : ZipWF A D F) {m : Nat} {c : ECkpt} (h : ZipSaved A D F (SinkM.CountsBy ct) m c) :
    ∃ i zf e sc n, A.files[i]? = some zf ∧ c.entryIndex = (i : Nat) ∧ c.entry = some e ∧ c.srcCk = some sc ∧
      e.path = zf.name ∧ e.kind = .file ∧ e.mode = zf.mode ∧ e.csize = zf.csize ∧ e.usize = zf.usize ∧
      e.woff = countedOff ct zf.name n ∧ sc.offset = (n : Nat) ∧ n ≤ (zipContent A D zf).1.length := by
  obtain ⟨i, zf, o, x, hs, hk, he, hx⟩ := zipSaved_align hwf h
  obtain ⟨sc, h1, h2⟩ := hs.src
  exact ⟨i, zf, _, sc, o, hs.file, hs.index, he, h1, rfl, hk, rfl, rfl, rfl, hx, fileCk_off h2, fileCk_le h2⟩

/-- FolderSink counts every name but the ignored ones. -/
def folderCounts (cfg : FCfg) : Counts (folderSink cfg) (fun p => !shouldIgnore p) where
  on := fsOn
  getWriter := (countedFolder cfg).getWriter
  write bs s h := ((countedFolder cfg).write bs s h).2
  sync s := by
    show fsOn (s.syncAt cfg (s.ws.length - 1)).2 = fsOn s
    unfold FSink.syncAt
    repeat' (first | rfl | (dsimp only; split) | split)

/-- **C87** applies to FolderSink in every configuration, whatever the filesystem calls do. -/
theorem C87_folder (cfg : FCfg) : SinkM.CountsBy (fun p => !shouldIgnore p) (folderSink cfg) := ⟨folderCounts cfg⟩

theorem tar_savedIn1 : TarSavedIn (plainGeo toyStream).stream true (Seek.CkS (plainGeo toyStream)) 100 (toyTar true) (SinkM.CountsBy fun _ => true) tarCk1 := by
  refine TarSavedIn.first (plainSrc toyStream 100 (by decide)) (fun _ => (0, 1)) (memSink noFaults) listCons memEmpty [.ok .stop] (a := .ok .stop)
    ⟨countsAll (memPrecise _)⟩ ?_
  have h : saves (toyTarRun none memEmpty [.ok .stop]).2.2.log = [(tarCk1, .ok .stop)] := by rfl
  unfold toyTarRun at h
  rw [h]; exact List.mem_singleton.mpr rfl

/-- C87 applies to a checkpoint within the second member of the toy archive: index 1, one byte extracted. -/
example : (∃ ms hd start size n, TarFileAfter (toyTar true) true (plainGeo toyStream).stream ms hd start size ∧ n ≤ size ∧
      tarCk1.entryIndex = ms.length ∧ tarCk1.entry = some (hd.after (fun _ => true) n) ∧ tarOffset tarCk1 = (start + n : Nat) ∧
      (∃ sc, tarCk1.srcCk = some sc ∧ Seek.CkS (plainGeo toyStream) sc (start + n)) ∧ tarResultIn tarCk1 = some (writtenFiles (fun _ => true) ms)) ∧
    tarCk1.entryIndex = 1 ∧ tarCk1.entry.map (·.woff) = some 1 :=
  ⟨C87_tar (toyTar_law true) tar_savedIn1, rfl, rfl⟩

/-- C87 applies to a checkpoint of the toy zip archive. -/
example : ∃ i zf e sc n, toyArchive.files[i]? = some zf ∧ toyCk1.entryIndex = (i : Nat) ∧ toyCk1.entry = some e ∧ toyCk1.srcCk = some sc ∧
      e.path = zf.name ∧ e.kind = .file ∧ e.mode = zf.mode ∧ e.csize = zf.csize ∧ e.usize = zf.usize ∧
      e.woff = countedOff (fun _ => true) zf.name n ∧ sc.offset = (n : Nat) ∧ n ≤ (zipContent toyArchive (toy false false) zf).1.length := by
  have h : (toyCk1, .ok .stop) ∈ saves (toyRun noFaults none memEmpty [.ok .stop]).2.log := by
    rw [toy_saves1]; exact List.mem_singleton.mpr rfl
  unfold toyRun at h
  exact C87_zip toy_wf (ZipSaved.first toyEnv (memSink noFaults) listCons memEmpty [.ok .stop] ⟨countsAll (memPrecise _)⟩ h)

/-- C87 applies to the toy run resumed from it: the files listed are those of the archive. -/
example : ∃ ms, TarHas (toyTar true) true (plainGeo toyStream).stream ms ∧
    [⟨[97], .file, 0o644, 0, 3, 3, []⟩, ⟨[98], .file, 0o644, 0, 2, 2, []⟩] = writtenFiles (fun _ => true) ms :=
  C87_tar_result (toyTar_law true) (plainSrc toyStream 100 (by decide)) (fun _ => (0, 1)) ⟨countsAll (memPrecise noFaults)⟩ (V := listCons) (ck := some tarCk1)
    (by intro c h; cases h; exact tar_savedIn1) tarSink1 [] (by rfl)

example : ∃ ms hd start size n x, TarFileAfter (toyTar true) true (plainGeo toyStream).stream ms hd start size ∧ n ≤ size ∧
      tarCk1.entryIndex = (ms.length : Nat) ∧ tarCk1.entry = some { hd.recorded with woff := x } ∧ tarOffset tarCk1 = (start + n : Nat) ∧
      (∃ sc, tarCk1.srcCk = some sc ∧ Seek.CkS (plainGeo toyStream) sc (start + n)) := C87_tar_any_sink (toyTar_law true) tar_saved1

end Savior
