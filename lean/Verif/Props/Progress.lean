import Verif.Forward
import Verif.TarToy
/-!
# Tar progress never goes back: C88
-/

namespace Savior

/-- **C88, sources.** Whatever state a stack of decompressing sources over a file is in, whatever the file, the decompressors,
the read schedule and the save consumer: `Read`, `ReadByte`, `WantSave` and `SetSourceSaveConsumer` never take `Progress` back,
and if it is in [0,1] it stays there. A successful `Resume` from a checkpoint not beyond the end of the file makes it so. -/
theorem C88_sources (F : Nat) (ls : List Layer) (s : (stackM F ls).St) :
    (∀ {C : Type} (cb : Callback C) (n : Nat) (c : C), Ahead ((stackM F ls).progress s) ((stackM F ls).progress ((stackM F ls).read cb n s c).2.1)) ∧
    (∀ {C : Type} (cb : Callback C) (c : C), Ahead ((stackM F ls).progress s) ((stackM F ls).progress ((stackM F ls).readByte cb s c).2.1)) ∧
    (stackM F ls).progress ((stackM F ls).wantSave s) = (stackM F ls).progress s ∧
    (∀ b, (stackM F ls).progress ((stackM F ls).setSSC b s) = (stackM F ls).progress s) ∧
    ∀ ck o s', (stackM F ls).resume ck s = (.ok o, s') → CkWithin (stackSize F ls s) ls ck → Fraction ((stackM F ls).progress s') :=
  have h := stack_forward F (fun _ => (0, 1)) ls
  ⟨fun cb n c => (h.read cb n s c trivial).2.1, fun cb c => h.readByte cb s c trivial, (h.wantSave s trivial).2, fun b => (h.setSSC b s trivial).2,
    fun ck o s' hr hw => stack_starts F ls ck s o s' hr hw⟩

/-- **C88.** A tar extraction from a stack of decompressing sources over a file — whatever the tar format, the file, its faults,
the sink, the save consumer, the state the source was left in and the checkpoint: the progress values given to the progress
consumer during a run never go back. If the checkpoint's innermost offset is not beyond the end of the file, they are all in
[0,1]. -/
theorem C88_tar_reports (T : TarFmt) (F F' : Nat) (ls : List Layer) (pr : Ckpt → Int × Int) (K : SinkM) (V : SaveCons) (ck : Option ECkpt)
    (src : (stackM F ls).St) (k : K.St) (u : V.St) :
    (reported (tarResume (stackM F ls) T pr F' K V ck src k u).2.2.log).Pairwise (fun p q => p.2 = q.2 ∧ p.1 ≤ q.1) ∧
    ((∀ c, ck = some c → CkWithin (stackSize F ls src) ls c.srcCk) →
      ∀ p ∈ reported (tarResume (stackM F ls) T pr F' K V ck src k u).2.2.log, 0 ≤ p.1 ∧ p.1 ≤ p.2 ∧ 0 < p.2) := by
  obtain ⟨a, b, _⟩ := tarResume_going (T := T) (K := K) (V := V) (stack_forward F pr ls) F' ck src trivial k u
  refine ⟨a, fun hck => b ?_⟩
  rintro sck o s' hr (rfl | ⟨c, hc, rfl⟩)
  · exact stack_starts F ls none src o s' hr (by unfold CkWithin; trivial)
  · exact stack_starts F ls _ src o s' hr (hck c hc)

/-- **C88, checkpoints.** For a tar file that is not compressed, the same of all progress values of a run, those in the
checkpoints handed to the save consumer included. (`pr` says what the source's `Progress` is while it makes a checkpoint at
`ck.offset`.) -/
theorem C88_tar_plain (T : TarFmt) (F : Nat) (K : SinkM) (V : SaveCons) (ck : Option ECkpt) (src : SeekSt) (k : K.St) (u : V.St)
    (pr : Ckpt → Int × Int) (hpr : ∀ c, pr c = if 0 < src.size then (c.offset, src.size) else (0, 1)) :
    (progresses (tarResume seekM T pr F K V ck src k u).2.2.log).Pairwise (fun p q => p.2 = q.2 ∧ p.1 ≤ q.1) ∧
    ((∀ c sck, ck = some c → c.srcCk = some sck → sck.offset ≤ src.size) →
      ∀ p ∈ progresses (tarResume seekM T pr F K V ck src k u).2.2.log, 0 ≤ p.1 ∧ p.1 ≤ p.2 ∧ 0 < p.2) := by
  have hp : pr = fun c => seekPr src.size c.offset := funext hpr
  subst hp
  obtain ⟨a, b, _⟩ := tarResume_going (T := T) (K := K) (V := V) (seek_forward_saves src.size) F ck src rfl k u
  refine ⟨a, fun hck => b ?_⟩
  rintro sck o s' hr (rfl | ⟨c, hc, rfl⟩)
  · exact seek_starts none src s' o hr (by nofun)
  · exact seek_starts _ src s' o hr (fun x hx => hck c x hc hx)

/-- **C88**, across runs: the checkpoints a run over a tar file that is not compressed hands to the save consumer carry the source's progress
at that moment, and all progress values of a run resumed from one of them, over any source for the same file, are at least that. -/
theorem C88_across (T : TarFmt) (F F' : Nat) (K K' : SinkM) (V V' : SaveCons) (ck : Option ECkpt) (src src' : SeekSt) (k : K.St) (u : V.St) (k' : K'.St) (u' : V'.St)
    (hsz : src'.size = src.size) (pr : Ckpt → Int × Int) (hpr : ∀ c, pr c = if 0 < src.size then (c.offset, src.size) else (0, 1)) :
    ∀ s ∈ saves (tarResume seekM T pr F K V ck src k u).2.2.log,
      (∃ sck, s.1.srcCk = some sck ∧ s.1.progress = if 0 < src.size then (sck.offset, src.size) else (0, 1)) ∧
      ∀ p ∈ progresses (tarResume seekM T pr F' K' V' (some s.1) src' k' u').2.2.log, p.2 = s.1.progress.2 ∧ s.1.progress.1 ≤ p.1 := by
  intro s hs
  have hp : pr = fun c => seekPr src.size c.offset := funext hpr
  subst hp
  obtain ⟨_, _, _, hsa⟩ := tarResume_going (T := T) (K := K) (V := V) (seek_forward_saves src.size) F ck src rfl k u
  obtain ⟨sck, h1, h2, h3⟩ := hsa s hs
  refine ⟨⟨sck, h1, by rw [h2]; rfl⟩, fun p hp => ?_⟩
  obtain ⟨_, _, hlo, _⟩ := tarResume_going (T := T) (K := K') (V := V') (seek_forward_saves src.size) F' (some s.1) src' hsz k' u'
  obtain ⟨o, s', h4, h5⟩ := hlo p hp
  rw [h3] at h4
  have h6 : Seek.progress s' = seekPr src.size sck.offset := by
    replace h4 : Seek.resume (some sck) src' = (.ok o, s') := h4
    have hgo : ∀ (t : SeekSt), Seek.resume.go t = (.ok o, s') → s'.offset = t.offset ∧ s'.size = t.size := by
      intro t ht
      unfold Seek.resume.go at ht
      dsimp only at ht
      split at ht
      · cases ht
      · cases ht; exact ⟨rfl, rfl⟩
    unfold Seek.resume at h4
    dsimp only at h4
    split at h4
    · cases h4
    · obtain ⟨a, b⟩ := hgo _ h4
      unfold Seek.progress seekPr
      rw [a, b, ← hsz]
  replace h5 : Ahead (Seek.progress s') p := h5
  rw [h6, show seekPr src.size sck.offset = s.1.progress from h2.symm] at h5
  exact ⟨h5.1.1.symm, h5.1.2⟩

/-- **C88**, the condition: it holds for the checkpoints the stack's own runs save, whatever the read schedule. -/
theorem C88_saved_within (raw : List Byte) (size : Int) (h : (raw.length : Int) ≤ size) : ∀ (ls : List Layer) (ck : Ckpt) (o : Nat),
    stackCk raw ls ck o → CkWithin size ls (some ck)
  | [], ck, o, hc => by
    obtain ⟨rfl, ho⟩ := hc
    show (Ckpt.plain o).offset ≤ size
    simp only [Ckpt.offset]; omega
  | l :: ls, ck, o, hc => by
    obtain ⟨sck, oi, ri, st, rfl, _, hi, _⟩ := hc
    exact C88_saved_within raw size h ls sck oi hi

/-- The toy tar stream in one go: after "a" 9 of 22 bytes are read, after "b" 21. -/
example : reported (toyTarRun none memEmpty []).2.2.log = [(9, 22), (21, 22)] := by rfl

/-- A run resumed within "a", going on after every save. -/
def progressRun := tarResume seekM (toyTar true) (fun c => (c.offset, 22)) 100 (memSink noFaults) listCons (some tarCk1)
  (Seek.newWithSize ⟨toyStream, 0, fun _ => ⟨0, false, none⟩, 0⟩ 22) tarSink1 [.ok .cont, .ok .cont, .ok .cont]

/-- The checkpoint saved within "b" says 20 of 22. -/
example : progresses progressRun.2.2.log = [(8, 22), (9, 22), (20, 22), (21, 22)] := by rfl

example : stackSize 100 [⟨gzipCfg, toy false false⟩] (stackNew 100 [⟨gzipCfg, toy false false⟩] (Seek.fromBytes [1, 2])) = 2 := rfl

/-- C88_across: the first run saves `tarCk1` with the progress 7 of 22; a run resumed from it goes on from there. -/
example : saves (tarResume seekM (toyTar true) (fun c => (c.offset, 22)) 100 (memSink noFaults) listCons none
      (Seek.newWithSize ⟨toyStream, 0, fun _ => ⟨0, false, none⟩, 0⟩ 22) memEmpty [.ok .stop]).2.2.log = [({ tarCk1 with progress := (7, 22) }, .ok .stop)] ∧
    progresses (tarResume seekM (toyTar true) (fun c => (c.offset, 22)) 100 (memSink noFaults) listCons (some { tarCk1 with progress := (7, 22) })
      (Seek.newWithSize ⟨toyStream, 0, fun _ => ⟨0, false, none⟩, 0⟩ 22) tarSink1 []).2.2.log = [(8, 22), (9, 22), (20, 22), (21, 22)] := ⟨by rfl, by rfl⟩

end Savior
