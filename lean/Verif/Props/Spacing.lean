import Verif.SpacingSmall
import Verif.Spec.Held
import Verif.SpacingTar
import Verif.GzipEnc
import Verif.Inflate
import Verif.Harness
import Verif.Ustar
import Verif.Toy
import Verif.TarToy
/-!
# How much work can be lost (C91)
-/

namespace Savior

/-- **C91**, zip (partly). Extract an archive of stored files, from any checkpoint, with a save consumer that never lets more than
`T` bytes go by without asking for a checkpoint. At any moment (before a `Sync` fails) at most `T` bytes and one copy buffer have been
handed to the current file's writer since the last checkpoint, or since the file was opened. What is missing: the "or" — requests
are forgotten between files (`C91_false_zip`); and compressed members, for which see `C91_deflate_partial`. -/
theorem C91_zip_partial (A : Archive) (hst : ∀ zf ∈ A.files, zf.method = .store) (env : ZEnv) (D : Decomp) (F : Nat) (K : SinkM) (V : SaveCons)
    (ck : Option ECkpt) (k : K.St) (u : V.St) (T : Nat) (hT : AsksWithin V u T) (pre : List Ev)
    (hp : pre <+: (zipResume A env D F K V ck k u).2.log) (hs : SyncsFine pre) : unsavedHere pre ≤ T + 32768 :=
  zipResume_space A env D F ck k u hT hst pre hp hs

/-- **C91**, zip (partly): over all files, the loss is at most that much for each file opened since the checkpoint, and once more. -/
theorem C91_zip_files_partial (A : Archive) (hst : ∀ zf ∈ A.files, zf.method = .store) (env : ZEnv) (D : Decomp) (F : Nat) (K : SinkM) (V : SaveCons)
    (ck : Option ECkpt) (k : K.St) (u : V.St) (T : Nat) (hT : AsksWithin V u T) (pre : List Ev)
    (hp : pre <+: (zipResume A env D F K V ck k u).2.log) (hs : SyncsFine pre) : unsaved pre ≤ (opensSince pre + 1) * (T + 32768) := by
  have h := zipResume_space A env D F ck k u hT hst
  have h1 : Spread (T + 32768) pre := fun p hp2 => h p (hp2.trans hp)
  have := h1.files hs
  have := h1.self hs
  rw [Nat.add_mul]
  omega

/-- Every checkpoint a user can hold is one from which the bound can be proved. -/
theorem ZipHeld.ok {A : Archive} {D : Decomp} (hD : D.Law) (hask : ∀ st, D.ask st = 0) (hsv : ∀ st, D.canSave st = true → D.saveOK st = true) {G : Nat}
    (hst : ∀ zf ∈ A.files, zf.resumable ∧ (zf.method = .deflate → 0 ≤ zf.csize ∧ Strides D G D.start (zipRawBytes A zf))) :
    ∀ {ck}, ZipHeld A D ck → ∀ c, ck = some c → ZipCk A D G c := by
  intro ck h
  induction h with
  | start => nofun
  | save env F K V k u T h hT hm ih =>
    intro c hc
    cases hc
    exact (zipResume_owes A env D hask hsv (fun st hs => (hD.dec_enc st hs).imp id And.left) hst F _ ih k u hT).2 _ hm

/-- **C91**, zip with compressed members (partly). Extract an archive of stored and deflated members, from the beginning or from any checkpoint that an earlier run has
made. If the decompressor gets to a place where it can be saved every `G` bytes, wherever it is in a deflated member, the bound grows by `2 * G`: what it has already put
out when the request is made, and what it puts out until it can serve it. -/
theorem C91_deflate_partial (A : Archive) (env : ZEnv) (D : Decomp) (hD : D.Law) (hask : ∀ st, D.ask st = 0)
    (hsv : ∀ st, D.canSave st = true → D.saveOK st = true) (G : Nat) (hm : ∀ zf ∈ A.files, zf.method = .store ∨ zf.method = .deflate)
    (hst : ∀ zf ∈ A.files, zf.method = .deflate → 0 ≤ zf.csize ∧ Strides D G D.start (zipRawBytes A zf))
    (ck : Option ECkpt) (hck : ZipHeld A D ck)
    (F : Nat) (K : SinkM) (V : SaveCons) (k : K.St) (u : V.St) (T : Nat) (hT : AsksWithin V u T) (pre : List Ev)
    (hp : pre <+: (zipResume A env D F K V ck k u).2.log) (hs : SyncsFine pre) :
    unsavedHere pre ≤ T + 2 * G + 32768 ∧ unsaved pre ≤ (opensSince pre + 1) * (T + 2 * G + 32768) := by
  have hst' : ∀ zf ∈ A.files, zf.resumable ∧ (zf.method = .deflate → 0 ≤ zf.csize ∧ Strides D G D.start (zipRawBytes A zf)) := fun zf hz => ⟨hm zf hz, hst zf hz⟩
  have h := (zipResume_owes (K := K) A env D hask hsv (fun st hs => (hD.dec_enc st hs).imp id And.left) hst' F ck (hck.ok hD hask hsv hst') k u hT).1
  have h1 : Spread (T + 2 * G + 32768) pre := fun p hp2 => h p (hp2.trans hp)
  have a := h1.files hs
  have b := h1.self hs
  refine ⟨b, ?_⟩
  rw [Nat.add_mul]
  omega

/-- **C91**, zip (partly): as `C91_deflate_partial`, with the DEFLATE decoder. -/
theorem C91_inflate_partial (A : Archive) (env : ZEnv) (eg : Bool) (G : Nat) (hm : ∀ zf ∈ A.files, zf.method = .store ∨ zf.method = .deflate)
    (hst : ∀ zf ∈ A.files, zf.method = .deflate → 0 ≤ zf.csize ∧ Strides (inflate eg) G (inflate eg).start (zipRawBytes A zf))
    (ck : Option ECkpt) (hck : ZipHeld A (inflate eg) ck)
    (F : Nat) (K : SinkM) (V : SaveCons) (k : K.St) (u : V.St) (T : Nat) (hT : AsksWithin V u T) (pre : List Ev)
    (hp : pre <+: (zipResume A env (inflate eg) F K V ck k u).2.log) (hs : SyncsFine pre) :
    unsavedHere pre ≤ T + 2 * G + 32768 ∧ unsaved pre ≤ (opensSince pre + 1) * (T + 2 * G + 32768) :=
  C91_deflate_partial A env (inflate eg) (inflate_law eg) (fun _ => rfl) (fun _ _ => rfl) G hm hst ck hck F K V k u T hT pre hp hs

/-- **C91**, tar over a file (partly). As for zip; the tar reader must be able to save its state. -/
theorem C91_tar_partial (Z : TarFmt) (hsv : ∀ st, Z.save st ≠ none) (pr : Ckpt → Int × Int) (F : Nat) (K : SinkM) (V : SaveCons)
    (ck : Option ECkpt) (src : SeekSt) (k : K.St) (u : V.St) (T : Nat) (hT : AsksWithin V u T) (pre : List Ev)
    (hp : pre <+: (tarResume seekM Z pr F K V ck src k u).2.2.log) (hs : SyncsFine pre) :
    unsavedHere pre ≤ T + 32768 ∧ unsaved pre ≤ (opensSince pre + 1) * (T + 32768) := by
  have h := tarResume_space (K := K) pr hsv F ck src k u hT
  have h1 : Spread (T + 32768) pre := fun p hp2 => h p (hp2.trans hp)
  have a := h1.files hs
  have b := h1.self hs
  refine ⟨b, ?_⟩
  rw [Nat.add_mul]
  omega

theorem geo_whole (z : List Byte) (sched : Nat → RsAct) : (⟨z, sched, 0, z.length⟩ : Seek.Geo).stream = z := by
  show (z.drop 0).take z.length = z
  rw [List.drop_zero, List.take_length]

/-- Every checkpoint a user can hold is one from which the bound can be proved. -/
theorem TarHeld.ok {cfg : WrapCfg} {D : Decomp} {Z : TarFmt} {z : List Byte} (hD : D.Law) (hask : ∀ st, D.ask st = 0)
    (hsv : ∀ st, D.canSave st = true → D.saveOK st = true) (hz : ∀ st, Z.save st ≠ none) {G : Nat} (hst : Strides D G D.start z) :
    ∀ {ck}, TarHeld cfg D Z z ck → ∀ c, ck = some c → TarCkOk (FlateCk D G z) c := by
  intro ck h
  induction h with
  | start => nofun
  | save sched F pr K V k u T h hT hm ih =>
    intro c hc
    cases hc
    have := tarResume_wrapped ⟨z, sched, 0, z.length⟩ D G (K := K) cfg hask hsv (fun st hs => (hD.dec_enc st hs).imp id And.left) hz pr F
      (Wrap.new D seekM (Seek.newWithSize ⟨z, 0, sched, 0⟩ z.length)) ⟨rfl, rfl, rfl, rfl⟩ (by rw [geo_whole]; exact hst) _ (by rw [geo_whole]; exact ih) k u hT
    rw [geo_whole] at this
    exact this.2 _ hm

/-- **C91**, compressed tar (partly). Extract a tar archive through a decompressing source (gzip, bzip2, brotli or flate) over a file with the bytes `z`, from
the beginning or from any checkpoint that an earlier run has made. If the decompressor gets to a place where it can be saved every `G` bytes, wherever it is in the file,
the bound grows by `2 * G`, as for zip. -/
theorem C91_compressed_tar_partial (cfg : WrapCfg) (D : Decomp) (hD : D.Law) (hask : ∀ st, D.ask st = 0) (hsv : ∀ st, D.canSave st = true → D.saveOK st = true) (G : Nat)
    (Z : TarFmt) (hz : ∀ st, Z.save st ≠ none) (z : List Byte) (hst : Strides D G D.start z) (ck : Option ECkpt) (hck : TarHeld cfg D Z z ck)
    (sched : Nat → RsAct) (pr : Ckpt → Int × Int) (F : Nat)
    (K : SinkM) (V : SaveCons) (k : K.St) (u : V.St) (T : Nat) (hT : AsksWithin V u T) (pre : List Ev)
    (hp : pre <+: (tarResume (wrapM cfg D seekM F) Z pr F K V ck (Wrap.new D seekM (Seek.newWithSize ⟨z, 0, sched, 0⟩ z.length)) k u).2.2.log) (hs : SyncsFine pre) :
    unsavedHere pre ≤ T + 2 * G + 32768 ∧ unsaved pre ≤ (opensSince pre + 1) * (T + 2 * G + 32768) := by
  have h := (tarResume_wrapped ⟨z, sched, 0, z.length⟩ D G (K := K) cfg hask hsv (fun st hs => (hD.dec_enc st hs).imp id And.left) hz pr F
      (Wrap.new D seekM (Seek.newWithSize ⟨z, 0, sched, 0⟩ z.length)) ⟨rfl, rfl, rfl, rfl⟩ (by rw [geo_whole]; exact hst) ck
      (by rw [geo_whole]; exact hck.ok hD hask hsv hz hst) k u hT).1
  have h1 : Spread (T + 2 * G + 32768) pre := fun p hp2 => h p (hp2.trans hp)
  have a := h1.files hs
  have b := h1.self hs
  refine ⟨b, ?_⟩
  rw [Nat.add_mul]
  omega

/-- **C91**, `.tar.gz` (partly): as `C91_compressed_tar_partial`, with the gzip reader and the ustar reader. -/
theorem C91_targz_partial (eg te : Bool) (G : Nat) (z : List Byte) (hst : Strides (gunzip eg) G (gunzip eg).start z)
    (ck : Option ECkpt) (hck : TarHeld gzipCfg (gunzip eg) (ustar te) z ck) (sched : Nat → RsAct) (pr : Ckpt → Int × Int) (F : Nat)
    (K : SinkM) (V : SaveCons) (k : K.St) (u : V.St) (T : Nat) (hT : AsksWithin V u T) (pre : List Ev)
    (hp : pre <+: (tarResume (wrapM gzipCfg (gunzip eg) seekM F) (ustar te) pr F K V ck
      (Wrap.new (gunzip eg) seekM (Seek.newWithSize ⟨z, 0, sched, 0⟩ z.length)) k u).2.2.log) (hs : SyncsFine pre) :
    unsavedHere pre ≤ T + 2 * G + 32768 ∧ unsaved pre ≤ (opensSince pre + 1) * (T + 2 * G + 32768) :=
  C91_compressed_tar_partial gzipCfg (gunzip eg) (gunzip_law eg) (fun _ => rfl) (fun _ _ => rfl) G (ustar te) (by intro st; cases st <;> nofun) z hst ck hck sched pr F
    K V k u T hT pre hp hs

/-- **C91** is false of archives of small files: extracting such a zip archive hands no checkpoint to the save consumer, however
often it asks. (Members that fit in one buffer and are read at once; members of other methods than store and deflate are never
saved anyway.) -/
theorem C91_small_zip {A : Archive} (hs : ∀ zf ∈ A.files, (zipFileEntry zf).kind = .file → zf.method ≠ .deflate ∧
      (zf.method = .store → 0 ≤ zf.csize ∧ zf.csize ≤ 32768 ∧ zf.dataOff + zf.csize ≤ (A.bytes.length : Int)))
    {env : ZEnv} (hf : ∀ i t, env.sched i t = .full) (D : Decomp) (F : Nat) (K : SinkM) (V : SaveCons) (k : K.St) (u : V.St) :
    savedCks (zipResume A env D F K V none k u).2.log = [] := by
  rw [savedCks, zipResume_small D F hf hs k u]; rfl

/-- **C91** is false: no amount bounds what can be lost. For every `B` there is a zip archive of stored files whose extraction
succeeds, whatever the save consumer asks for, without a single checkpoint in `B` bytes. -/
theorem C91_false_zip (B : Nat) : ∃ A env, (∀ zf ∈ A.files, zf.method = .store) ∧ ∀ (D : Decomp) (V : SaveCons) (u : V.St),
    (∃ es, (zipResume A env D 2 nopSink V none () u).1 = .ok es) ∧ savedCks (zipResume A env D 2 nopSink V none () u).2.log = [] ∧
    unsaved (zipResume A env D 2 nopSink V none () u).2.log = B := by
  refine ⟨tinyArchive B, fullEnv, ?_, fun D V u => ⟨(tiny_run B D 0 u).1, C91_small_zip ?_ (fun _ _ => rfl) D 2 nopSink V () u, (tiny_run B D 0 u).2⟩⟩
  · intro zf hz
    simp only [tinyArchive, List.mem_map] at hz
    obtain ⟨j, _, rfl⟩ := hz
    rfl
  · intro zf hz _
    simp only [tinyArchive, List.mem_map] at hz
    obtain ⟨j, _, rfl⟩ := hz
    exact ⟨nofun, fun _ => tiny_small B j⟩

/-- A consumer that asks for a checkpoint after every chunk. -/
def eagerCons : SaveCons := ⟨Unit, fun _ u => (true, u), fun _ u => (.ok .cont, u)⟩

theorem eager_asks (u : Unit) : AsksWithin eagerCons u 0 := by
  intro v ns w _ h
  cases h with
  | nil => simp
  | snoc n _ h => cases h

/-- The repository's own counting consumer keeps its promise. -/
theorem testCons_asks (T : Nat) (Q : Asker) (x : Q.St) : AsksWithin (testCons T Q) ⟨0, x, none⟩ T := by
  intro v ns w hr hn
  have key : ∀ {v ns w}, SaysNo (testCons T Q) v ns w → (ns = [] ∧ w = v) ∨ (HSt.c w = HSt.c v + (ns.sum : Nat) ∧ HSt.c w ≤ T) := by
    intro v ns w h
    induction h with
    | nil => exact Or.inl ⟨rfl, rfl⟩
    | @snoc ns w n h1 h2 ih =>
      right
      replace h2 : decide (HSt.c w + (n : Int) > T) = false := h2
      have h2 := of_decide_eq_false h2
      refine ⟨?_, ?_⟩
      · show HSt.c w + (n : Int) = _
        rcases ih with ⟨rfl, rfl⟩ | ⟨a, _⟩
        · simp
        · rw [a]; simp; omega
      · show HSt.c w + (n : Int) ≤ T
        omega
  have hpos : ∀ {v}, ConsReach (testCons T Q) ⟨0, x, none⟩ v → 0 ≤ HSt.c v := by
    intro v h
    induction h with
    | start => exact Int.le_refl 0
    | @ask v n _ ih =>
      show 0 ≤ HSt.c v + (n : Int)
      omega
    | @save v ck _ ih =>
      have : HSt.c ((testCons T Q).save ck v).2 = 0 := by
        show HSt.c (if (Q.ask (HSt.ask v)).1 then _ else _ : Except Err Action × HSt Q.St).2 = 0
        split <;> rfl
      omega
  have := hpos hr
  rcases key hn with ⟨rfl, _⟩ | ⟨a, b⟩
  · simp
  · omega

/-- The tar archive for `C91_unserved_tar`: three files of a few bytes. -/
def slabTar : List Byte := ustarWrite [(⟨[97], 3, 0o644, .reg, []⟩, [1, 2, 3]), (⟨[98], 2, 0o644, .reg, []⟩, [4, 5]), (⟨[99], 4, 0o644, .reg, []⟩, [6, 7, 8, 9])]

theorem slab_run : let r := tarResume seekM (ustar true) (fun _ => (0, 1)) 100 nopSink eagerCons none (Seek.fromBytes slabTar) () ()
    (match r.1 with | .ok es => es.length | .error _ => 0) = 3 ∧ (savedCks r.2.2.log).length = 0 ∧ unsaved r.2.2.log = 9 := by decide +kernel

/-- **C91**, tar: requests are forgotten between files here too. A consumer that asks for a checkpoint after every chunk gets none
in the extraction of three small files. -/
theorem C91_unserved_tar : ∃ bytes es, (tarResume seekM (ustar true) (fun _ => (0, 1)) 100 nopSink eagerCons none (Seek.fromBytes bytes) () ()).1 = .ok es ∧
    es.length = 3 ∧ savedCks (tarResume seekM (ustar true) (fun _ => (0, 1)) 100 nopSink eagerCons none (Seek.fromBytes bytes) () ()).2.2.log = [] ∧
    unsaved (tarResume seekM (ustar true) (fun _ => (0, 1)) 100 nopSink eagerCons none (Seek.fromBytes bytes) () ()).2.2.log = 9 := by
  obtain ⟨a, b, c⟩ := slab_run
  refine ⟨slabTar, ?_⟩
  generalize tarResume seekM (ustar true) (fun _ => (0, 1)) 100 nopSink eagerCons none (Seek.fromBytes slabTar) () () = r at *
  obtain ⟨re, s, w⟩ := r
  cases re with
  | error e => simp at a
  | ok es => exact ⟨es, rfl, a, List.length_eq_zero_iff.mp b, c⟩

/-- The hypotheses are met: the toy archive of stored files, extracted with a consumer that asks within 0 bytes, gets checkpoints. -/
example : (∀ zf ∈ (tinyArchive 3).files, zf.method = .store) ∧ AsksWithin eagerCons () 0 := ⟨by decide, eager_asks ()⟩

/-- `Strides`, computed. -/
def stridesB (D : Decomp) (G : Nat) (st : D.St) : List Byte → Bool
  | [] => true
  | b :: z => decide (stride D st (b :: z) ≤ G) && match D.feed st b with | none => true | some (st', _) => stridesB D G st' z

theorem stridesB_sound (D : Decomp) (G : Nat) : ∀ (z : List Byte) (st : D.St), stridesB D G st z = true → Strides D G st z
  | [], _, _ => trivial
  | b :: z, st, h => by
    simp only [stridesB, Bool.and_eq_true, decide_eq_true_eq] at h
    refine ⟨h.1, fun st' out hf => ?_⟩
    have h2 := h.2
    rw [hf] at h2
    exact stridesB_sound D G z st' h2

/-- Three stored blocks of DEFLATE, of 2, 3 and 1 bytes. -/
def blocksZ : List Byte := [0, 2, 0, 253, 255, 1, 2, 0, 3, 0, 252, 255, 3, 4, 5, 1, 1, 0, 254, 255, 6]

/-- It is never more than three bytes to the end of a block, and not always two. -/
example : Strides (inflate true) 3 (inflate true).start blocksZ ∧ ¬ Strides (inflate true) 2 (inflate true).start blocksZ := by
  refine ⟨stridesB_sound _ _ _ _ (by decide +kernel), fun h => ?_⟩
  have e : ∀ (z : List Byte) (st : ISt), Strides (inflate true) 2 st z → stridesB (inflate true) 2 st z = true := by
    intro z
    induction z with
    | nil => intro st _; rfl
    | cons b z ih =>
      intro st h
      simp only [stridesB, Bool.and_eq_true, decide_eq_true_eq]
      refine ⟨h.1, ?_⟩
      cases hf : (inflate true).feed st b with
      | none => rfl
      | some p => exact ih _ (h.2 p.1 p.2 hf)
  have := e _ _ h
  revert this
  decide +kernel

/-- Extracting it with a consumer that always asks: checkpoints are made in the member. -/
example : let A : Archive := ⟨blocksZ, [⟨[97], .deflate, false, 21, 6, 0o644, 0, ([], true)⟩]⟩
    let r := zipResume A { fullEnv with sched := fun _ _ => ⟨0, false, none⟩ } (inflate true) 100 nopSink eagerCons none () ()
    (savedCks r.2.log).length = 2 ∧ unsavedHere r.2.log = 1 := by decide +kernel

/-- The tar format of the examples can save any state. -/
example : ∀ st, (ustar true).save st ≠ none := by intro st; cases st <;> nofun

/-- A stored file, read a byte at a time: there is a checkpoint, and then two bytes more. -/
example : let A : Archive := ⟨[1, 2, 3], [⟨[97], .store, false, 3, 3, 0o644, 0, ([], true)⟩]⟩
    let r := zipResume A { fullEnv with sched := fun _ _ => ⟨0, false, none⟩ } (toy false false) 9 nopSink eagerCons none () ()
    (savedCks r.2.log).length = 2 ∧ unsavedHere r.2.log = 1 := by decide +kernel

/-- C91 applied: of the archive of two blocks, extracted with a consumer that always asks, a crash never costs more than the six bytes a request can
wait, and one buffer; of an archive of two stored files, one buffer per file. -/
example (env : ZEnv) (K : SinkM) (k : K.St) (F : Nat) (pre : List Ev)
    (ck : Option ECkpt) (hck : ZipHeld ⟨blocksZ, [⟨[97], .deflate, false, 21, 6, 0o644, 0, ([], true)⟩]⟩ (inflate true) ck)
    (hp : pre <+: (zipResume ⟨blocksZ, [⟨[97], .deflate, false, 21, 6, 0o644, 0, ([], true)⟩]⟩ env (inflate true) F K eagerCons ck k ()).2.log)
    (hs : SyncsFine pre) : unsavedHere pre ≤ 0 + 2 * 3 + 32768 :=
  (C91_inflate_partial ⟨blocksZ, [⟨[97], .deflate, false, 21, 6, 0o644, 0, ([], true)⟩]⟩ env true 3 (by simp)
    (by
      intro zf hz _
      simp only [List.mem_singleton] at hz
      subst hz
      exact ⟨by decide, stridesB_sound _ _ _ _ (by decide +kernel)⟩)
    ck hck F K eagerCons k () 0 (eager_asks ()) pre hp hs).1

example (env : ZEnv) (D : Decomp) (K : SinkM) (k : K.St) (F : Nat) (ck : Option ECkpt) (pre : List Ev)
    (hp : pre <+: (zipResume (tinyArchive 3) env D F K eagerCons ck k ()).2.log) (hs : SyncsFine pre) :
    unsavedHere pre ≤ 0 + 32768 ∧ unsaved pre ≤ (opensSince pre + 1) * (0 + 32768) :=
  ⟨C91_zip_partial (tinyArchive 3) (by decide) env D F K eagerCons ck k () 0 (eager_asks ()) pre hp hs,
    C91_zip_files_partial (tinyArchive 3) (by decide) env D F K eagerCons ck k () 0 (eager_asks ()) pre hp hs⟩

/-- And such a prefix exists at which something is unsaved. -/
example : ∃ pre, pre <+: (zipResume (tinyArchive 3) fullEnv (toy false false) 9 nopSink eagerCons none () ()).2.log ∧ SyncsFine pre ∧ 0 < unsavedHere pre := by
  refine ⟨_, List.prefix_refl _, ?_, by decide +kernel⟩
  intro e h
  have : ∀ ev ∈ (zipResume (tinyArchive 3) fullEnv (toy false false) 9 nopSink eagerCons none () ()).2.log,
      (match ev with | .sync (some _) => false | _ => true) = true := by decide +kernel
  exact absurd (this _ h) nofun

/-- A tar archive of one member of six bytes (in the small format for examples), compressed with gzip in four stored blocks: the header and the first byte; two bytes; two
bytes; the last byte and the end. -/
def spacedTgz : List Byte :=
  [31, 139, 8, 0, 0, 0, 0, 0, 0, 255] ++ (storedBlock false [1, 97, 6, 1] ++ (storedBlock false [2, 3] ++ (storedBlock false [4, 5] ++ (storedBlock true [6, 0] ++
    (le4 (crc32 [1, 97, 6, 1, 2, 3, 4, 5, 6, 0]) ++ le4 10)))))

theorem spacedTgz_strides : Strides (gunzip true) 4 (gunzip true).start spacedTgz := stridesB_sound _ _ _ _ (by decide +kernel)

/-- Extracted with a consumer that always asks, it gets a checkpoint after the second and the third block. -/
example :
    let s := Wrap.new (gunzip true) seekM (Seek.fromBytes spacedTgz)
    let r := tarResume (wrapM gzipCfg (gunzip true) seekM 100) (toyTar true) (fun _ => (0, 1)) 100 nopSink eagerCons none s () ()
    (match r.1 with | .ok es => es.length | .error _ => 0) = 1 ∧ (savedCks r.2.2.log).length = 2 ∧ unsavedHere r.2.2.log = 1 := by decide +kernel

/-- The two checkpoints. -/
def spacedCks : List ECkpt :=
  savedCks (tarResume (wrapM gzipCfg (gunzip true) seekM 100) (toyTar true) (fun _ => (0, 1)) 100 nopSink eagerCons none
    (Wrap.new (gunzip true) seekM (Seek.newWithSize ⟨spacedTgz, 0, fun _ => .full, 0⟩ spacedTgz.length)) () ()).2.2.log

example : spacedCks.map (fun ck => match ck.srcCk with | some (.dec _ o (some (.plain p)) _ d) => (o, p, d.roff) | _ => (0, 0, 0)) = [(6, 25, 26), (8, 32, 33)] := by decide +kernel

theorem spacedCks_held (ck : ECkpt) (h : ck ∈ spacedCks) : TarHeld gzipCfg (gunzip true) (toyTar true) spacedTgz (some ck) :=
  .save (fun _ => .full) 100 (fun _ => (0, 1)) nopSink eagerCons () () 0 .start (eager_asks ()) h

/-- C91 applied: from the beginning or from either of them. -/
example (K : SinkM) (k : K.St) (F : Nat) (pr : Ckpt → Int × Int) (sched : Nat → RsAct) (pre : List Ev) (ck : Option ECkpt) (hck : ∀ c, ck = some c → c ∈ spacedCks)
    (hp : pre <+: (tarResume (wrapM gzipCfg (gunzip true) seekM F) (toyTar true) pr F K eagerCons ck
      (Wrap.new (gunzip true) seekM (Seek.newWithSize ⟨spacedTgz, 0, sched, 0⟩ spacedTgz.length)) k ()).2.2.log)
    (hs : SyncsFine pre) : unsavedHere pre ≤ 0 + 2 * 4 + 32768 :=
  (C91_compressed_tar_partial gzipCfg (gunzip true) (gunzip_law true) (fun _ => rfl) (fun _ _ => rfl) 4 (toyTar true) (by intro st; cases st <;> nofun)
    spacedTgz spacedTgz_strides ck (by cases ck with | none => exact .start | some c => exact spacedCks_held c (hck c rfl)) sched pr F
    K eagerCons k () 0 (eager_asks ()) pre hp hs).1

/-- So is the version for real `.tar.gz` files. -/
example (K : SinkM) (k : K.St) (F : Nat) (pr : Ckpt → Int × Int) (sched : Nat → RsAct) (pre : List Ev)
    (hp : pre <+: (tarResume (wrapM gzipCfg (gunzip true) seekM F) (ustar true) pr F K eagerCons none
      (Wrap.new (gunzip true) seekM (Seek.newWithSize ⟨spacedTgz, 0, sched, 0⟩ spacedTgz.length)) k ()).2.2.log)
    (hs : SyncsFine pre) : unsavedHere pre ≤ 0 + 2 * 4 + 32768 :=
  (C91_targz_partial true true 4 spacedTgz spacedTgz_strides none .start sched pr F K eagerCons k () 0 (eager_asks ()) pre hp hs).1

/-- The checkpoint the run of the two-block archive makes first. -/
def blocksCks : List ECkpt :=
  savedCks (zipResume ⟨blocksZ, [⟨[97], .deflate, false, 21, 6, 0o644, 0, ([], true)⟩]⟩ { fullEnv with sched := fun _ _ => ⟨0, false, none⟩ } (inflate true) 100 nopSink
    eagerCons none () ()).2.log

example : blocksCks.length = 2 ∧ ∀ ck ∈ blocksCks, ZipHeld ⟨blocksZ, [⟨[97], .deflate, false, 21, 6, 0o644, 0, ([], true)⟩]⟩ (inflate true) (some ck) :=
  ⟨by decide +kernel, fun _ h => .save _ 100 nopSink eagerCons () () 0 .start (eager_asks ()) h⟩

end Savior
