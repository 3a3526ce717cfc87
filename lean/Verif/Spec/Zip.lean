import Verif.Spec.Sink
import Verif.Zip
/-!
# Specification of zip extraction

What an archive stands for, independently of how it is extracted; chains of stopped and resumed runs.
-/

namespace Savior

/-- The stored bytes of a member. -/
def zipRawBytes (A : Archive) (zf : ZFile) : List Byte := (A.bytes.drop zf.dataOff).take zf.csize.toNat

/-- The content of a member, and whether it is well-formed. -/
def zipContent (A : Archive) (D : Decomp) (zf : ZFile) : List Byte × Bool :=
  match zf.method with
  | .store => (zipRawBytes A zf, true)
  | .deflate => D.decode D.start (zipRawBytes A zf) true
  | _ => zf.opened

/-- What extracting one member does to a sink. -/
def zipPut {K : SinkM} (M : SinkLaw K) (A : Archive) (D : Decomp) (v : M.W) (zf : ZFile) : M.W :=
  match (zipFileEntry zf).kind with
  | .dir => M.mkdir (zipFileEntry zf) v
  | .symlink => M.symlink (zipFileEntry zf) zf.opened.1 v
  | .file => M.write (zipContent A D zf).1 (M.open_ (zipFileEntry zf) v)

/-- What preallocating does to a sink. -/
def zipPre {K : SinkM} (M : SinkLaw K) (v : M.W) (zf : ZFile) : M.W :=
  if (zipFileEntry zf).kind = .file then M.prealloc (zipFileEntry zf) v else v

/-- The sink after extracting the whole archive in one go. -/
def zipIdeal {K : SinkM} (M : SinkLaw K) (A : Archive) (D : Decomp) (v : M.W) : M.W :=
  A.files.foldl (zipPut M A D) (A.files.foldl (zipPre M) v)

/-- The environment tells the truth about members opened through the zip package: what it delivers before EOF is the
member's content (the package checks the checksum). -/
def ZEnv.Honest (A : Archive) (env : ZEnv) : Prop :=
  ∀ (i : Nat) (zf : ZFile), A.files[i]? = some zf → ∀ chunks, env.opens i = .ok (chunks, none) → chunks.flatten = zf.opened.1

/-- The saves of a run: checkpoints handed to `SaveConsumer.Save` and its answers, in order. -/
def saves : List Ev → List (ECkpt × Except Err Action)
  | [] => []
  | .save ck a :: t => (ck, a) :: saves t
  | _ :: t => saves t

/-- The last checkpoint handed to the save consumer. -/
def lastSave (log : List Ev) : Option ECkpt := (saves log).getLast?.map (·.1)

/-- The checkpoints handed to the save consumer, in order. -/
def savedCks (log : List Ev) : List ECkpt := (saves log).map (·.1)

/-- Sink and last checkpoint reachable from `(ck, k)` by any number of runs, each of which was stopped by its save
consumer and is resumed from the last checkpoint it saved, into the same sink object or (in a new process) into a new one
over the same storage. Consumers and environments may differ from run to run. -/
inductive ZipStops (A : Archive) (D : Decomp) (F : Nat) (K : SinkM) (ck : Option ECkpt) (k : K.St) : Option ECkpt → K.St → Prop
  | refl : ZipStops A D F K ck k ck k
  | step {ck1 k1 ck2 k2} (env : ZEnv) (V : SaveCons) (u : V.St) : env.Honest A →
      ZipStops A D F K ck k ck1 k1 →
      (zipResume A env D F K V ck1 k1 u).1 = .error .stop →
      lastSave (zipResume A env D F K V ck1 k1 u).2.log = some ck2 →
      K.Next (zipResume A env D F K V ck1 k1 u).2.sink k2 →
      ZipStops A D F K ck k (some ck2) k2

/-- Step budget that suffices for a member. -/
def zipBudget (A : Archive) (D : Decomp) (zf : ZFile) : Nat := (zipContent A D zf).1.length + 2 * zf.csize.toNat + 4

/-- Assumptions on archive and decompressor: recorded sizes fit int64, and the step budget is large enough. -/
structure ZipWF (A : Archive) (D : Decomp) (F : Nat) : Prop where
  law : D.Law
  csize : ∀ zf ∈ A.files, 0 ≤ zf.csize
  budget : ∀ zf ∈ A.files, zipBudget A D zf ≤ F

/-- The decompressor never refuses a checkpoint of its own. -/
def Decomp.Exact (D : Decomp) : Prop := ∀ st, D.canSave st = true → D.dec (D.enc st) = some st

/-- Where in the archive a checkpoint is: member, offset within the member's data. -/
def ckPos (ck : ECkpt) : Int × Int := (ck.entryIndex, match ck.srcCk with | some c => c.offset | none => 0)

/-- Strictly later / not earlier in the archive. -/
def posLt (p q : Int × Int) : Prop := p.1 < q.1 ∨ (p.1 = q.1 ∧ p.2 < q.2)
def posLe (p q : Int × Int) : Prop := p.1 < q.1 ∨ (p.1 = q.1 ∧ p.2 ≤ q.2)

/-- Checkpoints handed to some save consumer by the last of `n` runs, the first of which started from nothing and each
later one from a checkpoint saved by the previous one. Sinks (satisfying `Q`), consumers and read schedules are arbitrary,
and may differ from run to run. -/
inductive ZipSaved (A : Archive) (D : Decomp) (F : Nat) (Q : SinkM → Prop) : Nat → ECkpt → Prop
  | first (env : ZEnv) (K : SinkM) (V : SaveCons) (k : K.St) (u : V.St) {c a} : Q K →
      (c, a) ∈ saves (zipResume A env D F K V none k u).2.log → ZipSaved A D F Q 1 c
  | again (env : ZEnv) (K : SinkM) (V : SaveCons) (k : K.St) (u : V.St) {n c0 c a} : Q K →
      ZipSaved A D F Q n c0 → (c, a) ∈ saves (zipResume A env D F K V (some c0) k u).2.log → ZipSaved A D F Q (n + 1) c

/-- Number of positions of an archive: every member contributes its content's length plus one. -/
def zipPositions (A : Archive) (D : Decomp) : Nat := (A.files.map fun zf => (zipContent A D zf).1.length + 1).sum

/-- The entry a sink call other than preallocation is about. -/
def Ev.touched : Ev → Option Entry
  | .mkdir e _ => some e
  | .symlink e _ _ => some e
  | .openW e _ => some e
  | _ => none

/-- `e` is the entry of member `zf`, up to the write offset. -/
def EntryOf (zf : ZFile) (e : Entry) : Prop := ∃ x, e = { zipFileEntry zf with woff := x }

/-- A checkpoint an extraction may be resumed from: none, or one saved by an earlier run (into sinks satisfying `Q`). -/
def ZipStart (A : Archive) (D : Decomp) (F : Nat) (Q : SinkM → Prop) (ck : Option ECkpt) : Prop :=
  ∀ c, ck = some c → ∃ n, ZipSaved A D F Q n c

/-- The member a run starts with. -/
def startIndex (ck : Option ECkpt) : Nat := match ck with | some c => c.entryIndex.toNat | none => 0

/-- A writer that reports success advances `WriteOffset` by at most what it was given. -/
def SinkM.Counting (K : SinkM) : Prop := ∀ bs s, (K.write bs s).1.2.2 = none → 0 ≤ (K.write bs s).1.2.1 ∧ (K.write bs s).1.2.1 ≤ bs.length

/-- A writer that reports success advances `WriteOffset` by exactly what it was given. -/
def SinkM.Precise (K : SinkM) : Prop := ∀ bs s, (K.write bs s).1.2.2 = none → (K.write bs s).1.2.1 = bs.length

/-- The recorded sizes are true, and their sum fits int64. -/
structure ZipTruthful (A : Archive) (D : Decomp) : Prop where
  pos : ∀ zf ∈ A.files, 0 ≤ zf.usize
  size : ∀ zf ∈ A.files, (zipFileEntry zf).kind = .file → zf.usize = (zipContent A D zf).1.length
  total : (A.files.map (·.usize)).sum < 2 ^ 63

/-- All progress values reported during a run, in order: those in checkpoints and those given to `EmitProgress`.
Numerator and denominator. -/
def progresses : List Ev → List (Int × Int)
  | [] => []
  | .save ck _ :: t => ck.progress :: progresses t
  | .progress p :: t => p :: progresses t
  | _ :: t => progresses t

/-- A sink that works: in states satisfying `OK` every call succeeds, and in states satisfying `Open` (after a
successful `GetWriter`) so do writes. -/
structure GoodSink (K : SinkM) where
  OK : K.St → Prop
  Open : K.St → Prop
  open_ok : ∀ s, Open s → OK s
  mkdir : ∀ e s, OK s → (K.mkdir e s).1 = none ∧ OK (K.mkdir e s).2
  symlink : ∀ e t s, OK s → (K.symlink e t s).1 = none ∧ OK (K.symlink e t s).2
  prealloc : ∀ e s, OK s → (K.preallocate e s).1 = none ∧ OK (K.preallocate e s).2
  getWriter : ∀ e s, OK s → 0 ≤ e.woff → (K.getWriter e s).1 = none ∧ Open (K.getWriter e s).2
  write : ∀ bs s, Open s → (K.write bs s).1.2.2 = none ∧ (K.write bs s).1.1 = bs.length ∧ Open (K.write bs s).2
  sync : ∀ s, Open s → (K.sync s).1 = none ∧ Open (K.sync s).2
  close : ∀ s, OK s → OK (K.closeWriter s)
  reborn : ∀ s, OK s → OK (K.reborn s)

/-- A save consumer that does not fail. -/
def SaveCons.Good (V : SaveCons) : Prop := ∀ ck u, ∃ a, (V.save ck u).1 = .ok a

/-- An environment without faults. -/
structure ZEnv.Good (A : Archive) (env : ZEnv) : Prop where
  noFault : ∀ i, NoFault (env.sched i)
  lazy : ∀ i, LazySched (env.sched i)
  dataOff : ∀ i, env.dataOff i = none
  opens : ∀ i, i < A.files.length → ∃ chunks, env.opens i = .ok (chunks, none)

/-- An archive without encrypted members. -/
def ZipPlain (A : Archive) : Prop := ∀ zf ∈ A.files, zf.encrypted = false

/-- An archive whose data is well-formed, and a decompressor whose checkpoints work. -/
structure ZipSound (A : Archive) (D : Decomp) : Prop where
  clean : ∀ zf ∈ A.files, (zipContent A D zf).2 = true
  exact : D.Exact
  saveOK : ∀ st, D.canSave st = true → D.saveOK st = true

/-- The next sink object. -/
def SinkM.next (K : SinkM) (anew : Bool) (s : K.St) : K.St := if anew then K.reborn s else s

/-- Resuming over and over, at most `n` times, from the last checkpoint saved, as long as the extraction says it was
stopped. `envs` and `us` are the environment and the consumer's state at the start of each run; `anew` says whether the
process is restarted after it, so that the next run is given a new sink object over the same storage. -/
def zipDrive (A : Archive) (D : Decomp) (F : Nat) (K : SinkM) (V : SaveCons) (envs : Nat → ZEnv) (us : Nat → V.St) (anew : Nat → Bool) :
    Nat → Option ECkpt → K.St → Except Err (List Entry) × K.St
  | 0, _, k => (.error .stop, k)
  | n + 1, ck, k =>
    match (zipResume A (envs n) D F K V ck k (us n)).1 with
    | .error .stop => zipDrive A D F K V envs us anew n ((lastSave (zipResume A (envs n) D F K V ck k (us n)).2.log).or ck)
        (K.next (anew n) (zipResume A (envs n) D F K V ck k (us n)).2.sink)
    | r => (r, (zipResume A (envs n) D F K V ck k (us n)).2.sink)

end Savior
