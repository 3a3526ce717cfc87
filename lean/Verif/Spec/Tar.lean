import Verif.Tar
import Verif.Spec.Zip
import Verif.Spec.Failures
/-!
# Specification of tar extraction

What a tar stream stands for, independently of how it is read; chains of stopped and resumed runs.
-/

namespace Savior

/-- What a header says about its member, as an entry. -/
def THdr.recorded (h : THdr) : Entry where
  path := h.name
  kind := if h.typ = .dir then .dir else if h.typ = .symlink then .symlink else .file
  mode := h.mode
  csize := 0
  usize := h.size
  woff := 0
  link := if h.typ = .symlink then h.link else []

/-- Assumptions on the tar package: it asks for at least one byte at a time, does not care how its input is cut into
pieces, keeps asking until it got what it asked for, serves members byte by byte, and a checkpoint it made leads back to
the state it was made in (or is refused). -/
structure TarFmt.Law (T : TarFmt) : Prop where
  ask_pos : ∀ {st n}, T.want st = .more n → 0 < n
  feed_nil : ∀ st, T.feed [] st = st
  feed_append : ∀ {st n xs ys}, T.want st = .more n → xs.length + ys.length ≤ n → T.feed (xs ++ ys) st = T.feed ys (T.feed xs st)
  ask_rest : ∀ {st n xs}, T.want st = .more n → xs.length < n → ∃ m, T.want (T.feed xs st) = .more m ∧ n - xs.length ≤ m
  start_asks : ∃ n, T.want T.start = .more n
  member_asks : ∀ st k, ∃ n, T.want (T.take k (T.opened st)) = .more n
  take_zero : ∀ st, T.take 0 st = st
  take_take : ∀ st a b, T.take b (T.take a st) = T.take (a + b) st
  rem_take : ∀ st k, T.rem (T.take k st) = T.rem st - k
  save_dec : ∀ st im, T.save st = some im → T.dec im = none ∨ T.dec im = some st

/-- Looking for the next header in a stream, byte by byte. `clean` says whether the stream ends with EOF (rather than
with an error). The outcomes: `none` — truncated or malformed; `some none` — end of the archive; otherwise the header,
the parser state after it, and the rest of the stream. -/
def nextSpec (T : TarFmt) (clean : Bool) : T.St → List Byte → Option (Option (THdr × T.St × List Byte))
  | st, Y => match T.want st with
    | .hdr h => some (some (h, T.opened st, Y))
    | .done => some none
    | .bad => none
    | .more _ => match Y with
      | [] => if clean && T.eofOK st then some none else none
      | b :: Y' => nextSpec T clean (T.feed [b] st) Y'

/-- Reading members one after the other: from parser state `st` in front of the stream `Y`, the members `ms` (header and
content) lead to state `st'` in front of `Y'`. Only the content of regular files is looked at. -/
inductive TarPath (T : TarFmt) (clean : Bool) (st : T.St) (Y : List Byte) : List (THdr × List Byte) → T.St → List Byte → Prop
  | nil : TarPath T clean st Y [] st Y
  | file {ms st1 Y1 h st2 Y2} : TarPath T clean st Y ms st1 Y1 → nextSpec T clean st1 Y1 = some (some (h, st2, Y2)) →
      h.typ = .reg → T.rem st2 ≤ Y2.length →
      TarPath T clean st Y (ms ++ [(h, Y2.take (T.rem st2))]) (T.take (T.rem st2) st2) (Y2.drop (T.rem st2))
  | other {ms st1 Y1 h st2 Y2} : TarPath T clean st Y ms st1 Y1 → nextSpec T clean st1 Y1 = some (some (h, st2, Y2)) →
      h.typ ≠ .reg → TarPath T clean st Y (ms ++ [(h, [])]) st2 Y2

/-- The stream `Y` is a complete, well-formed archive with the members `ms`. -/
def TarHas (T : TarFmt) (clean : Bool) (Y : List Byte) (ms : List (THdr × List Byte)) : Prop :=
  ∃ st Y', TarPath T clean T.start Y ms st Y' ∧ nextSpec T clean st Y' = some none

/-- What extracting one member does to a sink. -/
def tarPut {K : SinkM} (M : SinkLaw K) (v : M.W) (m : THdr × List Byte) : M.W :=
  match m.1.typ with
  | .dir => M.mkdir (tarEntryOf m.1) v
  | .symlink => M.symlink (tarEntryOf m.1) m.1.link v
  | .reg => M.write m.2 (M.open_ (tarEntryOf m.1) v)
  | .other => v

/-- The sink after extracting the members in one go. -/
def tarIdeal {K : SinkM} (M : SinkLaw K) (ms : List (THdr × List Byte)) (v : M.W) : M.W := ms.foldl (tarPut M) v

/-- The entry of a regular file with `n` bytes written. -/
def tarEntryAt {K : SinkM} (M : SinkLaw K) (h : THdr) (n : Nat) : Entry :=
  { tarEntryOf h with woff := if M.counts (tarEntryOf h) then (n : Int) else 0 }

/-- The entries the result lists: the regular files, in archive order. -/
def tarListed {K : SinkM} (M : SinkLaw K) (ms : List (THdr × List Byte)) : List Entry :=
  (ms.filter fun m => m.1.typ = .reg).map fun m => tarEntryAt M m.1 m.2.length

/-- A source that may be used for a run over the stream `Y`: some implementation of `Source` that obeys the contract of
resumable sources and runs the save callback at most once per `Read`, whose checkpoints are those of the family `Ck`, in a state
it may be resumed in. -/
structure TarSrc (Y : List Byte) (clean : Bool) (Ck : Ckpt → Nat → Prop) (F : Nat) where
  S : SourceM
  L : Lawful S Y clean
  src : S.St
  good : L.Good src
  family : ∀ c o, L.CkFor c o ↔ Ck c o
  budget : 2 * L.rankMax + 3 ≤ F
  conduit : S.Conduit

/-- A run of the tar extractor. -/
def tarRun {Y : List Byte} {clean : Bool} {Ck : Ckpt → Nat → Prop} {F : Nat} (X : TarSrc Y clean Ck F) (T : TarFmt)
    (pr : Ckpt → Int × Int) (K : SinkM) (V : SaveCons) (ck : Option ECkpt) (k : K.St) (u : V.St) :
    Except Err (List Entry) × X.S.St × XW K V :=
  tarResume X.S T pr F K V ck X.src k u

/-- Sink and last checkpoint reachable from `(ck, k)` by any number of runs, each of which was stopped by its save
consumer and is resumed from the last checkpoint it saved, into the same sink object or (in a new process) into a new one
over the same storage. Consumers, and sources over the same stream (with their read
schedules and faults), may differ from run to run. -/
inductive TarStops (Y : List Byte) (clean : Bool) (Ck : Ckpt → Nat → Prop) (F : Nat) (T : TarFmt) (K : SinkM)
    (ck : Option ECkpt) (k : K.St) : Option ECkpt → K.St → Prop
  | refl : TarStops Y clean Ck F T K ck k ck k
  | step {ck1 k1 ck2 k2} (X : TarSrc Y clean Ck F) (pr : Ckpt → Int × Int) (V : SaveCons) (u : V.St) :
      TarStops Y clean Ck F T K ck k ck1 k1 →
      (tarRun X T pr K V ck1 k1 u).1 = .error .stop →
      lastSave (tarRun X T pr K V ck1 k1 u).2.2.log = some ck2 →
      K.Next (tarRun X T pr K V ck1 k1 u).2.2.sink k2 →
      TarStops Y clean Ck F T K ck k (some ck2) k2

/-- Where in the tar stream a checkpoint is. -/
def tarOffset (ck : ECkpt) : Int := match ck.data with | some ⟨_, some t⟩ => t.roff | _ => 0

/-- Checkpoints handed to some save consumer by the last of `n` runs, the first of which started from nothing and each
later one from a checkpoint saved by the previous one. Sinks, consumers and sources over the same stream may differ from
run to run. With `quiet`, every run is given a source with no save request pending (such as a new one). -/
inductive TarSaved (Y : List Byte) (clean : Bool) (Ck : Ckpt → Nat → Prop) (F : Nat) (T : TarFmt) (quiet : Prop) : Nat → ECkpt → Prop
  | first (X : TarSrc Y clean Ck F) (pr : Ckpt → Int × Int) (K : SinkM) (V : SaveCons) (k : K.St) (u : V.St) {c a} :
      (quiet → X.L.Quiet X.src) → (c, a) ∈ saves (tarRun X T pr K V none k u).2.2.log → TarSaved Y clean Ck F T quiet 1 c
  | again (X : TarSrc Y clean Ck F) (pr : Ckpt → Int × Int) (K : SinkM) (V : SaveCons) (k : K.St) (u : V.St) {n c0 c a} :
      (quiet → X.L.Quiet X.src) → TarSaved Y clean Ck F T quiet n c0 →
      (c, a) ∈ saves (tarRun X T pr K V (some c0) k u).2.2.log → TarSaved Y clean Ck F T quiet (n + 1) c

/-- A checkpoint a tar extraction may be resumed from: none, or one saved by an earlier run. -/
def TarCanStart (Y : List Byte) (clean : Bool) (Ck : Ckpt → Nat → Prop) (F : Nat) (T : TarFmt) (ck : Option ECkpt) : Prop :=
  ∀ c, ck = some c → ∃ n, TarSaved Y clean Ck F T False n c

/-- Resuming over and over, at most `n` times, from the last checkpoint saved, as long as the extraction says it was
stopped. `Xs` and `us` are the source and the consumer's state at the start of each run; `anew` says whether the
process is restarted after it, so that the next run is given a new sink object over the same storage. -/
def tarDrive {Y : List Byte} {clean : Bool} {Ck : Ckpt → Nat → Prop} {F : Nat} (Xs : Nat → TarSrc Y clean Ck F) (T : TarFmt)
    (pr : Ckpt → Int × Int) (K : SinkM) (V : SaveCons) (us : Nat → V.St) (anew : Nat → Bool) : Nat → Option ECkpt → K.St → Except Err (List Entry) × K.St
  | 0, _, k => (.error .stop, k)
  | n + 1, ck, k =>
    match (tarRun (Xs n) T pr K V ck k (us n)).1 with
    | .error .stop => tarDrive Xs T pr K V us anew n ((lastSave (tarRun (Xs n) T pr K V ck k (us n)).2.2.log).or ck)
        (K.next (anew n) (tarRun (Xs n) T pr K V ck k (us n)).2.2.sink)
    | r => (r, (tarRun (Xs n) T pr K V ck k (us n)).2.2.sink)

/-- A source that does not fail and does not refuse its own checkpoints. -/
def TarSrc.Healthy {Y : List Byte} {clean : Bool} {Ck : Ckpt → Nat → Prop} {F : Nat} (X : TarSrc Y clean Ck F) : Prop := X.L.nice ∧ X.L.exact

end Savior
