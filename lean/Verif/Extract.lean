import Verif.Copier
import Verif.Source
/-!
# Entries, sinks, save consumers, extractor checkpoints

The interfaces extractors are written against: sink.go, extractor.go.
-/

namespace Savior

/-- A Go `string` (e.g. sink.go:41, 61): a sequence of bytes. -/
abbrev Str := List Byte

/-- Helper to write Go string literals. -/
def cs (l : List Char) : Str := l.map fun c => UInt8.ofNat c.toNat

/-- `EntryKind` (sink.go:11-20). -/
inductive Kind | dir | symlink | file
  deriving DecidableEq, Repr, Inhabited

/-- `Entry` (sink.go:35-62). `mode` is the numeric `os.FileMode`. -/
structure Entry where
  path : Str
  kind : Kind
  mode : Nat
  csize : Int
  usize : Int
  woff : Int
  link : Str
  deriving DecidableEq, Repr, Inhabited

/-- `tar.Checkpoint` (external package arkive/tar; tarextractor.go:24, 63): the read offset and an opaque image of the reader's state. -/
structure TarCk where
  roff : Int
  blob : List Nat
  deriving DecidableEq, Repr, Inhabited

/-- `TarExtractorState` (tarextractor.go:22-25); `none` stands for nil pointers. -/
structure TarState where
  result : Option (List Entry)
  tck : Option TarCk
  deriving DecidableEq, Repr, Inhabited

/-- `ExtractorCheckpoint` (extractor.go:11-17). `progress` is numerator and denominator of the float64; `data` is `Data`
when its dynamic type is `*TarExtractorState` (anything else is `none`). -/
structure ECkpt where
  srcCk : Option Ckpt
  entryIndex : Int
  entry : Option Entry
  progress : Int × Int
  data : Option TarState
  deriving Inhabited

/-- `AfterSaveAction` (extractor.go:110-117): only `AfterSaveStop` is tested for. -/
inductive Action | cont | stop
  deriving DecidableEq, Repr, Inhabited

/-- `SaveConsumer` (extractor.go:119-126), an arbitrary state machine. (A consumer that mutates the checkpoint object it
is given is not modelled.) -/
structure SaveCons where
  St : Type
  shouldSave : Int → St → Bool × St
  save : ECkpt → St → Except Err Action × St

/-- `NopSaveConsumer` (extractor.go:158-175). -/
def nopCons : SaveCons where
  St := Unit
  shouldSave _ u := (false, u)
  save _ u := (.ok .cont, u)

/-- `Sink` and its current `EntryWriter` (sink.go:68-110), over a state. Errors are `some e`. `write` is the `Write`
method of the writer returned by the last successful `getWriter`; it returns the byte count, the amount by which the
writer advanced `entry.WriteOffset` (folder_sink.go:340, checker/sink.go:182; NopSink's does not), and the error.
`closeWriter` is the writer's `Close` with its error ignored. `reborn` is not a method: it is a new sink object over the
same storage, as a new process makes it (the old one's writers are gone). -/
structure SinkM where
  St : Type
  mkdir : Entry → St → Option Err × St
  symlink : Entry → Str → St → Option Err × St
  preallocate : Entry → St → Option Err × St
  getWriter : Entry → St → Option Err × St
  write : List Byte → St → (Nat × Int × Option Err) × St
  sync : St → Option Err × St
  closeWriter : St → St
  reborn : St → St

/-- The sink used by the next run: the same object, or a new one over the same storage. -/
def SinkM.Next (K : SinkM) (s s' : K.St) : Prop := s' = s ∨ s' = K.reborn s

/-- `NopSink` (nop_sink.go:9-65). -/
def nopSink : SinkM where
  St := Unit
  mkdir _ s := (none, s)
  symlink _ _ s := (none, s)
  preallocate _ s := (none, s)
  getWriter _ s := (none, s)
  write bs s := ((bs.length, 0, none), s)
  sync s := (none, s)
  closeWriter s := s
  reborn s := s

/-- What happened during an extraction, in order (ghost output of the model). -/
inductive Ev
  | prealloc (e : Entry) (r : Option Err)
  | mkdir (e : Entry) (r : Option Err)
  | symlink (e : Entry) (target : Str) (r : Option Err)
  | openW (e : Entry) (r : Option Err)
  | write (bs : List Byte) (n : Nat) (r : Option Err)
  | sync (r : Option Err)
  | save (ck : ECkpt) (ans : Except Err Action)
  | progress (p : Int × Int)

/-- The world an extraction acts on: the sink, the save consumer, the `*ExtractorCheckpoint` object, the copier's stop
flag, `stopError != nil`, `doneBytes` (zipextractor.go:120-165, tarextractor.go:46-112) and the ghost log. -/
structure XW (K : SinkM) (V : SaveCons) where
  sink : K.St
  cons : V.St
  ck : ECkpt
  stop : Bool
  stopErr : Bool
  done : Int
  log : List Ev

namespace XW
variable {K : SinkM} {V : SaveCons}

/-- Appending to the ghost log. -/
def say (ev : Ev) (w : XW K V) : XW K V := { w with log := w.log ++ [ev] }

/-- `entry.WriteOffset += n`, where `entry` is the entry the checkpoint object points to (folder_sink.go:340, checker/sink.go:182;
zipextractor.go:177, tarextractor.go:188). -/
def advance (n : Int) (w : XW K V) : XW K V :=
  { w with ck := { w.ck with entry := w.ck.entry.map fun e => { e with woff := e.woff + n } } }

/-- `w.Write(buf)` on the current writer (copy.go:61), with its effect on `entry.WriteOffset`. -/
def write (bs : List Byte) (w : XW K V) : (Nat × Option Err) × XW K V :=
  let q := K.write bs w.sink
  ((q.1.1, q.1.2.2), ({ w with sink := q.2 }.advance q.1.2.1).say (.write bs q.1.1 q.1.2.2))

end XW

end Savior
