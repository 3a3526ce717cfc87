import Verif.Extract
/-!
# checker.Sink and checker.Writer (checker/sink.go, checker/writer.go)

The sink the repository's own tests use as their oracle. Its error messages are `Err.consumer` with distinct codes.
-/

namespace Savior

/-- `Item` (checker/sink.go:25-28): the expected entry and its content. -/
structure CItem where
  path : Str
  kind : Kind
  link : Str
  data : List Byte
  deriving DecidableEq, Repr, Inhabited

/-- `DoneItem` (checker/sink.go:31-35). -/
structure CDone where
  minW : Int
  maxW : Int
  link : Str
  deriving DecidableEq, Repr, Inhabited

/-- `math.MaxInt64` (checker/sink.go:156-160). -/
def CDone.fresh : CDone := ⟨9223372036854775807, 0, []⟩

/-- `Writer` (checker/writer.go:10-16) inside an `entryWriter` (checker/sink.go:173-176): the item it checks against and the
current offset, which stays within the reference (so it is a natural number). -/
structure CWriter where
  item : CItem
  off : Nat
  deriving DecidableEq, Repr, Inhabited

/-- `Sink` (checker/sink.go:17-20) and the writers handed out. `Items` is a Go map; here a list whose paths are meant to be
distinct, each item filed under its own `CanonicalPath`. -/
structure CSt where
  items : List CItem
  done : Str → Option CDone
  wr : List CWriter

/-- `NewSink` + `Reset`, `Nuke` (checker/sink.go:38-48, 134-137). Writers handed out before a reset are taken to be dropped
(in Go they would keep updating records no longer in the map). -/
def cReset (s : CSt) : CSt := { s with done := fun _ => none, wr := [] }

/-- A new sink expecting `items`: `NewSink`, then the assignments to `Items` (checker/sink.go:38-44, checker/maketestsink.go:16-51). -/
def cNew (items : List CItem) : CSt := ⟨items, fun _ => none, []⟩

/-- `cs.Items[p]` (checker/sink.go:144). -/
def CSt.item (s : CSt) (p : Str) : Option CItem := s.items.find? (·.path = p)

/-- `cs.DoneItems[p] = d` (checker/sink.go:161). -/
def CSt.setDone (p : Str) (d : CDone) (s : CSt) : CSt := { s with done := fun q => if q = p then some d else s.done q }

/-- `withItem` (checker/sink.go:143-165). -/
def cWith (e : Entry) (kind : Kind) (s : CSt) (f : CItem → CDone → CSt → Option Err × CSt) : Option Err × CSt :=
  match s.item e.path with
  | none => (some (.wrapped (.consumer 1)), s)
  | some it =>
    if it.kind ≠ kind then (some (.wrapped (.consumer 2)), s)
    else
      let d := (s.done e.path).getD .fresh
      f it d (s.setDone e.path d)

/-- `Mkdir` (checker/sink.go:79-84). -/
def cMkdir (e : Entry) (s : CSt) : Option Err × CSt := cWith e .dir s fun _ _ s => (none, s)

/-- `Preallocate` (checker/sink.go:127-132). -/
def cPrealloc (e : Entry) (s : CSt) : Option Err × CSt := cWith e .file s fun _ _ s => (none, s)

/-- `Symlink` (checker/sink.go:86-98). -/
def cSymlink (e : Entry) (target : Str) (s : CSt) : Option Err × CSt :=
  cWith e .symlink s fun it d s =>
    if it.link ≠ target then (some (.wrapped (.consumer 3)), s) else (none, s.setDone e.path { d with link := target })

/-- `Writer.Seek(offset, io.SeekStart)` (checker/writer.go:57-71): the new offset. -/
def cSeek (data : List Byte) (off : Int) : Except Err Nat :=
  if off > data.length then .error (.consumer 4) else if off < 0 then .error (.consumer 5) else .ok off.toNat

/-- `GetWriter` (checker/sink.go:100-125). -/
def cOpen (e : Entry) (s : CSt) : Option Err × CSt :=
  cWith e .file s fun it _ s =>
    if e.woff ≠ 0 then
      match cSeek it.data e.woff with
      | .error x => (some (.wrapped (.wrapped x)), s)
      | .ok o => (none, { s with wr := s.wr ++ [⟨it, o⟩] })
    else (none, { s with wr := s.wr ++ [⟨it, 0⟩] })

/-- The loop of `Writer.Write` (checker/writer.go:33-46): compares byte by byte; returns the number of bytes accepted and the
error. -/
def cCheck (data : List Byte) : Nat → List Byte → Nat × Option Err
  | _, [] => (0, none)
  | off, b :: bs =>
    match data[off]? with
    | none => (0, some (.wrapped (.consumer 6)))
    | some x => if x ≠ b then (0, some (.wrapped (.consumer 7))) else let q := cCheck data (off + 1) bs; (q.1 + 1, q.2)

/-- `Writer.Write` (checker/writer.go:26-55) on the `k`th writer handed out; `entry.WriteOffset` is advanced by the count
(checker/sink.go:180-184). `MinWrite` is updated before anything is compared, `MaxWrite` only when everything was accepted. -/
def cWrite (k : Nat) (bs : List Byte) (s : CSt) : (Nat × Option Err) × CSt :=
  match s.wr[k]? with
  | none => ((0, some .panic), s)
  | some w =>
    let d := (s.done w.item.path).getD .fresh
    let d := if (w.off : Int) < d.minW then { d with minW := w.off } else d
    let q := cCheck w.item.data w.off bs
    let d := if q.2 = none ∧ ((w.off + q.1 : Nat) : Int) > d.maxW then { d with maxW := (w.off + q.1 : Nat) } else d
    (q, { s.setDone w.item.path d with wr := s.wr.set k { w with off := w.off + q.1 } })

/-- One item's check in `Validate` (checker/sink.go:53-72). -/
def cItemOK (s : CSt) (it : CItem) : Bool :=
  match s.done it.path with
  | none => false
  | some d =>
    match it.kind with
    | .file => d.minW = 0 ∧ d.maxW = it.data.length
    | .symlink => d.link = it.link
    | .dir => true

/-- `Validate() == nil` (checker/sink.go:50-77). (Which complaint comes first depends on Go's map order.) -/
def cValidate (s : CSt) : Bool := s.items.all (cItemOK s)

/-- The checking sink as a `Sink`: the current writer is the one handed out last. `Sync` and `Close` do nothing
(checker/sink.go:186-195). -/
def checkSink : SinkM where
  St := CSt
  mkdir := cMkdir
  symlink := cSymlink
  preallocate := cPrealloc
  getWriter := cOpen
  write bs s := let q := cWrite (s.wr.length - 1) bs s; ((q.1.1, q.1.1, q.1.2), q.2)
  sync s := (none, s)
  closeWriter s := s
  reborn s := s

/-- A call of the sink's API. -/
inductive COp
  | mkdir (e : Entry)
  | symlink (e : Entry) (target : Str)
  | prealloc (e : Entry)
  | open_ (e : Entry)
  | write (k : Nat) (bs : List Byte)

/-- What a call returns: the byte count (0 except for writes) and the error. -/
abbrev CRes := Nat × Option Err

/-- Performing a call. -/
def cStep (op : COp) (s : CSt) : CRes × CSt :=
  match op with
  | .mkdir e => let q := cMkdir e s; ((0, q.1), q.2)
  | .symlink e t => let q := cSymlink e t s; ((0, q.1), q.2)
  | .prealloc e => let q := cPrealloc e s; ((0, q.1), q.2)
  | .open_ e => let q := cOpen e s; ((0, q.1), q.2)
  | .write k bs => cWrite k bs s

/-- Performing a sequence of calls: the calls with their results, and the final state. -/
def cRun : List COp → CSt → List (COp × CRes) × CSt
  | [], s => ([], s)
  | op :: ops, s =>
    let q := cStep op s
    let r := cRun ops q.2
    ((op, q.1) :: r.1, r.2)

end Savior
