import Verif.FolderSink
/-!
# File descriptors held by a FolderSink (folder_sink.go)

The operations of `FolderSink.lean` again, this time also counting open files: one more for every `os.OpenFile` that succeeds, one less for every
`Close` of an `*os.File` (which releases the descriptor even if it reports an error). `FOp.counted_erase` (Props/Handles.lean) says that
apart from the count these are the same operations.
-/

namespace Savior

namespace FSink

/-- `createFile` (folder_sink.go:112-150) and the number of files it leaves open: when `Chmod` fails the file is not closed. -/
def createFileH (cfg : FCfg) (e : Entry) (s : OS) : Except Err Nat × OS × Int :=
  match cfg.destPath e.path with
  | .error x => (.error x, s, 0)
  | .ok dst =>
    let p := names dst
    let m := s.mkdirAll cfg.flt p.dropLast
    match m.1 with
    | some x => (.error (.wrapped x), m.2, 0)
    | none =>
      let st := m.2.fs.lstat p
      let r : Option Err × OS := match st with
        | .found _ (.link _) => m.2.removeAll cfg.flt p
        | _ => (none, m.2)
      match r.1 with
      | some x => (.error (.wrapped x), r.2, 0)
      | none =>
        let o := r.2.openCreate cfg.flt cfg.umask p (fileMode e)
        match o.1 with
        | .error x => (.error (.wrapped x), o.2, 0)
        | .ok i =>
          match st with
          | .found _ _ =>
            let c := o.2.chmod cfg.flt i (fileMode e)
            match c.1 with
            | some x => (.error (.wrapped x), c.2, 1)
            | none => (.ok i, c.2, 1)
          | _ => (.ok i, o.2, 1)

/-- Closing the writer with index `k` (folder_sink.go:344-357): one file less if it was open. -/
def closeAtH (cfg : FCfg) (k : Nat) (s : FSink) : Option Err × FSink × Int :=
  match s.ws[k]? with
  | some (.real i o true) =>
    let r := s.os.quietCall cfg.flt
    (r.1.map .wrapped, { s with os := r.2, ws := s.ws.set k (.real i o false) }, -1)
  | _ => (none, s, 0)

/-- `FolderSink.Close` (folder_sink.go:316-324). -/
def closeH (cfg : FCfg) (s : FSink) : Option Err × FSink × Int :=
  match s.reg with
  | none => (none, s, 0)
  | some k =>
    let r := s.closeAtH cfg k
    (r.1, { r.2.1 with reg := none }, r.2.2)

/-- `FolderSink.GetWriter` (folder_sink.go:152-191): when `Seek` or `Truncate` fails the file is not closed. -/
def getWriterH (cfg : FCfg) (e : Entry) (s : FSink) : Option Err × FSink × Int :=
  if shouldIgnore e.path then (none, { s with ws := s.ws ++ [.nop] }, 0)
  else
    let c := createFileH cfg e s.os
    match c.1 with
    | .error x => (some (.wrapped x), { s with os := c.2.1 }, c.2.2)
    | .ok i =>
      let t := c.2.1.truncate cfg.flt i e.woff
      match t.1 with
      | some x => (some (.wrapped x), { s with os := t.2 }, c.2.2)
      | none =>
        let q := ({ s with os := t.2 } : FSink).closeH cfg
        (none, { q.2.1 with ws := q.2.1.ws ++ [.real i e.woff.toNat true], reg := some q.2.1.ws.length }, c.2.2 + q.2.2)

/-- `FolderSink.Preallocate` (folder_sink.go:193-220): the deferred `Close` runs if `createFile` succeeded. -/
def preallocateH (cfg : FCfg) (e : Entry) (s : FSink) : Option Err × FSink × Int :=
  if shouldIgnore e.path then (none, s, 0)
  else
    let c := createFileH cfg e s.os
    match c.1 with
    | .error x => (some (.wrapped x), { s with os := c.2.1 }, c.2.2)
    | .ok i =>
      let r : Option Err × OS :=
        if 0 < e.usize then
          if cfg.legacy then legacyPrealloc cfg i e.usize c.2.1 else oxPrealloc cfg i e.usize c.2.1
        else (none, c.2.1)
      (r.1, { s with os := (r.2.quietCall cfg.flt).2 }, c.2.2 - 1)

end FSink

/-- One operation: its error, what it leaves, and how the number of open files changes. `Mkdir`, `Symlink`, `Write` and `Sync` open and
close nothing (folder_sink.go:75-110, 239-304, 334-342, 359-365); `Nuke` closes the writer first (folder_sink.go:306-314). -/
def FOp.counted (cfg : FCfg) : FOp → FSink → Option Err × FSink × Int
  | .getWriter e, s => s.getWriterH cfg e
  | .prealloc e, s => s.preallocateH cfg e
  | .closeWriter k, s => s.closeAtH cfg k
  | .close, s => s.closeH cfg
  | .nuke, s => ((s.nuke cfg).1, (s.nuke cfg).2, (s.closeH cfg).2.2)
  | op, s => ((op.run cfg s).1, (op.run cfg s).2, 0)

/-- The number of files left open by a sequence of operations (errors ignored), `h` being open before. -/
def openFiles (cfg : FCfg) : List FOp → FSink → Int → Int
  | [], _, h => h
  | op :: ops, s, h => openFiles cfg ops (op.counted cfg s).2.1 (h + (op.counted cfg s).2.2)

end Savior
