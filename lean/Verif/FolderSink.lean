import Verif.FS
/-!
# FolderSink (folder_sink.go), on Unix

The Windows branches (`onWindows`) are in `Win.lean`. Not modelled: the warning logged when closing the previous writer fails.
-/

namespace Savior

/-- A `FolderSink`'s parameters and its surroundings: `Directory` (folder_sink.go:33), the answer of `os.Getwd`, the
process umask, the failures of system calls, which preallocation is used (`EnableLegacyPreallocate`,
folder_sink.go:17) and what `ox.Preallocate` (external) makes of a file's content. -/
structure FCfg where
  dir : Str
  cwd : Except Err Str
  umask : Nat
  flt : Faults
  legacy : Bool
  ox : List Byte → Nat → List Byte

/-- "Icon\r" (folder_sink.go:41-46). -/
def iconName : Str := [73, 99, 111, 110, 13]

/-- `shouldIgnorePath` (folder_sink.go:48-51). -/
def shouldIgnore (p : Str) : Bool := pathBase p = iconName

/-- The containment test (folder_sink.go:69, 283). -/
def within (absBase p : Str) : Bool := hasPrefix p (absBase ++ [slash]) || p = absBase

/-- `destPath` (folder_sink.go:58-73). `filepath.FromSlash` is the identity on Unix. -/
def FCfg.destPath (cfg : FCfg) (p : Str) : Except Err Str :=
  match absPath cfg.cwd cfg.dir with
  | .error e => .error (.wrapped e)
  | .ok absBase =>
    match absPath cfg.cwd (joinPath absBase p) with
    | .error e => .error (.wrapped e)
    | .ok absJoined => if within absBase absJoined then .ok absJoined else .error .traversal

/-- A writer handed out by `GetWriter`: a nop writer (nop_sink.go), or an `entryWriter` (folder_sink.go:326-330) with
its file and position and whether it is still open. -/
inductive Wr | nop | real (ino pos : Nat) (opened : Bool)
  deriving DecidableEq, Repr

/-- The operating system, the writers handed out so far (in order), and `fs.writer` (folder_sink.go:36) as an index. -/
structure FSink where
  os : OS
  ws : List Wr
  reg : Option Nat

namespace FSink

/-- The names of a clean rooted path, as the kernel splits it (every `dstpath` of folder_sink.go). -/
abbrev names (p : Str) : Path := cleanComps p

/-- `FolderSink.Mkdir` (folder_sink.go:75-110). -/
def mkdir (cfg : FCfg) (e : Entry) (s : FSink) : Option Err × FSink :=
  if shouldIgnore e.path then (none, s)
  else match cfg.destPath e.path with
  | .error x => (some x, s)
  | .ok dst =>
    let p := names dst
    match s.os.fs.lstat p with
    | .found _ .dir => (none, s)
    | .found _ _ =>
      let r := s.os.remove cfg.flt p
      match r.1 with
      | some x => (some (.wrapped x), { s with os := r.2 })
      | none =>
        let m := r.2.mkdirAll cfg.flt p
        (m.1.map .wrapped, { s with os := m.2 })
    | _ =>
      let m := s.os.mkdirAll cfg.flt p
      (m.1.map .wrapped, { s with os := m.2 })

/-- Go's `syscallMode` (package os): the mode bits handed to open(2) and fchmod(2) for an `os.FileMode`. The nine permission bits are the
same in both; `os.ModeSetuid`, `os.ModeSetgid` and `os.ModeSticky` are bits 23, 22 and 20 of an `os.FileMode`. All other bits are dropped. -/
def syscallMode (m : Nat) : Nat :=
  (m &&& 0o777) ||| (if m.testBit 23 then 0o4000 else 0) ||| (if m.testBit 22 then 0o2000 else 0) ||| (if m.testBit 20 then 0o1000 else 0)

/-- The mode bits of `entry.Mode|ModeMask` (folder_sink.go:21, 136, 143). Linux keeps them when the file is written to if the process has
the privilege to (CAP_FSETID); for other processes write(2) drops the set-uid and set-gid bits again, which is not modelled. -/
def fileMode (e : Entry) : Nat := syscallMode (e.mode ||| 0o666)

/-- `createFile` (folder_sink.go:112-150): the inode opened. -/
def createFile (cfg : FCfg) (e : Entry) (s : OS) : Except Err Nat × OS :=
  match cfg.destPath e.path with
  | .error x => (.error x, s)
  | .ok dst =>
    let p := names dst
    let m := s.mkdirAll cfg.flt p.dropLast
    match m.1 with
    | some x => (.error (.wrapped x), m.2)
    | none =>
      let st := m.2.fs.lstat p
      let r : Option Err × OS := match st with
        | .found _ (.link _) => m.2.removeAll cfg.flt p
        | _ => (none, m.2)
      match r.1 with
      | some x => (.error (.wrapped x), r.2)
      | none =>
        let o := r.2.openCreate cfg.flt cfg.umask p (fileMode e)
        match o.1 with
        | .error x => (.error (.wrapped x), o.2)
        | .ok i =>
          match st with
          | .found _ _ =>
            let c := o.2.chmod cfg.flt i (fileMode e)
            match c.1 with
            | some x => (.error (.wrapped x), c.2)
            | none => (.ok i, c.2)
          | _ => (.ok i, o.2)

/-- Closing the writer with index `k` (folder_sink.go:344-357). -/
def closeAt (cfg : FCfg) (k : Nat) (s : FSink) : Option Err × FSink :=
  match s.ws[k]? with
  | some (.real i o true) =>
    let r := s.os.quietCall cfg.flt
    (r.1.map .wrapped, { s with os := r.2, ws := s.ws.set k (.real i o false) })
  | _ => (none, s)

/-- `FolderSink.Close` (folder_sink.go:316-324). -/
def close (cfg : FCfg) (s : FSink) : Option Err × FSink :=
  match s.reg with
  | none => (none, s)
  | some k =>
    let r := s.closeAt cfg k
    (r.1, { r.2 with reg := none })

/-- `FolderSink.GetWriter` (folder_sink.go:152-191). A successful call appends a writer. -/
def getWriter (cfg : FCfg) (e : Entry) (s : FSink) : Option Err × FSink :=
  if shouldIgnore e.path then (none, { s with ws := s.ws ++ [.nop] })
  else
    let c := createFile cfg e s.os
    match c.1 with
    | .error x => (some (.wrapped x), { s with os := c.2 })
    | .ok i =>
      let t := c.2.truncate cfg.flt i e.woff
      match t.1 with
      | some x => (some (.wrapped x), { s with os := t.2 })
      | none =>
        let q := ({ s with os := t.2 } : FSink).close cfg
        (none, { q.2 with ws := q.2.ws ++ [.real i e.woff.toNat true], reg := some q.2.ws.length })

/-- Writing to the writer with index `k` (folder_sink.go:334-342, nop_sink.go): byte count, amount `WriteOffset` advances, error. -/
def writeAt (cfg : FCfg) (k : Nat) (bs : List Byte) (s : FSink) : (Nat × Int × Option Err) × FSink :=
  match s.ws[k]? with
  | some (.real i o true) =>
    let w := s.os.write cfg.flt i o bs
    ((w.1.1, w.1.1, w.1.2), { s with os := w.2, ws := s.ws.set k (.real i (o + w.1.1) true) })
  | some (.real _ _ false) => ((0, 0, some .closed), s)
  | some .nop => ((bs.length, 0, none), s)
  | none => ((0, 0, some .panic), s)

/-- Syncing the writer with index `k` (folder_sink.go:359-365). -/
def syncAt (cfg : FCfg) (k : Nat) (s : FSink) : Option Err × FSink :=
  match s.ws[k]? with
  | some (.real _ _ true) =>
    let r := s.os.quietCall cfg.flt
    (r.1, { s with os := r.2 })
  | some (.real _ _ false) => (some .closed, s)
  | some .nop => (none, s)
  | none => (some .panic, s)

/-- `legacyPreallocate` (folder_sink.go:222-237): zeros written at the end. (`io.CopyN` writes them in pieces; a failure may
leave any part.) -/
def legacyPrealloc (cfg : FCfg) (i : Nat) (size : Int) (s : OS) : Option Err × OS :=
  let n := size - (s.fs.data i).length
  if 0 < n then
    let w := s.write cfg.flt i (s.fs.data i).length (List.replicate n.toNat 0)
    (w.1.2.map .wrapped, w.2)
  else (none, s)

/-- `ox.Preallocate` (external; folder_sink.go:212): some change of the content, or a failure. -/
def oxPrealloc (cfg : FCfg) (i : Nat) (size : Int) (s : OS) : Option Err × OS :=
  match cfg.flt s.tick with
  | some f => (some (.os f.code), { s with tick := s.tick + 1 })
  | none => (none, { fs := s.fs.setData i (cfg.ox (s.fs.data i) size.toNat), tick := s.tick + 1 })

/-- `FolderSink.Preallocate` (folder_sink.go:193-220). -/
def preallocate (cfg : FCfg) (e : Entry) (s : FSink) : Option Err × FSink :=
  if shouldIgnore e.path then (none, s)
  else
    let c := createFile cfg e s.os
    match c.1 with
    | .error x => (some (.wrapped x), { s with os := c.2 })
    | .ok i =>
      let r : Option Err × OS :=
        if 0 < e.usize then
          if cfg.legacy then legacyPrealloc cfg i e.usize c.2 else oxPrealloc cfg i e.usize c.2
        else (none, c.2)
      (r.1, { s with os := (r.2.quietCall cfg.flt).2 })

/-- `FolderSink.Symlink` (folder_sink.go:239-304). -/
def symlink (cfg : FCfg) (e : Entry) (linkname : Str) (s : FSink) : Option Err × FSink :=
  if shouldIgnore e.path then (none, s)
  else match cfg.destPath e.path with
  | .error x => (some x, s)
  | .ok dst =>
    match absPath cfg.cwd cfg.dir with
    | .error x => (some (.wrapped x), s)
    | .ok absBase =>
      if isAbs linkname then (some .traversal, s)
      else match absPath cfg.cwd (joinPath (dirPath dst) linkname) with
      | .error x => (some (.wrapped x), s)
      | .ok absTarget =>
        if within absBase absTarget = false then (some .traversal, s)
        else
          let p := names dst
          let r := s.os.removeAll cfg.flt p
          match r.1 with
          | some x => (some (.wrapped x), { s with os := r.2 })
          | none =>
            let m := r.2.mkdirAll cfg.flt p.dropLast
            match m.1 with
            | some x => (some (.wrapped x), { s with os := m.2 })
            | none =>
              let l := m.2.symlink1 cfg.flt linkname p
              (l.1.map .wrapped, { s with os := l.2 })

/-- `FolderSink.Nuke` (folder_sink.go:306-314). `RemoveAll` is given `Directory` as it is: nothing happens if it is empty,
a path ending in "." is refused (Go's os/removeall_at.go), and a relative one is resolved from the working directory. -/
def nuke (cfg : FCfg) (s : FSink) : Option Err × FSink :=
  let q := s.close cfg
  match q.1 with
  | some x => (some (.wrapped x), q.2)
  | none =>
    if cfg.dir = [] then (none, q.2)
    else if (splitSlash cfg.dir).getLast? = some dot1 then (some EINVAL, q.2)
    else if isAbs cfg.dir then
      let r := q.2.os.removeAllRaw cfg.flt (splitSlash cfg.dir)
      (r.1, { q.2 with os := r.2 })
    else match cfg.cwd with
      | .error x => (some x, q.2)
      | .ok w =>
        let r := q.2.os.removeAllRaw cfg.flt (splitSlash w ++ splitSlash cfg.dir)
        (r.1, { q.2 with os := r.2 })

end FSink

/-- `FolderSink` as a `Sink` (folder_sink.go:32-39); the current writer is the last one handed out. -/
def folderSink (cfg : FCfg) : SinkM where
  St := FSink
  mkdir := FSink.mkdir cfg
  symlink := FSink.symlink cfg
  preallocate := FSink.preallocate cfg
  getWriter := FSink.getWriter cfg
  write bs s := s.writeAt cfg (s.ws.length - 1) bs
  sync s := s.syncAt cfg (s.ws.length - 1)
  closeWriter s := (s.closeAt cfg (s.ws.length - 1)).2
  reborn s := { s with ws := [], reg := none }

/-- Everything one can do with a `FolderSink` and the writers it returned (numbered in order): the exported methods of folder_sink.go. -/
inductive FOp
  | mkdir (e : Entry)
  | symlink (e : Entry) (target : Str)
  | prealloc (e : Entry)
  | getWriter (e : Entry)
  | write (k : Nat) (bs : List Byte)
  | sync (k : Nat)
  | closeWriter (k : Nat)
  | close
  | nuke

/-- One operation: its error and what it leaves. -/
def FOp.run (cfg : FCfg) : FOp → FSink → Option Err × FSink
  | .mkdir e, s => s.mkdir cfg e
  | .symlink e t, s => s.symlink cfg e t
  | .prealloc e, s => s.preallocate cfg e
  | .getWriter e, s => s.getWriter cfg e
  | .write k bs, s => ((s.writeAt cfg k bs).1.2.2, (s.writeAt cfg k bs).2)
  | .sync k, s => s.syncAt cfg k
  | .closeWriter k, s => s.closeAt cfg k
  | .close, s => s.close cfg
  | .nuke, s => s.nuke cfg

/-- Any sequence of operations, errors ignored. -/
def runOps (cfg : FCfg) (ops : List FOp) (s : FSink) : FSink := ops.foldl (fun s op => (op.run cfg s).2) s

end Savior
