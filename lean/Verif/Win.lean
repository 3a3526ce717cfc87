import Verif.FolderSink
/-!
# FolderSink on Windows (folder_sink.go, the `onWindows` branches; Go's path/filepath on Windows)

Not modelled: what the kernel makes of names with colons, of device names and of trailing dots and spaces, beyond what `fold` may say; the
read-only attribute. Link targets already on the disk are written with "/" as in `FS`.
-/

namespace Savior

/-- "\\", ":". -/
def bslash : Byte := 92
def colon : Byte := 58

/-- `os.IsPathSeparator` (Windows). -/
def winSep (c : Byte) : Bool := c = slash || c = bslash

/-- `filepath.FromSlash`, `filepath.ToSlash` (Windows). -/
def fromSlash (p : Str) : Str := p.map fun c => if c = slash then bslash else c
def toSlash (p : Str) : Str := p.map fun c => if c = bslash then slash else c

/-- Number of bytes before the second separator, `c` separators having been seen (Go's `uncLen`); all of them if there is none. -/
def uncScan : Nat → Str → Nat
  | _, [] => 0
  | c, x :: t => if winSep x then (if c = 1 then 0 else 1 + uncScan (c + 1) t) else 1 + uncScan c t

/-- `unicode` apart, Go's `toUpper` on a byte. -/
def upByte (c : Byte) : Byte := if 97 ≤ c ∧ c ≤ 122 then c - 32 else c

/-- Go's `pathHasPrefixFold`. -/
def prefixFold : Str → Str → Bool
  | [], [] => true
  | x :: _, [] => winSep x
  | [], _ :: _ => false
  | x :: s, p :: q => (if winSep p then winSep x else upByte p = upByte x) && prefixFold s q

/-- Go's `volumeNameLen` (internal/filepathlite/path_windows.go): "C:", "\\server\share", and the device forms. -/
def volLen (p : Str) : Nat :=
  if p[1]? = some colon then 2
  else if (p.head?.map winSep).getD false = false then 0
  else if prefixFold p [92, 92, 46, 92, 85, 78, 67] then min p.length (8 + uncScan 0 (p.drop 8))
  else if prefixFold p [92, 92, 46] || prefixFold p [92, 92, 63] || prefixFold p [92, 63, 63] then
    if p.length = 3 then 3 else 4 + ((p.drop 4).takeWhile fun c => !winSep c).length
  else if (p[1]?.map winSep).getD false then 2 + uncScan 0 (p.drop 2)
  else 0

/-- `filepath.Clean` (Windows). Simplified for paths without a volume name, which are not met here (Go inserts a ".\" in front of some, so
that they do not look like they had one). -/
def cleanWin (p : Str) : Str :=
  let v := volLen p
  if p.drop v = [] then
    if 1 < v ∧ (p.head?.map winSep).getD false ∧ (p[1]?.map winSep).getD false then fromSlash p else p ++ dot1
  else fromSlash (p.take v ++ clean (toSlash (p.drop v)))

/-- `filepath.Join(a, b)` for non-empty `a` (Windows). (If `a` is "\" — it is not, here — and `b` starts with "??", Go inserts ".\".) -/
def joinWin (a b : Str) : Str :=
  let last := a.getLast?.getD 0
  if winSep last then cleanWin (a ++ b.dropWhile winSep)
  else if last = colon then cleanWin (a ++ b)
  else cleanWin (a ++ bslash :: b)

/-- A `FolderSink` on Windows: `full` is `syscall.FullPath` (`GetFullPathName`), `fold` what the kernel makes of one name (case folding). -/
structure WCfg extends FCfg where
  full : Str → Except Err Str
  fold : Str → Str

/-- `filepath.Abs` (Windows): the kernel's idea, cleaned. -/
def WCfg.abs (w : WCfg) (p : Str) : Except Err Str :=
  match w.full (if p = [] then dot1 else p) with
  | .error e => .error e
  | .ok y => .ok (cleanWin y)

/-- The containment test (folder_sink.go:69) on Windows. -/
def withinW (absBase p : Str) : Bool := hasPrefix p (absBase ++ [bslash]) || p = absBase

/-- `destPath` (folder_sink.go:58-73) on Windows. -/
def WCfg.destPath (w : WCfg) (p : Str) : Except Err Str :=
  match w.abs w.dir with
  | .error e => .error (.wrapped e)
  | .ok absBase =>
    match w.abs (joinWin absBase (fromSlash p)) with
    | .error e => .error (.wrapped e)
    | .ok absJoined => if withinW absBase absJoined then .ok absJoined else .error .traversal

/-- What the kernel takes an absolute path for: the volume, then the names. (Volumes are the entries of the root folder of `FS`.) -/
def WCfg.names (w : WCfg) (p : Str) : Path := (p.take (volLen p) :: cleanComps (toSlash (p.drop (volLen p)))).map w.fold

namespace FSink

/-- `FolderSink.Mkdir` (folder_sink.go:75-110). -/
def mkdirW (w : WCfg) (e : Entry) (s : FSink) : Option Err × FSink :=
  if shouldIgnore e.path then (none, s)
  else match w.destPath e.path with
  | .error x => (some x, s)
  | .ok dst =>
    let p := w.names dst
    match s.os.fs.lstat p with
    | .found _ .dir => (none, s)
    | .found _ _ =>
      let r := s.os.remove w.flt p
      match r.1 with
      | some x => (some (.wrapped x), { s with os := r.2 })
      | none =>
        let m := r.2.mkdirAll w.flt p
        (m.1.map .wrapped, { s with os := m.2 })
    | _ =>
      let m := s.os.mkdirAll w.flt p
      (m.1.map .wrapped, { s with os := m.2 })

/-- A link that is there is removed first (`createFile`, folder_sink.go:122-131). -/
def dropLink (flt : Faults) (p : Path) (s : OS) : Option Err × OS :=
  match s.fs.lstat p with
  | .found _ (.link _) => s.removeAll flt p
  | _ => (none, s)

/-- `createFile` (folder_sink.go:112-150): no `Chmod` on Windows (folder_sink.go:141). `filepath.Dir` of a clean path drops the last name. -/
def createFileW (w : WCfg) (e : Entry) (s : OS) : Except Err Nat × OS :=
  match w.destPath e.path with
  | .error x => (.error x, s)
  | .ok dst =>
    let p := w.names dst
    let m := s.mkdirAll w.flt p.dropLast
    match m.1 with
    | some x => (.error (.wrapped x), m.2)
    | none =>
      let r := dropLink w.flt p m.2
      match r.1 with
      | some x => (.error (.wrapped x), r.2)
      | none =>
        let o := r.2.openCreate w.flt w.umask p (fileMode e)
        match o.1 with
        | .error x => (.error (.wrapped x), o.2)
        | .ok i => (.ok i, o.2)

/-- `FolderSink.GetWriter` (folder_sink.go:152-191). -/
def getWriterW (w : WCfg) (e : Entry) (s : FSink) : Option Err × FSink :=
  if shouldIgnore e.path then (none, { s with ws := s.ws ++ [.nop] })
  else
    let c := createFileW w e s.os
    match c.1 with
    | .error x => (some (.wrapped x), { s with os := c.2 })
    | .ok i =>
      let t := c.2.truncate w.flt i e.woff
      match t.1 with
      | some x => (some (.wrapped x), { s with os := t.2 })
      | none =>
        let q := ({ s with os := t.2 } : FSink).close w.toFCfg
        (none, { q.2 with ws := q.2.ws ++ [.real i e.woff.toNat true], reg := some q.2.ws.length })

/-- `FolderSink.Preallocate` (folder_sink.go:193-220). -/
def preallocateW (w : WCfg) (e : Entry) (s : FSink) : Option Err × FSink :=
  if shouldIgnore e.path then (none, s)
  else
    let c := createFileW w e s.os
    match c.1 with
    | .error x => (some (.wrapped x), { s with os := c.2 })
    | .ok i =>
      let r : Option Err × OS :=
        if 0 < e.usize then
          if w.legacy then legacyPrealloc w.toFCfg i e.usize c.2 else oxPrealloc w.toFCfg i e.usize c.2
        else (none, c.2)
      (r.1, { s with os := (r.2.quietCall w.flt).2 })

/-- `FolderSink.Symlink` (folder_sink.go:239-258): the target is written to a regular file, which is then closed. -/
def symlinkW (w : WCfg) (e : Entry) (linkname : Str) (s : FSink) : Option Err × FSink :=
  if shouldIgnore e.path then (none, s)
  else
    let g := s.getWriterW w e
    match g.1 with
    | some x => (some (.wrapped x), g.2)
    | none =>
      let k := g.2.ws.length - 1
      let t := g.2.writeAt w.toFCfg k linkname
      (t.1.2.2.map .wrapped, (t.2.closeAt w.toFCfg k).2)

/-- `FolderSink.Nuke` (folder_sink.go:306-314). `RemoveAll` (Go's os/removeall_noat.go): nothing if `Directory` is empty, refused if it
ends in "."; otherwise what the kernel takes it for is removed. -/
def nukeW (w : WCfg) (s : FSink) : Option Err × FSink :=
  let q := s.close w.toFCfg
  match q.1 with
  | some x => (some (.wrapped x), q.2)
  | none =>
    if w.dir = [] then (none, q.2)
    else if (splitSlash (toSlash w.dir)).getLast? = some dot1 then (some EINVAL, q.2)
    else match w.full w.dir with
      | .error x => (some x, q.2)
      | .ok y =>
        let r := q.2.os.removeAll w.flt (w.names (cleanWin y))
        (r.1, { q.2 with os := r.2 })

end FSink

/-- `FolderSink` on Windows as a `Sink`; the current writer is the last one handed out. -/
def winSink (w : WCfg) : SinkM where
  St := FSink
  mkdir := FSink.mkdirW w
  symlink := FSink.symlinkW w
  preallocate := FSink.preallocateW w
  getWriter := FSink.getWriterW w
  write bs s := s.writeAt w.toFCfg (s.ws.length - 1) bs
  sync s := s.syncAt w.toFCfg (s.ws.length - 1)
  closeWriter s := (s.closeAt w.toFCfg (s.ws.length - 1)).2
  reborn s := { s with ws := [], reg := none }

/-- One operation, on Windows. -/
def FOp.runW (w : WCfg) : FOp → FSink → Option Err × FSink
  | .mkdir e, s => s.mkdirW w e
  | .symlink e t, s => s.symlinkW w e t
  | .prealloc e, s => s.preallocateW w e
  | .getWriter e, s => s.getWriterW w e
  | .write k bs, s => ((s.writeAt w.toFCfg k bs).1.2.2, (s.writeAt w.toFCfg k bs).2)
  | .sync k, s => s.syncAt w.toFCfg k
  | .closeWriter k, s => s.closeAt w.toFCfg k
  | .close, s => s.close w.toFCfg
  | .nuke, s => s.nukeW w

/-- Any sequence of operations, errors ignored. -/
def runOpsW (w : WCfg) (ops : List FOp) (s : FSink) : FSink := ops.foldl (fun s op => (op.runW w s).2) s

end Savior
