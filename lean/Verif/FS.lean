import Verif.Path
import Verif.MemSink
/-!
# A Unix filesystem

Not part of /repo: the kernel and Go's `os` package as `folder_sink.go` uses them. Nodes are reached from the root by names;
path resolution follows symbolic links as the kernel does (at most 40). Files are inodes, so that an unlinked file may still
be written through an open handle. Permissions of directories are not modelled; that a call may fail
for reasons of its own (permissions, space, I/O) is: every call that changes something asks an oracle first (`Faults`).
`Lstat` and `Stat` fail only because of what is (not) there. Other processes do not interfere.
-/

namespace Savior

/-- A place in the tree: names from the root. -/
abbrev Path := List Str

/-- A directory entry. -/
inductive Node | dir | link (target : Str) | file (ino : Nat)
  deriving DecidableEq, Repr

/-- Nodes by place, file contents and permission bits by inode, and the next unused inode. -/
structure FS where
  nodes : Path → Option Node
  data : Nat → List Byte
  mode : Nat → Nat
  next : Nat

/-- How a mutating call fails: the error number, how many bytes a write still stored, and which subtrees a recursive
removal still removed. -/
structure Fault where
  code : Nat
  part : Nat
  rm : Path → Bool

/-- What happens to the n-th mutating call. -/
abbrev Faults := Nat → Option Fault

/-- The filesystem and the number of mutating calls so far. -/
structure OS where
  fs : FS
  tick : Nat

/-- Errno values. -/
def ENOENT : Err := .os 2
def EBUSY : Err := .os 16
def EEXIST : Err := .os 17
def ENOTDIR : Err := .os 20
def EISDIR : Err := .os 21
def EINVAL : Err := .os 22
def ENOTEMPTY : Err := .os 39
def ELOOP : Err := .os 40

/-- Result of resolving a path: a node at its real place; or a real directory in which only the last name is missing. -/
inductive WR
  | found (p : Path) (n : Node)
  | absent (p : Path)
  | bad (e : Err)
  deriving DecidableEq, Repr

/-- Path resolution from the real directory `cur`; `onLink` is what to do at a link. -/
def walkStep (nodes : Path → Option Node) (follow : Bool) (onLink : Path → List Str → WR) : Path → List Str → WR
  | cur, [] => .found cur .dir
  | cur, c :: rest =>
    if c = [] ∨ c = dot1 then walkStep nodes follow onLink cur rest
    else if c = dot2 then walkStep nodes follow onLink cur.dropLast rest
    else match nodes (cur ++ [c]) with
      | none => if rest = [] then .absent (cur ++ [c]) else .bad ENOENT
      | some .dir => walkStep nodes follow onLink (cur ++ [c]) rest
      | some (.file i) => if rest = [] then .found (cur ++ [c]) (.file i) else .bad ENOTDIR
      | some (.link t) =>
        if rest = [] ∧ follow = false then .found (cur ++ [c]) (.link t)
        else onLink (if isAbs t then [] else cur) (splitSlash t ++ rest)

/-- Path resolution following at most `budget` links; the last name is followed only if `follow`. -/
def walk (nodes : Path → Option Node) (follow : Bool) : Nat → Path → List Str → WR
  | 0 => walkStep nodes follow fun _ _ => .bad ELOOP
  | b + 1 => walkStep nodes follow (walk nodes follow b)

/-- `os.Stat` and `os.Lstat` (folder_sink.go:85, 124) of the rooted path with these names. -/
def FS.stat (fs : FS) (p : Path) : WR := walk fs.nodes true 40 [] p
/-- `lstat(2)`. -/
def FS.lstat (fs : FS) (p : Path) : WR := walk fs.nodes false 40 [] p

namespace FS

/-- A directory entry set. -/
def put (fs : FS) (q : Path) (n : Node) : FS := { fs with nodes := fun r => if r = q then some n else fs.nodes r }

/-- The node at `q` and everything below it, gone. -/
def cut (fs : FS) (q : Path) : FS := { fs with nodes := fun r => if q.isPrefixOf r then none else fs.nodes r }

/-- All subtrees below (or at) `q` whose root is picked by `rm`, gone. -/
def cutSome (fs : FS) (q : Path) (rm : Path → Bool) : FS :=
  { fs with nodes := fun r => if (List.range (r.length + 1)).any (fun k => q.isPrefixOf (r.take k) && rm (r.take k)) then none else fs.nodes r }

/-- A new, empty file. -/
def create (fs : FS) (q : Path) (mode : Nat) : FS :=
  { nodes := fun r => if r = q then some (.file fs.next) else fs.nodes r
    data := fun i => if i = fs.next then [] else fs.data i
    mode := fun i => if i = fs.next then mode else fs.mode i
    next := fs.next + 1 }

/-- Content and permissions of an inode set. -/
def setData (fs : FS) (i : Nat) (c : List Byte) : FS := { fs with data := fun j => if j = i then c else fs.data j }
/-- Permissions of an inode set. -/
def setMode (fs : FS) (i : Nat) (m : Nat) : FS := { fs with mode := fun j => if j = i then m else fs.mode j }

end FS

/-- `write(2)` at an offset: a gap is filled with zeros. -/
def pwrite (c : List Byte) (o : Nat) (bs : List Byte) : List Byte :=
  if bs = [] then c else resize c o ++ bs ++ c.drop (o + bs.length)

/-- The elements of a path without trailing slashes. -/
def dropSlashes (p : List Str) : List Str := (p.reverse.dropWhile (· = [])).reverse

namespace OS

/-- `mkdir(2)`. -/
def mkdir1 (flt : Faults) (p : Path) (s : OS) : Option Err × OS :=
  match flt s.tick with
  | some f => (some (.os f.code), { s with tick := s.tick + 1 })
  | none => match s.fs.lstat p with
    | .absent q => (none, { fs := s.fs.put q .dir, tick := s.tick + 1 })
    | .found _ _ => (some EEXIST, { s with tick := s.tick + 1 })
    | .bad e => (some e, { s with tick := s.tick + 1 })

/-- `os.MkdirAll` of the first `n` names of `p` (Go's os/path.go). -/
def mkdirAllN (flt : Faults) (p : Path) : Nat → OS → Option Err × OS
  | 0, s => (none, s)
  | n + 1, s =>
    match s.fs.stat (p.take (n + 1)) with
    | .found _ .dir => (none, s)
    | .found _ _ => (some ENOTDIR, s)
    | _ =>
      let r := mkdirAllN flt p n s
      match r.1 with
      | some e => (some e, r.2)
      | none =>
        let m := mkdir1 flt (p.take (n + 1)) r.2
        match m.1 with
        | none => (none, m.2)
        | some e => match m.2.fs.lstat (p.take (n + 1)) with
          | .found _ .dir => (none, m.2)
          | _ => (some e, m.2)

/-- `os.MkdirAll` (folder_sink.go:88, 103, 119, 293). -/
def mkdirAll (flt : Faults) (p : Path) (s : OS) : Option Err × OS := mkdirAllN flt p p.length s

/-- `os.Remove` (folder_sink.go:99) of something that is not a directory. (Directories: refused, as if not empty; not used.) -/
def remove (flt : Faults) (p : Path) (s : OS) : Option Err × OS :=
  match flt s.tick with
  | some f => (some (.os f.code), { s with tick := s.tick + 1 })
  | none => match s.fs.lstat p with
    | .found _ .dir => (some ENOTEMPTY, { s with tick := s.tick + 1 })
    | .found q _ => (none, { fs := s.fs.cut q, tick := s.tick + 1 })
    | .absent _ => (some ENOENT, { s with tick := s.tick + 1 })
    | .bad e => (some e, { s with tick := s.tick + 1 })

/-- `os.RemoveAll` (folder_sink.go:128, 287, 313): does not follow a final link; a missing path is fine. Failing half-way may leave any part. The root
itself cannot be removed. -/
def removeAll (flt : Faults) (p : Path) (s : OS) : Option Err × OS :=
  match s.fs.lstat p with
  | .absent _ => (none, { s with tick := s.tick + 1 })
  | .bad e => if e = ENOENT then (none, { s with tick := s.tick + 1 }) else (some e, { s with tick := s.tick + 1 })
  | .found q _ =>
    match flt s.tick with
    | some f => (some (.os f.code), { fs := s.fs.cutSome q (fun r => f.rm r && r ≠ []), tick := s.tick + 1 })
    | none =>
      if q = [] then (some EBUSY, { fs := s.fs.cutSome q (· ≠ []), tick := s.tick + 1 })
      else (none, { fs := s.fs.cut q, tick := s.tick + 1 })

/-- `os.RemoveAll` of a path as written, given its elements (Go's os/removeall_at.go): trailing slashes do not matter; if the
last element is "." or ".." the folder is emptied, but cannot itself be removed. -/
def removeAllRaw (flt : Faults) (p : List Str) (s : OS) : Option Err × OS :=
  let p' := dropSlashes p
  if p'.getLast? = some dot1 ∨ p'.getLast? = some dot2 then
    match s.fs.lstat p' with
    | .found q _ =>
      let rm : Path → Bool := match flt s.tick with | some f => f.rm | none => fun _ => true
      (some EINVAL, { fs := s.fs.cutSome q (fun r => rm r && r ≠ [] && r ≠ q), tick := s.tick + 1 })
    | .absent _ => (none, { s with tick := s.tick + 1 })
    | .bad e => if e = ENOENT then (none, { s with tick := s.tick + 1 }) else (some e, { s with tick := s.tick + 1 })
  else removeAll flt p' s

/-- `os.OpenFile(p, O_CREATE|O_WRONLY, mode)` (folder_sink.go:136): the inode. New files get `mode &^ umask`. -/
def openCreate (flt : Faults) (umask : Nat) (p : Path) (mode : Nat) (s : OS) : Except Err Nat × OS :=
  match flt s.tick with
  | some f => (.error (.os f.code), { s with tick := s.tick + 1 })
  | none => match s.fs.stat p with
    | .found _ (.file i) => (.ok i, { s with tick := s.tick + 1 })
    | .found _ _ => (.error EISDIR, { s with tick := s.tick + 1 })
    | .absent q => (.ok s.fs.next, { fs := s.fs.create q (mode ^^^ (mode &&& umask)), tick := s.tick + 1 })
    | .bad e => (.error e, { s with tick := s.tick + 1 })

/-- `os.Symlink` (folder_sink.go:298). -/
def symlink1 (flt : Faults) (target : Str) (p : Path) (s : OS) : Option Err × OS :=
  match flt s.tick with
  | some f => (some (.os f.code), { s with tick := s.tick + 1 })
  | none =>
    if target = [] then (some ENOENT, { s with tick := s.tick + 1 })
    else match s.fs.lstat p with
    | .absent q => (none, { fs := s.fs.put q (.link target), tick := s.tick + 1 })
    | .found _ _ => (some EEXIST, { s with tick := s.tick + 1 })
    | .bad e => (some e, { s with tick := s.tick + 1 })

/-- `fchmod(2)` (folder_sink.go:143). -/
def chmod (flt : Faults) (i : Nat) (m : Nat) (s : OS) : Option Err × OS :=
  match flt s.tick with
  | some f => (some (.os f.code), { s with tick := s.tick + 1 })
  | none => (none, { fs := s.fs.setMode i m, tick := s.tick + 1 })

/-- `ftruncate(2)` (folder_sink.go:173). -/
def truncate (flt : Faults) (i : Nat) (n : Int) (s : OS) : Option Err × OS :=
  match flt s.tick with
  | some f => (some (.os f.code), { s with tick := s.tick + 1 })
  | none =>
    if n < 0 then (some EINVAL, { s with tick := s.tick + 1 })
    else (none, { fs := s.fs.setData i (resize (s.fs.data i) n.toNat), tick := s.tick + 1 })

/-- `(*os.File).Write` (folder_sink.go:339) at offset `o`: all of it, or some of it and an error. -/
def write (flt : Faults) (i o : Nat) (bs : List Byte) (s : OS) : (Nat × Option Err) × OS :=
  match flt s.tick with
  | some f => ((min f.part bs.length, some (.os f.code)), { fs := s.fs.setData i (pwrite (s.fs.data i) o (bs.take f.part)), tick := s.tick + 1 })
  | none => ((bs.length, none), { fs := s.fs.setData i (pwrite (s.fs.data i) o bs), tick := s.tick + 1 })

/-- `fsync(2)`, `close(2)` (folder_sink.go:350, 364): may fail, change nothing here. -/
def quietCall (flt : Faults) (s : OS) : Option Err × OS :=
  match flt s.tick with
  | some f => (some (.os f.code), { s with tick := s.tick + 1 })
  | none => (none, { s with tick := s.tick + 1 })

end OS
end Savior
