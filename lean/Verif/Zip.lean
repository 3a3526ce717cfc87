import Verif.Extract
import Verif.SeekSource
import Verif.Wrap
/-!
# zipextractor (zipextractor/zipextractor.go)

`zip.Reader` (external package arkive/zip) is represented by what it parsed: the list of members.
-/

namespace Savior

/-- Compression methods the code distinguishes (zipextractor.go:74-80, 211-231). -/
inductive ZMethod | store | deflate | lzma | other
  deriving DecidableEq, Repr, Inhabited

/-- `zip.File`: what the code uses of it. `mode` is the result of `Mode()` (for which a name ending in "/" is a
directory), `dataOff` that of `DataOffset()`. `opened` is the content `Open()` yields and whether it ends well
(checksum and size verified by the package); used only for symlinks and for methods other than store and deflate
(zipextractor.go:181, 192, 213, 238, 368-386). -/
structure ZFile where
  name : Str
  method : ZMethod
  encrypted : Bool
  csize : Int
  usize : Int
  mode : Nat
  dataOff : Nat
  opened : List Byte × Bool
  deriving DecidableEq, Repr, Inhabited

/-- The archive: the bytes of `ze.reader` and the members (zipextractor.go:25-28). -/
structure Archive where
  bytes : List Byte
  files : List ZFile

/-- The environment of one run: the read schedules of the underlying reader for each member, failures of `DataOffset`,
and the behaviour of `Open()`: failure, or chunks followed by EOF (`none`) or an error
(zipextractor.go:192-199, 213, 220, 238-250). -/
structure ZEnv where
  sched : Nat → Nat → RsAct
  dataOff : Nat → Option Err
  opens : Nat → Except Err (List (List Byte) × Option Err)

/-- `os.ModeDir` is bit 31, `os.ModeSymlink` bit 27 (io/fs). `zipFileEntry` (zipextractor.go:368-386). -/
def zipFileEntry (zf : ZFile) : Entry where
  path := zf.name
  kind := if zf.mode.testBit 31 then .dir else if zf.mode.testBit 27 then .symlink else .file
  mode := zf.mode
  csize := zf.csize
  usize := zf.usize
  woff := 0
  link := []

section
variable {K : SinkM} {V : SaveCons}

/-- `computeProgress` (zipextractor.go:276-279). -/
def zipProgress (total : Int) (w : XW K V) : Int × Int :=
  (w.done + (match w.ck.entry with | some e => e.woff | none => 0), total)

/-- `OnSave` (zipextractor.go:281-307). The callback's error is stack-annotated. -/
def zipOnSave (total : Int) : Callback (XW K V) := fun sck w =>
  let w : XW K V := { w with ck := { w.ck with srcCk := some sck } }
  let q := K.sync w.sink
  let w : XW K V := ({ w with sink := q.2 }).say (.sync q.1)
  match q.1 with
  | some e => (w, some (.wrapped e))
  | none =>
    let w : XW K V := { w with ck := { w.ck with progress := zipProgress total w } }
    let a := V.save w.ck w.cons
    let w : XW K V := ({ w with cons := a.2 }).say (.save w.ck a.1)
    match a.1 with
    | .error e => (w, some (.wrapped e))
    | .ok .stop => ({ w with stop := true, stopErr := true }, none)
    | .ok .cont => (w, none)

/-- What `copier.Do` (zipextractor.go:309-319) works with. The buffer has 32 KiB (copy.go:43). -/
def zipIO (S : SourceM) (total : Int) : CopyIO (S.St × XW K V) where
  read w := let q := S.read (zipOnSave total) 32768 w.1 w.2; (q.1, q.2)
  write bs w := let q := w.2.write bs; (q.1, (w.1, q.2))
  shouldSave n w := let q := V.shouldSave n w.2.cons; (q.1, (w.1, { w.2 with cons := q.2 }))
  wantSave w := (S.wantSave w.1, w.2)
  emit w := (w.1, w.2.say (.progress (zipProgress total w.2)))
  stopped w := w.2.stop
  clearStop w := (w.1, { w.2 with stop := false })

/-- Opening the writer (zipextractor.go:271-274, 245-248). -/
def zipOpen (w : XW K V) : Option Err × XW K V :=
  match w.ck.entry with
  | none => (some .panic, w)
  | some e =>
    let q := K.getWriter e w.sink
    (q.1, ({ w with sink := q.2 }).say (.openW e q.1))

/-- Extracting a stored or deflated file from its freshly created source `src` (zipextractor.go:255-322). While
`DiscardByRead` runs no save consumer is registered. -/
def zipRunFile (S : SourceM) (F : Nat) (total : Int) (src : S.St) (w : XW K V) : Option Err × XW K V :=
  let q := S.resume w.ck.srcCk src
  match q.1 with
  | .error e => (some (.wrapped e), w)
  | .ok offset =>
    let woff := match w.ck.entry with | some e => e.woff | none => 0
    let d : Option Err × S.St × Unit :=
      if offset < woff then discard S (fun _ c => (c, none)) F (woff - offset) q.2 () else (none, q.2, ())
    match d.1 with
    | some e => (some (.wrapped e), w)
    | none =>
      let g := zipOpen w
      match g.1 with
      | some e => (some (.wrapped e), g.2)
      | none =>
        let c := copyDo (zipIO S total) F (S.setSSC true d.2.1, g.2)
        (c.1.map .wrapped, c.2.1.2)

/-- `io.Copy(writer, rc)` (Go's io package; zipextractor.go:250): writes every non-empty chunk; a short write is an error. -/
def ioCopy : List (List Byte) → Option Err → XW K V → Option Err × XW K V
  | [], e, w => (e, w)
  | c :: cs, e, w =>
    if c = [] then ioCopy cs e w
    else
      let q := w.write c
      match q.1.2 with
      | some x => (some x, q.2)
      | none => if q.1.1 ≠ c.length then (some .shortWrite, q.2) else ioCopy cs e q.2

/-- Extracting a file with an unsupported method (zipextractor.go:233-253): `WriteOffset` is reset to 0. -/
def zipCopyFile (env : ZEnv) (i : Nat) (w : XW K V) : Option Err × XW K V :=
  let w : XW K V := { w with ck := { w.ck with entry := w.ck.entry.map fun e => { e with woff := 0 } } }
  match env.opens i with
  | .error e => (some (.wrapped e), w)
  | .ok (chunks, e) =>
    let g := zipOpen w
    match g.1 with
    | some e => (some (.wrapped e), g.2)
    | none =>
      let q := ioCopy chunks e g.2
      (q.1.map .wrapped, q.2)

/-- A section of the archive as an `io.ReadSeeker` (zipextractor.go:220: `io.NewSectionReader`). -/
def zipRaw (A : Archive) (env : ZEnv) (i : Nat) (zf : ZFile) : Rs :=
  { content := (A.bytes.drop zf.dataOff).take zf.csize.toNat, pos := 0, sched := env.sched i, tick := 0 }

/-- `case savior.EntryKindFile` (zipextractor.go:208-323). `D` is the flate decompressor. -/
def zipFile (A : Archive) (env : ZEnv) (D : Decomp) (F : Nat) (total : Int) (i : Nat) (zf : ZFile) (w : XW K V) :
    Option Err × XW K V :=
  match zf.method with
  | .store =>
    match env.dataOff i with
    | some e => (some (.wrapped e), w)
    | none => zipRunFile seekM F total (Seek.newWithSize (zipRaw A env i zf) zf.csize) w
  | .deflate =>
    match env.dataOff i with
    | some e => (some (.wrapped e), w)
    | none => zipRunFile (wrapM flateCfg D seekM F) F total
        (Wrap.new D seekM (Seek.newWithSize (zipRaw A env i zf) zf.csize)) w
  | _ => zipCopyFile env i w

/-- The closure extracting one entry (zipextractor.go:171-328). -/
def zipEntry (A : Archive) (env : ZEnv) (D : Decomp) (F : Nat) (total : Int) (i : Nat) (zf : ZFile) (w : XW K V) :
    Option Err × XW K V :=
  let entry := w.ck.entry.getD (zipFileEntry zf)
  let w : XW K V := { w with ck := { w.ck with entryIndex := i, entry := some entry } }
  if zf.encrypted then (some .encrypted, w)
  else
    let r : Option Err × XW K V := match entry.kind with
      | .dir =>
        let q := K.mkdir entry w.sink
        (q.1.map .wrapped, ({ w with sink := q.2 }).say (.mkdir entry q.1))
      | .symlink =>
        match env.opens i with
        | .error e => (some (.wrapped e), w)
        | .ok (_, some e) => (some (.wrapped e), w)
        | .ok (chunks, none) =>
          let q := K.symlink entry chunks.flatten w.sink
          (q.1.map .wrapped, ({ w with sink := q.2 }).say (.symlink entry chunks.flatten q.1))
      | .file => zipFile A env D F total i zf w
    match r.1 with
    | some e => (some e, r.2)
    | none => (none, { r.2 with done := wrap64 (r.2.done + zf.usize) })

/-- The loop over entries (zipextractor.go:167-335); `fs` are the members from index `i` on. -/
def zipLoop (A : Archive) (env : ZEnv) (D : Decomp) (F : Nat) (total : Int) : List ZFile → Nat → XW K V →
    Option Err × XW K V
  | [], _, w => (none, w)
  | zf :: fs, i, w =>
    if w.stopErr then (none, w)
    else
      let r := zipEntry A env D F total i zf w
      match r.1 with
      | some e => (some (.wrapped e), r.2)
      | none => zipLoop A env D F total fs (i + 1) { r.2 with ck := { r.2.ck with srcCk := none, entry := none } }

/-- The preallocation pass (zipextractor.go:149-157). -/
def zipPrealloc : List ZFile → XW K V → Option Err × XW K V
  | [], w => (none, w)
  | zf :: fs, w =>
    if (zipFileEntry zf).kind = .file then
      let q := K.preallocate (zipFileEntry zf) w.sink
      let w : XW K V := ({ w with sink := q.2 }).say (.prealloc (zipFileEntry zf) q.1)
      match q.1 with
      | some e => (some (.wrapped e), w)
      | none => zipPrealloc fs w
    else zipPrealloc fs w

/-- Sum of uncompressed sizes, int64 arithmetic (zipextractor.go:136-144). -/
def zipSum (fs : List ZFile) : Int := fs.foldl (fun a f => wrap64 (a + f.usize)) 0

/-- The checkpoint a fresh extraction starts with (zipextractor.go:127-129). -/
def freshCk : ECkpt := { srcCk := none, entryIndex := 0, entry := none, progress := (0, 1), data := none }

/-- The variables of `Resume` before the loop (zipextractor.go:119-144, 162-165). -/
def zipInit (A : Archive) (ck : Option ECkpt) (k : K.St) (u : V.St) : XW K V where
  sink := k
  cons := u
  ck := ck.getD freshCk
  stop := false
  stopErr := false
  done := zipSum (A.files.take (ck.getD freshCk).entryIndex.toNat)
  log := []

/-- The part of `Resume` before the loop: preallocation, in a fresh extraction (zipextractor.go:146-160). -/
def zipPrepare (A : Archive) (ck : Option ECkpt) (w : XW K V) : Option Err × XW K V :=
  if ck.isNone then zipPrealloc A.files w else (none, w)

/-- `ZipExtractor.Resume` (zipextractor.go:119-347). A negative `EntryIndex` indexes `zr.File` out of range. -/
def zipResume (A : Archive) (env : ZEnv) (D : Decomp) (F : Nat) (K : SinkM) (V : SaveCons) (ck : Option ECkpt)
    (k : K.St) (u : V.St) : Except Err (List Entry) × XW K V :=
  let p : Option Err × XW K V := zipPrepare A ck (zipInit A ck k u)
  match p.1 with
  | some e => (.error e, p.2)
  | none =>
    if (ck.getD freshCk).entryIndex < 0 then (.error .panic, p.2)
    else
      let i := (ck.getD freshCk).entryIndex.toNat
      let r := zipLoop A env D F (zipSum A.files) (A.files.drop i) i p.2
      match r.1 with
      | some e => (.error e, r.2)
      | none => if r.2.stopErr then (.error .stop, r.2) else (.ok (A.files.map zipFileEntry), r.2)

end
end Savior
