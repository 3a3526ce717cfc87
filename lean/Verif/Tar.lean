import Verif.Extract
/-!
# tarextractor (tarextractor/tarextractor.go)

The tar format itself is the external package arkive/tar; it is represented by `TarFmt`, a pull parser over bytes.
-/

namespace Savior

/-- `hdr.Typeflag`, as far as the code distinguishes (tarextractor.go:174-185). -/
inductive TType | dir | symlink | reg | other
  deriving DecidableEq, Repr, Inhabited

/-- `tar.Header`: what the code uses of it (tarextractor.go:168-181). -/
structure THdr where
  name : Str
  size : Int
  mode : Nat
  typ : TType
  link : Str
  deriving DecidableEq, Repr, Inhabited

/-- The entry made from a header (tarextractor.go:168-185); meant for the three supported types. -/
def tarEntryOf (h : THdr) : Entry where
  path := h.name
  kind := match h.typ with | .dir => .dir | .symlink => .symlink | _ => .file
  mode := h.mode
  csize := 0
  usize := h.size
  woff := 0
  link := match h.typ with | .symlink => h.link | _ => []

/-- What the parser does next when asked for the next header: read up to `n` more bytes, deliver a header, report the
end of the archive, or report malformed data (`sr.Next()`, tarextractor.go:158). -/
inductive TarWant
  | more (n : Nat)
  | hdr (h : THdr)
  | done
  | bad
  deriving DecidableEq, Repr

/-- `tar.SaverReader` and `tar.Checkpoint` (external package arkive/tar) as a pull parser with state `St`.
`want`/`feed` describe `Next` (which first skips what is left of the current member); `opened` is the state after a
header has been delivered; `rem` is how many bytes of the current member `Read` will still deliver, `take k` the state
after it delivered `k`; `eofOK` says whether the input may end here; `save` is `Save` (it may fail), `dec` restores a
checkpoint's image (it may be refused). `eager`: the last bytes of a member come together with EOF.
Sparse members (whose content is not a piece of the input) and multi-part reads that go on after an error are not
represented; `NewSaverReader` does not fail. -/
structure TarFmt where
  St : Type
  start : St
  want : St → TarWant
  feed : List Byte → St → St
  opened : St → St
  rem : St → Nat
  take : Nat → St → St
  eofOK : St → Bool
  save : St → Option (List Nat)
  dec : List Nat → Option St
  eager : Bool

/-- Everything a tar extraction changes besides the source: the tar reader and the number of bytes it has read
(`Roffset`), the extraction's world, `state.Result`, and whether the variable `entry` the save callback looks at is
non-nil (tarextractor.go:46-47, 112). -/
structure TC (T : TarFmt) (K : SinkM) (V : SaveCons) where
  rd : T.St
  roff : Int
  xw : XW K V
  res : List Entry
  cur : Bool

section
variable {K : SinkM} {V : SaveCons}

/-- The source's save callback (tarextractor.go:113-147). `pr` is what `te.source.Progress()` answers at that moment,
arbitrary since the source is in the middle of a read. -/
def tarOnSave (T : TarFmt) (pr : Ckpt → Int × Int) : Callback (TC T K V) := fun sck c =>
  if c.cur = false then (c, none)
  else match T.save c.rd with
  | none => (c, some (.wrapped .saveFailed))
  | some im =>
    let ck : ECkpt := { c.xw.ck with srcCk := some sck, data := some ⟨some c.res, some ⟨c.roff, im⟩⟩, progress := pr sck }
    let a := V.save ck c.xw.cons
    let w : XW K V := ({ c.xw with ck := ck, cons := a.2 }).say (.save ck a.1)
    match a.1 with
    | .error e => ({ c with xw := w }, some (.wrapped e))
    | .ok .stop => ({ c with xw := { w with stop := true, stopErr := true } }, none)
    | .ok .cont => ({ c with xw := w }, none)

/-- `sr.Next()` (called at tarextractor.go:158; arkive/tar). `.error .eof` is the end of the archive. The loop over
reads gets a budget. A source that reports EOF with the last byte asked for is not noticed until the next read. -/
def tarNext (S : SourceM) (T : TarFmt) (cb : Callback (TC T K V)) : Nat → S.St → TC T K V → Except Err THdr × S.St × TC T K V
  | 0, s, c => (.error .diverge, s, c)
  | fuel + 1, s, c =>
    match T.want c.rd with
    | .hdr h => (.ok h, s, { c with rd := T.opened c.rd })
    | .done => (.error .eof, s, c)
    | .bad => (.error .corrupt, s, c)
    | .more n =>
      let r := S.read cb n s c
      let c' : TC T K V := { r.2.2 with rd := T.feed r.1.1 r.2.2.rd, roff := r.2.2.roff + r.1.1.length }
      match r.1.2 with
      | none => tarNext S T cb fuel r.2.1 c'
      | some e =>
        if e = .eof then
          if r.1.1.length = n then tarNext S T cb fuel r.2.1 c'
          else if T.eofOK c'.rd then (.error .eof, r.2.1, c') else (.error .unexpectedEOF, r.2.1, c')
        else (.error e, r.2.1, c')

/-- `sr.Read(buf)` with the copier's 32 KiB buffer (arkive/tar; called from copy.go:59). -/
def tarRead (S : SourceM) (T : TarFmt) (pr : Ckpt → Int × Int) (s : S.St) (c : TC T K V) : ReadRes × S.St × TC T K V :=
  if T.rem c.rd = 0 then (([], some .eof), s, c)
  else
    let r := S.read (tarOnSave T pr) (min 32768 (T.rem c.rd)) s c
    let c' : TC T K V := { r.2.2 with rd := T.take r.1.1.length r.2.2.rd, roff := r.2.2.roff + r.1.1.length }
    let e : Option Err := match r.1.2 with
      | none => if T.rem c'.rd = 0 ∧ T.eager = true then some .eof else none
      | some e => if e = .eof ∧ T.rem c'.rd ≠ 0 then some .unexpectedEOF else some e
    ((r.1.1, e), r.2.1, c')

/-- What `copier.Do` (tarextractor.go:213-223) works with. -/
def tarIO (S : SourceM) (T : TarFmt) (pr : Ckpt → Int × Int) : CopyIO (S.St × TC T K V) where
  read w := tarRead S T pr w.1 w.2
  write bs w := let q := w.2.xw.write bs; (q.1, (w.1, { w.2 with xw := q.2 }))
  shouldSave n w := let q := V.shouldSave n w.2.xw.cons; (q.1, (w.1, { w.2 with xw := { w.2.xw with cons := q.2 } }))
  wantSave w := (S.wantSave w.1, w.2)
  emit w := (w.1, { w.2 with xw := w.2.xw.say (.progress (S.progress w.1)) })
  stopped w := w.2.xw.stop
  clearStop w := (w.1, { w.2 with xw := { w.2.xw with stop := false } })

/-- `case savior.EntryKindFile` (tarextractor.go:205-230), including the deferred `w.Close()`. The entry appended to the
result is the object the checkpoint points to, with its `WriteOffset` as the writer left it. -/
def tarFile (S : SourceM) (T : TarFmt) (pr : Ckpt → Int × Int) (F : Nat) (e : Entry) (s : S.St) (c : TC T K V) :
    Option Err × S.St × TC T K V :=
  let q := K.getWriter e c.xw.sink
  let w : XW K V := ({ c.xw with sink := q.2 }).say (.openW e q.1)
  match q.1 with
  | some x => (some (.wrapped x), s, { c with xw := w })
  | none =>
    let r := copyDo (tarIO S T pr) F (s, { c with xw := w })
    let c' : TC T K V := r.2.1.2
    match r.1 with
    | some x => (some (.wrapped x), r.2.1.1, { c' with xw := { c'.xw with sink := K.closeWriter c'.xw.sink } })
    | none => (none, r.2.1.1,
        { c' with
          res := c'.res ++ c'.xw.ck.entry.toList
          xw := ({ c'.xw with sink := K.closeWriter c'.xw.sink }).say (.progress (S.progress r.2.1.1)) })

/-- The part of the closure after a header is known (tarextractor.go:186-236); `e` is `checkpoint.Entry`. -/
def tarExtract (S : SourceM) (T : TarFmt) (pr : Ckpt → Int × Int) (F : Nat) (e : Entry) (s : S.St) (c : TC T K V) :
    Option Err × S.St × TC T K V :=
  let c : TC T K V := { c with cur := true, xw := { c.xw with ck := { c.xw.ck with entry := some e } } }
  let r : Option Err × S.St × TC T K V := match e.kind with
    | .dir =>
      let q := K.mkdir e c.xw.sink
      (q.1.map .wrapped, s, { c with xw := ({ c.xw with sink := q.2 }).say (.mkdir e q.1) })
    | .symlink =>
      let q := K.symlink e e.link c.xw.sink
      (q.1.map .wrapped, s, { c with xw := ({ c.xw with sink := q.2 }).say (.symlink e e.link q.1) })
    | .file => tarFile S T pr F e s c
  match r.1 with
  | some x => (some x, r.2)
  | none => (none, r.2.1,
      { r.2.2 with xw := { r.2.2.xw with ck := { r.2.2.xw.ck with entry := none, srcCk := none, data := none } } })

/-- The closure extracting one entry (tarextractor.go:151-237). `.ok true` means the end of the archive. A member that
is no directory, link or regular file is skipped (lines 182-184) without touching the checkpoint. -/
def tarStep (S : SourceM) (T : TarFmt) (pr : Ckpt → Int × Int) (F : Nat) (idx : Int) (s : S.St) (c : TC T K V) :
    Except Err Bool × S.St × TC T K V :=
  let c : TC T K V := { c with cur := false, xw := { c.xw with ck := { c.xw.ck with entryIndex := idx } } }
  match c.xw.ck.entry with
  | some e =>
    let r := tarExtract S T pr F e s c
    (match r.1 with | some x => .error x | none => .ok false, r.2)
  | none =>
    let n := tarNext S T (tarOnSave T pr) F s c
    match n.1 with
    | .error x => (if x = .eof then .ok true else .error (.wrapped x), n.2)
    | .ok h =>
      if h.typ = .other then (.ok false, n.2)
      else
        let r := tarExtract S T pr F (tarEntryOf h) n.2.1 n.2.2
        (match r.1 with | some x => .error x | none => .ok false, r.2)

/-- The loop over entries (tarextractor.go:149-241), with a budget. -/
def tarLoop (S : SourceM) (T : TarFmt) (pr : Ckpt → Int × Int) (F : Nat) : Nat → Int → S.St → TC T K V →
    Option Err × S.St × TC T K V
  | 0, _, s, c => (some .diverge, s, c)
  | fuel + 1, idx, s, c =>
    if c.xw.stopErr then (none, s, c)
    else
      let r := tarStep S T pr F idx s c
      match r.1 with
      | .error x => (some (.wrapped x), r.2)
      | .ok true => (none, r.2)
      | .ok false => tarLoop S T pr F fuel (idx + 1) r.2.1 r.2.2

/-- The checkpoint a fresh tar extraction starts with (tarextractor.go:97-99). -/
def tarFreshCk : ECkpt := { srcCk := none, entryIndex := 0, entry := none, progress := (0, 1), data := none }

/-- The world at the start of a run (tarextractor.go:97-112). -/
def tarWorld (ck : ECkpt) (k : K.St) (u : V.St) : XW K V := ⟨k, u, ck, false, false, 0, []⟩

/-- A fresh start (tarextractor.go:83-105). -/
def tarFresh (S : SourceM) (T : TarFmt) (src : S.St) (k : K.St) (u : V.St) : Option Err × S.St × TC T K V :=
  let q := S.resume none src
  let c : TC T K V := ⟨T.start, 0, tarWorld tarFreshCk k u, [], false⟩
  match q.1 with
  | .error x => (some (.wrapped x), q.2, c)
  | .ok _ => (none, q.2, c)

/-- Starting from a checkpoint (tarextractor.go:52-78). While `DiscardByRead` runs, a save consumer registered by an
earlier use of the same source is not represented: the callback is a no-op. `tarReuse` (Reuse.lean) has it, and C89 says that it makes
no difference. -/
def tarAgain (S : SourceM) (T : TarFmt) (F : Nat) (ck : ECkpt) (res : List Entry) (tck : TarCk) (src : S.St) (k : K.St) (u : V.St) :
    Option Err × S.St × TC T K V :=
  let q := S.resume ck.srcCk src
  let c : TC T K V := ⟨T.start, tck.roff, tarWorld ck k u, res, false⟩
  match q.1 with
  | .error x => (some (.wrapped x), q.2, c)
  | .ok offset =>
    let d : Option Err × S.St × Unit :=
      if offset < tck.roff then discard S (fun _ c => (c, none)) F (tck.roff - offset) q.2 () else (none, q.2, ())
    match d.1 with
    | some x => (some (.wrapped x), d.2.1, c)
    | none =>
      match T.dec tck.blob with
      | none => (some (.wrapped .corrupt), d.2.1, c)
      | some st => (none, d.2.1, { c with rd := st })

/-- The part of `Resume` before the loop (tarextractor.go:46-105). A checkpoint without tar data is ignored. -/
def tarBegin (S : SourceM) (T : TarFmt) (F : Nat) (ck : Option ECkpt) (src : S.St) (k : K.St) (u : V.St) :
    Option Err × S.St × TC T K V :=
  match ck with
  | some c =>
    match c.data with
    | some ⟨some res, some tck⟩ => tarAgain S T F c res tck src k u
    | _ => tarFresh S T src k u
  | none => tarFresh S T src k u

/-- `tarExtractor.Resume` (tarextractor.go:45-252). Also returns the source, which may be used again. -/
def tarResume (S : SourceM) (T : TarFmt) (pr : Ckpt → Int × Int) (F : Nat) (K : SinkM) (V : SaveCons) (ck : Option ECkpt)
    (src : S.St) (k : K.St) (u : V.St) : Except Err (List Entry) × S.St × XW K V :=
  let b : Option Err × S.St × TC T K V := tarBegin S T F ck src k u
  match b.1 with
  | some x => (.error x, b.2.1, b.2.2.xw)
  | none =>
    let r := tarLoop S T pr F F b.2.2.xw.ck.entryIndex (S.setSSC true b.2.1) b.2.2
    match r.1 with
    | some x => (.error x, r.2.1, r.2.2.xw)
    | none => (if r.2.2.xw.stopErr then .error .stop else .ok r.2.2.res, r.2.1, r.2.2.xw)

end
end Savior
