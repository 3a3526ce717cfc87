import Verif.Base
/-!
# The environment's `io.ReadSeeker` and Go's `bufio.Reader`

Neither is part of /repo; they are what `seeksource` is built on. `Rs` is an `io.ReadSeeker` over fixed content whose
every call may, at the choice of an arbitrary schedule, return fewer bytes than asked, fail (with or without bytes), or report EOF
together with the last bytes, all of which `io.Reader` allows. Assumption: a read into a non-empty buffer returns at least one
byte, or an error (true of `bytes.Reader`, `os.File`, `io.SectionReader`).
-/

namespace Savior

/-- One decision of the environment about one underlying call. -/
structure RsAct where
  /-- return at most `give + 1` bytes -/
  give : Nat
  /-- report EOF together with the last bytes -/
  eager : Bool
  /-- fail with this error code, together with at most `give` bytes -/
  fault : Option Nat
  deriving DecidableEq, Repr, Inhabited

/-- An environment that always gives what is asked and never fails. -/
def RsAct.full : RsAct := ⟨1000000000, false, none⟩

/-- The environment never fails a call. -/
def NoFault (sched : Nat → RsAct) : Prop := ∀ t, (sched t).fault = none

/-- The environment never reports EOF together with data. -/
def LazySched (sched : Nat → RsAct) : Prop := ∀ t, (sched t).eager = false

/-- An `io.ReadSeeker`: content, position, schedule and the number of calls made so far. -/
structure Rs where
  content : List Byte
  pos : Nat
  sched : Nat → RsAct
  tick : Nat

/-- `rs.Read(p)` (under the `bufio.Reader` of seeksource.go:87-91) with `len(p) = k > 0`. Contract of `io.Reader`. -/
def Rs.read (rs : Rs) (k : Nat) : (List Byte × Option Err) × Rs :=
  let a := rs.sched rs.tick
  match a.fault with
  | some code =>
    let out := (rs.content.drop rs.pos).take (min k a.give)
    ((out, some (.fault code)), { rs with pos := rs.pos + out.length, tick := rs.tick + 1 })
  | none =>
    let avail := rs.content.drop rs.pos
    if avail.isEmpty then (([], some .eof), { rs with tick := rs.tick + 1 })
    else
      let out := avail.take (min k (a.give + 1))
      let err := if a.eager && out.length == avail.length then some Err.eof else none
      ((out, err), { rs with pos := rs.pos + out.length, tick := rs.tick + 1 })

/-- `rs.Seek(off, io.SeekStart)` (seeksource.go:82). Contract of `io.Seeker`: negative positions are an error, positions past the end
are allowed. -/
def Rs.seek (rs : Rs) (off : Int) : Except Err Int × Rs :=
  match (rs.sched rs.tick).fault with
  | some code => (.error (.fault code), { rs with tick := rs.tick + 1 })
  | none =>
    if off < 0 then (.error (.os 22), { rs with tick := rs.tick + 1 })
    else (.ok off, { rs with pos := off.toNat, tick := rs.tick + 1 })

/-- Go's `bufio.Reader`: the unread part `buf[r:w]` of its buffer and the pending error. -/
structure Bufio where
  buf : List Byte
  err : Option Err
  deriving Repr

/-- `bufio.defaultBufSize`. -/
def bufioSize : Nat := 4096

/-- `bufio.NewReader` / `Reset` (seeksource.go:87-91). -/
def Bufio.fresh : Bufio := ⟨[], none⟩

/-- `bufio.Reader.Read(p)`, `len(p) = n > 0` (stdlib bufio.go): serve from the buffer; if it is empty report the
pending error once, else make one underlying read, directly into `p` when `p` is at least as large as the buffer. -/
def Bufio.read (b : Bufio) (rs : Rs) (n : Nat) : (List Byte × Option Err) × Bufio × Rs :=
  if b.buf.isEmpty then
    match b.err with
    | some e => (([], some e), { b with err := none }, rs)
    | none =>
      if bufioSize ≤ n then
        let r := rs.read n
        (r.1, ⟨[], none⟩, r.2)
      else
        let r := rs.read bufioSize
        if r.1.1.isEmpty then (([], r.1.2), ⟨[], none⟩, r.2)
        else ((r.1.1.take n, none), ⟨r.1.1.drop n, r.1.2⟩, r.2)
  else
    ((b.buf.take n, none), { b with buf := b.buf.drop n }, rs)

/-- `bufio.Reader.ReadByte` (stdlib bufio.go): if the buffer is empty, report the pending error once, else fill with one
underlying read (which yields a byte or an error). When the fill yields no byte, the loop comes round and reports the
error it left. -/
def Bufio.readByte (b : Bufio) (rs : Rs) : (Byte × Option Err) × Bufio × Rs :=
  match b.buf with
  | c :: rest => ((c, none), { b with buf := rest }, rs)
  | [] =>
    match b.err with
    | some e => ((0, some e), ⟨[], none⟩, rs)
    | none =>
      let r := rs.read bufioSize
      match r.1.1 with
      | c :: rest => ((c, none), ⟨rest, r.1.2⟩, r.2)
      | [] => ((0, some (r.1.2.getD .noProgress)), ⟨[], none⟩, r.2)

end Savior
