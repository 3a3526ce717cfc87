import Verif.Source
/-!
# seeksource (seeksource/seeksource.go)
-/

namespace Savior

/-- Two's complement wrap-around of int64 arithmetic (e.g. seeksource.go:113-114, zipextractor.go:140-142, extractor.go:47). -/
def wrap64 (x : Int) : Int := (x + 9223372036854775808) % 18446744073709551616 - 9223372036854775808

/-- `seekSource` (seeksource.go:14-25). `hasSSC` is `ssc != nil`. -/
structure SeekSt where
  rs : Rs
  br : Option Bufio
  hasSSC : Bool
  wantSave : Bool
  sectionStart : Int
  offset : Int
  size : Int

namespace Seek

/-- `NewWithSize` (seeksource.go:48-53). -/
def newWithSize (rs : Rs) (size : Int) : SeekSt :=
  { rs, br := none, hasSSC := false, wantSave := false, sectionStart := 0, offset := 0, size }

/-- `FromBytes` (seeksource.go:42-44): `bytes.NewReader` gives everything asked, never fails. -/
def fromBytes (buf : List Byte) : SeekSt :=
  newWithSize { content := buf, pos := 0, sched := fun _ => .full, tick := 0 } buf.length

/-- `FromFile` (seeksource.go:29-40): the size is that of a successful `Stat`, else the zero value. -/
def fromFile (rs : Rs) (stat : Except Err Nat) : SeekSt :=
  newWithSize rs (match stat with | .ok n => (n : Int) | .error _ => 0)

/-- `Resume` (seeksource.go:72-94). Note `ss.offset` is already assigned when `Seek` fails. On a `Seek` error the code
returns the (zero) offset `Seek` returned; callers ignore it. -/
def resume (c : Option Ckpt) (ss : SeekSt) : Except Err Int × SeekSt :=
  match c with
  | some ck =>
    if ck.offset < 0 then (.error .negativeOffset, ss)
    else go { ss with offset := ck.offset }
  | none => go { ss with offset := 0 }
where
  /-- seeksource.go:82-93 -/
  go (ss : SeekSt) : Except Err Int × SeekSt :=
    let r := ss.rs.seek (ss.sectionStart + ss.offset)
    match r.1 with
    | .error e => (.error (.wrapped e), { ss with rs := r.2 })
    | .ok _ => (.ok ss.offset, { ss with rs := r.2, br := some .fresh })

/-- `Tell` (seeksource.go:96-98). -/
def tell (ss : SeekSt) : Int := ss.offset

/-- `Size` (seeksource.go:100-102). -/
def size (ss : SeekSt) : Int := ss.size

/-- `Section` (seeksource.go:104-123); `start+size` is int64 addition. The new source shares the underlying
`io.ReadSeeker`; here it gets its state at the time of the call (the position is irrelevant: a section must be resumed
before use). -/
def section_ (start sz : Int) (ss : SeekSt) : Except Err SeekSt :=
  if start < 0 then .error (.wrapped .sectionNegStart)
  else if sz < 0 then .error (.wrapped .sectionNegSize)
  else if wrap64 (start + sz) > ss.size then .error (.wrapped .sectionTooLarge)
  else .ok { rs := ss.rs, br := none, hasSSC := false, wantSave := false,
             sectionStart := wrap64 (ss.sectionStart + start), offset := 0, size := sz }

/-- `handleSave` (seeksource.go:165-176): emits at most one checkpoint, with the current offset; the callback's error is
dropped. -/
def handleSave {C : Type} (cb : Callback C) (ss : SeekSt) (c : C) : SeekSt × C :=
  if ss.wantSave then
    ({ ss with wantSave := false }, if ss.hasSSC then (cb (.plain ss.offset) c).1 else c)
  else (ss, c)

/-- `Read` (seeksource.go:125-146), `len(buf) = n`. Slicing `buf[:remaining]` with a negative bound panics. -/
def read {C : Type} (cb : Callback C) (n : Nat) (ss : SeekSt) (c : C) : ReadRes × SeekSt × C :=
  match ss.br with
  | none => (([], some (.wrapped .uninit)), ss, c)
  | some _ =>
    if n = 0 then (([], none), ss, c)
    else
      let remaining := ss.size - ss.offset
      if remaining = 0 then (([], some .eof), ss, c)
      else if (n : Int) > remaining ∧ remaining < 0 then (([], some .panic), ss, c)
      else
        let n' := if (n : Int) > remaining then remaining.toNat else n
        let h := handleSave cb ss c
        match h.1.br with
        | none => (([], some .panic), h.1, h.2)
        | some b =>
          let r := b.read h.1.rs n'
          ((r.1.1, r.1.2), { h.1 with br := some r.2.1, rs := r.2.2, offset := h.1.offset + r.1.1.length }, h.2)

/-- `ReadByte` (seeksource.go:148-163). -/
def readByte {C : Type} (cb : Callback C) (ss : SeekSt) (c : C) : (Byte × Option Err) × SeekSt × C :=
  match ss.br with
  | none => ((0, some (.wrapped .uninit)), ss, c)
  | some _ =>
    if ss.offset = ss.size then ((0, some .eof), ss, c)
    else
      let h := handleSave cb ss c
      match h.1.br with
      | none => ((0, some .panic), h.1, h.2)
      | some b =>
        let r := b.readByte h.1.rs
        ((r.1.1, r.1.2), { h.1 with br := some r.2.1, rs := r.2.2,
                                    offset := if r.1.2 = none then h.1.offset + 1 else h.1.offset }, h.2)

/-- `Progress` (seeksource.go:178-185) as numerator and denominator. -/
def progress (ss : SeekSt) : Int × Int := if ss.size > 0 then (ss.offset, ss.size) else (0, 1)

end Seek

/-- seeksource as a source. `SetSourceSaveConsumer` (62-65), `WantSave` (67-70). -/
def seekM : SourceM where
  St := SeekSt
  resume := Seek.resume
  setSSC b ss := { ss with hasSSC := b }
  wantSave ss := { ss with wantSave := true }
  read := Seek.read
  readByte := Seek.readByte
  progress := Seek.progress

end Savior
