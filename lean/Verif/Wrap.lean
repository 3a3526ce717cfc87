import Verif.Decomp
/-!
# The decompressing sources

flatesource, gzipsource, bzip2source and brotlisource are the same program up to the configuration `WrapCfg`.
-/

namespace Savior

/-- What distinguishes the four decompressing sources (flatesource.go, gzipsource.go, bzip2source.go, brotlisource.go; lines below). -/
structure WrapCfg where
  tag : Tag
  /-- `Resume` returns the `Offset` stored in its own checkpoint struct (gzipsource.go:95-96, bzip2source.go:97-98)
  rather than the decompressor's write offset (flatesource.go:93-94, brotlisource.go:95-96) -/
  ownOffset : Bool
  /-- `Read` forgets the source checkpoint once it used it (flatesource.go:148, gzipsource.go:155, brotlisource.go:155);
  bzip2source does not -/
  clearsCk : Bool
  /-- `Resume` wraps an error of `NewSaverReader` (brotlisource.go:117, keeping the
  old decompressor) or returns it as is (gzipsource.go:115-118, losing the old decompressor) -/
  wrapsNew : Bool

/-- flatesource.go:26-29, 93-94, 148. -/
def flateCfg : WrapCfg := ⟨.flate, false, true, true⟩
/-- gzipsource.go:29-33, 95-96, 115-118, 155. -/
def gzipCfg : WrapCfg := ⟨.gzip, true, true, false⟩
/-- bzip2source.go:26-30, 97-98, 155. -/
def bzip2Cfg : WrapCfg := ⟨.bzip2, true, false, true⟩
/-- brotlisource.go:25-28, 95-96, 115-119, 155. -/
def brotliCfg : WrapCfg := ⟨.brotli, false, true, true⟩

/-- `flateSource` (flatesource.go:12-24) and its three siblings. `hasSSC` is `ssc != nil`; `bytebuf` the one-byte buffer
of `ReadByte`. -/
structure WrapSt (D : Decomp) (I : SourceM) where
  src : I.St
  sr : Option (SR D)
  offset : Int
  hasSSC : Bool
  srcCk : Option Ckpt
  bytebuf : Byte

namespace Wrap

/-- `New` (flatesource.go:33-38). -/
def new (D : Decomp) (I : SourceM) (src : I.St) : WrapSt D I :=
  { src, sr := none, offset := 0, hasSSC := false, srcCk := none, bytebuf := 0 }

variable (cfg : WrapCfg) (D : Decomp) (I : SourceM) (F : Nat)

/-- `sr.WantSave()` on the decompressor that existed when the save callback ran (flatesource.go:47-56, gzipsource.go:51-60,
bzip2source.go:48-59, brotlisource.go:46-57). -/
def poke (fired : Bool) (sr : Option (SR D)) : Option (SR D) :=
  sr.map fun r => { r with want := r.want || fired }

/-- "start from beginning" (flatesource.go:102-115, gzipsource.go:104-121, bzip2source.go:106-120,
brotlisource.go:104-122). If the save callback runs while `NewSaverReader` reads the header and there is no old
decompressor, `sr.WantSave()` is a nil dereference. -/
def fromStart (s : WrapSt D I) : Except Err Int × WrapSt D I :=
  let q := I.resume none s.src
  match q.1 with
  | .error e => (.error (.wrapped e), { s with src := q.2 })
  | .ok so =>
    if so ≠ 0 then (.error .badStart, { s with src := q.2 })
    else
      let h := hdrLoop D I F (SR.mk' D.start 0 0) q.2 s.srcCk false
      if h.2.2.2 && s.sr.isNone then (.error .panic, { s with src := h.2.1 })
      else match h.1 with
        | .error e => (.error (if cfg.wrapsNew then .wrapped e else e),
            { s with src := h.2.1, srcCk := h.2.2.1, sr := if cfg.wrapsNew then poke D h.2.2.2 s.sr else none })
        | .ok r => (.ok 0, { s with src := h.2.1, srcCk := h.2.2.1, sr := some r, offset := 0 })

/-- The source is at `so`; try to use the decompressor checkpoint (flatesource.go:83-98, gzipsource.go:85-100,
bzip2source.go:87-102, brotlisource.go:85-100). -/
def aligned (so : Int) (ckOff : Int) (dc : DCk) (s : WrapSt D I) : Except Err Int × WrapSt D I :=
  if so = dc.roff then
    match D.dec dc.blob with
    | some st =>
      let o := if cfg.ownOffset then ckOff else dc.woff
      (.ok o, { s with sr := some (SR.mk' st dc.roff dc.woff), offset := o })
    | none =>
      let q := I.resume none s.src
      match q.1 with
      | .error e => (.error (.wrapped e), { s with src := q.2, sr := none })
      | .ok _ => fromStart cfg D I F { s with src := q.2, sr := none }
  else fromStart cfg D I F s

/-- `Resume` (flatesource.go:62-116, gzipsource.go:66-122, bzip2source.go:66-121, brotlisource.go:64-123). -/
def resume (c : Option Ckpt) (s : WrapSt D I) : Except Err Int × WrapSt D I :=
  match c with
  | some (.dec tag _ sck ckOff dc) =>
    if tag = cfg.tag then
      let q := I.resume sck s.src
      match q.1 with
      | .error e => (.error (.wrapped e), { s with src := q.2 })
      | .ok so =>
        if so < dc.roff then
          let d := discard I srCb F (dc.roff - so) q.2 (s.srcCk, false)
          if d.2.2.2 && s.sr.isNone then (.error .panic, { s with src := d.2.1 })
          else match d.1 with
            | some e => (.error (.wrapped e), { s with src := d.2.1, srcCk := d.2.2.1, sr := poke D d.2.2.2 s.sr })
            | none => aligned cfg D I F dc.roff ckOff dc { s with src := d.2.1, srcCk := d.2.2.1 }
        else aligned cfg D I F so ckOff dc { s with src := q.2 }
    else fromStart cfg D I F s
  | _ => fromStart cfg D I F s

/-- The checkpoint `Read` builds (flatesource.go:141-147, gzipsource.go:147-154, bzip2source.go:146-153,
brotlisource.go:148-154). -/
def mkCkpt (offset : Int) (sck : Ckpt) (r : SR D) : Ckpt :=
  .dec cfg.tag offset (some sck) (if cfg.ownOffset then offset else 0) ⟨r.roff, r.woff, D.enc r.st⟩

/-- `Read` (flatesource.go:118-156, gzipsource.go:124-163, bzip2source.go:123-161, brotlisource.go:125-163). -/
def read {C : Type} (cb : Callback C) (n : Nat) (s : WrapSt D I) (c : C) : ReadRes × WrapSt D I × C :=
  match s.sr with
  | none => (([], some (.wrapped .uninit)), s, c)
  | some r =>
    let q := srLoop D I F n r s.src s.srcCk
    let s1 : WrapSt D I := { s with sr := some q.2.1, src := q.2.2.1, srcCk := q.2.2.2, offset := s.offset + q.1.1.length }
    if q.1.2 = some .readyToSave then
      match s1.srcCk with
      | none => ((q.1.1, none), s1, c)
      | some sck =>
        if s1.hasSSC = false then ((q.1.1, none), s1, c)
        else if D.saveOK q.2.1.st = false then ((q.1.1, some .saveFailed), s1, c)
        else
          let r := cb (mkCkpt cfg D s1.offset sck q.2.1) c
          ((q.1.1, r.2), { s1 with srcCk := if cfg.clearsCk then none else some sck }, r.1)
    else (q.1, s1, c)

/-- Storing what `Read(bytebuf)` returned (flatesource.go:158-172 and siblings). -/
def storeByte (bs : List Byte) (s : WrapSt D I) : WrapSt D I :=
  match bs with
  | [] => s
  | b :: _ => { s with bytebuf := b }

/-- `ReadByte` (flatesource.go:158-172, gzipsource.go:165-179, bzip2source.go:163-177, brotlisource.go:165-179): a read
of length 0 is repeated once; the buffer's byte is returned in any case. -/
def readByte {C : Type} (cb : Callback C) (s : WrapSt D I) (c : C) : (Byte × Option Err) × WrapSt D I × C :=
  match s.sr with
  | none => ((0, some (.wrapped .uninit)), s, c)
  | some _ =>
    let q := read cfg D I F cb 1 s c
    let s1 := storeByte D I q.1.1 q.2.1
    if q.1.1 = [] then
      let q2 := read cfg D I F cb 1 s1 q.2.2
      let s2 := storeByte D I q2.1.1 q2.2.1
      ((s2.bytebuf, q2.1.2), s2, q2.2.2)
    else ((s1.bytebuf, q.1.2), s1, q.2.2)

end Wrap

/-- A decompressing source over a source. `SetSourceSaveConsumer` (flatesource.go:47-56) always registers a callback on
the underlying source, even for a nil consumer; `WantSave` (58-60) and `Progress` (174-179) are forwarded. `F` is the
step budget of the decompressor's loop. -/
def wrapM (cfg : WrapCfg) (D : Decomp) (I : SourceM) (F : Nat) : SourceM where
  St := WrapSt D I
  resume := Wrap.resume cfg D I F
  setSSC b s := { s with hasSSC := b, src := I.setSSC true s.src }
  wantSave s := { s with src := I.wantSave s.src }
  read := Wrap.read cfg D I F
  readByte := Wrap.readByte cfg D I F
  progress s := I.progress s.src

end Savior
