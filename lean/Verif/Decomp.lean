import Verif.Source
/-!
# Decompressors

The decompressors (`github.com/itchio/kompress/{flate,gzip,bzip2}`, `github.com/itchio/go-brotli/dec`) are external to
/repo. They are modelled as an arbitrary incremental transducer `Decomp`: the theorems hold for every such transducer,
so nothing is assumed about any compression format. The contract of their `SaverReader` interface, as /repo relies
on it, is `SR` below:

* `WantSave` raises a flag; `Read` at the next block boundary lowers it and returns `(0, ReadyToSaveError)`;
* `Save` then returns a checkpoint with the number of bytes read from the source and produced so far;
* `checkpoint.Resume(source)` continues from there, the source being positioned at the read offset.

That `Read` returns no bytes together with `ReadyToSaveError` is what checker/sourcetester.go:58-80 (it seeks its output
to the checkpoint's offset and then writes what `Read` returned) and the comment in `ReadByte`
(flatesource.go:165-167) rely on.
-/

namespace Savior

/-- An incremental decompressor. -/
structure Decomp where
  St : Type
  /-- state of `NewSaverReader` before it has read anything -/
  start : St
  /-- still reading the header `NewSaverReader` consumes (gzip, brotli); always false for flate and bzip2 -/
  inHeader : St → Bool
  /-- how it asks its source for more: `0` is one `ReadByte`, `k+1` is one `Read` into a buffer of `k+1` bytes -/
  ask : St → Nat
  /-- consume one byte of input; `none` means the input is malformed -/
  feed : St → Byte → Option (St × List Byte)
  /-- the end of the compressed stream has been reached and verified -/
  fin : St → Bool
  /-- an EOF of the source is acceptable here -/
  eofOK : St → Bool
  /-- at a block boundary, where `Save` is possible -/
  canSave : St → Bool
  /-- `Save` does not fail -/
  saveOK : St → Bool
  /-- hands out its last bytes together with the error or EOF that follows them (as Go's `compress/flate` does) -/
  eager : Bool
  /-- the gob-encodable image of the state in a checkpoint -/
  enc : St → List Nat
  /-- `checkpoint.Resume`; `none` is failure -/
  dec : List Nat → Option St

/-- What the theorems need to know about a decompressor. -/
structure Decomp.Law (D : Decomp) : Prop where
  start_fin : D.fin D.start = false
  header_fin : ∀ st, D.inHeader st = true → D.fin st = false ∧ D.eofOK st = false
  header_out : ∀ st b st' out, D.inHeader st = true → D.feed st b = some (st', out) → out = []
  header_back : ∀ st b st' out, D.feed st b = some (st', out) → D.inHeader st' = true → D.inHeader st = true
  save_fin : ∀ st, D.canSave st = true → D.fin st = false
  /-- a checkpoint image restores the state it was taken from, or is refused (only by formats without header) -/
  dec_enc : ∀ st, D.canSave st = true →
    D.dec (D.enc st) = some st ∨ (D.dec (D.enc st) = none ∧ D.inHeader D.start = false)

/-- **Specification of decompression**: the bytes a compressed byte string stands for, and whether decoding ends well.
`clean` tells whether `z` ends with an EOF (as opposed to a read error). -/
def Decomp.decode (D : Decomp) (st : D.St) (z : List Byte) (clean : Bool) : List Byte × Bool :=
  match z with
  | [] => ([], D.fin st || (clean && D.eofOK st))
  | b :: z =>
    if D.fin st then ([], true)
    else match D.feed st b with
      | none => ([], false)
      | some (st', out) => (out ++ (Decomp.decode D st' z clean).1, (Decomp.decode D st' z clean).2)

/-- Feeding a chunk of input: the output, the state reached, and whether malformed input was met. Input after the end of
the compressed stream is ignored. -/
def Decomp.feedAll (D : Decomp) (st : D.St) (bs : List Byte) : List Byte × D.St × Bool :=
  match bs with
  | [] => ([], st, false)
  | b :: bs =>
    if D.fin st then ([], st, false)
    else match D.feed st b with
      | none => ([], st, true)
      | some (st', out) =>
        let r := Decomp.feedAll D st' bs
        (out ++ r.1, r.2)

/-- A `SaverReader`: decompressor state, output not yet handed out, input and output offsets, the save flag and the
sticky error. -/
structure SR (D : Decomp) where
  st : D.St
  pend : List Byte
  roff : Int
  woff : Int
  want : Bool
  err : Option Err

/-- A fresh `SaverReader` in state `st`. -/
def SR.mk' {D : Decomp} (st : D.St) (roff woff : Int) : SR D :=
  { st, pend := [], roff, woff, want := false, err := none }

/-- The callback every decompressing source registers on its own source (flatesource.go:49-55, gzipsource.go:53-59,
bzip2source.go:51-58, brotlisource.go:49-56): remember the source checkpoint, raise the decompressor's save flag. State: (`sourceCheckpoint`, "the save flag
was raised"). -/
def srCb : Callback (Option Ckpt × Bool) := fun ck _ => ((some ck, true), none)

/-- One request of the decompressor to its source. -/
def askInner (D : Decomp) (I : SourceM) (st : D.St) (src : I.St) (ck : Option Ckpt) :
    ReadRes × I.St × (Option Ckpt × Bool) :=
  match D.ask st with
  | 0 =>
    let q := I.readByte srCb src (ck, false)
    ((if q.1.2 = none then [q.1.1] else [], q.1.2), q.2)
  | k + 1 => I.read srCb (k + 1) src (ck, false)

/-- The sticky error after consuming a chunk that came with `e`. -/
def stickyErr (D : Decomp) (fa : List Byte × D.St × Bool) (e : Option Err) : Option Err :=
  if fa.2.2 then some .corrupt
  else if D.fin fa.2.1 then some .eof
  else match e with
    | none => none
    | some .eof => if D.eofOK fa.2.1 then some .eof else some .unexpectedEOF
    | some x => some x

/-- The effect of one answered request on the `SaverReader` (which has no pending output). -/
def SR.absorb {D : Decomp} (r : SR D) (bs : List Byte) (e : Option Err) (fired : Bool) : SR D :=
  let fa := D.feedAll r.st bs
  { st := fa.2.1, pend := fa.1, roff := r.roff + bs.length, woff := r.woff, want := r.want || fired,
    err := stickyErr D fa e }

/-- `SaverReader.Read(p)`, `len(p) = n` (external package; see the file comment). -/
def srLoop (D : Decomp) (I : SourceM) : Nat → Nat → SR D → I.St → Option Ckpt →
    ReadRes × SR D × I.St × Option Ckpt
  | 0, _, r, src, ck => (([], some .diverge), r, src, ck)
  | f + 1, n, r, src, ck =>
    if r.pend ≠ [] then
      let out := r.pend.take n
      let rest := r.pend.drop n
      ((out, if D.eager && rest.isEmpty then r.err else none),
        { r with pend := rest, woff := r.woff + out.length }, src, ck)
    else match r.err with
      | some e => (([], some e), r, src, ck)
      | none =>
        if r.want && D.canSave r.st then (([], some .readyToSave), { r with want := false }, src, ck)
        else
          let q := askInner D I r.st src ck
          srLoop D I f n (r.absorb q.1.1 q.1.2 q.2.2.2) q.2.1 q.2.2.1

/-- The header part of `NewSaverReader` (gzip, brotli): read until the header is complete. The last component tells
whether the save callback ran meanwhile. -/
def hdrLoop (D : Decomp) (I : SourceM) : Nat → SR D → I.St → Option Ckpt → Bool →
    Except Err (SR D) × I.St × Option Ckpt × Bool
  | 0, _, src, ck, fired => (.error .diverge, src, ck, fired)
  | f + 1, r, src, ck, fired =>
    if D.inHeader r.st = false then (.ok r, src, ck, fired)
    else match r.err with
      | some e => (.error e, src, ck, fired)
      | none =>
        let q := askInner D I r.st src ck
        hdrLoop D I f (r.absorb q.1.1 q.1.2 false) q.2.1 q.2.2.1 (fired || q.2.2.2)

end Savior
