import Verif.Extract
/-!
# Checkpoints on disk: encoding/gob

Callers keep checkpoints by encoding them with Go's `encoding/gob` (source.go:17-19, checker/sourcetester.go:94-107,
checker/extractortester.go:111-124). This file models the value encoding of gob (the package's documented wire format) for
the Go types checkpoints are made of: which fields the structs have, in which order, which dynamic types are registered.

Simplified: the type definitions a gob stream carries before the first value of each type are left out (writer and reader
are the same program version, so that the fields have the same numbers); a `float64` is written as the pair of integers the
model keeps for it; the checkpoints of the external packages (`flate.Checkpoint`, `tar.Checkpoint`, ...) are structs with
their offsets and an image; a slice that is empty and one that is nil are the same.
-/

namespace Savior.Gob

/-! ## Numbers -/

/-- The low `k` bytes of `n`, most significant first. -/
def beBytes : Nat → Nat → List Byte
  | 0, _ => []
  | k + 1, n => beBytes k (n / 256) ++ [UInt8.ofNat (n % 256)]

/-- The number whose bytes these are, most significant first. -/
def beVal (bs : List Byte) : Nat := bs.foldl (fun a b => a * 256 + b.toNat) 0

/-- How many bytes an unsigned 64-bit number takes. -/
def nbytes (n : Nat) : Nat :=
  if n < 256 then 1 else if n < 256 ^ 2 then 2 else if n < 256 ^ 3 then 3 else if n < 256 ^ 4 then 4
  else if n < 256 ^ 5 then 5 else if n < 256 ^ 6 then 6 else if n < 256 ^ 7 then 7 else 8

/-- Unsigned integers: one byte below 128, otherwise the negated byte count and the bytes (encoding/gob, `encodeUint`). -/
def uintE (n : Nat) : List Byte :=
  if n < 128 then [UInt8.ofNat n] else UInt8.ofNat (256 - nbytes n) :: beBytes (nbytes n) n

/-- encoding/gob, `decodeUint`. -/
def uintD : List Byte → Option (Nat × List Byte)
  | [] => none
  | b :: t =>
    if b.toNat < 128 then some (b.toNat, t)
    else if 8 < 256 - b.toNat then none
    else if t.length < 256 - b.toNat then none
    else some (beVal (t.take (256 - b.toNat)), t.drop (256 - b.toNat))

/-- Signed integers are sent as unsigned ones, the sign in the low bit (encoding/gob, `encodeInt`). -/
def intE (i : Int) : List Byte := uintE (if 0 ≤ i then 2 * i.toNat else 2 * (-1 - i).toNat + 1)

/-- encoding/gob, `decodeInt`. -/
def intD (bs : List Byte) : Option (Int × List Byte) :=
  match uintD bs with
  | none => none
  | some (u, r) => some (if u % 2 = 0 then (u / 2 : Nat) else -1 - ((u / 2 : Nat) : Int), r)

/-! ## Coders -/

/-- How values of a type are written (`none`: `Encode` reports an error) and read back (`none`: `Decode` reports an
error); the value a field that is not sent keeps, and whether a field with this value is sent. -/
structure Coder (α : Type) where
  enc : α → Option (List Byte)
  dec : List Byte → Option (α × List Byte)
  dflt : α
  unsent : α → Bool

/-- Fields of unsigned type; zero is not sent. -/
def uintC : Coder Nat := ⟨fun n => some (uintE n), uintD, 0, fun n => n == 0⟩

/-- Fields of signed type; zero is not sent. -/
def intC : Coder Int := ⟨fun i => some (intE i), intD, 0, fun i => i == 0⟩

/-- Strings and byte slices: the length, then the bytes. -/
def strD (bs : List Byte) : Option (Str × List Byte) :=
  match uintD bs with
  | none => none
  | some (n, r) => if r.length < n then none else some (r.take n, r.drop n)

/-- Fields of string type; the empty string is not sent. -/
def strC : Coder Str := ⟨fun s => some (uintE s.length ++ s), strD, [], fun s => s.isEmpty⟩

/-- The elements of a slice. -/
def elemsE {α : Type} (c : Coder α) : List α → Option (List Byte)
  | [] => some []
  | a :: l =>
    match c.enc a, elemsE c l with
    | some e, some r => some (e ++ r)
    | _, _ => none

/-- Reading that many elements. -/
def elemsD {α : Type} (c : Coder α) : Nat → List Byte → Option (List α × List Byte)
  | 0, bs => some ([], bs)
  | n + 1, bs =>
    match c.dec bs with
    | none => none
    | some (a, r) =>
      match elemsD c n r with
      | none => none
      | some (l, r') => some (a :: l, r')

/-- Slices: the number of elements, then the elements. -/
def sliceC {α : Type} (c : Coder α) : Coder (List α) where
  enc l := (elemsE c l).map (uintE l.length ++ ·)
  dec bs :=
    match uintD bs with
    | none => none
    | some (n, r) => elemsD c n r
  dflt := []
  unsent l := l.isEmpty

/-- A pointer field: nil is not sent, anything else is sent as the value pointed to. -/
def ptrC {α : Type} (c : Coder α) : Coder (Option α) where
  enc o := match o with | none => none | some a => c.enc a
  dec bs := (c.dec bs).map fun (a, r) => (some a, r)
  dflt := none
  unsent o := o.isNone

/-- The bytes of a number of any size, least significant first. -/
def digits (n : Nat) : Str := if h : n = 0 then [] else UInt8.ofNat (n % 256) :: digits (n / 256)
termination_by n

/-- The number with these bytes. -/
def ofDigits : Str → Nat
  | [] => 0
  | b :: l => b.toNat + 256 * ofDigits l

/-- Stand-in for values whose own encoding is not modelled (the images of decompressor and tar reader states, floats): a
number of any size, as a string. -/
def bigC : Coder Nat where
  enc n := some (uintE (digits n).length ++ digits n)
  dec bs := (strD bs).map fun (s, r) => (ofDigits s, r)
  dflt := 0
  unsent n := n == 0

/-! ## Structs -/

/-- The fields of a struct from some field on. `enc gap a`: as sent when `gap` fields were left out before; `dec d bs`: the
number read before was `d` (0: the struct ends here; 1: the next field follows; more: fields are skipped). -/
structure Fields (α : Type) where
  enc : Nat → α → Option (List Byte)
  dec : Nat → List Byte → Option (α × List Byte)

/-- A struct ends with a zero. -/
def Fields.nil : Fields Unit where
  enc _ _ := some (uintE 0)
  dec d bs := if d = 0 then some ((), bs) else none

/-- Fields are sent as the distance from the last field sent and the value; fields with their zero value are left out
(encoding/gob, `encodeStruct`, `decodeStruct`). -/
def Fields.cons {α β : Type} (c : Coder α) (f : Fields β) : Fields (α × β) where
  enc gap v :=
    if c.unsent v.1 then f.enc (gap + 1) v.2
    else match c.enc v.1, f.enc 0 v.2 with
      | some e, some r => some (uintE (gap + 1) ++ (e ++ r))
      | _, _ => none
  dec d bs :=
    if d = 0 then (f.dec 0 bs).map fun (b, r) => ((c.dflt, b), r)
    else if d = 1 then
      match c.dec bs with
      | none => none
      | some (a, r) =>
        match uintD r with
        | none => none
        | some (d', r') => (f.dec d' r').map fun (b, r'') => ((a, b), r'')
    else (f.dec (d - 1) bs).map fun (b, r) => ((c.dflt, b), r)

/-- A struct, seen as a value of type `β`. -/
def structC {α β : Type} (f : Fields α) (to : α → Option β) (from_ : β → α) (dflt : β) : Coder β where
  enc b := f.enc 0 (from_ b)
  dec bs :=
    match uintD bs with
    | none => none
    | some (d, r) =>
      match f.dec d r with
      | none => none
      | some (a, r') => (to a).map fun b => (b, r')
  dflt := dflt
  unsent _ := false

/-! ## Interface values -/

/-- The two programs: the dynamic types each of them has registered with `gob.Register`, and the numbers the writer's
stream gives to types. -/
structure Progs where
  writer : List Str
  reader : List Str
  ids : Str → Int

/-- An interface value: the registered name of its dynamic type, the type's number, the length of the value, the value
(encoding/gob, `encodeInterface`, `decodeInterface`; the reader ignores the length). Nil is not sent. `name v` is the
name of `v`'s dynamic type, `body n` codes values whose dynamic type is named `n`. -/
def ifaceC {α : Type} (P : Progs) (name : α → Str) (body : Str → Option (Coder α)) : Coder (Option α) where
  enc o :=
    match o with
    | none => none
    | some v =>
      if name v ∈ P.writer then
        match body (name v) with
        | none => none
        | some c => (c.enc v).map fun e => uintE (name v).length ++ (name v ++ (intE (P.ids (name v)) ++ (uintE e.length ++ e)))
      else none
  dec bs :=
    match strD bs with
    | none => none
    | some (n, r) =>
      if n ∈ P.reader then
        match body n with
        | none => none
        | some c =>
          match intD r with
          | none => none
          | some (_, r1) =>
            match uintD r1 with
            | none => none
            | some (_, r2) => (c.dec r2).map fun (v, r3) => (some v, r3)
      else none
  dflt := none
  unsent o := o.isNone

/-! ## The types of the repository -/

/-- The names under which the repository registers its types (`gob.Register` uses the type's string: source.go:128,
extractor.go:155, gzipsource.go:193, flatesource.go:182, bzip2source.go:187, brotlisource.go:189,
tarextractor.go:277-278). -/
def tagName : Tag → Str
  | .flate => cs ['*','f','l','a','t','e','s','o','u','r','c','e','.','F','l','a','t','e','S','o','u','r','c','e','C','h','e','c','k','p','o','i','n','t']
  | .gzip => cs ['*','g','z','i','p','s','o','u','r','c','e','.','G','z','i','p','S','o','u','r','c','e','C','h','e','c','k','p','o','i','n','t']
  | .bzip2 => cs ['*','b','z','i','p','2','s','o','u','r','c','e','.','B','z','i','p','2','S','o','u','r','c','e','C','h','e','c','k','p','o','i','n','t']
  | .brotli => cs ['*','b','r','o','t','l','i','s','o','u','r','c','e','.','B','r','o','t','l','i','S','o','u','r','c','e','C','h','e','c','k','p','o','i','n','t']

/-- `gob.Register(&TarExtractorState{})` (tarextractor.go:277). -/
def tarName : Str :=
  cs ['*','t','a','r','e','x','t','r','a','c','t','o','r','.','T','a','r','E','x','t','r','a','c','t','o','r','S','t','a','t','e']

/-- What a program that imports every package of the repository has registered (source.go:128, extractor.go:155, gzipsource.go:193, flatesource.go:182, bzip2source.go:187, brotlisource.go:189, tarextractor.go:277-278). -/
def registered : List Str :=
  [cs ['*','s','a','v','i','o','r','.','S','o','u','r','c','e','C','h','e','c','k','p','o','i','n','t'],
   cs ['*','s','a','v','i','o','r','.','E','x','t','r','a','c','t','o','r','C','h','e','c','k','p','o','i','n','t'],
   tagName .gzip, tagName .flate, tagName .bzip2, tagName .brotli, tarName,
   cs ['*','t','a','r','.','C','h','e','c','k','p','o','i','n','t']]

/-- The checkpoint struct of a decompressor (external packages; simplified to offsets and image). -/
def dckC : Coder DCk :=
  structC (.cons intC (.cons intC (.cons (sliceC bigC) .nil))) (fun (r, w, b, _) => some ⟨r, w, b⟩)
    (fun d => (d.roff, d.woff, d.blob, ())) ⟨0, 0, []⟩

/-- `tar.Checkpoint` (external package; simplified to offset and image). -/
def tckC : Coder TarCk :=
  structC (.cons intC (.cons (sliceC bigC) .nil)) (fun (r, b, _) => some ⟨r, b⟩) (fun d => (d.roff, d.blob, ())) ⟨0, []⟩

/-- What `SourceCheckpoint.Data` points to: which source's struct, its `SourceCheckpoint`, its `Offset` (gzip and bzip2 have
one) and the decompressor's checkpoint (flatesource.go:26-29, gzipsource.go:29-33, bzip2source.go:26-30, brotlisource.go:25-28). -/
structure Data where
  tag : Tag
  src : Option Ckpt
  ckOff : Int
  dc : DCk

/-- `GzipSourceCheckpoint` (gzipsource.go:29-33), `Bzip2SourceCheckpoint` (bzip2source.go:26-30),
`FlateSourceCheckpoint` (flatesource.go:26-29), `BrotliSourceCheckpoint` (brotlisource.go:25-28), given a coder for
`SourceCheckpoint`. (A nil decompressor checkpoint is not represented in the model.) -/
def dataC (ck : Coder Ckpt) (t : Tag) : Coder Data :=
  match t with
  | .gzip | .bzip2 =>
    structC (.cons intC (.cons (ptrC ck) (.cons (ptrC dckC) .nil))) (fun (o, s, d, _) => d.map fun d => ⟨t, s, o, d⟩)
      (fun d => (d.ckOff, d.src, some d.dc, ())) ⟨t, none, 0, ⟨0, 0, []⟩⟩
  | .flate | .brotli =>
    structC (.cons (ptrC ck) (.cons (ptrC dckC) .nil)) (fun (s, d, _) => d.map fun d => ⟨t, s, 0, d⟩)
      (fun d => (d.src, some d.dc, ())) ⟨t, none, 0, ⟨0, 0, []⟩⟩

/-- Which of the repository's source checkpoints a name stands for (flatesource.go:66, gzipsource.go:68, bzip2source.go:70, brotlisource.go:68). -/
def tagOf (n : Str) : Option Tag :=
  if n = tagName .flate then some .flate else if n = tagName .gzip then some .gzip
  else if n = tagName .bzip2 then some .bzip2 else if n = tagName .brotli then some .brotli else none

/-- The fields of a `SourceCheckpoint` (source.go:12-20). -/
def ckParts : Ckpt → Int × Option Data × Unit
  | .plain o => (o, none, ())
  | .dec t o s k d => (o, some ⟨t, s, k, d⟩, ())

/-- A `SourceCheckpoint` from its fields (source.go:12-20). -/
def ckOf : Int × Option Data × Unit → Option Ckpt
  | (o, none, _) => some (.plain o)
  | (o, some d, _) => some (.dec d.tag o d.src d.ckOff d.dc)

/-- `SourceCheckpoint` (source.go:12-20). Checkpoints nest; `N` bounds the nesting this coder handles (Go's has no such
bound; the theorems hold for every `N` above the nesting of the checkpoint). -/
def ckC (P : Progs) : Nat → Coder Ckpt
  | 0 => ⟨fun _ => none, fun _ => none, .plain 0, fun _ => false⟩
  | N + 1 =>
    structC (.cons intC (.cons (ifaceC P (fun d : Data => tagName d.tag) (fun n => (tagOf n).map (dataC (ckC P N)))) .nil))
      ckOf ckParts (.plain 0)

/-- The values of `EntryKind` (sink.go:13-20). -/
def kindNum : Kind → Int
  | .dir => 0
  | .symlink => 1
  | .file => 2

/-- Other values of `EntryKind` are not represented in the model. -/
def kindOf (i : Int) : Option Kind := if i = 0 then some .dir else if i = 1 then some .symlink else if i = 2 then some .file else none

/-- `Entry` (sink.go:38-62). -/
def entryC : Coder Entry :=
  structC (.cons strC (.cons intC (.cons uintC (.cons intC (.cons intC (.cons intC (.cons strC .nil)))))))
    (fun (p, k, m, c, u, w, l, _) => (kindOf k).map fun k => ⟨p, k, m, c, u, w, l⟩)
    (fun e => (e.path, kindNum e.kind, e.mode, e.csize, e.usize, e.woff, e.link, ()))
    ⟨[], .dir, 0, 0, 0, 0, []⟩

/-- `ExtractorResult` (extractor.go:19-21). -/
def resultC : Coder (List Entry) :=
  structC (.cons (sliceC entryC) .nil) (fun (l, _) => some l) (fun l => (l, ())) []

/-- `TarExtractorState` (tarextractor.go:22-25). -/
def tarStateC : Coder TarState :=
  structC (.cons (ptrC resultC) (.cons (ptrC tckC) .nil)) (fun (r, t, _) => some ⟨r, t⟩) (fun s => (s.result, s.tck, ()))
    ⟨none, none⟩

/-- The `Progress` field (extractor.go:15), a `float64` (simplified: the model's pair of integers is written, signs and sizes; zero is not
sent). -/
def progC : Coder (Int × Int) :=
  { structC (.cons intC (.cons bigC (.cons intC (.cons bigC .nil))))
      (fun (s, a, t, b, _) => some (s * a, t * b)) (fun p => (p.1.sign, p.1.natAbs, p.2.sign, p.2.natAbs, ())) (0, 1) with
    unsent := fun p => p == (0, 1) }

/-- `ExtractorCheckpoint` (extractor.go:11-17). (A `Data` of another dynamic type is not represented in the model.) -/
def eckC (P : Progs) (N : Nat) : Coder ECkpt :=
  structC (.cons (ptrC (ckC P N)) (.cons intC (.cons (ptrC entryC) (.cons progC
      (.cons (ifaceC P (fun _ : TarState => tarName) (fun n => if n = tarName then some tarStateC else none)) .nil)))))
    (fun (s, i, e, p, d, _) => some ⟨s, i, e, p, d⟩) (fun c => (c.srcCk, c.entryIndex, c.entry, c.progress, c.data, ()))
    ⟨none, 0, none, (0, 1), none⟩

/-! ## Messages -/

/-- `Encoder.Encode` of a pointer to a struct: the length of the rest, the number of the type, the value. Messages
of `limit` bytes or more are refused (`tooBig`: 1 GB on 32-bit, 8 GB on 64-bit machines). Interface values inside are held
to the same limit; they are shorter than the message they are in, so that this makes no difference. -/
def marshal {α : Type} (limit : Nat) (c : Coder α) (id : Int) (a : α) : Option (List Byte) :=
  match c.enc a with
  | none => none
  | some e => if limit ≤ (intE id ++ e).length then none else some (uintE (intE id ++ e).length ++ (intE id ++ e))

/-- `Decoder.Decode`: reads one message. -/
def unmarshal {α : Type} (limit : Nat) (c : Coder α) (bs : List Byte) : Option α :=
  match uintD bs with
  | none => none
  | some (n, r) =>
    if limit ≤ n then none
    else if r.length < n then none
    else match intD (r.take n) with
      | none => none
      | some (_, r1) => (c.dec r1).map (·.1)

end Savior.Gob
