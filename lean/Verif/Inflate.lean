import Verif.DecompLemmas
import Verif.Spec.Zip
/-!
# A real decompressor: DEFLATE

The theorems about decompressing sources and deflated zip members hold for every transducer `D : Decomp` with `D.Law` (and some with
`D.Exact`). Here is one such transducer: DEFLATE as RFC 1951 describes it, with stored, fixed and dynamic blocks. It shows that the laws
can be met by the format `kompress/flate` (outside /repo) reads; no theorem about /repo rests on it.

Bits left over in the last byte read before a block boundary are kept in the state, as `kompress/flate` does; so a checkpoint consists
of these bits and the last 32768 bytes of output.
-/

namespace Savior

/-- A prefix code. -/
inductive HTree
  | nil
  | leaf (s : Nat)
  | node (l r : HTree)
  deriving DecidableEq, Repr

/-- Adding a code word, first bit first; `none` if it clashes with another. -/
def HTree.insert : List Bool → Nat → HTree → Option HTree
  | [], s, .nil => some (.leaf s)
  | [], _, _ => none
  | _ :: _, _, .leaf _ => none
  | false :: w, s, .nil => (HTree.insert w s .nil).map (.node · .nil)
  | true :: w, s, .nil => (HTree.insert w s .nil).map (.node .nil ·)
  | false :: w, s, .node l r => (HTree.insert w s l).map (.node · r)
  | true :: w, s, .node l r => (HTree.insert w s r).map (.node l ·)

/-- The `n` bits of `c`, most significant first. -/
def msbBits (c : Nat) : Nat → List Bool
  | 0 => []
  | n + 1 => c.testBit n :: msbBits c n

/-- The symbols whose code word has length `len`. -/
def symsOfLen (lens : List Nat) (len : Nat) : List Nat := (lens.zipIdx.filter fun p => p.1 = len).map (·.2)

/-- Canonical code words (RFC 1951, 3.2.2): the symbols of length `len` get consecutive numbers from `code`. -/
def canonical (lens : List Nat) : Nat → Nat → Nat → List (List Bool × Nat)
  | 0, _, _ => []
  | k + 1, len, code =>
    let syms := symsOfLen lens len
    (syms.zipIdx.map fun p => (msbBits (code + p.2) len, p.1)) ++ canonical lens k (len + 1) (2 * (code + syms.length))

/-- How much of the code space the lengths take, in units of 2^-15. -/
def kraft (lens : List Nat) : Nat := (lens.map fun l => if l = 0 then 0 else 2 ^ (15 - l)).sum

/-- The code with these lengths; it has to be complete, but for the empty one and a single code word of length one. -/
def HTree.build (lens : List Nat) : Option HTree :=
  if kraft lens = 0 ∨ kraft lens = 2 ^ 15 ∨ lens.filter (· ≠ 0) = [1] then
    (canonical lens 15 1 0).foldl (fun t p => t.bind (HTree.insert p.1 p.2)) (some .nil)
  else none

/-- The code lengths of fixed blocks (RFC 1951, 3.2.6). -/
def fixedLens : List Nat := List.replicate 144 8 ++ List.replicate 112 9 ++ List.replicate 24 7 ++ List.replicate 8 8

/-- The order of the code length code lengths (RFC 1951, 3.2.7). -/
def clenOrder : List Nat := [16, 17, 18, 0, 8, 7, 9, 6, 10, 5, 11, 4, 12, 3, 13, 2, 14, 1, 15]

/-- Length symbols 257..285: base and extra bits (RFC 1951, 3.2.5). -/
def lenTable : List (Nat × Nat) := [(3, 0), (4, 0), (5, 0), (6, 0), (7, 0), (8, 0), (9, 0), (10, 0), (11, 1), (13, 1), (15, 1), (17, 1), (19, 2), (23, 2), (27, 2), (31, 2),
  (35, 3), (43, 3), (51, 3), (59, 3), (67, 4), (83, 4), (99, 4), (115, 4), (131, 5), (163, 5), (195, 5), (227, 5), (258, 0)]

/-- Distance symbols 0..29: base and extra bits (RFC 1951, 3.2.5). -/
def distTable : List (Nat × Nat) := [(1, 0), (2, 0), (3, 0), (4, 0), (5, 1), (7, 1), (9, 2), (13, 2), (17, 3), (25, 3), (33, 4), (49, 4), (65, 5), (97, 5), (129, 6), (193, 6),
  (257, 7), (385, 7), (513, 8), (769, 8), (1025, 9), (1537, 9), (2049, 10), (3073, 10), (4097, 11), (6145, 11), (8193, 12), (12289, 12), (16385, 13), (24577, 13)]

/-- What a number being read is for. -/
inductive Num
  | header
  | storedLen
  | storedByte (n : Nat)
  | counts
  | clen (nlit ndist todo : Nat) (got : List Nat)
  | rep (nlit ndist : Nat) (clt : HTree) (got : List Nat) (base val : Nat)
  | lenExtra (base : Nat)
  | distExtra (len base : Nat)

/-- What a code word being read is for. -/
inductive Sym
  | clen (nlit ndist : Nat) (clt : HTree) (got : List Nat)
  | lit
  | dist (len : Nat)

/-- Within a block: skipping to the next byte; `got` of `need` bits of a number were read and have the value `acc`; within a code word. -/
inductive IPhase
  | align
  | num (need got acc : Nat) (k : Num)
  | code (t : HTree) (k : Sym)

/-- Within a block: the window (last byte first), whether it is the last block, its two codes. -/
structure IWork where
  win : List Byte
  final : Bool
  lit : HTree
  dist : HTree
  ph : IPhase

/-- At a block boundary, with the window and the bits left over; within a block; at the end. -/
inductive ISt
  | bound (win : List Byte) (left : List Bool)
  | busy (w : IWork)
  | done

/-- The end of a block. -/
def IWork.endBlock (w : IWork) : ISt := if w.final then .done else .bound (w.win.take 32768) []

/-- `len` bytes copied from `dist` bytes back (`dist - 1` is `d`), last byte first, in front of the window. -/
def copyBack (d : Nat) : Nat → List Byte → List Byte → List Byte × List Byte
  | 0, win, out => (win, out)
  | n + 1, win, out =>
    let b := win.getD d 0
    copyBack d n (b :: win) (b :: out)

/-- Putting the code length code lengths in their places. -/
def clenLens (got : List Nat) : List Nat := (List.range 19).map fun s => (((clenOrder.zip got).find? fun p => p.1 = s).map (·.2)).getD 0

/-- All code lengths of a dynamic block were read (`got`, last one first). -/
def IWork.codes (w : IWork) (nlit ndist : Nat) (got : List Nat) : Option ISt :=
  let lens := got.reverse
  match HTree.build (lens.take nlit), HTree.build (lens.drop nlit) with
  | some l, some d => if lens.length = nlit + ndist then some (.busy { w with lit := l, dist := d, ph := .code l .lit }) else none
  | _, _ => none

/-- After one more code length, or several. -/
def IWork.moreLens (w : IWork) (nlit ndist : Nat) (clt : HTree) (got : List Nat) : Option ISt :=
  if got.length < nlit + ndist then some (.busy { w with ph := .code clt (.clen nlit ndist clt got) }) else w.codes nlit ndist got

/-- A number was read. -/
def IWork.number (w : IWork) (v : Nat) : Num → Option (ISt × List Byte)
  | .header =>
    let w := { w with final := v % 2 = 1 }
    match v / 2 with
    | 0 => some (.busy { w with ph := .align }, [])
    | 1 => match HTree.build fixedLens, HTree.build (List.replicate 32 5) with
      | some l, some d => some (.busy { w with lit := l, dist := d, ph := .code l .lit }, [])
      | _, _ => none
    | 2 => some (.busy { w with ph := .num 14 0 0 .counts }, [])
    | _ => none
  | .storedLen =>
    let n := v % 65536
    if v / 65536 = 65535 - n then
      if n = 0 then some (w.endBlock, []) else some (.busy { w with ph := .num 8 0 0 (.storedByte n) }, [])
    else none
  | .storedByte n =>
    let b := UInt8.ofNat v
    let w := { w with win := b :: w.win }
    some (if n ≤ 1 then w.endBlock else .busy { w with ph := .num 8 0 0 (.storedByte (n - 1)) }, [b])
  | .counts =>
    let nlit := v % 32 + 257
    let ndist := v / 32 % 32 + 1
    if 286 < nlit ∨ 30 < ndist then none
    else some (.busy { w with ph := .num 3 0 0 (.clen nlit ndist (v / 1024 + 4) []) }, [])
  | .clen nlit ndist todo got =>
    let got := got ++ [v]
    if todo ≤ 1 then
      match HTree.build (clenLens got) with
      | some t => (w.moreLens nlit ndist t []).map (·, [])
      | none => none
    else some (.busy { w with ph := .num 3 0 0 (.clen nlit ndist (todo - 1) got) }, [])
  | .rep nlit ndist clt got base val => (w.moreLens nlit ndist clt (List.replicate (base + v) val ++ got)).map (·, [])
  | .lenExtra base => some (.busy { w with ph := .code w.dist (.dist (base + v)) }, [])
  | .distExtra len base =>
    let d := base + v
    if w.win.length < d then none
    else
      let r := copyBack (d - 1) len w.win []
      some (.busy { w with win := r.1, ph := .code w.lit .lit }, r.2.reverse)

/-- A number of `n` bits is needed, perhaps none. -/
def IWork.ask (w : IWork) (n : Nat) (k : Num) : Option (ISt × List Byte) :=
  if n = 0 then w.number 0 k else some (.busy { w with ph := .num n 0 0 k }, [])

/-- A code word was read. -/
def IWork.symbol (w : IWork) (s : Nat) : Sym → Option (ISt × List Byte)
  | .clen nlit ndist clt got =>
    if s < 16 then (w.moreLens nlit ndist clt (s :: got)).map (·, [])
    else if s = 16 then match got with
      | [] => none
      | v :: _ => w.ask 2 (.rep nlit ndist clt got 3 v)
    else if s = 17 then w.ask 3 (.rep nlit ndist clt got 3 0)
    else w.ask 7 (.rep nlit ndist clt got 11 0)
  | .lit =>
    if s < 256 then some (.busy { w with win := UInt8.ofNat s :: w.win, ph := .code w.lit .lit }, [UInt8.ofNat s])
    else if s = 256 then some (w.endBlock, [])
    else match lenTable[s - 257]? with
      | some (base, x) => w.ask x (.lenExtra base)
      | none => none
  | .dist len => match distTable[s]? with
    | some (base, x) => w.ask x (.distExtra len base)
    | none => none

/-- One bit within a block. -/
def IWork.bit (w : IWork) (b : Bool) : Option (ISt × List Byte) :=
  match w.ph with
  | .align => some (.busy { w with ph := .num 32 1 (if b then 1 else 0) .storedLen }, [])
  | .num need got acc k =>
    let acc := acc + if b then 2 ^ got else 0
    if got + 1 = need then w.number acc k else some (.busy { w with ph := .num need (got + 1) acc k }, [])
  | .code t k =>
    match t with
    | .node l r => match if b then r else l with
      | .leaf s => w.symbol s k
      | t => some (.busy { w with ph := .code t k }, [])
    | _ => none

/-- Some bits, the last one being the last of a byte. They are used up to the next block boundary. -/
def inflateBits : List Bool → ISt → Option (ISt × List Byte)
  | [], s => some (s, [])
  | _ :: _, .done => some (.done, [])
  | b :: bs, .bound win left =>
    -- only reached with the first bit
    match ({ win, final := false, lit := .nil, dist := .nil, ph := .num 3 0 0 .header } : IWork).bit b with
    | some (s, out) => (inflateBits bs s).map fun r => (r.1, out ++ r.2)
    | none => none
  | b :: bs, .busy w =>
    match w.ph with
    | .align =>
      if (bs.length + 1) % 8 ≠ 0 then inflateBits bs (.busy w)
      else match w.bit b with
        | some (s, out) => (inflateBits bs s).map fun r => (r.1, out ++ r.2)
        | none => none
    | _ => match w.bit b with
      | some (.bound win _, out) => some (.bound win bs, out)
      | some (s, out) => (inflateBits bs s).map fun r => (r.1, out ++ r.2)
      | none => none

/-- The bits of a byte, least significant first. -/
def byteBits (b : Byte) : List Bool := (List.range 8).map b.toNat.testBit

/-- One byte of input. -/
def inflateFeed (s : ISt) (b : Byte) : Option (ISt × List Byte) :=
  match s with
  | .bound win left => inflateBits (left ++ byteBits b) (.bound win [])
  | s => inflateBits (byteBits b) s

/-- The image of a state in a checkpoint. -/
def ISt.image : ISt → List Nat
  | .bound win left => left.length :: (left.map fun b => if b then 1 else 0) ++ win.map (·.toNat)
  | _ => []

/-- The state with this image. -/
def ISt.ofImage : List Nat → Option ISt
  | n :: l => some (.bound ((l.drop n).map UInt8.ofNat) ((l.take n).map (· = 1)))
  | [] => none

/-- DEFLATE. It asks for single bytes, like `kompress/flate` when its source has `ReadByte`. -/
def inflate (eager : Bool) : Decomp where
  St := ISt
  start := .bound [] []
  inHeader _ := false
  ask _ := 0
  feed := inflateFeed
  fin | .done => true | _ => false
  eofOK _ := false
  canSave | .bound _ _ => true | _ => false
  saveOK _ := true
  eager := eager
  enc := ISt.image
  dec := ISt.ofImage

theorem ISt.ofImage_image (win : List Byte) (left : List Bool) : ISt.ofImage (ISt.image (.bound win left)) = some (.bound win left) := by
  have hl : (left.map fun b => if b then 1 else 0).length = left.length := List.length_map _
  simp only [ISt.image, ISt.ofImage, List.cons_append]
  rw [List.drop_left' hl, List.take_left' hl, List.map_map, List.map_map]
  have h1 : (UInt8.ofNat ∘ fun x : Byte => x.toNat) = id := by funext b; exact UInt8.ofNat_toNat
  have h2 : ((fun x : Nat => decide (x = 1)) ∘ fun b : Bool => if b then 1 else 0) = id := by funext b; cases b <;> rfl
  rw [h1, h2, List.map_id, List.map_id]

theorem inflate_exact (eg : Bool) : (inflate eg).Exact := by
  intro st h
  cases st with
  | bound win left => exact ISt.ofImage_image win left
  | _ => cases h

theorem inflate_law (eg : Bool) : (inflate eg).Law where
  start_fin := rfl
  header_fin := by intro st h; cases h
  header_out := by intro st b st' out h; cases h
  header_back := by intro st b st' out _ h; cases h
  save_fin := by
    intro st h
    cases st with
    | bound win left => rfl
    | _ => cases h
  dec_enc := fun st h => .inl (inflate_exact eg st h)

end Savior
