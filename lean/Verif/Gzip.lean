import Verif.InflateLemmas
/-!
# A real decompressor with header: gzip

RFC 1952, several members one after the other allowed, as in Go's package. It shows that the laws of `Decomp` can be met by a format whose
header is read when the reader is made (`inHeader`), whose stream may end where a member ends (`eofOK`), and which verifies a checksum; no
theorem about /repo rests on it.
-/

namespace Savior

/-- Eight steps of CRC-32. -/
def crcByte : Nat → Nat → Nat
  | 0, c => c
  | n + 1, c => crcByte n (if c % 2 = 1 then 0xedb88320 ^^^ (c / 2) else c / 2)

/-- CRC-32 of some more bytes. -/
def crcMore (c : Nat) (bs : List Byte) : Nat := bs.foldl (fun c b => crcByte 8 (c ^^^ b.toNat)) c

/-- CRC-32. -/
def crc32 (bs : List Byte) : Nat := crcMore 0xffffffff bs ^^^ 0xffffffff

/-- Parsing part of a header: what follows; not enough bytes; malformed. -/
inductive GzP
  | ok (rest : List Byte)
  | more
  | bad
  deriving DecidableEq, Repr

def GzP.andThen (p : GzP) (f : List Byte → GzP) : GzP := match p with | .ok r => f r | q => q

/-- FEXTRA, FNAME or FCOMMENT, FHCRC. -/
def gzExtra (l : List Byte) : GzP :=
  match l with
  | a :: b :: r => if r.length < a.toNat + 256 * b.toNat then .more else .ok (r.drop (a.toNat + 256 * b.toNat))
  | _ => .more

def gzText (l : List Byte) : GzP := match l.dropWhile (· ≠ 0) with | _ :: r => .ok r | [] => .more

def gzSum (all l : List Byte) : GzP :=
  match l with
  | a :: b :: r => if crc32 (all.take (all.length - l.length)) % 65536 = a.toNat + 256 * b.toNat then .ok r else .bad
  | _ => .more

/-- The optional part of a header. -/
def gzOpt (all : List Byte) (flg : Nat) (l : List Byte) : GzP :=
  (((if flg.testBit 2 then gzExtra l else .ok l).andThen fun l => if flg.testBit 3 then gzText l else .ok l).andThen
    fun l => if flg.testBit 4 then gzText l else .ok l).andThen fun l => if flg.testBit 1 then gzSum all l else .ok l

/-- A header. -/
def gzHeader (all : List Byte) : GzP :=
  if all.length < 10 then .more
  else match all with
    | 31 :: 139 :: 8 :: flg :: _ => gzOpt all flg.toNat (all.drop 10)
    | _ => .bad

/-- Within a header (the first or another); within the compressed data, with the checksum and size so far; within the trailer; after a
member. -/
inductive GSt
  | head (first : Bool) (buf : List Byte)
  | body (d : ISt) (crc size : Nat)
  | trail (crc size : Nat) (buf : List Byte)
  | between

/-- A number, least significant byte first. -/
def leNat : List Byte → Nat
  | [] => 0
  | b :: bs => b.toNat + 256 * leNat bs

/-- One byte of a header. -/
def gzHead (first : Bool) (buf : List Byte) : Option (GSt × List Byte) :=
  match gzHeader buf with
  | .ok _ => some (.body (.bound [] []) 0xffffffff 0, [])
  | .more => some (.head first buf, [])
  | .bad => none

/-- One byte. -/
def gzFeed (s : GSt) (b : Byte) : Option (GSt × List Byte) :=
  match s with
  | .head first buf => gzHead first (buf ++ [b])
  | .between => gzHead false [b]
  | .body d crc size =>
    match inflateFeed d b with
    | none => none
    | some (.done, out) => some (.trail (crcMore crc out ^^^ 0xffffffff) ((size + out.length) % 2 ^ 32) [], out)
    | some (d', out) => some (.body d' (crcMore crc out) (size + out.length), out)
  | .trail crc size buf =>
    let buf := buf ++ [b]
    if buf.length < 8 then some (.trail crc size buf, [])
    else if leNat (buf.take 4) = crc ∧ leNat (buf.drop 4) = size then some (.between, []) else none

/-- The image of a state in a checkpoint. -/
def GSt.image : GSt → List Nat
  | .body d crc size => crc :: size :: d.image
  | _ => []

/-- The state with this image. -/
def GSt.ofImage : List Nat → Option GSt
  | crc :: size :: l => (ISt.ofImage l).map fun d => .body d crc size
  | _ => none

/-- gzip. -/
def gunzip (eager : Bool) : Decomp where
  St := GSt
  start := .head true []
  inHeader | .head true _ => true | _ => false
  ask _ := 0
  feed := gzFeed
  fin _ := false
  eofOK | .between => true | _ => false
  canSave | .body (.bound _ _) _ _ => true | _ => false
  saveOK _ := true
  eager := eager
  enc := GSt.image
  dec := GSt.ofImage

theorem gunzip_exact (eg : Bool) : (gunzip eg).Exact := by
  intro st h
  match st, h with
  | .body (.bound win left) crc size, _ =>
    show GSt.ofImage (crc :: size :: ISt.image (.bound win left)) = _
    simp only [GSt.ofImage, ISt.ofImage_image, Option.map_some]
    rfl

theorem gunzip_law (eg : Bool) : (gunzip eg).Law where
  start_fin := rfl
  header_fin := by
    intro st h
    match st, h with
    | .head true buf, _ => exact ⟨rfl, rfl⟩
  header_out := by
    intro st b st' out h hf
    match st, h with
    | .head true buf, _ =>
      have hf : gzHead true (buf ++ [b]) = some (st', out) := hf
      unfold gzHead at hf
      split at hf
      · exact ((Prod.mk.inj (Option.some.inj hf)).2).symm
      · exact ((Prod.mk.inj (Option.some.inj hf)).2).symm
      · cases hf
  header_back := by
    intro st b st' out hf h
    have key : ∀ s : GSt, gzFeed s b = some (st', out) → (gunzip eg).inHeader s = true := by
      intro s hf
      match st', h with
      | .head true buf', _ =>
        have hd : ∀ first buf, gzHead first buf = some (.head true buf', out) → first = true := by
          intro first buf h
          unfold gzHead at h
          split at h
          · cases h
          · injection h with h; injection h with h _; injection h with h _
          · cases h
        unfold gzFeed at hf
        split at hf
        · rename_i first buf
          rw [hd _ _ hf]; rfl
        · exact absurd (hd _ _ hf) (by decide)
        · split at hf <;> cases hf
        · dsimp only at hf
          split at hf
          · cases hf
          · split at hf <;> cases hf
    exact key st hf
  save_fin := fun st _ => rfl
  dec_enc := fun st h => .inl (gunzip_exact eg st h)

/-! ## Streams made by zlib -/

/-- A dynamic block. -/
def zlibDynamic : List Byte := [77, 142, 77, 22, 131, 32, 16, 131, 175, 146, 238, 189, 129, 167, 25, 4, 129, 22, 25, 229, 87, 57, 125, 71, 55, 237, 42, 47, 239, 75, 242, 66, 42, 209, 66, 154, 68, 38, 208, 207, 188, 80, 156, 193, 81, 253, 242, 129, 74, 220, 35, 86, 62, 241, 174, 219, 158, 193, 205, 164, 7, 7, 26, 23, 52, 219, 25, 59, 73, 110, 187, 160, 36, 212, 125, 113, 88, 125, 51, 130, 134, 137, 8, 254, 168, 156, 164, 107, 243, 140, 188, 59, 31, 79, 240, 10, 21, 238, 206, 81, 41, 149, 49, 9, 213, 214, 220, 11, 141, 251, 252, 127, 228, 11]

example : (inflate true).decode (inflate true).start zlibDynamic true = ([97, 98, 114, 97, 99, 97, 100, 97, 98, 114, 97, 44, 32, 97, 98, 114, 97, 99, 97, 100, 97, 98, 114, 97, 33, 32, 116, 104, 101, 32, 113, 117, 105, 99, 107, 32, 98, 114, 111, 119, 110, 32, 102, 111, 120, 32, 106, 117, 109, 112, 115, 32, 111, 118, 101, 114, 32, 116, 104, 101, 32, 108, 97, 122, 121, 32, 100, 111, 103, 59, 32, 112, 97, 99, 107, 32, 109, 121, 32, 98, 111, 120, 32, 119, 105, 116, 104, 32, 102, 105, 118, 101, 32, 100, 111, 122, 101, 110, 32, 108, 105, 113, 117, 111, 114, 32, 106, 117, 103, 115, 59, 32, 115, 112, 104, 105, 110, 120, 32, 111, 102, 32, 98, 108, 97, 99, 107, 32, 113, 117, 97, 114, 116, 122, 44, 32, 106, 117, 100, 103, 101, 32, 109, 121, 32, 118, 111, 119, 59, 32, 97, 98, 114, 97, 99, 97, 100, 97, 98, 114, 97], true) := by decide +kernel

/-- Fixed and empty stored blocks (`Z_SYNC_FLUSH`, `Z_FULL_FLUSH`): "abc" three times. -/
def zlibFlushed : List Byte := [74, 76, 74, 6, 0, 0, 0, 255, 255, 74, 4, 35, 0, 0, 0, 0, 255, 255, 3, 0]

example : (inflate true).decode (inflate true).start zlibFlushed true = ([97, 98, 99, 97, 98, 99, 97, 98, 99], true) := by decide +kernel

/-- Two gzip members, the first with a file name. -/
def gzipTwo : List Byte := [31, 139, 8, 8, 210, 2, 150, 73, 2, 255, 104, 101, 108, 108, 111, 46, 116, 120, 116, 0, 203, 72, 205, 201, 201, 87, 200, 64, 144, 0, 128, 136, 249, 229, 17, 0, 0, 0, 31, 139, 8, 0, 0, 0, 0, 0, 2, 255, 211, 81, 40, 207, 47, 202, 73, 1, 0, 254, 111, 136, 110, 7, 0, 0, 0]

example : (gunzip true).decode (gunzip true).start gzipTwo true = ([104, 101, 108, 108, 111, 32, 104, 101, 108, 108, 111, 32, 104, 101, 108, 108, 111, 44, 32, 119, 111, 114, 108, 100], true) := by decide +kernel

/-- Cut short, or damaged in the data of the second member: the output comes, but the end is refused. -/
example : ((gunzip true).decode (gunzip true).start (gzipTwo.take (gzipTwo.length - 1)) true).2 = false := by decide +kernel
example : ((gunzip true).decode (gunzip true).start (gzipTwo.set (gzipTwo.length - 10) 9) true).2 = false := by decide +kernel

end Savior
