import Verif.Checker
import Verif.Zip
import Verif.Tar
/-!
# Test archives (checker/makezip.go, checker/maketar.go, checker/maketestsink.go)

The writers of arkive/zip and arkive/tar are external. What they do is described by what their readers will find: see `zipWritten` for
zip; for tar the stream is an arbitrary one that holds the members handed to the writer (`TarHas`).
-/

namespace Savior

/-- The byte `/`. -/
def slashByte : Byte := 47

/-- A header handed to `zw.CreateHeader`, and what is then written to the member. -/
structure ZMade where
  name : Str
  mode : Nat
  method : ZMethod
  data : List Byte
  deriving DecidableEq, Repr

/-- The loop of `MakeZip` (checker/makezip.go:22-55) over the items in the order the map happens to be iterated in; `compress` is
`shouldCompress`. `os.ModeDir` is bit 31, `os.ModeSymlink` bit 27; a header's method is `Store` unless set. -/
def makeZipParts : Bool → List CItem → List ZMade
  | _, [] => []
  | compress, it :: t =>
    match it.kind with
    | .dir => ⟨it.path, 2 ^ 31 + 0o755, .store, []⟩ :: makeZipParts compress t
    | .file => ⟨it.path, 0o644, if compress then .deflate else .store, it.data⟩ :: makeZipParts (!compress) t
    | .symlink => ⟨it.path, 2 ^ 27 + 0o644, .store, it.link⟩ :: makeZipParts compress t

/-- The bytes stored for a member: deflated or as they are. -/
def ZMade.stored (enc : List Byte → List Byte) (m : ZMade) : List Byte := if m.method = .deflate then enc m.data else m.data

/-- What `Mode()` will answer: a name ending in "/" is a directory, whatever else is recorded (arkive/zip). -/
def ZMade.readMode (m : ZMade) : Nat := if m.name.getLast? = some slashByte then m.mode ||| 2 ^ 31 else m.mode

/-- Members as `zip.Reader` will list them, the first local header being at `off`. `lead i` is the local header of the `i`-th member
and whatever follows the previous member's data. -/
def zipListed (enc : List Byte → List Byte) (lead : Nat → List Byte) : Nat → Nat → List ZMade → List ZFile
  | _, _, [] => []
  | off, i, m :: t =>
    { name := m.name, method := m.method, encrypted := false, csize := (m.stored enc).length, usize := m.data.length, mode := m.readMode,
      dataOff := off + (lead i).length, opened := (m.data, true) } ::
      zipListed enc lead (off + (lead i).length + (m.stored enc).length) (i + 1) t

/-- The bytes written; `tail` is the central directory. -/
def zipWrittenBytes (enc : List Byte → List Byte) (lead : Nat → List Byte) (tail : List Byte) : Nat → List ZMade → List Byte
  | _, [] => tail
  | i, m :: t => lead i ++ m.stored enc ++ zipWrittenBytes enc lead tail (i + 1) t

/-- What reading what `zip.Writer` wrote yields (arkive/zip; that its `Open` delivers what was written is part of the contract). -/
def zipWritten (enc : List Byte → List Byte) (lead : Nat → List Byte) (tail : List Byte) (ms : List ZMade) : Archive :=
  { bytes := zipWrittenBytes enc lead tail 0 ms, files := zipListed enc lead 0 0 ms }

/-- `MakeZip` (checker/makezip.go:14-63). -/
def makeZip (enc : List Byte → List Byte) (lead : Nat → List Byte) (tail : List Byte) (order : List CItem) : Archive :=
  zipWritten enc lead tail (makeZipParts true order)

/-- What `MakeTar` (checker/maketar.go:12-48) hands to the tar writer: headers and contents, in the order the map happens to be
iterated in. -/
def makeTarMembers (order : List CItem) : List (THdr × List Byte) :=
  order.map fun it =>
    match it.kind with
    | .dir => (⟨it.path, 0, 0o755, .dir, []⟩, [])
    | .file => (⟨it.path, it.data.length, 0o644, .reg, []⟩, it.data)
    | .symlink => (⟨it.path, 0, 0o644, .symlink, it.link⟩, [])

/-- The decimal digits of a number, `%d` (fmt). -/
def decimal (n : Nat) : Str := if n < 10 then [UInt8.ofNat (48 + n)] else decimal (n / 10) ++ [UInt8.ofNat (48 + n % 10)]

/-- The ASCII codes of a text. -/
def asciiStr (s : List Char) : Str := s.map fun c => UInt8.ofNat c.toNat

/-- One round of the loop in `MakeTestSinkAdvanced` (checker/maketestsink.go:18-51), with an arbitrary sequence of raw random numbers
(`tick` being the position in it) and `gen` for `semirandom.Bytes`: the item and the new position. The item called a symlink has
the kind of a directory, as in the code. -/
def testItem (rng : Nat → Nat) (gen : Nat → List Byte) (i tick : Nat) : CItem × Nat :=
  if rng tick % 100 < 10 then
    (⟨asciiStr ['s', 'y', 'm', 'l', 'i', 'n', 'k', '-'] ++ decimal i, .dir, asciiStr ['t', 'a', 'r', 'g', 'e', 't', '-'] ++ decimal (i * 2), []⟩, tick + 1)
  else if rng (tick + 1) % 100 < 20 then (⟨asciiStr ['d', 'i', 'r', '-'] ++ decimal i, .dir, [], []⟩, tick + 2)
  else (⟨asciiStr ['f', 'i', 'l', 'e', '-'] ++ decimal i, .file, [], gen (rng (tick + 2) % (4 * 1024 * 1024))⟩, tick + 3)

/-- The loop (checker/maketestsink.go:18-51): `n` items from number `i` on. -/
def testItems (rng : Nat → Nat) (gen : Nat → List Byte) : Nat → Nat → Nat → List CItem
  | 0, _, _ => []
  | n + 1, i, tick => (testItem rng gen i tick).1 :: testItems rng gen n (i + 1) (testItem rng gen i tick).2

/-- `MakeTestSinkAdvanced` (checker/maketestsink.go:15-53). -/
def makeTestSink (rng : Nat → Nat) (gen : Nat → List Byte) (n : Nat) : CSt := cNew (testItems rng gen n 0 0)

end Savior
