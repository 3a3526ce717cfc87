/-!
# Bytes, errors, checkpoints

Shared vocabulary of the model.
-/

namespace Savior

/-- A byte. Go: `byte` (source.go:112). -/
abbrev Byte := UInt8

/-- Error values. Go errors are values compared with `==`; `errors.WithStack(e)` makes a value different from `e`
(so that a wrapped `io.EOF` is not `io.EOF`), modelled by `wrapped`.
`panic` stands for a Go run-time panic, `diverge` for a loop that did not finish within the model's step budget
(a budget Go does not have; the theorems show it is never exceeded when large enough). -/
inductive Err
  | eof                        -- io.EOF
  | unexpectedEOF              -- io.ErrUnexpectedEOF
  | uninit                     -- source.go:22 ErrUninitializedSource
  | negativeOffset             -- seeksource.go:77
  | noProgress                 -- bufio: io.ErrNoProgress
  | fault (code : Nat)         -- an I/O error of the environment
  | corrupt                    -- decompressor / archive reader: malformed data
  | readyToSave                -- flate/bzip2/brotli ReadyToSaveError
  | saveFailed                 -- SaverReader.Save() failed
  | badStart                   -- flatesource.go:108-111 and friends
  | sectionNegStart            -- seeksource.go:106
  | sectionNegSize             -- seeksource.go:110
  | sectionTooLarge            -- seeksource.go:114
  | stop                       -- copy.go:11 ErrStop
  | encrypted                  -- zipextractor.go:21 ErrEncrypted
  | insecurePath               -- zip.ErrInsecurePath
  | traversal                  -- folder_sink.go:54 ErrPathTraversal
  | closed                     -- os.ErrClosed
  | consumer (code : Nat)      -- an error made by user code (save consumer, sink)
  | nilParams                  -- copy.go:49
  | os (code : Nat)            -- an errno from the operating system
  | shortWrite                 -- io.ErrShortWrite
  | checker (code : Nat)       -- errors of the checker package
  | wrapped (e : Err)          -- errors.WithStack(e)
  | panic                      -- Go panic
  | diverge                    -- step budget exhausted
  deriving DecidableEq, Repr, Inhabited

/-- `errors.Cause`: strips `WithStack` wrappers (pkg/errors; used by callers to test for `ErrStop`, e.g. checker/extractortester.go:85). -/
def Err.cause : Err → Err
  | .wrapped e => e.cause
  | e => e

/-- Which decompressing source produced a checkpoint: the dynamic type of `SourceCheckpoint.Data`.
Models the four checkpoint structs flatesource.go:26, gzipsource.go:29, bzip2source.go:26, brotlisource.go:25. -/
inductive Tag | flate | gzip | bzip2 | brotli
  deriving DecidableEq, Repr, Inhabited

/-- The decompressor's own checkpoint (`flate.Checkpoint`, `gzip.Checkpoint`, `bzip2.Checkpoint`, `brotli.Checkpoint`;
external packages, the fields at flatesource.go:27-28, gzipsource.go:32, bzip2source.go:29, brotlisource.go:26-27): read offset (`Roffset`/`InputOffset`), write offset (`Woffset`/`OutputOffset`) and an opaque image of
the decompressor state. The image is the gob-encodable value; it is a list of numbers so that foreign or
corrupted checkpoints are representable. -/
structure DCk where
  roff : Int
  woff : Int
  blob : List Nat
  deriving DecidableEq, Repr, Inhabited

/-- `SourceCheckpoint` (source.go:12-20) together with the dynamic type of its `Data`:
* `plain off` — `Data == nil` (what seeksource emits, seeksource.go:169-172);
* `dec tag off src ckOff dc` — `Data` is the checkpoint struct of source kind `tag`, whose `SourceCheckpoint` field is
  `src`, whose own `Offset` field is `ckOff` (gzip and bzip2 only) and whose decompressor checkpoint is `dc`. -/
inductive Ckpt
  | plain (offset : Int)
  | dec (tag : Tag) (offset : Int) (src : Option Ckpt) (ckOff : Int) (dc : DCk)
  deriving Repr

/-- `SourceCheckpoint.Offset` (source.go:13-15). -/
def Ckpt.offset : Ckpt → Int
  | .plain o => o
  | .dec _ o _ _ _ => o

instance : Inhabited Ckpt := ⟨.plain 0⟩

end Savior
