# Formal model of itchio/savior — design

Everything is Lean 4 (4.33.0); modules live in `lean/Verif/`, one per part of the code, imported from
`lean/Verif.lean`. The code is not run here; each model definition cites the file and lines it models.

## Layers

1. **Environment** (`Base`, `Rs`, `Bufio`): bytes, errors as values, an `io.ReadSeeker` with an arbitrary schedule of
   short reads / faults / "last bytes together with EOF", Go's `bufio.Reader` (stdlib, modelled from its documented code).
2. **Sources** (`Source`, `SeekSource`, `Decomp`, `Wrap`, `Counting`, `Discard`). A source is a record of functions over a
   state (`SourceM`); the save callback is passed to `read` together with the state it mutates, so re-entrant callbacks
   (seek source → decompressing source → extractor) are ordinary function calls. The four decompressing sources
   differ only in a few lines; they are one functor `wrap` with a configuration record listing the differences,
   over an abstract decompressor `Decomp` (a byte-fed machine with savable states: the contract assumed of
   `itchio/kompress`, `itchio/dskompress`).
   `Lawful S Y clean` is the specification "S is a resumable cursor over the byte string Y"; `seek` satisfies it, `wrap`
   preserves it, so any stack does.
3. **Copier** (`Copier`): `copy.go` over an arbitrary world.
4. **Sinks** (`Extract`, `MemSink`, `Path`, `FS`, `FolderSink`): the `SinkM` record with three contracts in `Spec/`:
   `SinkLaw` (a sink that works: its calls are functions of what is stored), `GoodSink` (its calls do not fail) and
   `PathLaw` (one node per path, calls may fail at any time and partially). `FolderSink` runs on a filesystem model with
   inodes, symlink-following path resolution and an oracle that may fail any mutating system call (`FS`), and on
   a component-level model of Go's `filepath` (`Path`). A restart of the process is `SinkM.reborn`: a new sink
   object over the same storage.
5. **Extractors** (`Zip`, `Tar`): `Resume` of both, over any source / sink / save consumer (an arbitrary state machine).
6. **Test helpers** (`Checker`, `Semirandom`), results and features (`Results`).

Specifications, which do not refer to how anything is implemented, are in `Verif/Spec/*.lean`; the properties are stated and
proved in `Verif/Props/*.lean`; everything else under `Verif/` is model (see the list below) or lemmas.

## Plan per property

| id | model | proof |
|---|---|---|
| C01–C03 | `Path`, `FolderSink.destPath`, `.symlink` on character lists | cleaning = left-to-right component walk; prefix test ⇔ component prefix |
| C04, C05 | `FS.walk` (kernel path walk), all sink operations | invariant "links inside have '..'-free relative targets" over op sequences, or, when link names are apart from all other names, targets whose '..' stand at the start and do not climb too far; concrete escapes as negation |
| C06–C13 | `FolderSink` on `FS` | direct, by cases on the node at the path |
| C14–C18 | `SeekSource` on `Rs` and `Bufio` | invariant "buffer ++ unread = content from cursor", induction over histories; int64 overflow witness |
| C19–C24 | `Wrap` over `Decomp` | `Lawful` preserved; decoding splits at any fed prefix |
| C25 | `discard` | induction on fuel/rank |
| C26–C28 | `Counting`, progress as rational | per call equality; invariants |
| C29–C32 | `Copier` with scripted world | induction over the script |
| C33, C37–C39 | `Zip` | loop invariant relating cursor, checkpoint and sink; chain of sessions by induction |
| C34 | `Zip` over path-map sinks | validity invariant kept by every step of every run |
| C35, C45 | event log of a run | every `save` preceded by `sync` (zip); witness (tar) |
| C36, C40–C42 | `Zip` | case analysis, witnesses |
| C43, C44, C46–C48 | `Tar` over any lawful source | as for zip |
| C49 | `Zip`/`Tar` with an eager decompressor | witness; positive part is the `Lawful` clause "emitted at the cursor" |
| C50, C51 | `Results` | list induction |
| C52, C53 | `Checker`, `Semirandom` | invariants, witness |
| C54, C55 | `Zip`, `Tar`, `NopSink` | final value of the checkpoint object; case analysis |
| C56, C57 | `Zip`, `Tar` over good sinks | success-or-stop by the loop invariant; termination by the positions C39/C47 make strictly increase |
| C58 | event log of `Zip`, `Tar` | every function either tells no failure or returns it (`Surface`) |
| C59 | constructors of `SeekSource` | instances of C14 |
| C61 | `Tar` over path-map sinks, any call failing | validity of checkpoints kept by every step of every run (`TarHold`, `TarFaults`) |
| C62, C63, C65 | log of `Zip`, `Tar` into `FolderSink` | the ghost log is the list of calls (`Calls`), hence a sequence of FolderSink operations; then C04, C11 |
| C66 | `Zip` over a sink satisfying `PathLaw`, power losses as in `Spec/Power` | what is known to be on stable storage is computed from the ghost log; extra invariant (`ZipExtra`) over the path invariants of C34 |
| C67 | `Zip`, `Tar` into `Checker` as a path sink (`CheckPath`) | the checking sink satisfies `PathLaw`, so C34/C61 apply; the marks `Validate` looks at are an extra invariant (`ZipExtra`, `CheckZip`; `TarExtra`, `CheckTar`) |
| C68 | `Zip`, `Tar` with any sink | simulation (`Alike`): the run is that with the sink's failures hidden, for which C56/C57 apply, up to the first failing call |
| C69 | `Zip`, `Tar` with two sinks | the same simulation: both runs are the run with a sink that says yes to everything |
| C70 | `Harness`: the counting consumer and the loop of `RunExtractorText` | the consumer's history is the log's (`Asks`), so the loop is a chain of attempts (C67), bounded by C39/C47; C68 excludes failures |
| C71, C72 | `SourceTest`: `RunSourceTest`, and `LiveM`, sources whose `Read` is given a consumer that calls `Resume` on them | for any source: induction on the budget, the verdict is a predicate on what is seen (`Spec/SourceTest`); for real sources: `Lawful` and the fact that the consumer runs before the bytes are read (seek) or last (decompressing) |
| C73 | the extractors (`zipResume`, `tarRun`) with any sink | `AboutOK`: an invariant on the log and the current entry, closed under changing the write offset (`Members`); chains as in C60 |
| C74, C75 | `FolderSink` over the file system model with modes, umask and faults; the extractors | any calls: `Origin`, per operation, induction on the operations; chains: `calls_perm` over the `Calls` of a run and C73; exactness: every name is preallocated before it is opened, so the opening chmods (`calls_exact`), and checkpoints come after the openings they imply (`Opened`, `ModeChains`) |
| C76 | `MakeArchive`: the generators; `Ustar`: a concrete tar format with its writer | list induction; then C70 |
| C77 | `Handles`: FolderSink's operations counting open files | per-operation balance with open writers, induction on the calls; with C63's one-open invariant |
| C78 | `Win`: FolderSink with Windows' branches over `filepath` for Windows; the kernel's path normalisation and name folding arbitrary | join/clean lemmas give the destination; every operation is a list of `Steps` inside the directory that add no links; induction on the operations |
| C79 | `Win`, `Zip`, `Tar`: extractions into that sink | `winPath` is an instance of `PathLaw` (links seen as files holding the target), then C34 and C61 |
| C80 | `Shared`: any number of seek sources over one `io.ReadSeeker`, calls interleaved | spec `ShStep` (a cursor that others take away); per-source simulation, induction on the calls of the whole family |
| C81 | `FileSource`: Open, OpenPaused, Close over the seek source; a closed file is one whose schedule fails from then on | C80's simulation, re-based at Close; counting open files |
| C82 | `Ready`, `ReadyOps`: FolderSink operations on a disk with room (`Spec/Ready`); `Stopped`: a run that reports a stop was told to | room is kept by every operation of an archive's plan, also by failing ones; so in a calm run no sink call fails, and C57/C58's rules give success |
| C83 | `ZipHeld`: where the checkpoint object is during a run, `Spec/Retry`: chains of retries | an invariant of every step: the object's write offset is how much of the member is in place, its source checkpoint is not after that; so resuming discards up to the write offset |
| C84 | `TarRetries` in `Spec/Retry`, `Props/TarRetry` | false; a counterexample run by the kernel. Partial: an object without tar state means a fresh start, one as last saved is C61 |
| C85 | `Gob`: gob's value encoding as coders (numbers, strings, slices, pointers, structs, interface values), the checkpoint types, messages | every coder's decoder is a left inverse on values that fit (`GobLemmas`); that emitted checkpoints fit follows from what the source laws and run invariants say about them (`stackCk`, `ZipKept`, `TarCkAt`) |
| C86 | `zipDrive`/`tarDrive` over `folderSink`, started anywhere in a chain of attempts | each run by C82: success with everything in place, or a stop whose last save lies strictly later; induction on the runs left, with the position as the measure |
| C87 | zip and tar `Resume` over any sink with `Counts` (exact counting except under ignored names; FolderSink has it) | the tar rule carries `entryIndex = number of members passed`; one more invariant for write offset and listed files; zip: alignment invariant (as for C49) generalised to sinks that ignore names |
| C88 | `Progress` of stacks of sources, progress events of tar `Resume` | no law of sources assumed: reads only add to the file's offset (`Forward`), by induction through decompressors' loops, discard, tar reader, copier and the extractor's loop |
| C89 | tar `Resume` on a source that still has the callback of an earlier run (`tarReuse`: while bytes are skipped the old closure, over the old run's variables, is the one called) | equals the model used everywhere else (`tarResume`): a plain source resumes exactly, so nothing is skipped; a decompressing source resumed from a checkpoint of its own has no request pending afterwards, because the file's checkpoint lies strictly before the decompressor's position, so reading up to it serves the request (invariants added to the specification of sources: `plain`, `plain_read`, `resume_quiet`) |
| C90 | `fileMode` with Go's `syscallMode` (special bits), zip's `unixModeToFileMode` and a ustar header for the counterexamples | from C74 and bit arithmetic; `_false_` by evaluation |
| C91 | consumers as automata that never say no for more than `T` bytes (`AsksWithin`), bytes in the log since the last `Save` | invariant of the copy loop over a seek source, lifted to zip and tar runs; for deflated members an invariant counting what the decompressor still puts out before it can be saved (`Strides`, `SpacingFlate`, `SpacingZip`, and `SpacingTar` for tar over a decompressing source), which every checkpoint handed out re-establishes, so that runs resumed from any checkpoint held (`Spec/Held`) are covered; `_false_` by induction over archives of `B` one-byte files |
| C92 | gob messages (`marshal`, `unmarshal`) on prefixes and extensions of what was written | a number cut short is refused; a message has its length in front; then C85 |
| C93 | `gzipClose` over an arbitrary decompressor's Close | after any history there is a decompressor if the last Resume succeeded, none if none did |
| C94 | file system model with faults; the extractors; the bystander counts as one more place | per operation: no inode is given away twice (`Newer`), open files are not the bystander's (`Clear`), with C60/C74's `Keeps` and `Perm`; then induction on the `Calls` of a run and on the chain; `_false_` by evaluation; for Windows likewise (WinBystander.lean) |
| C95 | file system model with faults; the extractors | per operation `Makes` (mkdirAllN_where, open, link, removals), then induction on the `Calls` of a run and on the chain; `_false_` by evaluation; for Windows likewise (WinMakes.lean) |
| C96 | file system model with faults; the extractors | from C60/C61 (members' places hold what they should), C95 (nothing else) and the tree being well-formed; for Windows from C79 and the same (Props/WinExact.lean) |
| C97 | file system model with faults; the extractors | from C96 (the tree is a function of the archive); a chain may be continued after a success because a fresh start forgets older checkpoints; for Windows likewise |
| C98 | file system model with faults; the extractors | from C60 (members), C94 (what is left alone), C95 (nothing else is made) and the tree being well-formed; for Windows likewise (Props/WinOverlay.lean) |
| C99 | file system model with faults; the extractors | C98 twice: after the first extraction the disk is fit for the second (`fit_after`); for Windows and across the formats likewise (Props/WinUpdate.lean) |
| C64 | `Zip` | the preallocation pass, then a log invariant (`Links`) |
| C60 | `Zip` and `Tar` into `FolderSink` over `FS`, any system call failing | `FolderSink` satisfies the path-map law of C34 on independent places (`DiskPlan`, `DiskSink`) |

## Trusted base

* Lean 4.33.0's kernel (`vcheck` replays every module). No axioms of our own; of the theorems in MANIFEST.json every one depends on a
  subset of `propext`, `Quot.sound`, `Classical.choice` (most on all three, through `omega`, `simp` and library lemmas; some on
  none). No `native_decide`, no `bv_decide`, no compiled code. Concrete runs are evaluated by the kernel (`rfl`, `decide`, `decide +kernel`).
* That the definitions listed below say what the code does. Each cites the file and lines it models; simplifications are stated there.
* The assumptions about code outside /repo listed below.

### Modelled, function by function

| /repo | Lean |
|---|---|
| source.go (Source, DiscardByRead) | `Source.lean` (`SourceM`, `discard`) |
| seeksource/seeksource.go | `SeekSource.lean` |
| flatesource, gzipsource, bzip2source, brotlisource | `Wrap.lean` (one functor, `WrapCfg` lists the differences), `Close.lean` |
| countingsource/countingsource.go | `Counting.lean` |
| copy.go | `Copier.lean` |
| sink.go, extractor.go (types, EntryKind, checkpoints, ExtractorResult, features) | `Extract.lean`, `Results.lean` |
| nop_sink.go, NopSaveConsumer | `Extract.lean` |
| folder_sink.go (Unix) | `Path.lean`, `FolderSink.lean` |
| folder_sink.go (Windows branches) | `Win.lean` |
| filesource/filesource.go | `FileSource.lean` |
| zipextractor/zipextractor.go | `Zip.lean`, `Results.lean` (Features) |
| tarextractor/tarextractor.go | `Tar.lean`, `Results.lean` (Features) |
| checker/sink.go, checker/writer.go | `Checker.lean` |
| checker/countersaveconsumer.go, checker/extractortester.go | `Harness.lean` |
| checker/sourcetester.go | `SourceTest.lean` |
| checker/makezip.go, checker/maketar.go, checker/maketestsink.go | `MakeArchive.lean` |
| the `gob` encoding of checkpoints (checker/extractortester.go:111-124, checker/sourcetester.go:94-107, the `gob.Register` calls) | `Gob.lean` |
| semirandom/semirandom.go | `Semirandom.lean` |

### Not modelled

* On Windows: device names, names ending in dots or spaces (beyond the arbitrary `full` and `fold`) and the read-only attribute; `Debugf` and log output; `state.Consumer` messages (only the progress values passed to it).
* checker/compressors.go (calls to compressors outside /repo). Of extractortester.go and sourcetester.go, log output and timing.
* What `Close` of kompress's gzip reader does; that Linux drops the set-uid and set-gid bits of a file an unprivileged process writes to.
* Of `gob`: the messages that define types, the format of floating point numbers, the fields inside the checkpoint structs of
  external packages. (C70 and C71 take the round trip in the test harness to be the identity, which is C85.)
* Consumers that mutate the checkpoint object handed to them; sinks that mutate the entry they are given other than through
  `WriteOffset`.
* Concurrency: the API is used from one goroutine, other processes leave the destination alone.
* Loops have a step budget (`F`, fuel); the theorems assume it large enough (an explicit bound) or hold for any budget. Running
  out of it is the outcome `diverge`, which the theorems then show not to occur.
* float64: progress is a pair numerator/denominator in the model's runs; `Spec/Float.lean` says what float64 values are, and C28, C41 and C88 are
  also proved of the rounded quotients, for any rounding to nearest (`Float.lean`). int64 wrap-around is modelled where the code can reach it (sections,
  sums of sizes) and otherwise offsets are unbounded integers.

### Assumed of code outside /repo (all as definitions or hypotheses, none as axioms)

* `io.ReadSeeker` (`Rs.lean`): any schedule of short reads, faults (with or without data), and EOF with or after the last bytes; a read of a non-empty
  buffer returns data or an error. `bufio.Reader` is modelled from its source (Bufio in `Rs.lean`).
* kompress / go-brotli (`Decomp.lean`): an arbitrary incremental transducer whose checkpoints restore exactly or are refused
  (`Decomp.Law`); `ReadyToSaveError` comes without bytes. `Inflate.lean` and `Gzip.lean` have concrete instances, DEFLATE (RFC 1951) and
  gzip (RFC 1952), for which the laws are proved; the kernel runs them on streams made by zlib.
* arkive/zip: the parsed member list is given; `Open` delivers a member's content or an error (`ZEnv.Honest`).
* arkive/tar (`TarFmt` in `Tar.lean`): an arbitrary pull parser with checkpoints (`TarFmt.Law` in `Spec/Tar.lean`). `Ustar.lean` has a
  concrete instance, the POSIX ustar format, with its writer, for which the laws are proved.
* zip.Writer (`zipWritten` in `MakeArchive.lean`): what its reader will find; used in C76 only.
* The kernel and Go's `os` (`FS.lean`): as documented there; any mutating call may fail, with partial effect for writes and
  recursive removals.
* `filepath.Clean/Join/Abs/Base/Rel` (`Path.lean`): modelled from their documentation on Unix. For Windows (`Win.lean`), from
  Go's source (internal/filepathlite); `GetFullPathName` is an arbitrary function that returns paths with a volume.

## How the model was tested

`seeded/LOG.jsonl` records edits of the model that mimic realistic bugs, each built in a scratch copy, and which theorems
failed. Those that survived led to new or stronger theorems (C20_formats, C27 with ReadByte, C52_validate_iff, C58, C59) or
are shown to change nothing observable.

`RepoTests.lean` carries /repo's own tests out on the model (seeksource_test.go, folder_sink_test.go, zipextractor_backslash_test.go; the other
tests run the checker package's drivers, which are modelled and covered by C70 and C71): every assertion holds.

## Findings

Properties that turned out false have a counterexample theorem `Cxx_false_…`, next to what does hold (`_partial`).

* gzipsource: `Close` before a `Resume` has succeeded is a nil dereference (C93).
* seeksource: a checkpoint beyond the size makes `Read` panic and `ReadByte` leave the section (C17); `Section(1, 2^63-1)` is
  accepted (C15); the save consumer's error is dropped (C22); a failing `Stat` in `FromFile` silently makes an empty source (C59);
  a source and its sections share the file's position, so alternating reads return wrong bytes without an error (C80);
  `filesource.Open` leaks the file if seeking fails (C81);
  a .tar.gz with a wrong checksum in its trailer extracts without an error (C82_gzip_damage_unnoticed).
* decompressing sources: a pending save before `Resume` dereferences nil (C20); `ReadByte` swallows an error (C22, C23): around a DEFLATE sync
  flush it can return a byte twice.
* `DiscardByRead` fails if the last bytes come with EOF (C25).
* zip: `Sync` covers only the current member, earlier ones are never synced (C35), so after a power loss resuming can succeed with a damaged earlier file (C66); sizes and checksums of stored and deflated
  members are not checked (C42), so progress can exceed 1 or divide by zero (C41); a hand-made checkpoint that does
  not match is accepted silently (C49); errors of `Save`/`Sync` within stored members vanish (C58); features promise resume
  support that never materialises (C50).
* tar: nothing is ever synced (C45); a save request left over from a stopped run is used at once by the next one on the
  same source, which then makes no progress (C47); archives cut at a member boundary are accepted (C46); results of
  resumed runs miss directories and links (C44); a file's permissions depend on whether its extraction was interrupted
  (C75); retrying after a failure with the checkpoint object the failed run worked with, instead of a stored copy, can write data
  twice and report success (C84_false_tar).
* Checkpoints: a save request made after a file's last chunk is forgotten, so archives of small files are extracted without a single checkpoint, however often the consumer asks (C91_false_zip, C91_unserved_tar).
* FolderSink: extracting over a file that has other hard links writes into all of them (C94_false_hardlink): existing files are opened, not replaced.
* FolderSink: a zip archive can make set-uid files writable by everybody, if extracted by root (C90_false_zip); chained symlinks escape the destination (C04); an entry naming the directory itself can replace it (C05);
  `Directory = "/"` refuses everything (C02); a folder in the way of a file is not removed (C08); asking for the writer
  of an ignored entry leaves the previous writer usable (C11); a failing `Chmod`, `Seek` or `Truncate` leaks the opened file (C77); `Nuke` uses the raw directory string (C12); with links
  aliasing two members' paths, resuming after a failure can lose data (C60_false_links).
* FolderSink on Windows: with `Directory` the root of a drive every entry is refused (C78_root_refuses); links become text files holding the
  target (C78_link_text); names that differ in case only overwrite each other silently (C79_false_case).
* checker: `Validate` can be satisfied with no byte written and dissatisfied after a correct extraction (C52);
  `RunSourceTest` does not notice a stream that ends early (C72); `MakeTestSink` makes directories where it says symlinks, so the
  suite never extracts a symlink (C76). semirandom: may not
  terminate (C53).
