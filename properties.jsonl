{"id": "C01", "title": "Entry paths cannot lexically escape the destination", "statement": "For every sink directory and every archive entry path, the path a FolderSink operation acts on is, component by component, the cleaned sink directory followed by a (possibly empty) list of ordinary names (no '', '.', '..'); every other entry path is refused with ErrPathTraversal and the filesystem is left exactly as it was.", "quantifier": "all directories, all entry paths (any bytes), all FolderSink entry operations, all filesystem states", "why_tests_cant": "paths are unbounded strings; tests try six of them", "anchors": ["folder_sink.go:destPath", "folder_sink.go:Mkdir", "folder_sink.go:createFile", "folder_sink.go:GetWriter", "folder_sink.go:Preallocate", "folder_sink.go:Symlink"]}
{"id": "C02", "title": "Inside paths are never refused", "statement": "An entry path whose '..' components never climb above its start (read left to right) is always accepted by FolderSink's traversal check: the check refuses an entry exactly when its path climbs out (or only re-enters by naming the directory). (False when the directory is the filesystem root: there every entry other than the root is refused.)", "quantifier": "all directories, all entry paths", "why_tests_cant": "the accept/reject boundary is over all strings", "anchors": ["folder_sink.go:destPath"]}
{"id": "C03", "title": "Symlink targets are validated before anything is touched", "statement": "FolderSink.Symlink creates a link only if the link target is relative and lexically resolves (against the link's own folder) to the sink directory or something below it; every other target yields ErrPathTraversal and leaves the filesystem untouched.", "quantifier": "all directories, entry paths, link targets and filesystem states", "why_tests_cant": "targets are unbounded strings", "anchors": ["folder_sink.go:Symlink"]}
{"id": "C04", "title": "Extraction never touches anything outside the destination", "statement": "No sequence of FolderSink operations, whatever entry paths and link targets an archive supplies, creates, changes or removes anything outside the sink directory, with the kernel following symlinks. (False: two accepted symlinks can be chained to climb out; holds when accepted link targets contain no '..'.)", "quantifier": "all sequences of sink operations, all archives, all initial directory contents", "why_tests_cant": "attack archives are chosen by an adversary, after the tests were written", "anchors": ["folder_sink.go:destPath", "folder_sink.go:createFile", "folder_sink.go:Symlink", "folder_sink.go:Mkdir"]}
{"id": "C05", "title": "The destination directory itself survives extraction", "statement": "No entry operation removes or replaces the sink directory itself. (False: a symlink entry named '.' wipes it; a directory entry './' replaces a symlinked destination.)", "quantifier": "all entry paths, link targets, filesystem states", "why_tests_cant": "adversarial entry names", "anchors": ["folder_sink.go:Symlink", "folder_sink.go:Mkdir"]}
{"id": "C06", "title": "Ignored names leave no trace", "statement": "An entry whose last path component is 'Icon\\r' never changes the filesystem through Mkdir, Symlink, Preallocate, GetWriter, or any write to the returned writer, and never fails.", "quantifier": "all paths with that base name, all filesystem states, all written data", "why_tests_cant": "all paths / states", "anchors": ["folder_sink.go:shouldIgnorePath", "folder_sink.go:Mkdir", "folder_sink.go:GetWriter", "folder_sink.go:Preallocate", "folder_sink.go:Symlink"]}
{"id": "C07", "title": "GetWriter positions exactly at WriteOffset", "statement": "After a successful FolderSink.GetWriter(entry) followed by any sequence of writes, the file holds the first WriteOffset bytes it held before (zero padded if it was shorter) followed by exactly the written bytes, and nothing else; entry.WriteOffset advances by the number of bytes written; no other path's node changes after the open.", "quantifier": "all filesystem states, entries, offsets, write sequences", "why_tests_cant": "resume relies on it for every offset and every previous content", "anchors": ["folder_sink.go:GetWriter", "folder_sink.go:createFile", "folder_sink.go:entryWriter.Write"]}
{"id": "C08", "title": "Files replace whatever is in the way", "statement": "If GetWriter/Preallocate is called for a path that is currently a symlink or a folder, the obstacle is removed and a regular file created; data is never written through the old symlink. (False for folders: the call fails and the folder stays, contrary to the README.)", "quantifier": "all filesystem states and paths", "why_tests_cant": "all prior states", "anchors": ["folder_sink.go:createFile", "README.md"]}
{"id": "C09", "title": "Mkdir always ends with a directory", "statement": "After a successful FolderSink.Mkdir the path is a directory; if it already was one, nothing at all changes (so Mkdir is idempotent); if it was a file or symlink, only that node is replaced; data elsewhere is untouched.", "quantifier": "all filesystem states and paths", "why_tests_cant": "all prior states", "anchors": ["folder_sink.go:Mkdir"]}
{"id": "C10", "title": "Extracted files are readable and writable", "statement": "A file opened by GetWriter/Preallocate has every bit of entry.Mode|0666 when it existed before, and every bit of that minus the umask when it is created: so at least 0644 whenever umask is within 022.", "quantifier": "all modes, umasks, filesystem states", "why_tests_cant": "all 2^32 modes and all umasks", "anchors": ["folder_sink.go:createFile"]}
{"id": "C11", "title": "Only the last writer can write", "statement": "Once GetWriter returns a new writer, every writer returned earlier refuses to write (os.ErrClosed) and can no longer change any file. (False when the new entry is an ignored name: the previous writer stays open.)", "quantifier": "all sequences of GetWriter/Write/Close", "why_tests_cant": "all call histories", "anchors": ["folder_sink.go:GetWriter", "folder_sink.go:Close", "folder_sink.go:entryWriter.Write"]}
{"id": "C12", "title": "Close and Nuke are final", "statement": "After Close or Nuke no previously returned writer can change anything, Close is idempotent, and after a successful Nuke nothing exists at or below the sink directory while everything outside it is untouched.", "quantifier": "all sink and filesystem states", "why_tests_cant": "all states", "anchors": ["folder_sink.go:Nuke", "folder_sink.go:Close", "folder_sink.go:entryWriter.Close"]}
{"id": "C13", "title": "Preallocate never loses data", "statement": "Preallocate (built-in implementation) leaves existing bytes of the file in place, zero-extends it to UncompressedSize when shorter and never shrinks it.", "quantifier": "all file contents and sizes", "why_tests_cant": "all contents/sizes", "anchors": ["folder_sink.go:Preallocate", "folder_sink.go:legacyPreallocate", "folder_sink.go:zeroReader"]}
{"id": "C14", "title": "A seek source is a faithful cursor", "statement": "For every content, every short-read schedule of the underlying reader and every history of Resume(nil), Resume(checkpoint it emitted), Read, ReadByte, WantSave, the bytes delivered after a Resume that returned offset o are content[o..], without gap, duplication or reordering; EOF is reported only at the end, and Tell always equals the number of bytes before the cursor.", "quantifier": "all contents, read sizes, schedules, call histories", "why_tests_cant": "histories and schedules are unbounded", "anchors": ["seeksource/seeksource.go:Resume", "seeksource/seeksource.go:Read", "seeksource/seeksource.go:ReadByte", "seeksource/seeksource.go:Tell"]}
{"id": "C15", "title": "Sections are exact windows", "statement": "Section(start,size) succeeds exactly when 0<=start, 0<=size, start+size<=Size(); the result reads exactly content[start..start+size), never a byte outside, for sections of sections of any depth. (False at int64 overflow of start+size.)", "quantifier": "all contents, starts, sizes, nesting depths", "why_tests_cant": "all numeric ranges and nestings", "anchors": ["seeksource/seeksource.go:Section", "seeksource/seeksource.go:Read", "seeksource/seeksource.go:ReadByte"]}
{"id": "C16", "title": "Reading before Resume is refused", "statement": "Read and ReadByte on a source that was never resumed return ErrUninitializedSource, no byte, and change nothing - for seek, flate, gzip, bzip2 and brotli sources, whatever was called before (WantSave, SetSourceSaveConsumer) as long as it was not Resume.", "quantifier": "all source kinds, all pre-Resume histories, all buffers", "why_tests_cant": "all histories", "anchors": ["seeksource/seeksource.go:Read", "flatesource/flatesource.go:Read", "gzipsource/gzipsource.go:Read", "bzip2source/bzip2source.go:Read", "brotlisource/brotlisource.go:Read"]}
{"id": "C17", "title": "Bad seek checkpoints fail safely", "statement": "Resuming a seek source from a checkpoint outside the stream either fails in Resume or makes reads report an error/EOF; it never panics and never yields bytes from outside the section. (Negative offsets do fail in Resume; offsets beyond the size are accepted, then Read panics and ReadByte returns bytes past the section.)", "quantifier": "all checkpoint offsets, sections", "why_tests_cant": "all offsets (corrupted or foreign checkpoints)", "anchors": ["seeksource/seeksource.go:Resume", "seeksource/seeksource.go:Read", "seeksource/seeksource.go:ReadByte"]}
{"id": "C18", "title": "A requested save produces exactly one exact checkpoint", "statement": "On a seek source with a save consumer: after WantSave, the next Read with a non-empty buffer (or ReadByte) that is not at the end emits exactly one checkpoint, before delivering any byte, whose Offset is the cursor position; without a new WantSave no further checkpoint is emitted; resuming inside the callback from that checkpoint does not disturb the stream.", "quantifier": "all states, contents, read sizes, schedules", "why_tests_cant": "all interleavings of WantSave and reads", "anchors": ["seeksource/seeksource.go:handleSave", "seeksource/seeksource.go:WantSave"]}
{"id": "C19", "title": "Decompressing sources survive any save/resume history", "statement": "For every compressed input, every block-checkpointable decompressor and every history of Resume(nil), Resume(any checkpoint it emitted), Read, WantSave on a flate/gzip/bzip2/brotli source, bytes delivered after a Resume returning offset o are exactly decompressed[o..]; every emitted checkpoint's Offset equals the number of decompressed bytes before it.", "quantifier": "all inputs, decompressors satisfying the recorded contract, schedules, histories", "why_tests_cant": "checkpoints can fall on any block boundary in any history", "anchors": ["flatesource/flatesource.go:Resume", "gzipsource/gzipsource.go:Resume", "bzip2source/bzip2source.go:Resume", "brotlisource/brotlisource.go:Resume", "flatesource/flatesource.go:Read", "gzipsource/gzipsource.go:Read", "bzip2source/bzip2source.go:Read", "brotlisource/brotlisource.go:Read"]}
{"id": "C20", "title": "Unusable checkpoints restart from zero", "statement": "If a decompressing source is given a checkpoint of another source type, one its decompressor refuses, or one whose underlying source resumes beyond the decompressor position, Resume either reports an error or returns offset 0 and the whole stream is delivered from its first byte; it never returns a non-zero offset with a misaligned stream.", "quantifier": "all checkpoints of those classes, all inputs", "why_tests_cant": "all checkpoint values", "anchors": ["flatesource/flatesource.go:Resume", "gzipsource/gzipsource.go:Resume", "bzip2source/bzip2source.go:Resume", "brotlisource/brotlisource.go:Resume"]}
{"id": "C21", "title": "Truncated or corrupt input is never a clean end", "statement": "If the compressed input is truncated or corrupt, a decompressing source delivers only a prefix of what the valid part decodes to and then an error other than EOF; EOF is reported only when the decoder accepted the stream.", "quantifier": "all inputs, schedules", "why_tests_cant": "all corruptions", "anchors": ["flatesource/flatesource.go:Read", "gzipsource/gzipsource.go:Read", "bzip2source/bzip2source.go:Read", "brotlisource/brotlisource.go:Read"]}
{"id": "C22", "title": "Consumer save errors reach the reader", "statement": "If the save consumer returns an error for a checkpoint, the Read during which it was emitted returns that error. (Holds for decompressing sources' Read; false for seek sources, which drop it, and for ReadByte.)", "quantifier": "all sources, states, consumers", "why_tests_cant": "all emission points", "anchors": ["seeksource/seeksource.go:handleSave", "flatesource/flatesource.go:Read", "gzipsource/gzipsource.go:Read", "bzip2source/bzip2source.go:Read", "brotlisource/brotlisource.go:Read", "flatesource/flatesource.go:ReadByte", "gzipsource/gzipsource.go:ReadByte", "bzip2source/bzip2source.go:ReadByte", "brotlisource/brotlisource.go:ReadByte"]}
{"id": "C23", "title": "ReadByte and Read agree on decompressing sources", "statement": "Reading a decompressing source with ReadByte yields the same byte stream as Read. (False if two saves are pending and the format has an empty block between boundaries: a stale byte is returned; false if the decompressor hands out its last byte together with EOF.)", "quantifier": "all inputs, histories of WantSave/ReadByte", "why_tests_cant": "needs rare interleavings", "anchors": ["flatesource/flatesource.go:ReadByte", "gzipsource/gzipsource.go:ReadByte", "bzip2source/bzip2source.go:ReadByte", "brotlisource/brotlisource.go:ReadByte"]}
{"id": "C24", "title": "Stacks of sources compose", "statement": "Any finite stack of decompressing sources over a seek source (e.g. gzip in bzip2 in a section) is again a faithful resumable cursor over the composed decoding, with checkpoints nested accordingly.", "quantifier": "all stack depths, kinds, contents", "why_tests_cant": "depth unbounded", "anchors": ["flatesource/flatesource.go:SetSourceSaveConsumer", "gzipsource/gzipsource.go:SetSourceSaveConsumer", "bzip2source/bzip2source.go:SetSourceSaveConsumer", "brotlisource/brotlisource.go:SetSourceSaveConsumer", "flatesource/flatesource.go:Resume", "gzipsource/gzipsource.go:Resume", "bzip2source/bzip2source.go:Resume", "brotlisource/brotlisource.go:Resume"]}
{"id": "C25", "title": "DiscardByRead skips exactly delta bytes", "statement": "DiscardByRead(source, delta) on a source with at least delta bytes left returns nil with the cursor advanced by exactly delta, and returns an error if fewer are left; it never advances further. (False if the source delivers its final bytes together with EOF: it then fails although it skipped everything.)", "quantifier": "all sources, deltas, schedules", "why_tests_cant": "all short-read schedules", "anchors": ["source.go:DiscardByRead"]}
{"id": "C26", "title": "A counting source is transparent", "statement": "For every call history a counting source returns exactly the results of the wrapped source and leaves it in exactly the same state.", "quantifier": "all histories, wrapped sources", "why_tests_cant": "all histories", "anchors": ["countingsource/countingsource.go"]}
{"id": "C27", "title": "Counting callbacks are absolute, monotone and regular", "statement": "The callback receives absolute offsets (through sections of sections), never decreasing while reading forward, only after more than 128 KiB since the previous one, and between callbacks never more than 128 KiB plus one read are delivered.", "quantifier": "all read histories, nestings", "why_tests_cant": "all histories", "anchors": ["countingsource/countingsource.go:Read", "countingsource/countingsource.go:ReadByte", "countingsource/countingsource.go:Section"]}
{"id": "C28", "title": "Source progress stays in [0,1]", "statement": "The value Progress returns (a float64) is within [0,1] and never decreases while reading; for a seek source it is 0 at the start and 1 at the end of the stream, and 1 only there if the stream has at most 2^53 bytes; it is 0 for empty streams; decompressing and counting sources report their underlying source's value.", "quantifier": "all contents, histories", "why_tests_cant": "all histories", "anchors": ["seeksource/seeksource.go:Progress", "flatesource/flatesource.go:Progress", "gzipsource/gzipsource.go:Progress", "bzip2source/bzip2source.go:Progress", "brotlisource/brotlisource.go:Progress"]}
{"id": "C29", "title": "Copier writes exactly what it reads", "statement": "For every reader and writer behaviour, the bytes handed to Dst are exactly the bytes returned by Src, in order, including bytes delivered together with an error; Do returns nil only on EOF or stop, otherwise the first write or read error, and nothing is read after the first error.", "quantifier": "all reader/writer scripts", "why_tests_cant": "all scripts", "anchors": ["copy.go:Copier.Do"]}
{"id": "C30", "title": "Stop takes effect after the current chunk", "statement": "If Stop is called while a read is in progress (from the save callback), the chunk being read is still written, then Do returns nil without reading again; a Stop issued before Do is forgotten.", "quantifier": "all scripts, stop points", "why_tests_cant": "all stop points", "anchors": ["copy.go:Copier.Stop", "copy.go:Copier.Do"]}
{"id": "C31", "title": "Save accounting is exact", "statement": "ShouldSave is called exactly once after every read that returned no error, with that read's byte count (zero included), never for the last read that carried EOF or an error; WantSave is called exactly when ShouldSave said true.", "quantifier": "all scripts", "why_tests_cant": "all scripts", "anchors": ["copy.go:Copier.Do"]}
{"id": "C32", "title": "Progress callbacks are throttled but regular", "statement": "EmitProgress is called exactly when more than 512 KiB have been written since the previous call (or since the start); between calls at most 512 KiB plus one buffer are written.", "quantifier": "all scripts", "why_tests_cant": "all scripts", "anchors": ["copy.go:Copier.Do"]}
{"id": "C33", "title": "Zip extraction is independent of stops and resumes", "statement": "However often and wherever (every Save call of every entry) a zip extraction is stopped and resumed from the checkpoint it saved, when it finally succeeds the sink is in exactly the state an uninterrupted extraction produces, i.e. the one described by the archive: every directory made, every link created, every file holding exactly its (decompressed) bytes.", "quantifier": "all archives (stored, deflated, other), consumers, schedules, numbers of resumes, sinks obeying the sink contract", "why_tests_cant": "checkpoint positions and histories are unbounded", "anchors": ["zipextractor/zipextractor.go:Resume", "copy.go:Copier.Do", "folder_sink.go"]}
{"id": "C34", "title": "A zip failure never invalidates the last saved checkpoint", "statement": "If a zip extraction fails at any point (read fault, sink failure, partial write, consumer error, process death), resuming from the last checkpoint handed to the save consumer and running to success gives every entry its correct content.", "quantifier": "all failure points, archives with distinct paths, histories", "why_tests_cant": "all crash points", "anchors": ["zipextractor/zipextractor.go:Resume"]}
{"id": "C35", "title": "Checkpointed data is durable (zip)", "statement": "Whenever a zip checkpoint is handed to the consumer, everything it claims as extracted has been synced. (The current entry is: a successful Sync immediately precedes every Save; earlier entries are not synced.)", "quantifier": "all runs, all save points", "why_tests_cant": "needs power loss at a chosen instant", "anchors": ["zipextractor/zipextractor.go:Resume", "sink.go:EntryWriter"]}
{"id": "C36", "title": "Encrypted entries are never extracted", "statement": "If any not-yet-done entry is flagged encrypted, zip extraction never succeeds, returns ErrEncrypted when it reaches it, and never opens a writer, makes a directory or creates a link for it.", "quantifier": "all archives, consumers", "why_tests_cant": "all archives", "anchors": ["zipextractor/zipextractor.go:Resume"]}
{"id": "C37", "title": "Zip results list the whole archive", "statement": "A successful zip Resume returns, in archive order, one entry per archive member with its path, kind, mode and sizes - regardless of where it was resumed.", "quantifier": "all archives, histories", "why_tests_cant": "all histories", "anchors": ["zipextractor/zipextractor.go:Resume", "zipextractor/zipextractor.go:Entries", "zipextractor/zipextractor.go:zipFileEntry"]}
{"id": "C38", "title": "ErrStop means: you asked for it", "statement": "An extractor returns ErrStop if and only if the consumer's Save returned AfterSaveStop during that run and no error intervened; then the last checkpoint passed to Save is the one to resume from.", "quantifier": "all runs", "why_tests_cant": "all consumers", "anchors": ["zipextractor/zipextractor.go:Resume", "tarextractor/tarextractor.go:Resume"]}
{"id": "C39", "title": "Every zip resume makes progress", "statement": "A checkpoint saved by a zip extraction that was itself resumed from a checkpoint is strictly later (entry index, then offset in the entry) than the one it started from; so stop/resume loops terminate.", "quantifier": "all archives, consumers", "why_tests_cant": "all histories", "anchors": ["zipextractor/zipextractor.go:Resume"]}
{"id": "C40", "title": "Accepted zip names are safe names", "statement": "If opening a zip (with or without backslash normalisation) succeeds, every non-empty member name is local (relative, not climbing out), contains no backslash when normalised or checked, equals the stored name with backslashes replaced, and FolderSink never refuses it as traversal.", "quantifier": "all archives' name lists, both parameter settings", "why_tests_cant": "all names", "anchors": ["zipextractor/zipextractor.go:NewWithParams", "zipextractor/zipextractor.go:normalizeBackslashNames", "folder_sink.go:destPath"]}
{"id": "C41", "title": "Zip progress stays in [0,1]", "statement": "The progress values of a zip run (float64), those stored in checkpoints and those reported, are between 0 and 1 and never decrease along a run; those of a run resumed from a checkpoint are at least the checkpoint's. (False if the archive's recorded sizes lie, or are all zero.)", "quantifier": "all archives, runs", "why_tests_cant": "all archives", "anchors": ["zipextractor/zipextractor.go:Resume"]}
{"id": "C42", "title": "Extracted size matches the declared size", "statement": "A successfully extracted zip file has the size and checksum recorded in the archive. (False for stored and deflated entries: neither is compared; a stored entry cut short by the end of the archive is reported as success.)", "quantifier": "all archives", "why_tests_cant": "all malformed archives", "anchors": ["zipextractor/zipextractor.go:Resume"]}
{"id": "C43", "title": "Tar extraction is independent of stops and resumes", "statement": "Over any resumable source (plain or any stack of compressed sources), however often and wherever a tar extraction is stopped and resumed from its saved checkpoint, when it finally succeeds the sink is in exactly the state an uninterrupted extraction produces: the one described by the archive.", "quantifier": "all archives, sources, consumers, schedules, numbers of resumes", "why_tests_cant": "checkpoint positions and histories are unbounded", "anchors": ["tarextractor/tarextractor.go:Resume"]}
{"id": "C44", "title": "Tar results list the whole archive", "statement": "A successful tar Resume returns one entry per archive member. (False: only regular files are listed; they are all listed, in order, exactly once, whatever the resume history.)", "quantifier": "all archives, histories", "why_tests_cant": "all histories", "anchors": ["tarextractor/tarextractor.go:Resume", "README.md"]}
{"id": "C45", "title": "Checkpointed data is durable (tar)", "statement": "Whenever a tar checkpoint is handed to the consumer, the data it claims as extracted has been synced. (False: no sync is ever issued.)", "quantifier": "all runs", "why_tests_cant": "needs power loss at a chosen instant", "anchors": ["tarextractor/tarextractor.go:Resume"]}
{"id": "C46", "title": "A truncated tar never succeeds", "statement": "If the tar stream (or the compressed stream carrying it) ends early or is malformed, extraction never reports success.", "quantifier": "all archives, truncation points", "why_tests_cant": "all truncation points", "anchors": ["tarextractor/tarextractor.go:Resume"]}
{"id": "C47", "title": "Every tar resume makes progress", "statement": "A checkpoint saved by a resumed tar extraction is strictly later than the one it started from. (False when the same source object is reused and a save request was still pending from the stopped run; holds with a fresh source.)", "quantifier": "all archives, consumers", "why_tests_cant": "all histories", "anchors": ["tarextractor/tarextractor.go:Resume", "copy.go:Copier.Do"]}
{"id": "C48", "title": "Unsupported tar members are skipped without side effects", "statement": "Members that are neither regular files, directories nor symlinks cause no sink call and do not affect how the other members are extracted.", "quantifier": "all archives", "why_tests_cant": "all archives", "anchors": ["tarextractor/tarextractor.go:Resume"]}
{"id": "C49", "title": "Misaligned checkpoints are detected", "statement": "An extractor never continues with a source positioned past the point its checkpoint was taken for. (False: when the source resumes beyond the decoder/writer position nothing is checked and data is silently dropped; it cannot happen with checkpoints emitted by sources whose save reads deliver no bytes.)", "quantifier": "all sources and checkpoints", "why_tests_cant": "needs a source violating the zero-byte save read", "anchors": ["zipextractor/zipextractor.go:Resume", "tarextractor/tarextractor.go:Resume"]}
{"id": "C50", "title": "Advertised features are truthful", "statement": "zip advertises block resume exactly when no member uses LZMA; tar advertises block resume exactly when its source does, and never preallocation or random access; wrappers report block support; counting sources report the wrapped source's features. What is advertised is also delivered. (The last sentence is false: archives whose files use neither store nor deflate advertise entry or block resume but no run ever saves.)", "quantifier": "all archives, sources", "why_tests_cant": "all archives", "anchors": ["zipextractor/zipextractor.go:Features", "zipextractor/zipextractor.go:NewWithParams", "tarextractor/tarextractor.go:Features"]}
{"id": "C51", "title": "Result totals are sums", "statement": "Size() is the sum of the entries' uncompressed sizes (int64 wrap-around), independent of entry order and additive over concatenation; Stats() counts each entry in exactly one of files/dirs/symlinks.", "quantifier": "all entry lists", "why_tests_cant": "all lists", "anchors": ["extractor.go:Size", "extractor.go:Stats"]}
{"id": "C52", "title": "The test sink's verdict is trustworthy", "statement": "If the checking sink's Validate succeeds after an extraction, every byte of every file was written correctly. (False in general: bytes reported written are always correct, but Validate can pass without a single byte written; it is right when no writer was opened beyond what earlier writes to the same path had reached.)", "quantifier": "all write histories", "why_tests_cant": "it is the tests' own oracle", "anchors": ["checker/sink.go:Validate", "checker/writer.go:Write"]}
{"id": "C53", "title": "Generated test data has the requested length", "statement": "semirandom's writer finishes and hands its output exactly `length` bytes, whatever the random source, and never more. (That it finishes is false for some random sequences.)", "quantifier": "all random sequences, lengths", "why_tests_cant": "all seeds", "anchors": ["semirandom/semirandom.go:Write", "semirandom/semirandom.go:limitedWriter"]}
{"id": "C54", "title": "A retained checkpoint object degrades safely", "statement": "The checkpoint object passed to Save is reused: after a stopped zip run returns, it describes the start of the interrupted entry (no source checkpoint, no entry); resuming from the retained object still extracts everything correctly. After a stopped tar run it restarts the archive.", "quantifier": "all runs", "why_tests_cant": "aliasing only shows when a consumer keeps the pointer", "anchors": ["zipextractor/zipextractor.go:Resume", "tarextractor/tarextractor.go:Resume", "source.go:SourceSaveConsumer"]}
{"id": "C55", "title": "The no-op sink and consumer do nothing", "statement": "With NopSaveConsumer an extraction never saves and never stops; with NopSink every operation succeeds and writes report full length.", "quantifier": "all runs", "why_tests_cant": "all runs", "anchors": ["nop_sink.go", "extractor.go:NopSaveConsumer"]}
{"id": "C56", "title": "Healthy archives extract, and stop/resume loops terminate", "statement": "If the archive is well-formed and unencrypted, the environment and sink do not fail and the consumer returns no error, a zip extraction (fresh or resumed from a checkpoint it saved) ends with success or ErrStop, never with another error; and resuming over and over from the last checkpoint saved reaches success after a number of runs bounded by the number of positions of the archive, even if the consumer asks to stop at every save.", "quantifier": "all well-formed archives, block decompressors, read schedules without faults, sinks that work, consumers", "why_tests_cant": "termination of every stop/resume loop is a statement about all consumers and schedules; tests pick a few thresholds", "anchors": ["zipextractor/zipextractor.go:Resume", "extractor.go:SaveConsumer"]}
{"id": "C57", "title": "Healthy tar archives extract, and stop/resume loops terminate", "statement": "If the stream is a complete tar archive, sources and sink do not fail, and the consumer returns no error, a tar extraction (fresh or resumed after any number of stops) ends with success or ErrStop, never with another error; and resuming over and over from the last checkpoint saved, with a new source each time, reaches success after at most as many runs as the stream has bytes, plus one.", "quantifier": "all complete archives, sources (plain or stacked) without faults, read schedules, sinks that work, consumers", "why_tests_cant": "termination of every stop/resume loop is a statement about all consumers and schedules", "anchors": ["tarextractor/tarextractor.go:Resume", "copy.go:Copier.Do"]}
{"id": "C58", "title": "Failures are reported", "statement": "If a sink call (Preallocate, Mkdir, Symlink, GetWriter, Write) made during an extraction fails, Resume returns an error that is not ErrStop and whose cause is the cause of a failing call; the same holds for a failing Sync or consumer Save where the library can see it (compressed zip members, tar over a decompressing source). Resume never turns such a failure into success or into a stop.", "quantifier": "all archives, sources, decompressors, read schedules, sinks failing at any call, consumers failing at any save, checkpoints", "why_tests_cant": "every call of every run may be the one that fails; tests inject a handful of failures", "anchors": ["zipextractor/zipextractor.go:Resume", "tarextractor/tarextractor.go:Resume", "copy.go:Copier.Do", "seeksource/seeksource.go:handleSave"]}
{"id": "C59", "title": "Constructors of seek sources", "statement": "FromBytes(buf) is a resumable source of exactly buf that never fails; NewWithSize(rs, n) of the first n bytes of rs; FromFile(f) of the first Stat().Size() bytes of f, or an empty source if Stat fails (the error is not reported).", "quantifier": "all contents, sizes, read schedules, call histories", "why_tests_cant": "the constructors' meaning is what every later read returns, over all histories", "anchors": ["seeksource/seeksource.go:FromFile", "seeksource/seeksource.go:FromBytes", "seeksource/seeksource.go:NewWithSize"]}
{"id": "C60", "title": "Killed and failing extractions to a folder can be resumed", "statement": "A zip or tar extraction into a FolderSink may fail at any system call (also writing only part of the data), or the process may be killed at any system call; it may then be resumed in a new process from any checkpoint handed to the save consumer before, any number of times. When a run finally succeeds, every member is at its place on disk: folders are folders, links have the recorded target, files have exactly the member's bytes.", "quantifier": "all archives, directories, initial disks, patterns of failing system calls, read schedules, kill points, choices of checkpoint, numbers of restarts", "why_tests_cant": "every system call of every run may be the one at which the process dies", "anchors": ["folder_sink.go:GetWriter", "folder_sink.go:createFile", "folder_sink.go:Preallocate", "folder_sink.go:Mkdir", "folder_sink.go:Symlink", "zipextractor/zipextractor.go:Resume", "tarextractor/tarextractor.go:Resume"]}
{"id": "C61", "title": "A failed tar extraction never invalidates the checkpoints saved before", "statement": "A tar extraction may end in any way: a sink call fails (a write possibly having stored part of its data), reading the source fails, the save consumer fails or stops, the process dies. It may then be resumed from any checkpoint handed to a save consumer before, or started over, any number of times. When a run finally succeeds, every path holds what the last supported member of that name says (directory, link target, complete file content), and the result lists exactly the regular files of the stream, each once, in order, with their full sizes.", "quantifier": "all tar streams, sources and compression layers, read schedules, failure patterns of sink calls and consumers, choices of checkpoint, numbers of restarts", "why_tests_cant": "each call of each run may be the one that fails, and each checkpoint of the history may be the one resumed from", "anchors": ["tarextractor/tarextractor.go:Resume", "tarextractor/tarextractor.go:TarExtractor"]}
{"id": "C62", "title": "Extraction stays inside the destination", "statement": "Whatever zip and tar archives are extracted into a FolderSink, from whatever checkpoints (even tampered with), however often stopped, failed, killed and restarted: nothing outside the sink's Directory is created, changed or removed (missing folders above it aside), and the links created are those the archive's link members record.", "quantifier": "all archives and streams including hostile ones, checkpoints, failure patterns, read schedules, numbers of runs and restarts, initial disks", "why_tests_cant": "an attacker chooses the archive; one escape among all archives is enough", "anchors": ["zipextractor/zipextractor.go:Resume", "tarextractor/tarextractor.go:Resume", "folder_sink.go:destPath", "folder_sink.go:Symlink"]}
{"id": "C63", "title": "No file is left open", "statement": "When a tar Resume into a FolderSink returns, in whatever way, no entry writer is open; after a zip Resume at most the last one is, and the sink's Close closes it. Never are two writers of the same sink open at once.", "quantifier": "all archives, checkpoints, failures, numbers of runs", "why_tests_cant": "leaks on error paths: every call may be the one that fails", "anchors": ["tarextractor/tarextractor.go:Resume", "folder_sink.go:GetWriter", "folder_sink.go:Close"]}
{"id": "C64", "title": "Preallocation", "statement": "A fresh zip extraction calls Preallocate exactly once for each regular file of the archive, in order, before any other sink call; if one fails, Resume returns its error having done nothing else. A resumed extraction calls it never.", "quantifier": "all archives, sinks, failures, checkpoints", "why_tests_cant": "order and absence of calls over all archives and failures", "anchors": ["zipextractor/zipextractor.go:Resume", "sink.go:Sink"]}
{"id": "C65", "title": "Extractors respect the sink protocol", "statement": "During any extraction Write and Sync are called only on a writer returned by a successful GetWriter; the tar extractor closes every writer before it asks for another and before Resume returns, and never uses it after. What the save consumer sees is equally regular: Save is called with the checkpoints saved, in order, and otherwise only ShouldSave is called.", "quantifier": "all archives, checkpoints, sinks, failures, consumers", "why_tests_cant": "must hold on every error path of every run", "anchors": ["zipextractor/zipextractor.go:Resume", "tarextractor/tarextractor.go:Resume", "sink.go:EntryWriter"]}
{"id": "C66", "title": "Zip extraction survives a power loss", "statement": "What was synced is on stable storage; all else may be lost or damaged when power fails (files never synced, bytes written since the last successful Sync, folders, links, preallocated space). After any number of zip extractions and power losses in any order, each extraction resumed from any checkpoint that was handed to a save consumer, an extraction that succeeds leaves every path as the archive says.", "quantifier": "all archives, sinks that are maps from paths to contents, histories of runs and power losses, what a power loss destroys, choices of checkpoint, failures", "why_tests_cant": "power may fail at any point and destroy any unsynced data; tests run on a machine that stays up", "anchors": ["zipextractor/zipextractor.go:Resume", "sink.go:EntryWriter", "folder_sink.go:Sync"]}
{"id": "C67", "title": "The checking sink is an oracle for extractions", "statement": "After any number of extractions into a checking sink, ended in whatever way and each resumed from any checkpoint saved before, an extraction that succeeds means that for every path of the archive the sink has an item of the right kind and link target whose content begins with the member's. If the archive's names are distinct and its files are not empty (and, in a zip archive, stored or deflated), Validate then passes exactly if every item is what the archive says its path should be. If the items match the archive, no call of any run is refused.", "quantifier": "all zip archives and tar streams, lists of items, histories of runs, choices of checkpoint, failures, consumers", "why_tests_cant": "the project's own tests take the checking sink's verdict as ground truth; that the verdict is right for every archive and every history of interruptions is not something these tests can check", "anchors": ["checker/sink.go:Sink", "checker/sink.go:Validate", "checker/writer.go:Writer", "zipextractor/zipextractor.go:Resume", "tarextractor/tarextractor.go:Resume"]}
{"id": "C68", "title": "An extraction fails only for a reason", "statement": "If the archive is well-formed, reads do not fail, no member is encrypted and the save consumer does not fail, then whatever sink an extraction is given \u2014 fresh or resumed from any checkpoint saved before, by whatever sink \u2014 it succeeds, or was asked to stop, or some call of the sink failed. There are no spurious failures.", "quantifier": "all archives and streams, sinks (including ones that fail any call at any time), consumers, checkpoints, read schedules", "why_tests_cant": "a spurious failure may need a particular combination of chunk boundary, checkpoint and save request", "anchors": ["zipextractor/zipextractor.go:Resume", "tarextractor/tarextractor.go:Resume", "copy.go:Do"]}
{"id": "C69", "title": "Sinks are exchangeable", "statement": "What an extraction does depends on the sink only through the sink's answers, not on its kind or on what it contains: two extractions from the same checkpoint into two sinks none of whose calls fail make the same calls in the same order with the same arguments, save the same checkpoints, report the same progress and have the same result (the sinks counting bytes of the same entries). If the two sinks answer, and fail, alike, so with failures.", "quantifier": "all archives, checkpoints, pairs of sinks and their contents, consumers, read schedules", "why_tests_cant": "relational: two executions over all sinks", "anchors": ["sink.go:Sink", "zipextractor/zipextractor.go:Resume", "tarextractor/tarextractor.go:Resume"]}
{"id": "C70", "title": "The test harness can be trusted", "statement": "The counting save consumer says yes exactly if more than its threshold was copied since the last save. If RunExtractorText passes, whatever shouldSave it is given, the sink has an item for each path of the archive and every item is what the archive says (for archives with distinct names and non-empty files, in zip archives stored or deflated). If nothing fails and the items are right, it passes, unless it was stopped more than 128 times, which small archives do not allow.", "quantifier": "all archives, item lists, shouldSave functions, thresholds, read faults and schedules", "why_tests_cant": "it is about the tests themselves: a test that passes for wrong code, or fails for right code, is noticed by no test", "anchors": ["checker/countersaveconsumer.go:ShouldSave", "checker/extractortester.go:RunExtractorText", "checker/sink.go:Validate"]}
{"id": "C71", "title": "The verdict of the source test", "statement": "RunSourceTest passes exactly if both Resume(nil) succeed, reading to the end gives a prefix of the reference and EOF, and on the second reading, during which the source is resumed in the middle of a Read from every checkpoint it makes, every resume returns an offset inside the reference, every read delivers what the reference has there, the end is EOF, and 1 to 128 checkpoints were made. For a seek source or a stack of decompressing sources over one, whatever faults occur, it fails unless the stream decodes cleanly to a prefix of the reference; without faults and with such a reference it ends and can only complain about the number of checkpoints. A seek source of more than 272 KiB and at most 32 MiB passes.", "quantifier": "all sources (for the first part also wrong ones), stacks of decompressing sources, files, sections, references, read schedules, buffer sizes and thresholds", "why_tests_cant": "it is about the test itself: the verdict over all sources and references", "anchors": ["checker/sourcetester.go:RunSourceTest", "checker/writer.go:Write", "seeksource/seeksource.go:Read", "flatesource/flatesource.go:Read"]}
{"id": "C72", "title": "A source that passes the source test delivers the reference", "statement": "If RunSourceTest passes, the source's stream is the reference given to it, entirely.", "quantifier": "all files, stacks of decompressing sources, references, read schedules", "why_tests_cant": "it is about the test itself; the test is never run on a source that drops the end of its stream", "anchors": ["checker/sourcetester.go:RunSourceTest"]}
{"id": "C73", "title": "Only the archive's members are extracted", "statement": "Every Preallocate, Mkdir, Symlink and GetWriter call an extraction makes, and every checkpoint it saves, is about a member of the archive, of the kind that goes with the call, with the path, mode and sizes the archive records for that member, whatever failures and interruptions came before; provided the checkpoint resumed from was made from the same archive.", "quantifier": "all zip archives and tar streams, environments, sinks, consumers, chains of attempts and choices of checkpoint", "why_tests_cant": "it is about every call of every run after any history of failed and interrupted runs", "anchors": ["zipextractor/zipextractor.go:Resume", "tarextractor/tarextractor.go:Resume", "extractor.go:ExtractorCheckpoint"]}
{"id": "C74", "title": "Permissions of extracted files", "statement": "Whatever is done with a FolderSink and whatever fails, the permission bits of a file on disk are what they were before, or the bits some entry passed to Preallocate or GetWriter asks for (permissions, and set-uid, set-gid and sticky as os.FileMode has them) plus read and write for everybody, with or without the umask's bits: special bits and execute bits nobody asked for never appear. After any chain of failed, killed and interrupted zip or tar extractions, the entry is a member of the file's own name. After a zip extraction that ends successfully, the umask does not matter: the file has exactly the bits its member asks for.", "quantifier": "all sequences of sink operations, disks, fault patterns, umasks, archives with independent names, chains of runs and choices of checkpoint", "why_tests_cant": "it is about every interleaving of failures, kills and restarts, and every mode", "anchors": ["folder_sink.go:createFile", "folder_sink.go:Preallocate", "folder_sink.go:GetWriter", "zipextractor/zipextractor.go:Resume", "tarextractor/tarextractor.go:Resume"]}
{"id": "C75", "title": "Permissions do not depend on interruptions", "statement": "Two successful extractions of the same archive, interrupted differently, give each file the same permission bits.", "quantifier": "all archives, disks, umasks, fault patterns and chains of runs", "why_tests_cant": "it compares all pairs of histories", "anchors": ["folder_sink.go:createFile", "zipextractor/zipextractor.go:Resume", "tarextractor/tarextractor.go:Resume"]}
{"id": "C76", "title": "Test archives hold what the test sink expects", "statement": "For every checker.Sink whose items have distinct paths, with no file or symlink named like a directory (ending in '/'), and whatever order the map is iterated in, the archive MakeZip or MakeTar makes has at each item's path exactly what the item says, and nothing else; MakeZip deflates half of the files, rounded up. Hence extracting that archive against that sink, stopped and resumed any number of times, passes RunExtractorText when nothing fails and no file is empty (unless it is stopped too often). MakeTestSinkAdvanced(n) makes n items with distinct such paths, whatever the random numbers; none of them is a symlink.", "quantifier": "all sinks, iteration orders, encoders that the decoder inverts, archive layouts, random numbers, save decisions", "why_tests_cant": "the tests run the generators on one seed; a mismatch between generator and oracle would make the suite test something else", "anchors": ["checker/makezip.go:MakeZip", "checker/maketar.go:MakeTar", "checker/maketestsink.go:MakeTestSinkAdvanced", "checker/extractortester.go:RunExtractorText"]}
{"id": "C77", "title": "A FolderSink holds at most one file open", "statement": "Whatever is called on a FolderSink and the writers it returned, and whatever system calls fail, the process has at most one file open on its behalf, and none after Close, plus at most one for every call of GetWriter or Preallocate that failed. (Without the last clause it is false: if Chmod, Seek or Truncate fails the opened file is never closed.)", "quantifier": "all call sequences, entries, file systems, failing system calls", "why_tests_cant": "descriptor leaks on error paths need particular failures at particular points, in any number", "anchors": ["folder_sink.go:createFile", "folder_sink.go:GetWriter", "folder_sink.go:Preallocate", "folder_sink.go:Close"]}
{"id": "C78", "title": "FolderSink on Windows stays inside its directory and makes no links", "statement": "On Windows, whatever entries a FolderSink is given (slashes or backslashes, drive letters, '..' , any link targets), in any order and with any system call failing, nothing outside its Directory changes and no symbolic link is created; an entry is accepted exactly if reading its names (both separators) does not leave the directory, and then goes where that reading leads; without Nuke the directory itself stays a directory; a Symlink that succeeds leaves a regular file whose bytes are the link's target.", "quantifier": "all directories with a volume, entry names, link targets, operation sequences, file systems, failing system calls, and all behaviours of GetFullPathName and of the disk's folding of names", "why_tests_cant": "the tests run on one system and with a handful of names; escaping needs a particular mixture of separators, volumes, dots and failing calls", "anchors": ["folder_sink.go:destPath", "folder_sink.go:withinDir", "folder_sink.go:Symlink", "folder_sink.go:createFile", "folder_sink.go:GetWriter"]}
{"id": "C79", "title": "Whole extractions on Windows", "statement": "On Windows, after any number of failed, stopped or killed extractions to the same directory, each resumed from a checkpoint handed to a save consumer, a zip or tar extraction that succeeds leaves every member (not ignored) at its place: folders, files with their bytes, and for links regular files with the targets' texts. (For archives whose names lead to different places on the case-folding disk.)", "quantifier": "all archives, histories of attempts, checkpoints chosen, failing system calls, partial writes, read schedules, foldings of names", "why_tests_cant": "the histories are unbounded and the tests do not run on Windows", "anchors": ["folder_sink.go:FolderSink", "zipextractor/zipextractor.go:Resume", "tarextractor/tarextractor.go:Resume"]}
{"id": "C80", "title": "Several sources over one file", "statement": "When a seek source and sections of it (to any depth) are used in any order, each behaves as a cursor over its own bytes, except that calling Resume, Read or ReadByte on one of them takes the cursor away from all others: these must be resumed (from nil or from a checkpoint emitted with a valid cursor) before they are read again, and then deliver the right bytes. (Without the exception it is false: alternating reads return bytes from another place, with no error.)", "quantifier": "all files, sections, sets of sources, interleavings of calls, read schedules and faults, save consumers", "why_tests_cant": "interleavings of calls on sources that secretly share a file position are unbounded; the tests use one source at a time", "anchors": ["seeksource/seeksource.go:Section", "seeksource/seeksource.go:Resume", "seeksource/seeksource.go:Read", "seeksource/seeksource.go:ReadByte"]}
{"id": "C81", "title": "File sources", "statement": "filesource.Open returns a source that stands at the first byte of the file, OpenPaused one that must be resumed first; whatever is then called, the caller sees a cursor over the file's bytes. Exactly one file is open until Close and none after it; after Close reads deliver only right bytes (those already read from the file) or an error, Resume is refused, and so is a second Close. A failing Open leaves no file open unless the file was opened and then seeking failed. (In general it does: then the file is never closed.)", "quantifier": "all files, read schedules and faults, call sequences, points at which Close is called", "why_tests_cant": "there are no tests of it, and descriptor leaks and reads after Close depend on the point of failure", "anchors": ["filesource/filesource.go:Open", "filesource/filesource.go:OpenPaused", "filesource/filesource.go:Close"]}
{"id": "C82", "title": "Extraction into a folder succeeds", "statement": "Extracting an archive into a folder succeeds and puts every entry in place, provided that the archive's names stay in the folder and do not get in each other's way, that no name is both a file and a folder, that link targets do not lead out, that the disk has only folders on the way to the entries and no folders where files go, and that from now on neither a read nor a system call fails. This holds as well for an extraction continuing from any checkpoint after any number of attempts that failed, were stopped or killed. Only a stop that the consumer asked for is reported otherwise. (Without any one of these conditions it can fail; and damage after the end-of-archive marker of a .tar.gz is not reported.)", "quantifier": "all archives and compressed tar streams, disks, histories of attempts with faults, checkpoints, read schedules, consumers", "why_tests_cant": "that nothing more is needed for success is a statement about all archives, disks and histories; tests run into empty folders", "anchors": ["folder_sink.go:Mkdir", "folder_sink.go:GetWriter", "folder_sink.go:Symlink", "zipextractor/zipextractor.go:Resume", "tarextractor/tarextractor.go:Resume"]}
{"id": "C83", "title": "Retrying a zip extraction with the same checkpoint object", "statement": "Resume of the zip extractor works on the checkpoint object it is given. However a run ended - failure in the middle of a file, stop or success - the caller may pass that same object, as the run left it, to Resume again (on the same storage), any number of times, or go on with a stored copy or from nothing; when a run succeeds every member is in place.", "quantifier": "all archives, histories of attempts with faults, retries, consumers, sinks within the contract (FolderSink for archives whose names do not get in each other's way)", "why_tests_cant": "the object is changed by the failing run itself, at an arbitrary point between a write and the next save", "anchors": ["zipextractor/zipextractor.go:Resume", "copy.go:Do", "folder_sink.go:GetWriter", "source.go:DiscardByRead"]}
{"id": "C84", "title": "Retrying a tar extraction with the same checkpoint object", "statement": "However a run of the tar extractor ended, the caller may pass the checkpoint object it worked with to Resume again; when a run succeeds every member is in place. (False: after a failure within a member the object's write offset has advanced, its source and tar checkpoints have not.)", "quantifier": "all tar streams, histories of attempts with faults, retries, consumers, sinks within the contract", "why_tests_cant": "the object is changed by the failing run itself, at an arbitrary point between a write and the next save", "anchors": ["tarextractor/tarextractor.go:Resume", "copy.go:Do", "folder_sink.go:GetWriter"]}
{"id": "C85", "title": "Checkpoints survive gob encoding", "statement": "A checkpoint handed to a save consumer - by any nesting of sources, by the zip extractor or by the tar extractor, in a fresh run or one resumed from such a checkpoint - can be encoded with encoding/gob and decoding gives an equal checkpoint, provided both programs import the packages of the sources (and the tar extractor) involved, whose init functions register the types, the sizes fit the Go types and the message stays below gob's size limit; a program that lacks one of those packages gets an error, never a different checkpoint.", "quantifier": "all checkpoints emitted: all archives, streams, histories, nestings of sources, consumers; all sets of registered types, all size limits", "why_tests_cant": "the repository's tests round-trip the checkpoints of a few runs; the claim is for every checkpoint any run can emit, of any nesting, with any field zero (gob leaves zero fields out)", "anchors": ["source.go:SourceCheckpoint", "extractor.go:ExtractorCheckpoint", "gzipsource/gzipsource.go:init", "tarextractor/tarextractor.go:init", "checker/extractortester.go:roundtripEThroughGob", "checker/sourcetester.go:roundtripThroughGob"]}
{"id": "C86", "title": "Stop/resume loops into a folder finish", "statement": "Extract a zip or tar archive whose names do not collide into a folder of a disk with room for it, after any number of earlier attempts that ended in whatever way (killed, failed, stopped). From then on, if no read and no system call fails, calling Resume again and again with the last checkpoint saved, as long as it reports ErrStop, finishes after finitely many calls - at most one more than the archive has positions, for tar than the stream has bytes - however often the consumer answers \"stop\" and whether or not the process restarts in between; Resume then reports success and every member is at its place in the folder with the archive's contents.", "quantifier": "all archives with sensible names, all histories of earlier attempts and choices of checkpoint, all consumers (any asking pattern, any stopping pattern, state restarted at will), all restart patterns, all read schedules without faults", "why_tests_cant": "termination of a loop whose number of iterations is up to the consumer, starting from any wreckage left by earlier attempts", "anchors": ["zipextractor/zipextractor.go:Resume", "tarextractor/tarextractor.go:Resume", "folder_sink.go:FolderSink"]}
{"id": "C87", "title": "Checkpoints say where they were taken", "statement": "Every checkpoint Resume hands to a save consumer, in a first run or in any chain of resumed ones, describes a place in the archive truthfully. EntryIndex is the number of members in front of the one being extracted (for tar counting the ones the extractor skips), which is a regular file; Entry is what the archive records about that member (name, mode, sizes), with WriteOffset the number of its bytes extracted so far (0 for names the sink ignores); SourceCheckpoint is for exactly that place: for zip, offset in the member's data; for tar, offset in the uncompressed stream, being WriteOffset bytes after the start of the member's data. A tar checkpoint also lists the regular files in front of it, complete, and a successful tar run reports all of them.", "quantifier": "all archives and streams, all chains of stopped and resumed runs, all sources, read schedules, decompressors and consumers, all sinks that count what they write except under ignored names (FolderSink in every configuration among them)", "why_tests_cant": "must hold for every checkpoint at every place of every archive; user interfaces show EntryIndex and Entry, and resuming depends on all of it", "anchors": ["extractor.go:ExtractorCheckpoint", "tarextractor/tarextractor.go:Resume", "zipextractor/zipextractor.go:Resume", "folder_sink.go:entryWriter"]}
{"id": "C88", "title": "Tar progress is a fraction and never goes back", "statement": "The progress values a tar Resume reports during one run never decrease, and lie in [0,1] unless the checkpoint it was given points beyond the end of the file. The same holds of Progress() of any stack of decompressing sources over a file, across reads. For an uncompressed tar file it holds of the values in checkpoints too, and the values of a run resumed from a checkpoint are at least the checkpoint's.", "quantifier": "all tar formats, streams, stacks of decompressors, read schedules and faults, all sinks and consumers, all checkpoints (even tampered with) and all states a source was left in", "why_tests_cant": "the repository's own test harness only counts how often progress jumped back; it must never happen, at any place of any archive", "anchors": ["tarextractor/tarextractor.go:Resume", "seeksource/seeksource.go:Progress", "gzipsource/gzipsource.go:Progress", "checker/extractortester.go:RunExtractorText"]}
{"id": "C89", "title": "A source object can be used for one tar run after another", "statement": "Use one source object (a file, or a stack of decompressing sources over a file) for any number of Resume calls of one tar extractor, each from no checkpoint or from one saved earlier, ending in whatever way short of the source's own Resume failing (stopped, failed, finished; save requests may be left pending). The next run behaves exactly as if none of the callbacks that earlier runs registered on the source existed, although Resume replaces the old callback only after it has skipped bytes: no save consumer is called on behalf of an earlier run, and the variables of the earlier run stay as they were.", "quantifier": "all tar formats, streams, stacks of decompressors (including ones that refuse their own checkpoints), read schedules and faults, sinks, consumers, checkpoints saved by any chain of runs, and series of runs on the same source object", "why_tests_cant": "needs a save request pending at the moment a run ended, and a decompressor starting over, at any place of any archive", "anchors": ["tarextractor/tarextractor.go:Resume", "source.go:DiscardByRead", "flatesource/flatesource.go:Resume", "seeksource/seeksource.go:handleSave"]}
{"id": "C90", "title": "Extraction makes no set-uid, set-gid or sticky files", "statement": "Extracting an archive with a FolderSink leaves no regular file with the set-uid, set-gid or sticky bit that did not have it before, whatever the archive says, however often the extraction fails, is killed or is resumed. (False of zip archives, whose members may ask for the bits, and of tar headers with modes of more than 20 bits; true of tar files with any of the twelve Unix mode bits, since os.FileMode(hdr.Mode) does not translate them.)", "quantifier": "all archives and tar streams with independent names, disks, umasks, fault patterns, chains of runs; all sequences of sink calls", "why_tests_cant": "a security property: must hold for every mode value and every history", "anchors": ["folder_sink.go:createFile", "tarextractor/tarextractor.go:Resume", "zipextractor/zipextractor.go:zipFileEntry"]}
{"id": "C91", "title": "A crash loses a bounded amount of work", "statement": "If the save consumer never lets more than T bytes go by without asking for a checkpoint, then at any time at most T plus one copy buffer (32768) bytes have been handed to writers since the last checkpoint given to Save (or the start). (True within one stored zip member or one member of a plain tar; false across members, because a request made after a member's last chunk is forgotten: archives of small files are extracted without any checkpoint.)", "quantifier": "all archives, sources, read schedules, sinks, save consumers, starting checkpoints, moments in the run", "why_tests_cant": "must hold at every moment of every run, for every consumer policy and every split into reads", "anchors": ["copy.go:Do", "zipextractor/zipextractor.go:Resume", "tarextractor/tarextractor.go:Resume", "seeksource/seeksource.go:handleSave"]}
{"id": "C92", "title": "A checkpoint file cut short is refused", "statement": "If an encoded checkpoint (source or extractor) is written to a file and the file is cut short anywhere, decoding it reports an error rather than giving some checkpoint; if other bytes follow it, decoding gives the checkpoint that was written. (A checkpoint written over another in place, and torn in the middle, is not noticed.)", "quantifier": "all checkpoints whose numbers fit their Go types, programs that register the types, all lengths the file can be cut to, all bytes behind it", "why_tests_cant": "every possible crash point while the file is written, for every checkpoint", "anchors": ["source.go:SourceCheckpoint", "extractor.go:ExtractorCheckpoint", "checker/sourcetester.go:roundtripThroughGob", "checker/extractortester.go:roundtripEThroughGob"]}
{"id": "C93", "title": "A gzip source can be closed at any time", "statement": "Close on a gzip source never panics, whatever was called before: nothing, a Resume that failed, reads that failed, save requests. (It does when no Resume has succeeded: there is no decompressor to close. It does not when the last Resume succeeded, whatever came after it.)", "quantifier": "all underlying sources, decompressors, and histories of Resume, Read, ReadByte, WantSave, SetSourceSaveConsumer before the Close", "why_tests_cant": "every history of calls, with every underlying source and every failure", "anchors": ["gzipsource/gzipsource.go:Close", "gzipsource/gzipsource.go:Resume"]}
{"id": "C94", "title": "Files in the destination that no member concerns are left alone", "statement": "Whatever was on the disk before an extraction and is no concern of the archive's members \u2014 no member leads to it, no member but a folder leads above it, and if a member leads below it it is a folder \u2014 is the same at any time during and after any number of extraction runs: files keep their bytes and permissions, links their target, folders stay. (The members' places are not reached through links and are not hard links of each other or of the file in question: extracting over a hard link writes into all its names.)", "quantifier": "all archives whose members' places do not get in each other's way, all disks, chains of runs, fault schedules, checkpoints resumed from, and places", "why_tests_cant": "every place on every disk, at every point of every chain of interrupted runs", "anchors": ["folder_sink.go:createFile", "folder_sink.go:Mkdir", "folder_sink.go:Symlink", "zipextractor/zipextractor.go:Resume", "tarextractor/tarextractor.go:Resume"]}
{"id": "C95", "title": "Extraction makes nothing but members and the folders above them", "statement": "At any time during and after any number of extraction runs, everything on the disk was there before the first run (the very same folder, link or file), or is at the place of a member that is neither ignored nor refused and is of that member's kind, or is a folder above such a place: no temporary files, nothing outside. (The members' places are not reached through links that were there before: extracting through those makes files wherever they lead.)", "quantifier": "all archives whose members' places do not get in each other's way, all disks, chains of runs, fault schedules, checkpoints resumed from, and places", "why_tests_cant": "every place on every disk, at every point of every chain of interrupted runs", "anchors": ["folder_sink.go:createFile", "folder_sink.go:Mkdir", "folder_sink.go:Symlink", "zipextractor/zipextractor.go:Resume", "tarextractor/tarextractor.go:Resume"]}
{"id": "C96", "title": "A successful extraction leaves exactly the archive", "statement": "If there was nothing in the destination folder before the first run, then after a run that succeeds - whatever happened in the runs before it, and whichever checkpoint it was resumed from - the destination holds exactly the tree the archive describes: every member (not ignored) at its place with its content or target, folders above members, and nothing else.", "quantifier": "all archives whose members' places do not get in each other's way, all disks with an empty destination, chains of runs, fault schedules, checkpoints resumed from, and places below the destination", "why_tests_cant": "every place below the destination after every chain of interrupted runs", "anchors": ["folder_sink.go:createFile", "folder_sink.go:Mkdir", "folder_sink.go:Symlink", "zipextractor/zipextractor.go:Resume", "tarextractor/tarextractor.go:Resume"]}
{"id": "C97", "title": "Extracting again changes nothing; every way to success gives the same tree", "statement": "Extracting an archive again into the folder it was extracted into, in however many interrupted runs, leaves there - once it succeeds - exactly the tree that was there. More generally any two ways to a successful extraction of the same archive into the same, empty folder (different disks, interruptions, consumers, checkpoints resumed from, umasks, failures) end with the same folders, links and file contents.", "quantifier": "all archives whose members' places do not get in each other's way, all pairs of chains of runs with their faults and checkpoints, and places below the destination", "why_tests_cant": "all pairs of histories of interrupted runs", "anchors": ["folder_sink.go:createFile", "folder_sink.go:Mkdir", "folder_sink.go:Symlink", "zipextractor/zipextractor.go:Resume", "tarextractor/tarextractor.go:Resume"]}
{"id": "C98", "title": "A successful extraction lays the archive over what was there", "statement": "After a run that succeeds - whatever happened in the runs before it - the whole disk is what it was before the first run with the archive laid over it: at a place of a member and above one there is what the archive says; elsewhere, what was there, except below members that are not folders, where nothing is.", "quantifier": "all archives whose members' places do not get in each other's way, all initial disks (not reached through links, files not hard-linked), chains of runs, fault schedules, checkpoints resumed from, and all places of the disk", "why_tests_cant": "every place of every disk after every chain of interrupted runs", "anchors": ["folder_sink.go:createFile", "folder_sink.go:Mkdir", "folder_sink.go:Symlink", "zipextractor/zipextractor.go:Resume", "tarextractor/tarextractor.go:Resume"]}
{"id": "C99", "title": "An update lays the newer archive over the older one", "statement": "After one archive was extracted successfully into a folder and then another one, each in any number of interrupted runs, the disk is what it was before, with the first archive laid over it, and the second over that: members of both hold what the newer says, members of the older only stay as they were, and files in neither are untouched. If the first extraction was given up instead, in whatever state, the second, once it succeeds, is complete all the same, and besides it there is what the first left - nothing but its members and what was there before.", "quantifier": "all pairs of archives whose members' places do not get in each other's way, all initial disks (not reached through links, files not hard-linked), chains of runs, fault schedules, checkpoints resumed from, and all places of the disk", "why_tests_cant": "every place of every disk after every two chains of interrupted runs", "anchors": ["folder_sink.go:createFile", "folder_sink.go:Mkdir", "folder_sink.go:Symlink", "zipextractor/zipextractor.go:Resume", "tarextractor/tarextractor.go:Resume"]}
