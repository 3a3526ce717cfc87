{
 "C01": [
  "proved",
  "destPath, and all four entry operations."
 ],
 "C02": [
  "partial",
  "Holds for every directory but the filesystem root, with the exact boundary (C02_boundary); for the root it is false (C02_false_root)."
 ],
 "C03": [
  "proved",
  ""
 ],
 "C06": [
  "proved",
  ""
 ],
 "C14": [
  "proved",
  "For every content, read schedule (short reads, faults, EOF with data) and call history."
 ],
 "C15": [
  "partial",
  "Acceptance and exact window for sections of sections of any depth; at int64 overflow of start+size the code accepts an out-of-range section (C15_overflow_accepted is the counterexample)."
 ],
 "C16": [
  "proved",
  "Seek sources and all decompressing sources."
 ],
 "C17": [
  "partial",
  "Negative offsets are refused and the offset `size` is fine; for every offset beyond the size Read panics and ReadByte leaves the section (C17_false_everywhere, and two concrete witnesses)."
 ],
 "C18": [
  "proved",
  ""
 ],
 "C19": [
  "proved",
  "For every decompressor satisfying Decomp.Law (checkpoint/restore exact, or refused), every underlying lawful source and history."
 ],
 "C20": [
  "partial",
  "Foreign and refused checkpoints restart at zero; false for a source left with a pending save and no decompressor (C20_false_pending)."
 ],
 "C21": [
  "proved",
  ""
 ],
 "C22": [
  "partial",
  "Holds for Read on decompressing sources; false for seek sources and for ReadByte (witnesses)."
 ],
 "C23": [
  "partial",
  "Agreement for lazy decompressors and at most one pending save; two counterexamples otherwise. Both also on real DEFLATE streams: C23_false_deflate (a byte is returned twice around a sync flush), C23_false_deflate_end."
 ],
 "C24": [
  "proved",
  ""
 ],
 "C25": [
  "proved",
  "With the exception stated in the property, shown by C25_false_eager."
 ],
 "C26": [
  "proved",
  ""
 ],
 "C27": [
  "proved",
  ""
 ],
 "C28": [
  "proved",
  "As float64, for any rounding to nearest: C28_float_range, C28_float_seek; C28_float_large shows that the bound 2^53 is needed."
 ],
 "C29": [
  "proved",
  ""
 ],
 "C30": [
  "proved",
  ""
 ],
 "C31": [
  "proved",
  ""
 ],
 "C32": [
  "proved",
  ""
 ],
 "C33": [
  "proved",
  "For every sink satisfying SinkLaw (instances: in-memory sink, FolderSink model)."
 ],
 "C34": [
  "proved",
  "For every sink satisfying PathLaw, i.e. one node per entry path and no aliasing between paths; any checkpoint handed to a consumer may be used. For FolderSink see C60."
 ],
 "C35": [
  "partial",
  "The current entry is synced immediately before each Save; earlier members are not (C35_false_earlier_members)."
 ],
 "C36": [
  "proved",
  ""
 ],
 "C37": [
  "proved",
  ""
 ],
 "C38": [
  "proved",
  ""
 ],
 "C39": [
  "proved",
  ""
 ],
 "C40": [
  "proved",
  ""
 ],
 "C41": [
  "partial",
  "Holds if recorded sizes are true (C41_progress; as float64 values C41_float; across resumes C41_across); false if they lie or are all zero (witnesses)."
 ],
 "C42": [
  "partial",
  "Holds for methods opened through the zip package; false for store and deflate (witnesses)."
 ],
 "C49": [
  "partial",
  "Checkpoints from real runs are aligned; a hand-made one that is not is accepted silently (C49_false_zip)."
 ],
 "C54": [
  "proved",
  "Correctness after resuming from the retained object is C34 (ZipAttempts.kept).",
  [
   "C34_failures_harmless"
  ]
 ],
 "C55": [
  "proved",
  ""
 ],
 "C56": [
  "proved",
  ""
 ],
 "C04": [
  "partial",
  "Proved for every sequence of operations (with failures) whose links have '..' only at the start of their targets and, if they have any, are not placed in a folder reached through a link; corollaries with static conditions: targets without '..' (C04_no_dotdot_partial); '..' at the start only and no link placed below another (C04_apart_partial). False if either half of the latter is dropped: C04_false_chain, C04_false_below."
 ],
 "C05": [
  "partial",
  "Proved under the same conditions for a real directory and no link entry naming the directory itself. False otherwise: C05_false_symlink, C05_false_mkdir."
 ],
 "C07": [
  "proved",
  ""
 ],
 "C08": [
  "partial",
  "Links: proved. Folders in the way: false (C08_false_folder)."
 ],
 "C09": [
  "proved",
  ""
 ],
 "C10": [
  "proved",
  ""
 ],
 "C11": [
  "partial",
  "Proved when the new entry is not an ignored name; false otherwise (C11_false_ignored)."
 ],
 "C12": [
  "partial",
  "Writers are dead and Close is idempotent: proved. Nuke: proved for a Directory without '..' not reached through links; false for others (C12_false_dotdot, C12_false_empty)."
 ],
 "C13": [
  "proved",
  ""
 ],
 "C43": [
  "proved",
  ""
 ],
 "C44": [
  "partial",
  "All regular files listed exactly once, in order, whatever the history: proved. Directories and links: false (C44_false)."
 ],
 "C45": [
  "partial",
  "False as stated: no tar run ever syncs (C45_never_syncs, for all runs; C45_false, a checkpoint claiming unsynced data)."
 ],
 "C46": [
  "partial",
  "Incomplete or malformed streams never succeed: proved. A stream cut exactly between members succeeds (C46_false); then what is extracted is a prefix of the members (C46_truncated)."
 ],
 "C47": [
  "partial",
  "Proved for sources without a pending save request, such as new ones; false for a source reused after a stopped run (C47_false)."
 ],
 "C48": [
  "proved",
  ""
 ],
 "C57": [
  "proved",
  ""
 ],
 "C50": [
  "partial",
  "What is advertised is exactly as stated (C50_zip, C50_sources_tar). The advertisement is not truthful: archives advertising entry or block resume of which nothing is ever saved exist in any size (C50_false_promises)."
 ],
 "C51": [
  "proved",
  "int64 wrap-around included; every zip result is covered by C51_zip_result."
 ],
 "C52": [
  "partial",
  "Accepted bytes are right (C52_accepted_right, C52_write_verdict) and a positive verdict means completeness if no writer is opened past what was reached (C52_validate_no_gaps). In general false both ways: C52_false, C52_false_alarm."
 ],
 "C53": [
  "partial",
  "Proved for every random sequence whenever the generator finishes; that it finishes is not guaranteed (C53_false_termination). Lengths within 48 KiB of 2^63 excluded (overflow)."
 ],
 "C58": [
  "partial",
  "Proved for every sink call other than Sync, for zip and tar. For Sync and Save proved when no regular member is stored (zip) or the source reports callback errors (tar over a decompressing source); false for stored members and plain tar sources, where the error is swallowed (C58_false_stored, C58_false_tar_plain)."
 ],
 "C59": [
  "proved",
  "Each constructor's histories are those of a cursor over the stated bytes. int64 sizes are naturals here."
 ],
 "C60": [
  "partial",
  "For zip and tar. FolderSink satisfies PathLaw when member names lead to independent places and no place of theirs was reached through a link at the start; a process killed at a system call is one all of whose later calls fail. False when an archive replaces a folder by a link to another member's folder: C60_false_links."
 ],
 "C61": [
  "proved",
  "For every sink satisfying PathLaw (for FolderSink see C60), every lawful tar format (TarFmt.Law) and every lawful source. With names the sink ignores (FolderSink: Icon\\r) the listed size is 0."
 ],
 "C62": [
  "partial",
  "Proved for link targets without '..' (C62_contained_partial), or with '..' at the start only and no link placed below another (C62_apart_partial), with any number of hostile archives, checkpoints, failures and restarts; which links are made: C62_zip_links, C62_tar_links. False in general: C62_false_chain, a three-member zip archive that writes outside the destination."
 ],
 "C63": [
  "proved",
  "Entry writers handed out by the sink. A file handle that GetWriter or Preallocate opens and then fails to chmod or truncate is dropped without Close by the code; such handles are not represented in the model."
 ],
 "C64": [
  "proved",
  "For every sink and archive."
 ],
 "C65": [
  "proved",
  "The relation Calls (Spec/Calls.lean) has one constructor per kind of call; closing a writer is not logged. The zip extractor never closes writers (C63). The relation Asks (Spec/Asks.lean) is its counterpart for the save consumer."
 ],
 "C66": [
  "partial",
  "Proved for every member from the lowest index a run started with since the last power loss, so in particular for the member a checkpoint is within (the Sync before Save suffices), and for everything when starting over (C66_start_over). A file's name is taken to be on stable storage once the file was synced. False for members before the checkpoint's, which are never synced after their last byte: C66_false_earlier, C66_false_missing. The tar extractor never syncs (C45)."
 ],
 "C67": [
  "proved",
  "Zip and tar. The conditions of the verdict are needed: C67_false_duplicates, C67_false_empty (shown for zip). Decompressors and the tar parser are assumed lawful as everywhere."
 ],
 "C68": [
  "proved",
  "Zip and tar, for every sink whose writers obey the io.Writer contract when they report success. For tar the source must depend on the save callback only through its error, which seek sources and all decompressing sources do (C68_sources)."
 ],
 "C69": [
  "proved",
  "Counted (Spec/Alike.lean) is the contract of successful calls; FolderSink, the checking sink and the in-memory sink satisfy it (countedFolder, countedAll)."
 ],
 "C70": [
  "proved",
  "The gob round trip of the checkpoint is taken to be the identity; log output is not modelled. Tar: the bound of 128 stops is met by streams of at most 128 bytes, and the source must have no save pending when a run starts."
 ],
 "C71": [
  "proved",
  "The gob round trip is taken to be the identity; testing.T.FailNow is an early verdict; logs are not modelled. Re-entrant Resume (the save consumer resumes the source that is inside Read) is modelled by LiveM."
 ],
 "C72": [
  "partial",
  "False as stated: the test never compares the amount read with the length of the reference, so a source that passes with a reference passes with every longer one (C72_false_truncated). Proved: what is delivered is a prefix of the reference and the stream ends without error (C72_prefix_partial, any faults, any budget)."
 ],
 "C73": [
  "proved",
  "Tar: members whose headers the stream has, also when the stream is broken later; C73_tar_complete for whole streams. C73_foreign_checkpoint shows the proviso is needed: the entry in a checkpoint overrides the archive's."
 ],
 "C74": [
  "proved",
  "Any disk and any calls: C74_origin, C74_bits. Zip and tar: DiskFit and Independent as in C60; exactness (C74_zip_exact) assumes all members of that name are files asking for the same bits."
 ],
 "C75": [
  "partial",
  "False for tar streams (C75_false_tar): a new file is created with the umask applied, one found by a resumed run is chmoded without it. Proved for zip archives, where preallocation makes every GetWriter find the file (C75_zip_partial)."
 ],
 "C76": [
  "proved",
  "The zip and tar writers are external: zipWritten says what the zip reader will find (names, modes, data offsets; a name ending in '/' is a directory, hence C76_false_slash); for tar any stream that holds the members (TarHas), and for the ustar format (Ustar.lean) the writer is defined and proved right (ustar_has), so C76_ustar_passes assumes nothing of the package. C76_false_symlinks: the items MakeTestSink calls symlinks are directories, for every seed. C76_deflate_passes: the same for zip with DEFLATE as in RFC 1951 (Inflate.lean), the compressor being the one that only stores.",
  [
   "ustar_has"
  ]
 ],
 "C77": [
  "proved",
  "The unqualified wish (at most one, none after Close) is false: C77_false_leak loses any number of descriptors when Chmod fails, and a negative WriteOffset loses one without any failing system call. Counting is erased to the ordinary model by FOp.counted_erase.",
  [
   "FOp.counted_erase"
  ]
 ],
 "C78": [
  "proved",
  "GetFullPathName and the disk's folding of names are arbitrary functions (WCfg.full, WCfg.fold); volumeNameLen, Clean and Join are modelled from Go's source. C78_root_refuses: with Directory \"C:\\\" every entry but the directory itself is refused."
 ],
 "C79": [
  "proved",
  "The assumption that names lead to different places is needed: C79_false_case has two names that differ in case only, the run succeeds and one file's bytes are lost."
 ],
 "C80": [
  "proved",
  "The exception in the statement is needed: C80_false_interleaved. The specification (ShStep) also fixes exactly when checkpoints are emitted."
 ],
 "C81": [
  "proved",
  "eos.Open is a parameter. The last clause's exception is needed: C81_false_leak."
 ],
 "C82": [
  "proved",
  "Zip, tar over any good source, stacks of layers, and gzip + ustar. C82_conditions_needed shows that each condition is needed, C82_gzip_damage_unnoticed what success does not say. Disks never run full and permissions never forbid in the model other than by a failing system call."
 ],
 "C83": [
  "proved",
  "For any sink within PathLaw and for FolderSink (assumptions as in C60). The object left by any run, whatever its outcome; C54 covers stopped runs only."
 ],
 "C84": [
  "partial",
  "False in general: C84_false_tar retries after a failed write and gets a wrong file, reported as success. C84_tar_retry_partial: it holds if the object has no tar state or is as last saved; C84_tar_no_state: there is none after success or a stop."
 ],
 "C85": [
  "proved",
  "The value encoding of gob, written from its documentation, for the Go types of checkpoints. Left out: the messages that define types (both programs have the same structs), the floating point format, the fields inside the checkpoints of external packages (offsets and an image stand for them)."
 ],
 "C86": [
  "proved",
  "For tar every run is given a source with no save request pending, such as a newly made one."
 ],
 "C87": [
  "proved",
  "Checkpoints that come from such runs; a checkpoint object that a failing run had in its hands afterwards is C84's subject."
 ],
 "C88": [
  "proved",
  "For compressed tar files the values inside checkpoints are not covered (the model leaves them arbitrary). C41 is the zip counterpart. As float64 values: C88_float. Across resumes: C88_across."
 ],
 "C89": [
  "proved",
  ""
 ],
 "C90": [
  "partial",
  "Proved for tar streams whose header modes are below 2^20, zip archives whose members do not ask for the bits, and any sink calls with such entries. False otherwise: C90_false_zip, C90_false_tar. The model is of a process that may keep the bits (on Linux, CAP_FSETID); others lose set-uid and set-gid again at the first write."
 ],
 "C91": [
  "partial",
  "Proved per file (since the last checkpoint or the opening of the current file) and with the number of files opened as a factor: for stored zip members and plain tar from any checkpoint whatever, and for stored and deflated zip members (C91_deflate_partial, C91_inflate_partial) and tar through a decompressing source (C91_compressed_tar_partial, C91_targz_partial) from the beginning or any checkpoint held (handed out in earlier runs of the same archive, each with its own environment, sink and consumer: ZipHeld, TarHeld); there the bound grows by twice the distance between places where the decompressor can be saved. False across files: C91_false_zip (no bound at all), C91_unserved_tar."
 ],
 "C92": [
  "proved",
  "The type definitions at the start of a gob stream are not modelled: of the files, the message with the value. C92_in_place shows what is not promised."
 ],
 "C93": [
  "partial",
  "False as stated: C93_false_before_resume (panics after any history in which no Resume succeeded). Between (some Resume succeeded, the last one failed) both happen: an underlying source that cannot be resumed leaves the old decompressor, a bad header removes it."
 ],
 "C94": [
  "proved",
  "Conditions as in the statement: Independent, DiskFit, Bystander. Without the last one false: C94_false_hardlink. Also on Windows (C94_win_*, bytes and targets; permissions there are the read-only flag, not modelled)."
 ],
 "C95": [
  "proved",
  "Conditions as in the statement: Independent, DiskFit. Without links being excluded false: C95_false_link. Also on Windows (C95_win_*, links being files, case folded)."
 ],
 "C96": [
  "proved",
  "An iff per place below the destination. Conditions: Independent, DiskFit, ZipWF / TarHas (well-formed archive), nothing in the destination. What is elsewhere: C94, C95. Also on Windows (C96_win_*)."
 ],
 "C97": [
  "proved",
  "Trees (kinds, link targets, contents); permissions are C74/C75 (for tar they do depend on interruptions). Conditions as for C96. Also on Windows (C97_win_*, for two machines on which names lead to the same places)."
 ],
 "C98": [
  "proved",
  "An iff per place of the disk, not only below the destination. Conditions: Independent, OneKind (members of the same name are of one kind), DiskFit, OneName (files at members' places are not hard-linked elsewhere, see C94_false_hardlink), ZipWF / TarHas. Also on Windows (C98_win_*)."
 ],
 "C99": [
  "proved",
  "An iff per place of the disk. Conditions as for C98, Independent over the members of both archives. Members that are only in the older archive stay (savior deletes nothing). Also on Windows (C99_win_*), also after an extraction given up there (C99_win_*_abandoned), and a tar stream over a zip archive and the other way round (C99_zip_tar, C99_tar_zip, C99_win_zip_tar, C99_win_tar_zip)."
 ]
}