{"claims": [
 {"property": "C01", "status": "proved", "theorems": ["Savior.C01_contained", "Savior.C01_refused", "Savior.C01_acts_on"], "note": "destPath, and all four entry operations."},
 {"property": "C02", "status": "partial", "theorems": ["Savior.C02_inside_accepted_partial", "Savior.C02_boundary", "Savior.C02_false_root"], "note": "Holds for every directory but the filesystem root, with the exact boundary (C02_boundary); for the root it is false (C02_false_root)."},
 {"property": "C03", "status": "proved", "theorems": ["Savior.C03_target_checked"], "note": ""},
 {"property": "C04", "status": "partial", "theorems": ["Savior.C04_contained_partial", "Savior.C04_no_dotdot_partial", "Savior.C04_apart_partial", "Savior.C04_false_chain", "Savior.C04_false_below"], "note": "Proved for every sequence of operations (with failures) whose links have '..' only at the start of their targets and, if they have any, are not placed in a folder reached through a link; corollaries with static conditions: targets without '..' (C04_no_dotdot_partial); '..' at the start only and no link placed below another (C04_apart_partial). False if either half of the latter is dropped: C04_false_chain, C04_false_below."},
 {"property": "C05", "status": "partial", "theorems": ["Savior.C05_survives_partial", "Savior.C05_false_symlink", "Savior.C05_false_mkdir"], "note": "Proved under the same conditions for a real directory and no link entry naming the directory itself. False otherwise: C05_false_symlink, C05_false_mkdir."},
 {"property": "C06", "status": "proved", "theorems": ["Savior.C06_ignored"], "note": ""},
 {"property": "C07", "status": "proved", "theorems": ["Savior.C07_writer"], "note": ""},
 {"property": "C08", "status": "partial", "theorems": ["Savior.C08_link_replaced_partial", "Savior.C08_false_folder"], "note": "Links: proved. Folders in the way: false (C08_false_folder)."},
 {"property": "C09", "status": "proved", "theorems": ["Savior.C09_mkdir"], "note": ""},
 {"property": "C10", "status": "proved", "theorems": ["Savior.C10_permissions"], "note": ""},
 {"property": "C11", "status": "partial", "theorems": ["Savior.C11_only_last_partial", "Savior.C11_false_ignored", "Savior.C11_false_always"], "note": "Proved when the new entry is not an ignored name; false otherwise (C11_false_ignored)."},
 {"property": "C12", "status": "partial", "theorems": ["Savior.C12_nuke_partial", "Savior.C12_false_dotdot", "Savior.C12_false_empty", "Savior.C12_false_parent", "Savior.C12_final", "Savior.C12_close_idempotent"], "note": "Writers are dead and Close is idempotent: proved. Nuke: proved for a Directory without '..' not reached through links; false for others (C12_false_dotdot, C12_false_empty)."},
 {"property": "C13", "status": "proved", "theorems": ["Savior.C13_preallocate", "Savior.C13_failure"], "note": ""},
 {"property": "C14", "status": "proved", "theorems": ["Savior.C14_seek_cursor"], "note": "For every content, read schedule (short reads, faults, EOF with data) and call history."},
 {"property": "C15", "status": "partial", "theorems": ["Savior.C15_section_accepts", "Savior.C15_section_window", "Savior.C15_sections_cursor", "Savior.C15_overflow_accepted", "Savior.C15_accepts_exactly"], "note": "Acceptance and exact window for sections of sections of any depth; at int64 overflow of start+size the code accepts an out-of-range section (C15_overflow_accepted is the counterexample)."},
 {"property": "C16", "status": "proved", "theorems": ["Savior.C16_wrap_uninit", "Savior.C16_seek_uninit"], "note": "Seek sources and all decompressing sources."},
 {"property": "C17", "status": "partial", "theorems": ["Savior.C17_negative_partial", "Savior.C17_at_end_partial", "Savior.C17_false_read_panics", "Savior.C17_false_readByte_outside", "Savior.C17_false_everywhere"], "note": "Negative offsets are refused and the offset `size` is fine; for every offset beyond the size Read panics and ReadByte leaves the section (C17_false_everywhere, and two concrete witnesses)."},
 {"property": "C18", "status": "proved", "theorems": ["Savior.C18_save_once", "Savior.C18_no_spurious", "Savior.C18_reentrant"], "note": ""},
 {"property": "C19", "status": "proved", "theorems": ["Savior.C19_decompressing_cursor"], "note": "For every decompressor satisfying Decomp.Law (checkpoint/restore exact, or refused), every underlying lawful source and history."},
 {"property": "C20", "status": "partial", "theorems": ["Savior.C20_foreign", "Savior.C20_start_refused", "Savior.C20_formats", "Savior.C20_unusable_partial", "Savior.C20_false_pending"], "note": "Foreign and refused checkpoints restart at zero; false for a source left with a pending save and no decompressor (C20_false_pending)."},
 {"property": "C21", "status": "proved", "theorems": ["Savior.C21_no_clean_end", "Savior.C21_truncated"], "note": ""},
 {"property": "C22", "status": "partial", "theorems": ["Savior.C22_read_reports", "Savior.C22_false_seek", "Savior.C22_false_readByte"], "note": "Holds for Read on decompressing sources; false for seek sources and for ReadByte (witnesses)."},
 {"property": "C23", "status": "partial", "theorems": ["Savior.C23_mixed_partial", "Savior.C23_false_eager", "Savior.C23_false_stale", "Savior.C23_false_deflate", "Savior.C23_false_deflate_end"], "note": "Agreement for lazy decompressors and at most one pending save; two counterexamples otherwise. Both also on real DEFLATE streams: C23_false_deflate (a byte is returned twice around a sync flush), C23_false_deflate_end."},
 {"property": "C24", "status": "proved", "theorems": ["Savior.C24_stack_cursor", "Savior.C24_stack_drain"], "note": ""},
 {"property": "C25", "status": "proved", "theorems": ["Savior.C25_discard", "Savior.C25_false_eager"], "note": "With the exception stated in the property, shown by C25_false_eager."},
 {"property": "C26", "status": "proved", "theorems": ["Savior.C26_transparent", "Savior.C26_tell_size"], "note": ""},
 {"property": "C27", "status": "proved", "theorems": ["Savior.C27_when_and_what", "Savior.C27_count_bound", "Savior.C27_section_base", "Savior.C27_absolute", "Savior.C27_monotone"], "note": ""},
 {"property": "C28", "status": "proved", "theorems": ["Savior.C28_counting_progress", "Savior.C28_wrap_progress", "Savior.C28_progress_range", "Savior.C28_float_range", "Savior.C28_float_seek", "Savior.C28_float_large", "Savior.C28_seek_progress", "Savior.C28_seek_progress_mono"], "note": "As float64, for any rounding to nearest: C28_float_range, C28_float_seek; C28_float_large shows that the bound 2^53 is needed."},
 {"property": "C29", "status": "proved", "theorems": ["Savior.C29_bytes", "Savior.C29_result", "Savior.C29_nothing_after_error", "Savior.C29_nil_params"], "note": ""},
 {"property": "C30", "status": "proved", "theorems": ["Savior.C30_no_read_when_stopped", "Savior.C30_stop_after_chunk", "Savior.C30_early_stop_forgotten"], "note": ""},
 {"property": "C31", "status": "proved", "theorems": ["Savior.C31_save_accounting"], "note": ""},
 {"property": "C32", "status": "proved", "theorems": ["Savior.C32_progress_throttled"], "note": ""},
 {"property": "C33", "status": "proved", "theorems": ["Savior.C33_folder", "Savior.C33_zip_stop_resume"], "note": "For every sink satisfying SinkLaw (instances: in-memory sink, FolderSink model)."},
 {"property": "C34", "status": "proved", "theorems": ["Savior.C34_failures_harmless"], "note": "For every sink satisfying PathLaw, i.e. one node per entry path and no aliasing between paths; any checkpoint handed to a consumer may be used. For FolderSink see C60."},
 {"property": "C35", "status": "partial", "theorems": ["Savior.C35_sync_before_save_partial", "Savior.C35_false_earlier_members"], "note": "The current entry is synced immediately before each Save; earlier members are not (C35_false_earlier_members)."},
 {"property": "C36", "status": "proved", "theorems": ["Savior.C36_encrypted", "Savior.C36_reported"], "note": ""},
 {"property": "C37", "status": "proved", "theorems": ["Savior.C37_results"], "note": ""},
 {"property": "C38", "status": "proved", "theorems": ["Savior.C38_tar_stop_iff", "Savior.C38_stop_iff"], "note": ""},
 {"property": "C39", "status": "proved", "theorems": ["Savior.C39_strictly_later", "Savior.C39_bounded"], "note": ""},
 {"property": "C40", "status": "proved", "theorems": ["Savior.C40_names", "Savior.C40_rejects"], "note": ""},
 {"property": "C41", "status": "partial", "theorems": ["Savior.C41_float", "Savior.C41_progress", "Savior.C41_across", "Savior.C41_false_lying", "Savior.C41_false_zero"], "note": "Holds if recorded sizes are true (C41_progress; as float64 values C41_float; across resumes C41_across); false if they lie or are all zero (witnesses)."},
 {"property": "C42", "status": "partial", "theorems": ["Savior.C42_false_size", "Savior.C42_false_truncated", "Savior.C42_verified_partial"], "note": "Holds for methods opened through the zip package; false for store and deflate (witnesses)."},
 {"property": "C43", "status": "proved", "theorems": ["Savior.C43_folder", "Savior.C43_tar_stop_resume", "Savior.C43_same"], "note": ""},
 {"property": "C44", "status": "partial", "theorems": ["Savior.C44_files_listed_partial", "Savior.C44_false"], "note": "All regular files listed exactly once, in order, whatever the history: proved. Directories and links: false (C44_false)."},
 {"property": "C45", "status": "partial", "theorems": ["Savior.C45_never_syncs", "Savior.C45_false"], "note": "False as stated: no tar run ever syncs (C45_never_syncs, for all runs; C45_false, a checkpoint claiming unsynced data)."},
 {"property": "C46", "status": "partial", "theorems": ["Savior.C46_incomplete_partial", "Savior.C46_truncated", "Savior.C46_false"], "note": "Incomplete or malformed streams never succeed: proved. A stream cut exactly between members succeeds (C46_false); then what is extracted is a prefix of the members (C46_truncated)."},
 {"property": "C47", "status": "partial", "theorems": ["Savior.C47_strictly_later_partial", "Savior.C47_bounded_partial", "Savior.C47_false"], "note": "Proved for sources without a pending save request, such as new ones; false for a source reused after a stopped run (C47_false)."},
 {"property": "C48", "status": "proved", "theorems": ["Savior.C48_others_skipped", "Savior.C48_no_effect"], "note": ""},
 {"property": "C49", "status": "partial", "theorems": ["Savior.C49_tar_aligned_partial", "Savior.C49_false_tar", "Savior.C49_aligned_partial", "Savior.C49_false_zip"], "note": "Checkpoints from real runs are aligned; a hand-made one that is not is accepted silently (C49_false_zip)."},
 {"property": "C50", "status": "partial", "theorems": ["Savior.C50_zip", "Savior.C50_sources_tar", "Savior.C50_nothing_saved", "Savior.C50_false_promises"], "note": "What is advertised is exactly as stated (C50_zip, C50_sources_tar). The advertisement is not truthful: archives advertising entry or block resume of which nothing is ever saved exist in any size (C50_false_promises)."},
 {"property": "C51", "status": "proved", "theorems": ["Savior.C51_size", "Savior.C51_stats", "Savior.C51_zip_result"], "note": "int64 wrap-around included; every zip result is covered by C51_zip_result."},
 {"property": "C52", "status": "partial", "theorems": ["Savior.C52_accepted_right", "Savior.C52_write_verdict", "Savior.C52_call_verdicts", "Savior.C52_reset", "Savior.C52_validate_partial", "Savior.C52_validate_iff", "Savior.C52_validate_no_gaps", "Savior.C52_false", "Savior.C52_false_alarm"], "note": "Accepted bytes are right (C52_accepted_right, C52_write_verdict) and a positive verdict means completeness if no writer is opened past what was reached (C52_validate_no_gaps). In general false both ways: C52_false, C52_false_alarm."},
 {"property": "C53", "status": "partial", "theorems": ["Savior.C53_length", "Savior.C53_bytes", "Savior.C53_false_termination"], "note": "Proved for every random sequence whenever the generator finishes; that it finishes is not guaranteed (C53_false_termination). Lengths within 48 KiB of 2^63 excluded (overflow)."},
 {"property": "C54", "status": "proved", "theorems": ["Savior.C54_tar_retained", "Savior.C54_retained", "Savior.C34_failures_harmless"], "note": "Correctness after resuming from the retained object is C34 (ZipAttempts.kept)."},
 {"property": "C55", "status": "proved", "theorems": ["Savior.C55_tar_never_saves", "Savior.C55_never_saves", "Savior.C55_nop_sink"], "note": ""},
 {"property": "C56", "status": "proved", "theorems": ["Savior.C56_healthy", "Savior.C56_loop"], "note": ""},
 {"property": "C57", "status": "proved", "theorems": ["Savior.C57_tar_healthy", "Savior.C57_tar_loop"], "note": ""},
 {"property": "C58", "status": "partial", "theorems": ["Savior.C58_zip_calls", "Savior.C58_zip_saves_partial", "Savior.C58_tar_calls", "Savior.C58_tar_saves_partial", "Savior.C58_sources", "Savior.C58_false_stored", "Savior.C58_false_tar_plain"], "note": "Proved for every sink call other than Sync, for zip and tar. For Sync and Save proved when no regular member is stored (zip) or the source reports callback errors (tar over a decompressing source); false for stored members and plain tar sources, where the error is swallowed (C58_false_stored, C58_false_tar_plain)."},
 {"property": "C59", "status": "proved", "theorems": ["Savior.C59_constructors"], "note": "Each constructor's histories are those of a cursor over the stated bytes. int64 sizes are naturals here."},
 {"property": "C60", "status": "partial", "theorems": ["Savior.C60_folder_partial", "Savior.C60_false_links", "Savior.C60_tar_folder_partial"], "note": "For zip and tar. FolderSink satisfies PathLaw when member names lead to independent places and no place of theirs was reached through a link at the start; a process killed at a system call is one all of whose later calls fail. False when an archive replaces a folder by a link to another member's folder: C60_false_links."},
 {"property": "C61", "status": "proved", "theorems": ["Savior.C61_tar_failures_harmless"], "note": "For every sink satisfying PathLaw (for FolderSink see C60), every lawful tar format (TarFmt.Law) and every lawful source. With names the sink ignores (FolderSink: Icon\\r) the listed size is 0."},
 {"property": "C62", "status": "partial", "theorems": ["Savior.C62_contained_partial", "Savior.C62_apart_partial", "Savior.C62_zip_links", "Savior.C62_tar_links", "Savior.C62_false_chain"], "note": "Proved for link targets without '..' (C62_contained_partial), or with '..' at the start only and no link placed below another (C62_apart_partial), with any number of hostile archives, checkpoints, failures and restarts; which links are made: C62_zip_links, C62_tar_links. False in general: C62_false_chain, a three-member zip archive that writes outside the destination."},
 {"property": "C63", "status": "proved", "theorems": ["Savior.C63_tar_released", "Savior.C63_closed"], "note": "Entry writers handed out by the sink. A file handle that GetWriter or Preallocate opens and then fails to chmod or truncate is dropped without Close by the code; such handles are not represented in the model."},
 {"property": "C64", "status": "proved", "theorems": ["Savior.C64_fresh", "Savior.C64_resumed"], "note": "For every sink and archive."},
 {"property": "C65", "status": "proved", "theorems": ["Savior.C65_zip_protocol", "Savior.C65_tar_protocol", "Savior.C65_zip_consumer", "Savior.C65_tar_consumer"], "note": "The relation Calls (Spec/Calls.lean) has one constructor per kind of call; closing a writer is not logged. The zip extractor never closes writers (C63). The relation Asks (Spec/Asks.lean) is its counterpart for the save consumer."},
 {"property": "C66", "status": "partial", "theorems": ["Savior.C66_power_loss_partial", "Savior.C66_start_over", "Savior.C66_false_earlier", "Savior.C66_false_missing"], "note": "Proved for every member from the lowest index a run started with since the last power loss, so in particular for the member a checkpoint is within (the Sync before Save suffices), and for everything when starting over (C66_start_over). A file's name is taken to be on stable storage once the file was synced. False for members before the checkpoint's, which are never synced after their last byte: C66_false_earlier, C66_false_missing. The tar extractor never syncs (C45)."},
 {"property": "C67", "status": "proved", "theorems": ["Savior.C67_zip_accepted", "Savior.C67_tar_accepted", "Savior.C67_zip_verdict", "Savior.C67_zip_no_false_alarm", "Savior.C67_tar_verdict", "Savior.C67_tar_no_false_alarm", "Savior.C67_false_duplicates", "Savior.C67_false_empty"], "note": "Zip and tar. The conditions of the verdict are needed: C67_false_duplicates, C67_false_empty (shown for zip). Decompressors and the tar parser are assumed lawful as everywhere."},
 {"property": "C68", "status": "proved", "theorems": ["Savior.C68_zip", "Savior.C68_tar", "Savior.C68_sources"], "note": "Zip and tar, for every sink whose writers obey the io.Writer contract when they report success. For tar the source must depend on the save callback only through its error, which seek sources and all decompressing sources do (C68_sources)."},
 {"property": "C69", "status": "proved", "theorems": ["Savior.C69_zip", "Savior.C69_tar", "Savior.C69_zip_alike", "Savior.C69_tar_alike"], "note": "Counted (Spec/Alike.lean) is the contract of successful calls; FolderSink, the checking sink and the in-memory sink satisfy it (countedFolder, countedAll)."},
 {"property": "C70", "status": "proved", "theorems": ["Savior.C70_counter", "Savior.C70_zip_pass", "Savior.C70_zip_correct_passes", "Savior.C70_tar_pass", "Savior.C70_tar_correct_passes"], "note": "The gob round trip of the checkpoint is taken to be the identity; log output is not modelled. Tar: the bound of 128 stops is met by streams of at most 128 bytes, and the source must have no save pending when a run starts."},
 {"property": "C71", "status": "proved", "theorems": ["Savior.C71_pass_iff", "Savior.C71_sound", "Savior.C71_complete", "Savior.C71_seek_passes"], "note": "The gob round trip is taken to be the identity; testing.T.FailNow is an early verdict; logs are not modelled. Re-entrant Resume (the save consumer resumes the source that is inside Read) is modelled by LiveM."},
 {"property": "C72", "status": "partial", "theorems": ["Savior.C72_prefix_partial", "Savior.C72_false_truncated"], "note": "False as stated: the test never compares the amount read with the length of the reference, so a source that passes with a reference passes with every longer one (C72_false_truncated). Proved: what is delivered is a prefix of the reference and the stream ends without error (C72_prefix_partial, any faults, any budget)."},
 {"property": "C73", "status": "proved", "theorems": ["Savior.C73_zip", "Savior.C73_tar", "Savior.C73_tar_complete", "Savior.C73_foreign_checkpoint"], "note": "Tar: members whose headers the stream has, also when the stream is broken later; C73_tar_complete for whole streams. C73_foreign_checkpoint shows the proviso is needed: the entry in a checkpoint overrides the archive's."},
 {"property": "C74", "status": "proved", "theorems": ["Savior.C74_origin", "Savior.C74_bits", "Savior.C74_zip", "Savior.C74_zip_exact", "Savior.C74_tar"], "note": "Any disk and any calls: C74_origin, C74_bits. Zip and tar: DiskFit and Independent as in C60; exactness (C74_zip_exact) assumes all members of that name are files asking for the same bits."},
 {"property": "C75", "status": "partial", "theorems": ["Savior.C75_zip_partial", "Savior.C75_false_tar"], "note": "False for tar streams (C75_false_tar): a new file is created with the umask applied, one found by a resumed run is chmoded without it. Proved for zip archives, where preallocation makes every GetWriter find the file (C75_zip_partial)."},
 {"property": "C76", "status": "proved", "theorems": ["Savior.C76_zip", "Savior.C76_zip_methods", "Savior.C76_zip_passes", "Savior.C76_tar", "Savior.C76_tar_passes", "Savior.C76_ustar_passes", "Savior.C76_test_sink", "Savior.C76_false_symlinks", "Savior.C76_false_slash", "Savior.C76_deflate_passes", "Savior.ustar_has"], "note": "The zip and tar writers are external: zipWritten says what the zip reader will find (names, modes, data offsets; a name ending in '/' is a directory, hence C76_false_slash); for tar any stream that holds the members (TarHas), and for the ustar format (Ustar.lean) the writer is defined and proved right (ustar_has), so C76_ustar_passes assumes nothing of the package. C76_false_symlinks: the items MakeTestSink calls symlinks are directories, for every seed. C76_deflate_passes: the same for zip with DEFLATE as in RFC 1951 (Inflate.lean), the compressor being the one that only stores."},
 {"property": "C77", "status": "proved", "theorems": ["Savior.C77_files", "Savior.C77_false_leak", "Savior.C77_no_leak", "Savior.FOp.counted_erase"], "note": "The unqualified wish (at most one, none after Close) is false: C77_false_leak loses any number of descriptors when Chmod fails, and a negative WriteOffset loses one without any failing system call. Counting is erased to the ordinary model by FOp.counted_erase."},
 {"property": "C78", "status": "proved", "theorems": ["Savior.C78_dest", "Savior.C78_where", "Savior.C78_contained", "Savior.C78_no_links", "Savior.C78_survives", "Savior.C78_link_text", "Savior.C78_root_refuses"], "note": "GetFullPathName and the disk's folding of names are arbitrary functions (WCfg.full, WCfg.fold); volumeNameLen, Clean and Join are modelled from Go's source. C78_root_refuses: with Directory \"C:\\\" every entry but the directory itself is refused."},
 {"property": "C79", "status": "proved", "theorems": ["Savior.C79_zip", "Savior.C79_tar", "Savior.C79_false_case"], "note": "The assumption that names lead to different places is needed: C79_false_case has two names that differ in case only, the run succeeds and one file's bytes are lost."},
 {"property": "C80", "status": "proved", "theorems": ["Savior.C80_shared", "Savior.C80_resume_read", "Savior.C80_section", "Savior.C80_false_interleaved"], "note": "The exception in the statement is needed: C80_false_interleaved. The specification (ShStep) also fixes exactly when checkpoints are emitted."},
 {"property": "C81", "status": "proved", "theorems": ["Savior.C81_file", "Savior.C81_files", "Savior.C81_false_leak"], "note": "eos.Open is a parameter. The last clause's exception is needed: C81_false_leak."},
 {"property": "C82", "status": "proved", "theorems": ["Savior.C82_gzip_damage_unnoticed", "Savior.C82_zip", "Savior.C82_zip_unstopped", "Savior.C82_tar", "Savior.C82_tar_compressed", "Savior.C82_targz", "Savior.C82_conditions_needed"], "note": "Zip, tar over any good source, stacks of layers, and gzip + ustar. C82_conditions_needed shows that each condition is needed, C82_gzip_damage_unnoticed what success does not say. Disks never run full and permissions never forbid in the model other than by a failing system call."},
 {"property": "C83", "status": "proved", "theorems": ["Savior.C83_zip_retry", "Savior.C83_zip_folder"], "note": "For any sink within PathLaw and for FolderSink (assumptions as in C60). The object left by any run, whatever its outcome; C54 covers stopped runs only."},
 {"property": "C84", "status": "partial", "theorems": ["Savior.C84_tar_retry_partial", "Savior.C84_tar_no_state", "Savior.C84_false_tar"], "note": "False in general: C84_false_tar retries after a failed write and gets a wrong file, reported as success. C84_tar_retry_partial: it holds if the object has no tar state or is as last saved; C84_tar_no_state: there is none after success or a stop."},
 {"property": "C85", "status": "proved", "theorems": ["Savior.C85_source", "Savior.C85_extractor", "Savior.C85_emitted", "Savior.C85_zip", "Savior.C85_tar", "Savior.C85_unregistered", "Savior.C85_unknown_to_reader", "Savior.C85_names"], "note": "The value encoding of gob, written from its documentation, for the Go types of checkpoints. Left out: the messages that define types (both programs have the same structs), the floating point format, the fields inside the checkpoints of external packages (offsets and an image stand for them)."},
 {"property": "C86", "status": "proved", "theorems": ["Savior.C86_zip", "Savior.C86_tar", "Savior.C86_tar_compressed"], "note": "For tar every run is given a source with no save request pending, such as a newly made one."},
 {"property": "C87", "status": "proved", "theorems": ["Savior.C87_tar", "Savior.C87_tar_any_sink", "Savior.C87_tar_result", "Savior.C87_zip", "Savior.C87_folder"], "note": "Checkpoints that come from such runs; a checkpoint object that a failing run had in its hands afterwards is C84's subject."},
 {"property": "C88", "status": "proved", "theorems": ["Savior.C88_float", "Savior.C88_sources", "Savior.C88_tar_reports", "Savior.C88_tar_plain", "Savior.C88_across", "Savior.C88_saved_within"], "note": "For compressed tar files the values inside checkpoints are not covered (the model leaves them arbitrary). C41 is the zip counterpart. As float64 values: C88_float. Across resumes: C88_across."},
 {"property": "C89", "status": "proved", "theorems": ["Savior.C89_reuse", "Savior.C89_turns", "Savior.C89_stack"], "note": ""},
 {"property": "C90", "status": "partial", "theorems": ["Savior.C90_calls_partial", "Savior.C90_tar_partial", "Savior.C90_zip_partial", "Savior.C90_false_zip", "Savior.C90_false_tar"], "note": "Proved for tar streams whose header modes are below 2^20, zip archives whose members do not ask for the bits, and any sink calls with such entries. False otherwise: C90_false_zip, C90_false_tar. The model is of a process that may keep the bits (on Linux, CAP_FSETID); others lose set-uid and set-gid again at the first write."},
 {"property": "C91", "status": "partial", "theorems": ["Savior.C91_zip_partial", "Savior.C91_zip_files_partial", "Savior.C91_deflate_partial", "Savior.C91_inflate_partial", "Savior.C91_tar_partial", "Savior.C91_compressed_tar_partial", "Savior.C91_targz_partial", "Savior.C91_small_zip", "Savior.C91_false_zip", "Savior.C91_unserved_tar"], "note": "Proved per file (since the last checkpoint or the opening of the current file) and with the number of files opened as a factor: for stored zip members and plain tar from any checkpoint whatever, and for stored and deflated zip members (C91_deflate_partial, C91_inflate_partial) and tar through a decompressing source (C91_compressed_tar_partial, C91_targz_partial) from the beginning or any checkpoint held (handed out in earlier runs of the same archive, each with its own environment, sink and consumer: ZipHeld, TarHeld); there the bound grows by twice the distance between places where the decompressor can be saved. False across files: C91_false_zip (no bound at all), C91_unserved_tar."},
 {"property": "C92", "status": "proved", "theorems": ["Savior.C92_torn", "Savior.C92_longer", "Savior.C92_source", "Savior.C92_extractor", "Savior.C92_in_place"], "note": "The type definitions at the start of a gob stream are not modelled: of the files, the message with the value. C92_in_place shows what is not promised."},
 {"property": "C93", "status": "partial", "theorems": ["Savior.C93_close_partial", "Savior.C93_false_before_resume", "Savior.C93_in_between"], "note": "False as stated: C93_false_before_resume (panics after any history in which no Resume succeeded). Between (some Resume succeeded, the last one failed) both happen: an underlying source that cannot be resumed leaves the old decompressor, a bad header removes it."},
 {"property": "C94", "status": "proved", "theorems": ["Savior.C94_zip", "Savior.C94_tar", "Savior.C94_false_hardlink", "Savior.C94_win_zip", "Savior.C94_win_tar"], "note": "Conditions as in the statement: Independent, DiskFit, Bystander. Without the last one false: C94_false_hardlink. Also on Windows (C94_win_*, bytes and targets; permissions there are the read-only flag, not modelled)."},
 {"property": "C95", "status": "proved", "theorems": ["Savior.C95_zip", "Savior.C95_tar", "Savior.C95_false_link", "Savior.C95_win_zip", "Savior.C95_win_tar"], "note": "Conditions as in the statement: Independent, DiskFit. Without links being excluded false: C95_false_link. Also on Windows (C95_win_*, links being files, case folded)."},
 {"property": "C96", "status": "proved", "theorems": ["Savior.C96_zip", "Savior.C96_tar", "Savior.C96_win_zip", "Savior.C96_win_tar"], "note": "An iff per place below the destination. Conditions: Independent, DiskFit, ZipWF / TarHas (well-formed archive), nothing in the destination. What is elsewhere: C94, C95. Also on Windows (C96_win_*)."},
 {"property": "C97", "status": "proved", "theorems": ["Savior.C97_zip", "Savior.C97_tar", "Savior.C97_zip_again", "Savior.C97_tar_again", "Savior.C97_win_zip", "Savior.C97_win_tar"], "note": "Trees (kinds, link targets, contents); permissions are C74/C75 (for tar they do depend on interruptions). Conditions as for C96. Also on Windows (C97_win_*, for two machines on which names lead to the same places)."},
 {"property": "C98", "status": "proved", "theorems": ["Savior.C98_zip", "Savior.C98_tar", "Savior.C98_win_zip", "Savior.C98_win_tar"], "note": "An iff per place of the disk, not only below the destination. Conditions: Independent, OneKind (members of the same name are of one kind), DiskFit, OneName (files at members' places are not hard-linked elsewhere, see C94_false_hardlink), ZipWF / TarHas. Also on Windows (C98_win_*)."},
 {"property": "C99", "status": "proved", "theorems": ["Savior.C99_zip", "Savior.C99_tar", "Savior.C99_zip_abandoned", "Savior.C99_tar_abandoned", "Savior.C99_win_zip", "Savior.C99_win_tar", "Savior.C99_win_zip_abandoned", "Savior.C99_win_tar_abandoned", "Savior.C99_zip_tar", "Savior.C99_tar_zip", "Savior.C99_win_zip_tar", "Savior.C99_win_tar_zip"], "note": "An iff per place of the disk. Conditions as for C98, Independent over the members of both archives. Members that are only in the older archive stay (savior deletes nothing). Also on Windows (C99_win_*), also after an extraction given up there (C99_win_*_abandoned), and a tar stream over a zip archive and the other way round (C99_zip_tar, C99_tar_zip, C99_win_zip_tar, C99_win_tar_zip)."}
]}
