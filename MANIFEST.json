{
 "claims": [
  {
   "property": "C01",
   "status": "proved",
   "theorems": [
    "Securefs.Props.C01_lite_file_is_byte_array"
   ],
   "note": "all configurations, random streams, histories; offsets up to the block limit (2^31-1 blocks)"
  },
  {
   "property": "C02",
   "status": "proved",
   "theorems": [
    "Securefs.Props.C02_full_file_is_byte_array"
   ],
   "note": "header read only after it was written; see C55 for the other case"
  },
  {
   "property": "C03",
   "status": "proved",
   "theorems": [
    "Securefs.Props.C03_lite_reopen",
    "Securefs.Props.C03_full_reopen"
   ],
   "note": ""
  },
  {
   "property": "C04",
   "status": "proved",
   "theorems": [
    "Securefs.Props.C04_lite_tamper_evident",
    "Securefs.Props.C04_moved_block_detected"
   ],
   "note": "reduction: a block accepted but never encrypted is exhibited in the attacker's file"
  },
  {
   "property": "C05",
   "status": "partial",
   "theorems": [
    "Securefs.Props.C05_full_tamper_evident_partial",
    "Securefs.Props.C05_empty_metadata_accepted"
   ],
   "note": "false for an empty metadata file, which is accepted unauthenticated (proved); everything else proved"
  },
  {
   "property": "C06",
   "status": "partial",
   "theorems": [
    "Securefs.Props.C06_lite_truncation_undetected",
    "Securefs.Props.C06_lite_zeroing_undetected",
    "Securefs.Props.C06_full_truncation_undetected"
   ],
   "note": "false as stated; the three theorems prove that truncation at a block boundary and zeroing whole blocks pass every check, for all files and histories. What does hold is C04 and C05."
  },
  {
   "property": "C07",
   "status": "proved",
   "theorems": [
    "Securefs.Props.C07_stat_size",
    "Securefs.Props.C07_size_after_resize",
    "Securefs.Props.C07_padding_bound"
   ],
   "note": ""
  },
  {
   "property": "C08",
   "status": "partial",
   "theorems": [
    "Securefs.Props.C08_lite_over_limit_partial",
    "Securefs.Props.C08_full_over_limit_partial",
    "Securefs.Props.C08_lite_gap_write_extends",
    "Securefs.Props.C08_full_gap_write_extends",
    "Securefs.Props.C08_lite_sparse_extension_accepted",
    "Securefs.Props.C08_full_sparse_extension_accepted",
    "Securefs.Props.C08_read_over_limit",
    "Securefs.Props.C08_write_agree",
    "Securefs.Props.C08_resize_agree"
   ],
   "note": "false for writes behind a gap and for sparse extension (proved for all files); true in the remaining cases"
  },
  {
   "property": "C09",
   "status": "proved",
   "theorems": [
    "Securefs.Props.C09_lite_write_never_hole",
    "Securefs.Props.C09_full_write_never_hole"
   ],
   "note": ""
  },
  {
   "property": "C10",
   "status": "proved",
   "theorems": [
    "Securefs.Props.C10_torn_write"
   ],
   "note": "for every mixture of old and new bytes, not only prefixes"
  },
  {
   "property": "C100",
   "status": "partial",
   "theorems": [
    "Securefs.Props.C100_new_names",
    "Securefs.Props.C100_legacy_names",
    "Securefs.Props.C100_plain_names",
    "Securefs.Props.C100_nothing_new_partial",
    "Securefs.Props.C100_swap_violated",
    "Securefs.Props.C100_rollback_violated",
    "Securefs.Props.C100_removal_violated",
    "Securefs.Props.C100_old_blocks_violated",
    "Securefs.Props.C100_full_rollback_violated"
   ],
   "note": "Violated: names, contents and versions are not bound to each other in the lite format. The volume is proved to show exactly what a plain tree shows to which the same was done, whatever files, old versions and names the storage exchanges, moves or removes (for all keys and histories), so nothing is ever noticed; single blocks of a file can be rolled back, and in the full format whole files. What is left of the property is C100_nothing_new_partial: contents and names come from trees that were there. The storage acts while the volume is not mounted; bytes it makes itself are the subject of C05, C06 and C13."
  },
  {
   "property": "C101",
   "status": "partial",
   "theorems": [
    "Securefs.Props.C101_moment",
    "Securefs.Props.C101_once",
    "Securefs.Props.C101_refused",
    "Securefs.Props.C101_orphan_violated",
    "Securefs.Props.C101_path_violated"
   ],
   "note": "The moment of each call and what its answer means are proved for all histories. Violated as to the last sentence: the directory in which mkdir makes a name may have been removed since it was found (FUSE on Linux is protected by the locks of the kernel on directories), and a path is followed at several moments."
  },
  {
   "property": "C102",
   "status": "partial",
   "theorems": [
    "Securefs.Props.C102_unnoticed",
    "Securefs.Props.C102_files",
    "Securefs.Props.C102_lost",
    "Securefs.Props.C102_moved",
    "Securefs.Props.C102_mixture_violated",
    "Securefs.Props.C102_root_violated"
   ],
   "note": "Violated: nothing binds the versions of different files of a full-format volume to each other. Proved for all histories: every mixture of old pairs mounts and answers as the plain file system of these files, so nothing is noticed; and a pair cannot be moved to another identifier without an HMAC coincidence. The storage changes pairs as a whole and while the volume is not mounted; a data file and a meta file of different versions are the subject of C05, C13 and C100_old_blocks_violated."
  },
  {
   "property": "C103",
   "status": "partial",
   "theorems": [
    "Securefs.Props.C103_popcount",
    "Securefs.Props.C103_warns",
    "Securefs.Props.C103_rare",
    "Securefs.Props.C103_rare_32",
    "Securefs.Props.C103_pattern_violated"
   ],
   "note": "Proved: the count, when the warning is given, and that fewer than one in 2^115 random keys of 32 bytes give it. False as to what the warning says: a key that is one byte again and again is mostly not warned of. Where the function is called is not modelled; it only writes to the log."
  },
  {
   "property": "C104",
   "status": "partial",
   "theorems": [
    "Securefs.Props.C104_line",
    "Securefs.Props.C104_end",
    "Securefs.Props.C104_action",
    "Securefs.Props.C104_lines",
    "Securefs.Props.C104_crlf_violated"
   ],
   "note": "Proved for all inputs. False for lines that end with CR LF: an empty line is seen behind each of them. No command calls respond_to_user_action at this commit."
  },
  {
   "property": "C105",
   "status": "partial",
   "theorems": [
    "Securefs.Props.C105_order",
    "Securefs.Props.C105_uses",
    "Securefs.Props.C105_no_deadlock",
    "Securefs.Props.C105_ends",
    "Securefs.Props.C105_waits_for_another",
    "Securefs.Props.C105_alloc_violated"
   ],
   "note": "Proved for all calls, numbers of threads and interleavings, as long as there is memory for the table of open files. Without it a thread waits for itself for ever (C105_alloc_violated). Ending is possible at every moment, not certain: std::lock has no fairness."
  },
  {
   "property": "C106",
   "status": "proved",
   "theorems": [
    "Securefs.Props.C106_moment",
    "Securefs.Props.C106_only_returned",
    "Securefs.Props.C106_between",
    "Securefs.Props.C106_read",
    "Securefs.Props.C106_stat",
    "Securefs.Props.C106_serial"
   ],
   "note": "Proved for all calls, numbers of threads and interleavings. That a section is executed as a whole rests on the mutexes (C105_uses). C106_serial leaves out truncate, open with O_TRUNC on the same file, which find it by a path, and the removal of the file; for the former see C111."
  },
  {
   "property": "C107",
   "status": "proved",
   "theorems": [
    "Securefs.Props.C107_threads",
    "Securefs.Props.C107_whole",
    "Securefs.Props.C107_full",
    "Securefs.Props.C107_answers",
    "Securefs.Props.C107_alone"
   ],
   "note": "Proved for all histories within the limits of StartWithin and MoveWithin, up to the first event beyond them. That a section is executed as a whole rests on the mutexes (C105_uses). Operations give back what they opened on the way when they end; the model of the table is that of C85."
  },
  {
   "property": "C108",
   "status": "proved",
   "theorems": [
    "Securefs.Props.C108_serial"
   ],
   "note": "Proved for all histories within the same limits, from C106_serial and C107. truncate and open with O_TRUNC, which find a file by its path, and the closing of the file itself are left out; for the former see C111."
  },
  {
   "property": "C109",
   "status": "proved",
   "theorems": [
    "Securefs.Props.C109_moment",
    "Securefs.Props.C109_cut",
    "Securefs.Props.C109_between",
    "Securefs.Props.C109_told",
    "Securefs.Props.C109_volume"
   ],
   "note": "Proved for all calls, numbers of threads and interleavings, on the plain file system and on the encrypted volume within its limits. That a section is executed as a whole rests on the mutexes (C105_uses). Times are not part of what is told here; see C44 and C54."
  },
  {
   "property": "C11",
   "status": "partial",
   "theorems": [
    "Securefs.Props.C11_lite_shrink_partial",
    "Securefs.Props.C11_lite_grow",
    "Securefs.Props.C11_lite_truncate_loses_block",
    "Securefs.Props.C11_full_unflushed_rejected",
    "Securefs.Props.C11_full_unflushed_witness"
   ],
   "note": "false as stated (witnesses); the blocks below the new last block survive"
  },
  {
   "property": "C110",
   "status": "proved",
   "theorems": [
    "Securefs.Props.C110_moments"
   ],
   "note": "Proved for all histories within the limits of StartWithin and MoveWithin, up to the first event beyond them, from C101, C106, C107 and C109. One moment for each call and each of names, contents and attributes; that all calls together are serial is false (C101_orphan_violated, C101_path_violated)."
  },
  {
   "property": "C111",
   "status": "proved",
   "theorems": [
    "Securefs.Props.C111_serial",
    "Securefs.Props.C111_volume"
   ],
   "note": "Proved for all calls, numbers of threads and interleavings, on the plain file system and on the encrypted volume within its limits. The removal of the file (its closing, on a volume) is left out. Which calls by path have found the file is part of the statement (OnFile): the others have left it alone."
  },
  {
   "property": "C112",
   "status": "proved",
   "theorems": [
    "Securefs.Props.C112_manual",
    "Securefs.Props.C112_unknown",
    "Securefs.Props.C112_program",
    "Securefs.Props.C112_distinct",
    "Securefs.Props.C112_create",
    "Securefs.Props.C112_mount",
    "Securefs.Props.C112_usage",
    "Securefs.Props.C112_status"
   ],
   "note": "The table of options is data of the model and was copied by hand; the texts of help and descriptions are parameters. What TCLAP does with the arguments that are added to it (tclapList, tclapOwn) is an assumption about a library that is not part of the repository. The order of doc is proved for every list of declarations."
  },
  {
   "property": "C113",
   "status": "partial",
   "theorems": [
    "Securefs.Props.C113_order",
    "Securefs.Props.C113_uses",
    "Securefs.Props.C113_no_deadlock",
    "Securefs.Props.C113_ends",
    "Securefs.Props.C113_waits_for_another",
    "Securefs.Props.C113_begin_violated"
   ],
   "note": "Proved for all calls, numbers of threads and interleavings, as long as transactions on tables of long names begin. If one does not begin in a listing, the listing waits for itself for ever (C113_begin_violated). Waiting for a database is bounded by its timeout and is not waiting here (C94)."
  },
  {
   "property": "C114",
   "status": "partial",
   "theorems": [
    "Securefs.Props.C114_found",
    "Securefs.Props.C114_one",
    "Securefs.Props.C114_exact_partial",
    "Securefs.Props.C114_absolute_violated",
    "Securefs.Props.C114_dots_violated",
    "Securefs.Props.C114_notdir_violated"
   ],
   "note": "Proved between operations, for all volumes and paths that end with a name: what POSIX finds is found, and nothing else if there are no detours (dots, absolute targets, slashes at the end of targets). False: absolute targets are followed from the directory of the link; a file is left by `..`; a path that ends with a dot is not found; a path over a file gives EPERM instead of ENOTDIR."
  },
  {
   "property": "C115",
   "status": "partial",
   "theorems": [
    "Securefs.Props.C115_shown",
    "Securefs.Props.C115_stamped",
    "Securefs.Props.C115_links_partial",
    "Securefs.Props.C115_unmodified",
    "Securefs.Props.C115_unchanged",
    "Securefs.Props.C115_links_violated",
    "Securefs.Props.C115_failed_violated",
    "Securefs.Props.C115_forged_violated"
   ],
   "note": "Proved for all interleavings: changes of contents, entries, mode and owner show in the times; times are set to that of the clock only; the same time of modification (change) means the same contents (and mode and owner) as long as nobody sets times. Violated, with executions: taking away one of several links does not set the time of change; an unlink that finds nothing sets the times of the directory; after utimens the time of change is indeterminate."
  },
  {
   "property": "C116",
   "status": "partial",
   "theorems": [
    "Securefs.Props.C116_flat",
    "Securefs.Props.C116_legal_partial",
    "Securefs.Props.C116_fresh_partial",
    "Securefs.Props.C116_root_violated",
    "Securefs.Props.C116_dot_violated"
   ],
   "note": "Proved for all interleavings and all paths: no slash, at most 255 bytes, no two the same. Not empty and not a dot for calls on paths that end with a name; for others this is violated (mkdir of / succeeds and adds an empty name), but the kernel does not make such calls."
  },
  {
   "property": "C117",
   "status": "partial",
   "theorems": [
    "Securefs.Props.C117_shown",
    "Securefs.Props.C117_same_partial",
    "Securefs.Props.C117_collide_violated"
   ],
   "note": "Proved: the numbers are the same exactly if the first eight bytes of the identifiers are, so they tell all files apart in volumes where no two identifiers begin alike. Violated in others, with an execution; identifiers are random, so this is rare (birthday bound of 2^32 files)."
  },
  {
   "property": "C118",
   "status": "proved",
   "theorems": [
    "Securefs.Props.C118_encrypted",
    "Securefs.Props.C118_parameters",
    "Securefs.Props.C118_header",
    "Securefs.Props.C118_records",
    "Securefs.Props.C118_free",
    "Securefs.Props.C118_paths",
    "Securefs.Props.C118_table",
    "Securefs.Props.C118_names",
    "Securefs.Props.C118_links",
    "Securefs.Props.C118_values",
    "Securefs.Props.C118_attributes",
    "Securefs.Props.C118_types"
   ],
   "note": "Layouts are stated in Spec/Layout.lean as relations that know nothing of the encoders: wire format of protobuf, numbers at offsets, base 32 of an encryption after RFC 5297. Pages of tree nodes are C29, blocks of files C95."
  },
  {
   "property": "C119",
   "status": "partial",
   "theorems": [
    "Securefs.Props.C119_legal",
    "Securefs.Props.C119_rest",
    "Securefs.Props.C119_reported",
    "Securefs.Props.C119_constructor",
    "Securefs.Props.C119_set_up",
    "Securefs.Props.C119_rows",
    "Securefs.Props.C119_section_partial",
    "Securefs.Props.C119_commit_violated"
   ],
   "note": "Proved for every SQLite (an arbitrary function of all calls before): the calls are allowed ones, nothing is left, and errors of functions and constructors are thrown. Proved for a SQLite that answers truly: the functions do with the rows what they are for, and a section is all or nothing as long as its commit or rollback is not refused. Violated, with an execution: finish only logs a refused commit, so that a section returns although its row is lost."
  },
  {
   "property": "C12",
   "status": "proved",
   "theorems": [
    "Securefs.Props.C12_padding_invisible",
    "Securefs.Props.C12_padding_invisible_any"
   ],
   "note": ""
  },
  {
   "property": "C120",
   "status": "partial",
   "theorems": [
    "Securefs.Props.C120_scopes",
    "Securefs.Props.C120_exceptions",
    "Securefs.Props.C120_unique",
    "Securefs.Props.C120_released",
    "Securefs.Props.C120_reading_violated",
    "Securefs.Props.C120_null_violated"
   ],
   "note": "Proved for guards for writing and for UniqueLock. Violated, with executions: LockGuard for reading gives back with Unlock what it took with ReaderLock (no code uses it on a mutex), and a UniqueLock that is locked after its release calls through a null pointer (UniqueLock is not used at all)."
  },
  {
   "property": "C121",
   "status": "partial",
   "theorems": [
    "Securefs.Props.C121_typed",
    "Securefs.Props.C121_same",
    "Securefs.Props.C121_hidden",
    "Securefs.Props.C121_twice_partial",
    "Securefs.Props.C121_long_violated",
    "Securefs.Props.C121_unset_violated",
    "Securefs.Props.C121_colours_partial",
    "Securefs.Props.C121_blue_violated",
    "Securefs.Props.C121_log",
    "Securefs.Props.C121_file"
   ],
   "note": "Proved for passwords of at most 4000 characters and a tcsetattr that works; texts of the log without escape characters. Violated, with executions: after a line of more than 4000 characters the terminal stays without echo; a tcsetattr that fails is not noticed and the password is shown; the sequence for blue has a colon and is not understood (blue is not used)."
  },
  {
   "property": "C122",
   "status": "partial",
   "theorems": [
    "Securefs.Props.C122_files",
    "Securefs.Props.C122_exactly",
    "Securefs.Props.C122_end",
    "Securefs.Props.C122_limit_partial",
    "Securefs.Props.C122_unlimited_violated"
   ],
   "note": "Proved for descriptors. The limit is proved below 2^63; RLIM_INFINITY is told as -1, with the execution (the number is only logged)."
  },
  {
   "property": "C123",
   "status": "partial",
   "theorems": [
    "Securefs.Props.C123_served_partial",
    "Securefs.Props.C123_command_partial",
    "Securefs.Props.C123_mismatch",
    "Securefs.Props.C123_long",
    "Securefs.Props.C123_option_partial",
    "Securefs.Props.C123_stdio_violated",
    "Securefs.Props.C123_argv_violated",
    "Securefs.Props.C123_chpass_violated",
    "Securefs.Props.C123_const_violated"
   ],
   "note": "Proved for all memory but the buffer of stdin and the arguments of the process, which keep the password; violated, with executions, also by chpass, which does not wipe its options, and with a TCLAP whose values are constants. Memory of the libraries that derive keys is not modelled."
  },
  {
   "property": "C124",
   "status": "partial",
   "theorems": [
    "Securefs.Props.C124_values",
    "Securefs.Props.C124_pointer",
    "Securefs.Props.C124_wide_violated",
    "Securefs.Props.C124_table",
    "Securefs.Props.C124_casts"
   ],
   "note": "Proved for arrays of bytes, as all keys and ids are. PODArray counts elements where bytes are meant, so that arrays of wider elements would be copied and compared in part; there are none. Tables of the library are simplified to chains."
  },
  {
   "property": "C13",
   "status": "proved",
   "theorems": [
    "Securefs.Props.C13_hmac_stream_is_byte_array",
    "Securefs.Props.C13_hmac_accepts_iff",
    "Securefs.Props.C13_hmac_tamper",
    "Securefs.Props.C13_hmac_binds_id"
   ],
   "note": ""
  },
  {
   "property": "C14",
   "status": "proved",
   "theorems": [
    "Securefs.Props.C14_hexify_exact",
    "Securefs.Props.C14_hexify_shape",
    "Securefs.Props.C14_round_trip",
    "Securefs.Props.C14_parse_accepts",
    "Securefs.Props.C14_parse_canonical",
    "Securefs.Props.C14_parse_injective",
    "Securefs.Props.C14_parse_into"
   ],
   "note": ""
  },
  {
   "property": "C15",
   "status": "proved",
   "theorems": [
    "Securefs.Props.C15_encode_exact",
    "Securefs.Props.C15_alphabet",
    "Securefs.Props.C15_round_trip",
    "Securefs.Props.C15_injective",
    "Securefs.Props.C15_decode_safe",
    "Securefs.Props.C15_decode_not_injective"
   ],
   "note": "C15_decode_not_injective records that decoding also accepts other spellings"
  },
  {
   "property": "C16",
   "status": "proved",
   "theorems": [
    "Securefs.Props.C16_encrypt_rfc5297",
    "Securefs.Props.C16_spec_deterministic",
    "Securefs.Props.C16_round_trip",
    "Securefs.Props.C16_accepts_only_encryptions",
    "Securefs.Props.C16_injective",
    "Securefs.Props.C16_accepted_determined"
   ],
   "note": "AES-CMAC and AES-CTR are parameters"
  },
  {
   "property": "C17",
   "status": "proved",
   "theorems": [
    "Securefs.Props.C17_rfc5869",
    "Securefs.Props.C17_no_salt",
    "Securefs.Props.C17_too_long",
    "Securefs.Props.C17_prefix"
   ],
   "note": "HMAC-SHA-256 is a parameter"
  },
  {
   "property": "C18",
   "status": "proved",
   "theorems": [
    "Securefs.Props.C18_stored_form",
    "Securefs.Props.C18_round_trip",
    "Securefs.Props.C18_injective",
    "Securefs.Props.C18_read_write",
    "Securefs.Props.C18_inode_value",
    "Securefs.Props.C18_inode_injective",
    "Securefs.Props.C18_inode_surjective",
    "Securefs.Props.C18_root_inode"
   ],
   "note": ""
  },
  {
   "property": "C19",
   "status": "partial",
   "theorems": [
    "Securefs.Props.C19_round_trip_partial",
    "Securefs.Props.C19_empty_name",
    "Securefs.Props.C19_injective",
    "Securefs.Props.C19_only_own_names",
    "Securefs.Props.C19_listing",
    "Securefs.Props.C19_listing_any",
    "Securefs.Props.C19_listing_errors"
   ],
   "note": "the empty attribute name is stored but never read back (proved); everything else proved; base64 of Abseil is a parameter"
  },
  {
   "property": "C20",
   "status": "partial",
   "theorems": [
    "Securefs.Props.C20_exact_buffer_partial",
    "Securefs.Props.C20_size",
    "Securefs.Props.C20_larger_buffer_violated",
    "Securefs.Props.C20_empty_violated"
   ],
   "note": "Proved for nonempty values and a buffer of exactly their size, with the size query and ERANGE. False for larger buffers, where the zero padding is taken for the tag, and for the empty value, which is not stored."
  },
  {
   "property": "C21",
   "status": "partial",
   "theorems": [
    "Securefs.Props.C21_inline_partial",
    "Securefs.Props.C21_long",
    "Securefs.Props.C21_recorded_partial",
    "Securefs.Props.C21_injective_partial",
    "Securefs.Props.C21_path_injective_partial",
    "Securefs.Props.C21_suffix_violated",
    "Securefs.Props.C21_legacy_round_trip",
    "Securefs.Props.C21_legacy_path_injective"
   ],
   "note": "Full for the legacy translator and for every suffix that has a character outside the base32 alphabet (both built-in suffixes have). False for suffixes made of base32 symbols, which the command line accepts: C21_suffix_violated."
  },
  {
   "property": "C22",
   "status": "proved",
   "theorems": [
    "Securefs.Props.C22_legal",
    "Securefs.Props.C22_structure",
    "Securefs.Props.C22_pieces",
    "Securefs.Props.C22_legacy"
   ],
   "note": "The length bounds are equivalences, so sharp. C22_pieces needs a suffix without a slash."
  },
  {
   "property": "C23",
   "status": "proved",
   "theorems": [
    "Securefs.Props.C23_round_trip",
    "Securefs.Props.C23_legacy_round_trip"
   ],
   "note": "Legacy: components over 2000 bytes are refused with ENAMETOOLONG, which is proved as well."
  },
  {
   "property": "C24",
   "status": "partial",
   "theorems": [
    "Securefs.Props.C24_component",
    "Securefs.Props.C24_legacy_component",
    "Securefs.Props.C24_symlink",
    "Securefs.Props.C24_legacy_symlink_partial",
    "Securefs.Props.C24_legacy_symlink_violated"
   ],
   "note": "Proved for names of both translators and symbolic links of the new one. False for symbolic links of the legacy translator: a piece spelling fewer than sixteen bytes is read out of bounds."
  },
  {
   "property": "C25",
   "status": "partial",
   "theorems": [
    "Securefs.Props.C25_listing_partial",
    "Securefs.Props.C25_once_partial",
    "Securefs.Props.C25_invalid_violated",
    "Securefs.Props.C25_spelling_violated",
    "Securefs.Props.C25_legacy_listing_partial"
   ],
   "note": "Proved for both translators for directories without names that are base32 but do not authenticate. False for those: they are shown under the previous name; and other spellings of a genuine name show it twice."
  },
  {
   "property": "C26",
   "status": "partial",
   "theorems": [
    "Securefs.Props.C26_partial",
    "Securefs.Props.C26_listed_partial",
    "Securefs.Props.C26_refused",
    "Securefs.Props.C26_rmdir_violated",
    "Securefs.Props.C26_rename_violated",
    "Securefs.Props.C26_commit_violated"
   ],
   "note": "Proved for all histories with failures of the system at any point, except three cases, for each of which the violation is proved: rmdir of a directory with long names inside, renaming onto another link of the same file, failing commit."
  },
  {
   "property": "C27",
   "status": "proved",
   "theorems": [
    "Securefs.Props.C27_map",
    "Securefs.Props.C27_spec_lookup",
    "Securefs.Props.C27_overlong",
    "Securefs.Props.C27_orders"
   ],
   "note": "Refinement of the modelled B-tree to a finite set of entries over all histories; the four orders the code uses are shown to be admissible. I/O errors are not modelled."
  },
  {
   "property": "C28",
   "status": "proved",
   "theorems": [
    "Securefs.Props.C28_C30_well_formed",
    "Securefs.Props.C28_depth"
   ],
   "note": "Invariant over all histories, stated by an independent predicate on the pages of the file and the cached nodes."
  },
  {
   "property": "C29",
   "status": "proved",
   "theorems": [
    "Securefs.Props.C29_round_trip",
    "Securefs.Props.C29_free",
    "Securefs.Props.C29_nul_truncates",
    "Securefs.Props.C29_inside"
   ],
   "note": "Exact byte layout, fit and round trip; a node read from any bytes lies inside the page; a NUL in a name is cut (outside the stated quantifier, FUSE cannot send one)."
  },
  {
   "property": "C30",
   "status": "proved",
   "theorems": [
    "Securefs.Props.C28_C30_well_formed",
    "Securefs.Props.C30_allocate"
   ],
   "note": "Partition of the pages of the file into tree and free list over all histories; allocation returns the first free page or a new one."
  },
  {
   "property": "C31",
   "status": "proved",
   "theorems": [
    "Securefs.Props.C31_reload",
    "Securefs.Props.C27_map"
   ],
   "note": "The pages on disk after a flush, without the cache, are a well-formed tree with the same entries."
  },
  {
   "property": "C32",
   "status": "proved",
   "theorems": [
    "Securefs.Props.C32_listing"
   ],
   "note": ""
  },
  {
   "property": "C33",
   "status": "partial",
   "theorems": [
    "Securefs.Props.C33_addressing_partial",
    "Securefs.Props.C33_violated"
   ],
   "note": "Proved for pages below 2^20; false beyond: page 2^20 lies on page 0, because num * BLOCK_SIZE is computed in 32 bits."
  },
  {
   "property": "C34",
   "status": "proved",
   "theorems": [
    "Securefs.Props.C34_one_object",
    "Securefs.Props.C34_step",
    "Securefs.Props.C34_open_succeeds"
   ],
   "note": "For every schedule of any number of threads. Each critical section under a shard mutex is one step; object contents are an abstract value."
  },
  {
   "property": "C35",
   "status": "proved",
   "theorems": [
    "Securefs.Props.C35_backing",
    "Securefs.Props.C35_removed_only",
    "Securefs.Props.C35_removed_when",
    "Securefs.Props.C35_progress",
    "Securefs.Props.C35_idle",
    "Securefs.Props.C35_destroyed",
    "Securefs.Props.C35_shutdown"
   ],
   "note": "A failing flush or unlink of the backing file leaves the file in place. Files without a link still open at shutdown are flushed, not removed."
  },
  {
   "property": "C36",
   "status": "partial",
   "theorems": [
    "Securefs.Props.C36_violated",
    "Securefs.Props.C36_window_partial",
    "Securefs.Props.C36_calm_partial"
   ],
   "note": "False: a schedule of two threads reads a destroyed object in the deleter of a handle. Proved: that read is the only place, and it cannot happen while no link count reaches zero and at most fifty files per shard are in use."
  },
  {
   "property": "C37",
   "status": "proved",
   "theorems": [
    "Securefs.Props.C37_v1_distinct",
    "Securefs.Props.C37_v2_distinct",
    "Securefs.Props.C37_v1_scan",
    "Securefs.Props.C37_v2_scan"
   ],
   "note": "Both layouts."
  },
  {
   "property": "C38",
   "status": "partial",
   "theorems": [
    "Securefs.Props.C38_rmdir_partial",
    "Securefs.Props.C38_unchanged",
    "Securefs.Props.C38_empty",
    "Securefs.Props.C38_violated"
   ],
   "note": "Proved for empty directories and for names that do not exist or cannot be looked up, in every state that a sequential history reaches. False for names of files and of directories that are not empty: the call fails but the name is gone."
  },
  {
   "property": "C39",
   "status": "partial",
   "theorems": [
    "Securefs.Props.C39_moves_partial",
    "Securefs.Props.C39_unchanged",
    "Securefs.Props.C39_same_file",
    "Securefs.Props.C39_violated",
    "Securefs.Props.C39_spelling_violated"
   ],
   "note": "Proved except when the source exists and the target place is not a directory or the target name is longer than 255 bytes: then the rename fails and the source name is gone. Replacing a directory that is not empty is a success, as in the code. On a mount without case, a rename between two names of one file can change a spelling."
  },
  {
   "property": "C40",
   "status": "partial",
   "theorems": [
    "Securefs.Props.C40_links_partial",
    "Securefs.Props.C40_names_le_links",
    "Securefs.Props.C40_no_dangling",
    "Securefs.Props.C40_violated"
   ],
   "note": "Proved for every interleaving of any number of threads in which all operations succeed, unless a directory with entries is removed because a rename replaced it (for that the violation is proved). With failures at any point: never more names than links. Link counts below 2^32 - 1."
  },
  {
   "property": "C41",
   "status": "proved",
   "theorems": [
    "Securefs.Props.C41_resolves",
    "Securefs.Props.C41_errors",
    "Securefs.Props.C41_terminates",
    "Securefs.Props.C41_every_operation_ends",
    "Securefs.Props.C41_link_limit",
    "Securefs.Props.C41_cycle",
    "Securefs.Props.C41_eviction_violated"
   ],
   "note": "Termination holds for every interleaving with other threads. Besides the answers in the statement, a place that is not a directory gives EPERM and a name of more than 255 bytes ENAMETOOLONG. C41_eviction_violated records that an eviction from the cache in the middle of a walk makes `..` lead to the root."
  },
  {
   "property": "C42",
   "status": "proved",
   "theorems": [
    "Securefs.Props.C42_chmod",
    "Securefs.Props.C42_chown"
   ],
   "note": "All 32-bit values."
  },
  {
   "property": "C43",
   "status": "proved",
   "theorems": [
    "Securefs.Props.C43_refines",
    "Securefs.Props.C43_header",
    "Securefs.Props.C43_nanoseconds"
   ],
   "note": "For time stamps with nanoseconds below 2^32 (valid ones are below 10^9); C43_nanoseconds shows that only the low 32 bits are stored. The encrypted header block is covered by C02 and C03."
  },
  {
   "property": "C44",
   "status": "partial",
   "theorems": [
    "Securefs.Props.C44_violated",
    "Securefs.Props.C44_requested_partial"
   ],
   "note": "False: the current time is read from a variable that is never assigned. Proved: requested times are stored."
  },
  {
   "property": "C45",
   "status": "partial",
   "theorems": [
    "Securefs.Props.C45_ordered_partial",
    "Securefs.Props.C45_error_keeps_old",
    "Securefs.Props.C45_success",
    "Securefs.Props.C45_retry",
    "Securefs.Props.C45_unsynced_violated"
   ],
   "note": "Holds for every crash point and every failing call if the system calls reach the disk in order. False without that: the new file is not synchronised before the rename, and a crash can leave an empty configuration (C45_unsynced_violated)."
  },
  {
   "property": "C46",
   "status": "partial",
   "theorems": [
    "Securefs.Props.C46_encrypt_exact",
    "Securefs.Props.C46_round_trip_partial",
    "Securefs.Props.C46_suffix_violated",
    "Securefs.Props.C46_wrong_credentials",
    "Securefs.Props.C46_wrong_credentials_error",
    "Securefs.Props.C46_empty_mac_violated",
    "Securefs.Props.C46_legacy_round_trip",
    "Securefs.Props.C46_legacy_wrong_credentials"
   ],
   "note": "Round trip at byte level for current files and for legacy files with either of the two historical key derivations; success with other credentials gives an HMAC or KDF collision or a tag collision. Violated for a long-name suffix that is not UTF-8 (the file is written but cannot be parsed again), and for tampered files: the MAC length is taken from the file, so that an empty MAC switches authentication off (given that the library accepts that length). AES-GCM, Argon2id, scrypt, PBKDF2, HMAC and the JSON parser are parameters."
  },
  {
   "property": "C47",
   "status": "partial",
   "theorems": [
    "Securefs.Props.C47_component",
    "Securefs.Props.C47_path",
    "Securefs.Props.C47_listing_partial",
    "Securefs.Props.C47_suffix_violated"
   ],
   "note": "For every stored tree that migrate accepts, the threshold it sets keeps every existing component and path at its backing name. Listing the names back is proved for suffixes with a character that is not a base32 symbol (as the default has); migrate does not check a custom suffix, and C47_suffix_violated gives one for which listing an existing name fails. Here the stored names are a list; C98 is about the walk that finds them."
  },
  {
   "property": "C48",
   "status": "proved",
   "theorems": [
    "Securefs.Props.C48_refines",
    "Securefs.Props.C48_made_here"
   ],
   "note": "Every access is one step; the critical sections under the absl mutexes are taken to be atomic."
  },
  {
   "property": "C49",
   "status": "partial",
   "theorems": [
    "Securefs.Props.C49_not_early",
    "Securefs.Props.C49_runs_partial",
    "Securefs.Props.C49_earlier",
    "Securefs.Props.C49_runs_late",
    "Securefs.Props.C49_late_violated",
    "Securefs.Props.C49_not_rearmed",
    "Securefs.Props.C49_idle_partial",
    "Securefs.Props.C49_idle_violated",
    "Securefs.Props.C49_ends"
   ],
   "note": "The callback never runs early, and runs on time if the timer thread waits when the timer is set. False in general: a set between the check of the deadline and the wait is only noticed at the old wake-up time; a timer that has fired cannot be set again; threads that overtake each other move the deadline back."
  },
  {
   "property": "C50",
   "status": "proved",
   "theorems": [
    "Securefs.Props.C50_flags",
    "Securefs.Props.C50_truncate"
   ],
   "note": ""
  },
  {
   "property": "C51",
   "status": "partial",
   "theorems": [
    "Securefs.Props.C51_exclusive_partial",
    "Securefs.Props.C51_mount_iff",
    "Securefs.Props.C51_takeover",
    "Securefs.Props.C51_release",
    "Securefs.Props.C51_overlap_violated",
    "Securefs.Props.C51_unmount_violated",
    "Securefs.Props.C51_reuse_violated"
   ],
   "note": "Proved for attempts that do not overlap, from any lock file, with failures and deaths at any system call. False for overlapping attempts, for the end of an unmount (the lock is released before the file table is flushed), and when the mounting process has the identifier of the dead one."
  },
  {
   "property": "C52",
   "status": "proved",
   "theorems": [
    "Securefs.Props.C52_round_trip",
    "Securefs.Props.C52_history",
    "Securefs.Props.C52_any_stream",
    "Securefs.Props.C52_nul_violated"
   ],
   "note": "On an ideal stream, for every order on names that is a total preorder and whatever the uninitialised m_dirty holds. C52_nul_violated shows that the assumption on NUL is needed."
  },
  {
   "property": "C53",
   "status": "proved",
   "theorems": [
    "Securefs.Props.C53_exclusive",
    "Securefs.Props.C53_no_cycle",
    "Securefs.Props.C53_progress",
    "Securefs.Props.C53_gets_guard",
    "Securefs.Props.C53_spin"
   ],
   "note": "For both ways the standard libraries write std::lock. A thread takes one guard at a time, as the callers do. Fairness is not claimed."
  },
  {
   "property": "C54",
   "status": "proved",
   "theorems": [
    "Securefs.Props.C54_read",
    "Securefs.Props.C54_write",
    "Securefs.Props.C54_history"
   ],
   "note": ""
  },
  {
   "property": "C55",
   "status": "partial",
   "theorems": [
    "Securefs.Props.C55_header_absent_partial",
    "Securefs.Props.C55_header_reported_without_one"
   ],
   "note": "false as stated: content written before any header makes a header appear; proved witness"
  },
  {
   "property": "C56",
   "status": "partial",
   "theorems": [
    "Securefs.Props.C56_readlink",
    "Securefs.Props.C56_legacy_readlink_partial",
    "Securefs.Props.C56_legacy_violated"
   ],
   "note": "Proved for the new translator. Legacy: proved if the stored form is at most 2 * size + 126 bytes, false otherwise."
  },
  {
   "property": "C57",
   "status": "partial",
   "theorems": [
    "Securefs.Props.C57_legacy",
    "Securefs.Props.C57_namemax_partial",
    "Securefs.Props.C57_violated"
   ],
   "note": "Exact for the legacy translator. New translator: if the limit is at least 26 and long backing names fit; false otherwise."
  },
  {
   "property": "C58",
   "status": "proved",
   "theorems": [
    "Securefs.Props.C58_normalised",
    "Securefs.Props.C58_not_normalisable"
   ],
   "note": "For the new translator; up to collisions of the keyed hash of long names. The Unicode functions are parameters."
  },
  {
   "property": "C59",
   "status": "partial",
   "theorems": [
    "Securefs.Props.C59_handles_partial",
    "Securefs.Props.C59_truncate_violated"
   ],
   "note": "Proved if no handle is opened with O_TRUNC while others are open; false otherwise: the older handle keeps a key that no longer matches the file."
  },
  {
   "property": "C60",
   "status": "partial",
   "theorems": [
    "Securefs.Props.C60_tree_partial",
    "Securefs.Props.C60_link_violated"
   ],
   "note": "Proved for histories in which operations run one after the other and no hard link to a directory is made. The kernel refuses such links only for the path as given: when the source is a symbolic link to a directory, vlink follows it and the directory gets a second name (C60_link_violated)."
  },
  {
   "property": "C61",
   "status": "proved",
   "theorems": [
    "Securefs.Props.C61_json_not_message",
    "Securefs.Props.C61_message_not_json"
   ],
   "note": ""
  },
  {
   "property": "C62",
   "status": "partial",
   "theorems": [
    "Securefs.Props.C62_encrypted",
    "Securefs.Props.C62_parameters_partial",
    "Securefs.Props.C62_text",
    "Securefs.Props.C46_suffix_violated"
   ],
   "note": "Full for the encrypted message; for the parameters the long-name suffix has to be UTF-8, C46_suffix_violated is the other case. The wire format is modelled from its published description, the library is not in /repo."
  },
  {
   "property": "C63",
   "status": "partial",
   "theorems": [
    "Securefs.Props.C63_success_partial",
    "Securefs.Props.C63_failed_partial",
    "Securefs.Props.C63_eventually_partial",
    "Securefs.Props.C63_order_violated",
    "Securefs.Props.C63_stale_violated",
    "Securefs.Props.C63_fault_violated",
    "Securefs.Props.C63_commit_violated",
    "Securefs.Props.C63_nested_violated",
    "Securefs.Props.C63_overwrite_violated"
   ],
   "note": "For volumes whose tables agree with their directories, success keeps every path and row, and repeating the command finishes after at most as many failures as there are tables. Violated when a table is listed before a long-named directory (fails, names lost until repeated), when a row has no file, when a renaming fails or the machine stops (stuck for ever), when a commit fails, when the new suffix ends with the old one, and when a name is created again between attempts (data lost). How the tables are found is C98."
  },
  {
   "property": "C64",
   "status": "partial",
   "theorems": [
    "Securefs.Props.C64_ordered_partial",
    "Securefs.Props.C64_stuck_violated"
   ],
   "note": "The configuration file is old or new in full; repeating the command is violated: the temporary file has the fixed suffix .tmp and is opened with O_EXCL."
  },
  {
   "property": "C65",
   "status": "partial",
   "theorems": [
    "Securefs.Props.C65_history",
    "Securefs.Props.C65_listing",
    "Securefs.Props.C65_tamper_evident",
    "Securefs.Props.C65_interrupted_violated",
    "Securefs.Props.C65_repaired",
    "Securefs.Props.C65_empty_buffer"
   ],
   "note": "Proved for all histories in which the system does not refuse the change of the second backing file after accepting that of the first. False there: the call fails and the old value is lost (C65_interrupted_violated); other names are not affected and setting the value again repairs it. The empty name is not listed (C19)."
  },
  {
   "property": "C66",
   "status": "partial",
   "theorems": [
    "Securefs.Props.C66_spelling",
    "Securefs.Props.C66_same_file",
    "Securefs.Props.C66_root",
    "Securefs.Props.C66_kept",
    "Securefs.Props.C66_short_partial",
    "Securefs.Props.C66_short_length_partial",
    "Securefs.Props.C66_race_violated",
    "Securefs.Props.C66_deep_violated",
    "Securefs.Props.C66_readers_violated"
   ],
   "note": "The loop keeps string views into the nodes of a directory after its lock is released and reads them at the end. Proved for an execution without other threads, in every state between operations, for paths of at most 42 names (or at most 41 directories in the same shard of the table). False without other threads for deeper paths: the object of a directory is evicted from the table before its name is read (C66_deep_violated). False with other threads: a concurrent removal (C66_race_violated), or just 41 files that another thread opens and closes (C66_readers_violated), make it read freed memory. C66_spelling and C66_same_file treat the objects as not evicted; C66_short_partial is the condition under which they are not."
  },
  {
   "property": "C67",
   "status": "proved",
   "theorems": [
    "Securefs.Props.C67_code",
    "Securefs.Props.C67_failure",
    "Securefs.Props.C67_wrapped",
    "Securefs.Props.C67_has",
    "Securefs.Props.C67_mount",
    "Securefs.Props.C67_magic",
    "Securefs.Props.C67_kernel"
   ],
   "note": "For every file system, given as an arbitrary function. That an exception is not reported as success needs a positive error number; all throws of the sources have one. Cancellation of a thread (no std::exception) is not caught; it happens only while waiting for a request (C69)."
  },
  {
   "property": "C68",
   "status": "partial",
   "theorems": [
    "Securefs.Props.C68_redacted",
    "Securefs.Props.C68_option",
    "Securefs.Props.C68_option_needed",
    "Securefs.Props.C68_quiet",
    "Securefs.Props.C68_reported",
    "Securefs.Props.C68_texts",
    "Securefs.Props.C68_target_violated"
   ],
   "note": "Proved for the contents of all buffers: data read and written, values and lists of extended attributes, targets read. False for the target of a new symbolic link, which is logged in full without the option (C68_target_violated), though it is redacted when read. The text of an exception is taken as part of the outcome; names and paths are logged by intention."
  },
  {
   "property": "C69",
   "status": "partial",
   "theorems": [
    "Securefs.Props.C69_no_interruption",
    "Securefs.Props.C69_serves",
    "Securefs.Props.C69_noticed",
    "Securefs.Props.C69_signal",
    "Securefs.Props.C69_ends",
    "Securefs.Props.C69_result",
    "Securefs.Props.C69_no_abort_partial",
    "Securefs.Props.C69_abort_violated",
    "Securefs.Props.C69_worker_partial",
    "Securefs.Props.C69_no_worker_violated"
   ],
   "note": "Proved for all interleavings: requests are not interrupted by cancellation, nothing that should start the shutdown is lost, the shutdown ends, the result is right. False: a worker that is cancelled before it first waits for a request aborts the process (C69_abort_violated), because cancellation is still enabled when the deferred call, which must not throw, reaches its cancellation point; C69_no_abort_partial has the condition. False: no worker if hardware_concurrency answers 0 (C69_no_worker_violated). That processing a request ends is assumed."
  },
  {
   "property": "C70",
   "status": "partial",
   "theorems": [
    "Securefs.Props.C70_make_partial",
    "Securefs.Props.C70_exists",
    "Securefs.Props.C70_found",
    "Securefs.Props.C70_symlink_readlink",
    "Securefs.Props.C70_unlink",
    "Securefs.Props.C70_readlink",
    "Securefs.Props.C70_attributes",
    "Securefs.Props.C70_link_follows",
    "Securefs.Props.C70_link_partial",
    "Securefs.Props.C70_link_violated",
    "Securefs.Props.C70_leak_violated"
   ],
   "note": "unlink, readlink, chmod, chown, utimens, getattr and open give the result and the state of the ideal file system in every state between operations of a sequential history. create, mkdir and symlink do when they succeed; link does unless the source is a symbolic link. False: a create that fails because of the directory or the length of the name leaves a file with a link and no name, which nothing ever removes; link follows a symbolic link. rename and rmdir are C38 and C39."
  },
  {
   "property": "C71",
   "status": "partial",
   "theorems": [
    "Securefs.Props.C71_typed",
    "Securefs.Props.C71_confirmed",
    "Securefs.Props.C71_chosen",
    "Securefs.Props.C71_create_then_mount",
    "Securefs.Props.C71_chpass_partial",
    "Securefs.Props.C71_empty_argument_violated",
    "Securefs.Props.C71_chpass_lines_partial",
    "Securefs.Props.C71_crlf_violated"
   ],
   "note": "Proved: what is typed is one whole line, confirmation, which source is taken, and that mount takes what create took. chpass agrees unless the argument is empty: then it sets the empty password, which the other commands take as no argument (C71_empty_argument_violated). chpass reads two lines of a pipe unless they end with CR LF: then the new password is empty, whatever was given (C71_crlf_violated)."
  },
  {
   "property": "C72",
   "status": "partial",
   "theorems": [
    "Securefs.Props.C72_asked",
    "Securefs.Props.C72_opens_partial",
    "Securefs.Props.C72_touches",
    "Securefs.Props.C72_found",
    "Securefs.Props.C72_complete",
    "Securefs.Props.C72_torn_violated",
    "Securefs.Props.C72_shadow_violated",
    "Securefs.Props.C72_suffix_violated",
    "Securefs.Props.C72_sizes_violated",
    "Securefs.Props.C72_full_iv_violated"
   ],
   "note": "Proved: the arguments accepted and the volume made are exactly those of the specification; the volume opens with the same credentials if the suffix for long names is UTF-8; no existing file is changed. False: a suffix that is not UTF-8 makes a volume that cannot be opened; sizes that make every file unusable are accepted; a write error leaves a file that blocks the next create; a volume with the old name of the configuration is shadowed."
  },
  {
   "property": "C73",
   "status": "proved",
   "theorems": [
    "Securefs.Props.C73_masked",
    "Securefs.Props.C73_unmasked"
   ],
   "note": "For any function as printer; the conversion to JSON itself is not modelled."
  },
  {
   "property": "C74",
   "status": "partial",
   "theorems": [
    "Securefs.Props.C74_message_partial",
    "Securefs.Props.C74_same_partial",
    "Securefs.Props.C74_noflock_violated",
    "Securefs.Props.C74_text_violated",
    "Securefs.Props.C74_child_files_partial",
    "Securefs.Props.C74_stdin_violated",
    "Securefs.Props.C74_feed",
    "Securefs.Props.C74_exit_partial",
    "Securefs.Props.C74_other_mount_violated",
    "Securefs.Props.C74_lost_child_violated"
   ],
   "note": "Proved without --noflock and with texts in UTF-8: the child sets up what the foreground would, including log and level. False: --noflock has no effect in the background; a mount point that is not UTF-8 fails only in the background; without a standard input the child gets none; something already mounted there counts as success; if the parent inherits that SIGCHLD is ignored, a failing child is never noticed."
  },
  {
   "property": "C75",
   "status": "partial",
   "theorems": [
    "Securefs.Props.C75_created_lite",
    "Securefs.Props.C75_created_full",
    "Securefs.Props.C75_refused",
    "Securefs.Props.C75_process",
    "Securefs.Props.C75_use_ino",
    "Securefs.Props.C75_stable",
    "Securefs.Props.C75_uid",
    "Securefs.Props.C75_normalization_violated",
    "Securefs.Props.C75_use_ino_violated",
    "Securefs.Props.C75_uid_violated"
   ],
   "note": "Proved: keys, sizes, comparison of names, checking, and the refusal of wrong keys. False: an invalid --normalization is taken as none; use_ino is not on by default in the full format, as the format is looked up in an object that is never filled; --uid-override has no effect in the lite format."
  },
  {
   "property": "C76",
   "status": "partial",
   "theorems": [
    "Securefs.Props.C76_dispatch_partial",
    "Securefs.Props.C76_empty_violated"
   ],
   "note": "Proved for all arguments that are not empty. For an empty first argument the byte beyond its end is read (C76_empty_violated)."
  },
  {
   "property": "C77",
   "status": "proved",
   "theorems": [
    "Securefs.Props.C77_file",
    "Securefs.Props.C77_durable",
    "Securefs.Props.C77_padding_violated"
   ],
   "note": "I/O errors are not modelled. With --max-padding 2^32-1 no file can be opened (C77_padding_violated)."
  },
  {
   "property": "C78",
   "status": "partial",
   "theorems": [
    "Securefs.Props.C78_keys",
    "Securefs.Props.C78_streams",
    "Securefs.Props.C78_distinct",
    "Securefs.Props.C78_padding",
    "Securefs.Props.C78_roles_violated"
   ],
   "note": "Proved but for one clause: names and values of extended attributes are encrypted with different algorithms under the same key (C78_roles_violated)."
  },
  {
   "property": "C79",
   "status": "partial",
   "theorems": [
    "Securefs.Props.C79_open",
    "Securefs.Props.C79_create",
    "Securefs.Props.C79_read",
    "Securefs.Props.C79_write",
    "Securefs.Props.C79_truncate",
    "Securefs.Props.C79_stat",
    "Securefs.Props.C79_times",
    "Securefs.Props.C79_contents",
    "Securefs.Props.C79_history",
    "Securefs.Props.C79_readdir",
    "Securefs.Props.C79_listdir",
    "Securefs.Props.C79_dotdot_violated",
    "Securefs.Props.C79_release",
    "Securefs.Props.C79_release_violated"
   ],
   "note": "Proved but for two clauses. A directory that is renamed while it is open goes on to list its old parent (C79_dotdot_violated). open succeeds for directories, but release refuses their handles and keeps the object (C79_release_violated). Lengths are below 2^31. I/O errors are not modelled; the contents are those of the plain file of C77."
  },
  {
   "property": "C80",
   "status": "partial",
   "theorems": [
    "Securefs.Props.C80_lite",
    "Securefs.Props.C80_full_partial",
    "Securefs.Props.C80_full_violated"
   ],
   "note": "Proved for the lite format. In the full format fsync does not flush: the HMAC of the metadata stays in the process, and after a crash the file cannot be opened (C80_full_violated); C80_full_partial is about an fsync after a flush."
  },
  {
   "property": "C81",
   "status": "partial",
   "theorems": [
    "Securefs.Props.C81_new_names_partial",
    "Securefs.Props.C81_legacy_names_partial",
    "Securefs.Props.C81_plain_names_partial",
    "Securefs.Props.C81_replace_violated",
    "Securefs.Props.C81_moved_listing_violated",
    "Securefs.Props.C81_alias_violated",
    "Securefs.Props.C81_refused_rmdir_violated"
   ],
   "note": "Proved for all histories of calls that fit (Terms.Fits), with refusals by the host at any call with a path. Four kinds of call that a user can make do not fit, and fail: renaming a directory onto an empty directory in which there was a long name, listing through a handle of a directory that was renamed, renaming a long name to another name of the same file, and removing a directory that has long names. A file that is open and opened again with O_TRUNC does not fit either (C59). Not represented: extended attributes, permissions, times that change by themselves, limits of the host, errors of the host in calls on handles, the configuration file in the root directory; callbacks are atomic."
  },
  {
   "property": "C82",
   "status": "proved",
   "theorems": [
    "Securefs.Props.C82_transparent",
    "Securefs.Props.C82_filled_violated"
   ],
   "note": "Proved. It holds because nothing is ever put into the cache: C82_filled_violated shows that the functions would lose a write and return bytes of no file if the cache were filled, a state no call leads to."
  },
  {
   "property": "C83",
   "status": "partial",
   "theorems": [
    "Securefs.Props.C83_store",
    "Securefs.Props.C83_same_shard",
    "Securefs.Props.C83_paths",
    "Securefs.Props.C83_frame",
    "Securefs.Props.C83_others",
    "Securefs.Props.C83_reported",
    "Securefs.Props.C83_fault_violated",
    "Securefs.Props.C83_legacy_violated"
   ],
   "note": "Proved for runs without failing system calls, in both layouts (C83_store), and for failing ones as far as other files are concerned (C83_frame, C83_others) and in that they are reported (C83_reported). If the second file of a pair cannot be created the first one stays (C83_fault_violated), and the legacy layout leaves the outer directory (C83_legacy_violated). The system calls themselves and the mutexes are assumed to be atomic; the root, which is created before there are threads, is part of what is there at the beginning. Other programs do not change the directory."
  },
  {
   "property": "C84",
   "status": "partial",
   "theorems": [
    "Securefs.Props.C84_dir",
    "Securefs.Props.C84_durable",
    "Securefs.Props.C84_flush_attrs",
    "Securefs.Props.C84_flush_times_violated",
    "Securefs.Props.C84_refused_times_violated"
   ],
   "note": "Proved for all histories, for entries and attributes. Two parts of the claim fail: a flush that rebuilds a shrunken directory sets its times of modification and change (C84_flush_times_violated; C84_flush_attrs says exactly when), and a refused addition does as well (C84_refused_times_violated). Not represented: failing reads and writes of the backing files, threads (each call holds the lock of the object), and the size of the directory, of which only divisibility by 4096 is claimed."
  },
  {
   "property": "C85",
   "status": "partial",
   "theorems": [
    "Securefs.Props.C85_volume",
    "Securefs.Props.C85_whole",
    "Securefs.Props.C85_tree",
    "Securefs.Props.C85_kept",
    "Securefs.Props.C85_orphan_violated"
   ],
   "note": "Proved for all histories within the limits that EventWithin names (sizes of files and directories, link counts, valid times, no zero bytes in names, drawn identifiers that are not those of removed directories, no hard link to a directory through a symbolic link): C85_volume compares the answers with those of the ideal file system of C38-C41, C60, C70 and C79, C85_tree says that it is one, C85_kept that other events change nothing. Sizes and times of directories are not compared (C84_flush_times_violated). The last sentence fails when the volume is unmounted while such a file is open (C85_orphan_violated). Not represented: failing reads and writes of the backing files, extended attributes (C62), and threads, whose interleavings C40 and C41 treat for the ideal file system."
  },
  {
   "property": "C86",
   "status": "partial",
   "theorems": [
    "Securefs.Props.C86_lite",
    "Securefs.Props.C86_full",
    "Securefs.Props.C86_full_reopen_partial",
    "Securefs.Props.C86_lite_faultless",
    "Securefs.Props.C86_full_faultless",
    "Securefs.Props.C86_lite_torn",
    "Securefs.Props.C86_lite_header_violated",
    "Securefs.Props.C86_full_half_truncated",
    "Securefs.Props.C86_full_reopen_violated"
   ],
   "note": "Proved for open files of both formats (C86_lite, C86_full), for closing and reopening lite files, and for closing and reopening full-format files that are marked as changed (C86_full_reopen_partial). For unmarked ones it fails: a failing write of a record that is partly done makes the whole file unreadable for ever (C86_full_reopen_violated). Creating a lite file is not covered: a failure in its header makes it unusable (C86_lite_header_violated). C86_lite_torn and C86_full_half_truncated show that spoilt blocks really are, also for retries. What a read of a spoilt block returns is not specified (with a good MAC: an error, C06). Not represented: short reads in the middle of a file, loss of data that was written (C09 to C11 treat crashes)."
  },
  {
   "property": "C87",
   "status": "proved",
   "theorems": [
    "Securefs.Props.C87_linear",
    "Securefs.Props.C87_faults",
    "Securefs.Props.C87_returns",
    "Securefs.Props.C87_noflock_violated",
    "Securefs.Props.C87_noflock_create_violated"
   ],
   "note": "Trace inclusion for all schedules, with interruptions before every system call. C87_linear: no failures but of flock, also creation by several threads at once; C87_faults: any failures, files that exist; C87_returns: from every reachable state every thread in a call can return, so no deadlock (that a fair scheduler lets it return is not stated separately). C87_noflock_violated and C87_noflock_create_violated show that the condition is needed: with --noflock, two handles destroy a block and two creators get different keys. Trusted: flock excludes other descriptors, mutexes exclude other threads, preads and pwrites are atomic among themselves under both. Not represented: closing of handles, O_TRUNC (C59), getattr by path, which takes no lock and may see sizes in the middle of a call."
  },
  {
   "property": "C88",
   "status": "partial",
   "theorems": [
    "Securefs.Props.C88_read",
    "Securefs.Props.C88_roundtrip",
    "Securefs.Props.C88_write",
    "Securefs.Props.C88_normal_partial",
    "Securefs.Props.C88_normal_violated",
    "Securefs.Props.C88_overflow_violated"
   ],
   "note": "Proved but for the form: a time before 1970 that is no whole second is read with a negative tv_nsec (C88_normal_violated), and seconds outside the range of C88_write overflow a signed product (C88_overflow_violated)."
  },
  {
   "property": "C89",
   "status": "proved",
   "theorems": [
    "Securefs.Props.C89_argv",
    "Securefs.Props.C89_none",
    "Securefs.Props.C89_program_violated"
   ],
   "note": "The parser of the specification is written after the documentation of Microsoft. The name of the program is parsed by other rules; C89_program_violated shows that the condition on it is needed. Not represented: conversion to UTF-16, NUL in arguments."
  },
  {
   "property": "C90",
   "status": "partial",
   "theorems": [
    "Securefs.Props.C90_join",
    "Securefs.Props.C90_inside",
    "Securefs.Props.C90_compose",
    "Securefs.Props.C90_unix",
    "Securefs.Props.C90_drive_violated",
    "Securefs.Props.C90_absolute_violated"
   ],
   "note": "Proved as stated but for the root: '..' can remove the drive (C90_drive_violated). An empty path and a name with a colon in the second place count as absolute (C90_absolute_violated)."
  },
  {
   "property": "C91",
   "status": "proved",
   "theorems": [
    "Securefs.Props.C91_read",
    "Securefs.Props.C91_write",
    "Securefs.Props.C91_open",
    "Securefs.Props.C91_errno",
    "Securefs.Props.C91_errno_table",
    "Securefs.Props.C91_truncate"
   ],
   "note": "Trusted: what ReadFile, WriteFile and CreateFileW do, written after their documentation. Failing calls in the middle of a transfer are not represented."
  },
  {
   "property": "C92",
   "status": "partial",
   "theorems": [
    "Securefs.Props.C92_list_partial",
    "Securefs.Props.C92_stale_violated",
    "Securefs.Props.C92_empty_violated",
    "Securefs.Props.C92_link_partial",
    "Securefs.Props.C92_link_violated",
    "Securefs.Props.C92_stored",
    "Securefs.Props.C92_attributes",
    "Securefs.Props.C92_blocks_violated"
   ],
   "note": "Fails for rewinding a directory that was opened but not read (C92_stale_violated), for the root of an empty volume (C92_empty_violated), for targets with backslashes and links of other programs (C92_link_violated), and for st_blocks (C92_blocks_violated)."
  },
  {
   "property": "C93",
   "status": "partial",
   "theorems": [
    "Securefs.Props.C93_history_partial",
    "Securefs.Props.C93_finished_partial",
    "Securefs.Props.C93_kept_partial",
    "Securefs.Props.C93_listed_partial",
    "Securefs.Props.C93_commit_violated",
    "Securefs.Props.C93_rmdir_violated"
   ],
   "note": "Proved for all runs in which no commit times out and vrmdir unlinks no table that a call is connected to; both exceptions lose a name of a call that succeeds (C93_commit_violated, C93_rmdir_violated). What locks SQLite takes is trusted, after its documentation."
  },
  {
   "property": "C94",
   "status": "partial",
   "theorems": [
    "Securefs.Props.C94_completes_partial",
    "Securefs.Props.C94_progress_partial",
    "Securefs.Props.C94_deadlock_violated",
    "Securefs.Props.C94_busy_violated"
   ],
   "note": "Proved if the moves between directories go up in some order of the directories. Moves in opposite directions deadlock until one times out (C94_deadlock_violated), and a call that begins while another commits fails at once (C94_busy_violated)."
  },
  {
   "property": "C95",
   "status": "proved",
   "theorems": [
    "Securefs.Props.C95_lite_simulated",
    "Securefs.Props.C95_full_simulated"
   ],
   "note": "The cipher, the MAC and the generator are parameters. Before a flush the first 32 bytes of the metadata file hold the MAC of an earlier state; the theorem speaks of them when the stream is not dirty."
  },
  {
   "property": "C96",
   "status": "proved",
   "theorems": [
    "Securefs.Props.C96_lite_iv_once",
    "Securefs.Props.C96_full_iv_once"
   ],
   "note": "Per file, each has its own key. Assumes that the random draws made so far differ (the generator is a parameter). Compares the states between calls: what one call writes and overwrites itself is not seen."
  },
  {
   "property": "C97",
   "status": "partial",
   "theorems": [
    "Securefs.Props.C97_reported",
    "Securefs.Props.C97_calm_partial",
    "Securefs.Props.C97_split_violated",
    "Securefs.Props.C97_full_violated",
    "Securefs.Props.C97_rebuild_violated",
    "Securefs.Props.C97_rebuild_reached",
    "Securefs.Props.C97_blank_violated",
    "Securefs.Props.C97_remove_violated",
    "Securefs.Props.C97_drain_violated"
   ],
   "note": "Reporting is proved for all calls, states and failures; that a failing call does nothing is proved for questions, calls that change nothing, the search for the name that is added or removed, changes of directories of 1 to 12 entries, changes of larger ones for which no node is split or merged, and writing back without a rebuild. Violated: an addition that splits the root and finds no page for the new root loses half of the entries; an addition that finds no page for the second node has taken effect, and a second one makes a node that cannot be written; a rebuild that fails after cutting the file loses everything, and one that fails before loses names; a removal that cannot read the sibling of a node that has got too short reports an error but has removed, and after several of these a removal without failure asks for the last entry of an empty vector."
  },
  {
   "property": "C98",
   "status": "partial",
   "theorems": [
    "Securefs.Props.C98_calls",
    "Securefs.Props.C98_visited",
    "Securefs.Props.C98_once",
    "Securefs.Props.C98_reported",
    "Securefs.Props.C98_migrate_accepts",
    "Securefs.Props.C98_migrate",
    "Securefs.Props.C98_collect",
    "Securefs.Props.C98_suffix",
    "Securefs.Props.C98_untold_violated",
    "Securefs.Props.C98_suffix_violated"
   ],
   "note": "Proved for hosts that fill d_type. On others directories are not entered and no error is reported: migration accepts symbolic links and sets a threshold with which existing names are lost (C98_untold_violated), and a change of the suffix leaves the tables in directories as they were (C98_suffix_violated)."
  },
  {
   "property": "C99",
   "status": "partial",
   "theorems": [
    "Securefs.Props.C99_kept",
    "Securefs.Props.C99_close_fails",
    "Securefs.Props.C99_retry",
    "Securefs.Props.C99_unmount_saves",
    "Securefs.Props.C99_unmount_partial",
    "Securefs.Props.C99_root_violated",
    "Securefs.Props.C99_execution_violated",
    "Securefs.Props.C99_unmount_violated"
   ],
   "note": "Proved for all files but the root while mounted. Violated for the root and at unmounting: FileTable::close flushes the root outside its try block, ~FileTable flushes without one, and both run in destructors, so a failure calls std::terminate and the other files lose what was not saved. Missing at unmounting: that the other files are saved; they are saved or as before."
  }
 ]
}