# Formal model of securefs: design

Target: `/repo` (netheril96/securefs at the pinned commit), C++ sources under `/repo/sources`.
The model is written in Lean 4 (`/verif/lean`), function by function. The C++ is read as text; it is
neither compiled nor run. This document says what is trusted, what is modelled and what is not, what
was proved for each property of `properties.jsonl`, and where the code disagrees with a property.

## Layout

* `lean/Verif/Model/` – the model. Every definition that models code cites file and lines.
* `lean/Verif/Spec/` – independent specifications: ideal byte files, finite maps, RFC 5297 and RFC 5869,
  link counting, trees, clocks. They do not use the helpers of the model; they share only its data types.
* `lean/Verif/Proofs/` – lemmas.
* `lean/Verif/Props/` – the property theorems, named after the property (`C27_map`), each with a concrete
  case beside it. A theorem with `_partial` in its name proves less than the statement in
  `properties.jsonl`; a theorem with `_violated` (and those listed under "Disagreements") proves that
  the code does not have the property, by a concrete execution of the model.
* `seeded/LOG.jsonl` – the wrong programs the theorems were tried against.
* `MANIFEST.json` – the claims with exact theorem names.

## Trusted base

* The kernel of Lean 4.33.0, and Mathlib as installed.
* Axioms: no theorem depends on anything but `propext`, `Classical.choice` and `Quot.sound`. No axiom is
  declared; there is no `sorry`, `native_decide`, `bv_decide`, `implemented_by` or `unsafe`. The list per
  theorem is at the end.
* That the Lean definitions describe the C++. Each definition cites its source lines and states its
  simplifications; this was checked by reading.
* That the specifications say what the English statements say.
* External code is a *parameter* of the model, never an axiom: AES, AES-GCM, AES-CMAC, HMAC-SHA256,
  BLAKE2b, Argon2id, scrypt, PBKDF2, base64 of Abseil, the Unicode library, the JSON parser, SQLite, the
  random generator, the clock, POSIX files. What is assumed about a parameter is a field of a `Lawful`
  or `WF` structure or a hypothesis of the theorem, and a concrete instance is given next to the
  theorems. The protobuf wire format is modelled from its published description (`Model/Wire.lean`),
  because the library is not in `/repo`.
* Cryptographic strength is never assumed outright. Theorems on tampering are reductions: either the
  stated outcome holds, or a tag that verifies for a tuple never produced (a forgery) or a collision is
  exhibited.

Conventions: C++ exceptions are the outcome `Except.error`; undefined behaviour is the separate error
value `outOfBounds`; unsigned wrap-around is modelled where the code can reach it and otherwise excluded
by a stated bound. Loops are structural recursion or have fuel with a proof that it suffices
(`Err.fuel` is never the outcome). What runs under a mutex is one step of a transition system; schedules
are arbitrary.

## What is modelled

| file in `lean/Verif/Model` | code | left out or simplified |
|----|----|----|
| `Basic`, `Crypto` | outcomes, `memcpy`; interfaces of AES-GCM, HMAC and hashes | the primitives are parameters |
| `Stream` | `StreamBase`, `BlockBasedStream` (`streams.{h,cpp}`) | a POSIX file is a list of bytes, I/O errors left out |
| `LiteStream` | `lite::AESGCMCryptStream` (`lite_stream.{h,cpp}`), `StreamOpener` sizes and padding | thread-local caching of ciphers (see `ThreadLocal`) |
| `FullStream` | `HMACStream`, `internal::AESGCMCryptStream`, `PaddedStream` (`streams.cpp`) | same |
| `Encoding` | `hexify`, `parse_hex`, base32, little-endian integers, inode numbers (`mystring.cpp`, `myutils.h`) | |
| `Siv` | `AES_SIV`, `hkdf*` (`crypto.cpp`) | CMAC, CTR, HMAC are parameters |
| `XattrName` | `xattr_name.cpp` | base64 is a parameter |
| `Names`, `NameOrder` | name translators of `lite_format.cpp`, comparison functions of `mystring.cpp` | logging; Unicode functions are parameters |
| `LiteFs` | attribute values, listing, `vreadlink`, open flags, the operations that keep the long-name tables, `vstatfs` name length, handles of one file (`lite_format.cpp`, `lite_long_name_lookup_table.cpp`) | SQLite is a table with transactions; the backing file system is a map |
| `Migrate`, `Suffix` | long-name migration (`commands.cpp`), `change_long_name_suffix` (`lite_format.cpp`) | the walk for `migrate` is given by its result (see `Walk`); symbolic links are files for the suffix change |
| `Btree` | `btree_dir.{h,cpp}` completely: page format, cache, allocation, insertion, deletion, rebuild, iteration | the stream is an ideal byte array (C02); times left out |
| `SimpleDir` | `SimpleDirectory` (`files.{h,cpp}`) | the stream is an ideal byte array |
| `FileTable` | `file_table_v2.{h,cpp}`, `find_ids_helper` (`myutils.cpp`) | a critical section is one step; contents abstract |
| `FileAttr` | attributes and header of `FileBase` (`files.{h,cpp}`) | extended attributes |
| `FullFs` | path resolution, operations on names, and operations on open files and directories (`full_format.cpp`) | streams and B-tree replaced by their specifications; one section per lock |
| `PairLock` | lock guards (`files.h`) | one guard per thread at a time |
| `FullLocks` | which mutexes each callback, `generic_open`, `open_base`, `open_all`, `create` (`full_format.cpp`), `open_as`, `create_as`, `close`, `~FileTable` (`file_table_v2.cpp`) lock and unlock, with the destructors of guards and holders | what is met on the way is given as data; one object for each identifier (C34) |
| `LiteLocks` | which locks each callback, `open`, `process_possible_long_name`, `DirectoryImpl::next` (`lite_format.cpp`), `File`, `LockGuard<File>` (`lite_format.h`), `LookupTableBase::lock` and `unlock` (`lite_long_name_lookup_table.h`) take and give back | what is met on the way is given as data; waiting for a database ends by its timeout and is left out (C94) |
| `RepoLock` | `RepoLocker` (`full_format.{h,cpp}`), `is_process_running` (`unix.cpp`) | read-only mounts |
| `ThreadLocal` | `thread_local.{h,cpp}` | generation is unbounded |
| `Timer` | `resettable_timer.{h,cpp}`, `IdleShutdownHook` (`fuse_hook.*`) | time is an integer |
| `Wire` | the protobuf messages of `params.proto` on the wire | unknown fields are dropped |
| `Config` | `params_io.cpp`: key derivation, encryption, decryption, legacy files | KDFs, GCM, JSON are parameters; warnings |
| `ConfigWrite` | `chpass` and the end of `migrate` (`commands.cpp`) as system calls | permissions, links |
| `FullXattr` | `FileBase::{get,set,remove,list}xattr` (`files.cpp`), the `v…xattr` calls of `full_format.cpp` | size limits of the system; finding the file |
| `GetPath`, `GetPathTable` | `vgetpath` (`full_format.cpp:458-508`): the names, and the objects that own them in the table of open files | a rebuild of a directory, which drops its nodes, while views into them are kept |
| `Adapter` | `fuse_high_level_ops_base.cpp`, `fuse_hook.h`, `fuse_tracer_v2.{h,cpp}`, `make_fuse_high_level_ops` (`internal_mount.cpp`), error numbers of `exceptions.h` | capabilities asked for in `init`; time, thread and colour of a line; escaping of strings |
| `Shutdown` | `fuse2_workaround.cpp` (not Windows, not FUSE-T) | failures of the setup; signals before the handlers are installed |
| `Commands` | `commands.cpp`: passwords, path of the configuration, `create`, `info`, choice of the command; `unix.cpp` reading of passwords; `params_io.h` key file | TCLAP; prompts; other errors of `stat`; JSON |
| `MountData` | `commands.cpp` `MountCommand`, `ProtoMountCommand`; `internal_mount.cpp`; `InternalMountData` of `params.proto`; `unix.cpp` child process | limit of descriptors, file with the process number, drives of Windows |
| `FileObj` | `files.cpp` `FileBase` as a whole, `files.h` `RegularFile` | I/O errors; extended attributes are in `FullXattr` |
| `Fsync` | `vfsync` of both formats, `FileBase::fsync` (`files.h`) | the cache of the system is given by what a crash may leave; directories |
| `LiteVolume` | `lite_format.cpp` `FuseHighLevelOps` as a whole over the file system of the host (`Spec/Posix`, for `unix.cpp` `OSService`) | extended attributes, `statfs`, `flush`, `fsync`; locks; I/O errors on open files; permissions and limits of the host appear as refusals |
| `WriteCache` | `streams.cpp` `WriteCachedStream` | nothing; only tests use it |
| `FileStore` | `file_table_v2.cpp` `FileTableIOVersion1`, `FileTableIOVersion2` as system calls of threads under the mutexes of the shards; `unix.cpp` `ensure_directory`, `remove_file_nothrow`, `remove_directory_nothrow`, `open_file_stream` | contents of the files (`FileObj`, `FullStream`); other programs in the directory; the kernel's calls are atomic |
| `DirFile` | `btree_dir.cpp` over the object of `FileObj`, `files.h` `Directory`: times, flush, reopening | I/O errors of the backing files; destructor (`~BtreeDirectory` flushes; taken as an explicit flush); `validate_*` and `to_dot_graph` |
| `FullVolume` | `full_format.cpp` all operations over objects with their encrypted backing files; `file_table_v2.cpp` `FileTable` `init`, `open_as`, `create_as`, `close`, `close_internal`, `~FileTable` | threads (`VolThreads`); I/O errors; order and number of evictions (any closed object, at any time); extended attributes (`FullXattr`), `vgetpath` (`GetPath`), `vstatfs`; layout of the store (`FileStore`) |
| `VolThreads` | the same operations cut into the sections that mutexes make of them, interleaved by any number of threads, which may fail between two sections | objects opened on the way are given back at the end of the operation; a call on a handle holds its object |
| `Faults` | `streams.cpp`, `lite_stream.cpp`: all of `Stream`, `LiteStream`, `FullStream` once more with failing system calls and the state that exceptions leave; `unix.cpp` `UnixFileStream` | `pread` shorter than the file; the several `pread` of `run_mac` are one; failing `close` and `fsync`; header of the full format |
| `LiteThreads` | `lite_format.h` `File`: `lock`, `unlock`, constructor; `lite_format.cpp` `vread`, `vwrite`, `vftruncate`, `vtruncate`, `vfgetattr` (size); `lock_guard.h` `LockGuard`; `lock_enabled.cpp`; `unix.cpp` `lock`, `unlock`; `streams.cpp`, `lite_stream.cpp` once more as sequences of system calls, interleaved by any schedule | closing of handles; `O_TRUNC`; `getattr` by path (no lock); fairness of mutexes |
| `WinOs` | `win.cpp`: `filetime_to_unix_time`, `unix_time_to_filetime`, `convert_dword_pair`, `win_quote_argv`, command line of `execute_child_process_with_data`, `is_absolute`, `concat_and_norm` (also of `unix.cpp`), `prepend_symlink_prefix`, `remove_symlink_prefix`, `readlink`, `WindowsFileStream` constructor, `read`, `write`, `WindowsException::error_number`, `WindowsDirectoryTraverser`, mode and blocks of `stat_file_handle` | conversion to UTF-16; errors of system calls; sequential reads and writes; everything else of `win.cpp` |
| `LongTab` | `lite_format.cpp` `process_possible_long_name`, `vrename`, `vrmdir`, `DirectoryImpl::next` once more, as sequences of statements and system calls of several threads; `lite_long_name_lookup_table.cpp` with the locks that SQLite takes; `sqlite_helper.cpp` closing | creation of the table file and of its schema as two steps; hot journals; `fsync`; opening a table through a symbolic link |
| `BtreeFaults` | `btree_dir.cpp`: all of `Btree` once more over a stream whose calls fail, with the state that exceptions leave | a failing call has taken effect or not, nothing in between; entries that a listing has passed on before it failed; what the destructor loses; the header, which `FileBase::flush` does not write if `subflush` throws |
| `Walk` | `common_platform.cpp` `recursive_traverse`, `unix.cpp` `UnixDirectoryTraverser`, the two functions given to it (`commands.cpp`, `lite_format.cpp`) | trees that change meanwhile; the file system of Windows, where the type is always known |
| `TableFaults` | `file_table_v2.cpp` `FileTable::close`, `~FileTable` when flushing throws: the end of the process | what of the value of the failing file reaches the storage (any value); exceptions of `std::mutex`; order within a hash map is that of the list |
| `Storage` | no code of its own: the lite volume of `LiteVolume` with a storage that replaces, copies, renames, moves and removes files and names while nothing is mounted | changes while the volume is mounted; bytes that were never stored (C05, C06, C13); exchange of whole directories other than by their names |
| `FullMix` | `file_table_v2.cpp` `FileTable::init`, `~FileTable` once more, session after session, over a storage that presents an old pair of backing files for each identifier | changes while the volume is mounted; versions other than those at an unmounting; pairs whose two files are of different versions |
| `KeyCheck` | `myutils.cpp` `popcount`, `warn_if_key_not_random`, `get_user_input_until_enter`, `respond_to_user_action` | the text of the warning; locales other than C |
| `Doc` | `commands.cpp` `DocCommand::execute`, `print_usage`, the end of `commands_main`, the declarations of all options | TCLAP (what `CmdLine::add` does is assumed); the texts of help and descriptions (parameters); failures of writing; options on Apple |
| `Sqlite` | `sqlite_helper.cpp`, `sqlite_helper.h` (the wrapper down to the calls of the C interface), `lite_long_name_lookup_table.cpp` (both tables with their statements word by word), `lite_long_name_lookup_table.h` lock and unlock | SQLite itself (an arbitrary function of the calls before it); the mutex (`LiteLocks`); `bind_int`, `bind_blob`, `get_int`, `get_blob`, `last_changes`, which the tables do not use; exceptions of allocation |
| `Guards` | `lock_guard.h` for `absl::Mutex` | the mutex (what is allowed is a specification); other kinds of locks; `mutex()` |
| `Terminal` | `unix.cpp` `read_password_no_confirmation`, `read_password_with_confirmation` with the settings of the terminal; `common_platform.cpp` `POSIXColourSetter`; `logger.cpp` `prelog`, `postlog` as bytes for a terminal | signals; input discarded by `TCSAFLUSH`; the heading of a line of the log; Windows |
| `Descriptors` | `unix.cpp` constructors and destructors of `UnixFileStream`, `UnixDirectoryTraverser`, `OSService`, `close`, `open_file_stream`, `raise_fd_limit`, with the table of descriptors | threads that use one object at the same time; copies of a `UnixFileStream` (possible in C++, not made); `EINTR` of `close` |
| `Wipe` | the memory used by `unix.cpp` `read_password_no_confirmation`, `read_password_with_confirmation` and `commands.cpp` `get_password`, `secure_wipe`, the options of `chpass`, the end of the password in `mount` | memory of Crypto++, Argon2 and protobuf while keys are derived; registers, swap and core dumps |
| `Pod` | `myutils.h` `PODArray`, `id_hash`, `checked_cast`; tables with ids for keys as chains | the tables of absl and the C++ library themselves |

## What is not modelled

* The C++ memory model below the level of mutexes: data races, object lifetimes other than those
  in C35, C36, C48 and C66, exception safety of the standard library. C105 treats what is left out in C34–C36: the mutexes as such.
* libfuse and the kernel: the model begins at the callbacks that libfuse calls (C67, C68) or at the operations
  of the two formats, and assumes what the kernel checks before a call (no NUL or slash in names, no rename of a
  directory into itself, no hard links to directories) only where a theorem says so.
* Operating system calls beyond the simple models cited (`unix.cpp`, `win.cpp`), conversion to UTF-16, consoles and pipes of Windows.
* The parsing of the command line by TCLAP, prompts other than those in C71 and C104, the conversion of messages to JSON, and `version`. What `CmdLine::add` does with the list of arguments is assumed (`tclapList`, `tclapOwn` in `Model/Doc.lean`).
* Performance, memory use and the cache sizes (except where C36 depends on them).
* I/O errors inside the streams and the B-tree (C01–C03, C27–C32). They are modelled where a property is
  about failures: C26, C35, C40, C45, C51, C63, C64, C86, C97, C98, C99.

## Results

Status as in `MANIFEST.json`; "proved" means the statement in `properties.jsonl` for all inputs, states and
executions of the model, "partial" that a side condition had to be added. The reason for every "partial" is in
the last column, and wherever the code is at fault it is a proved counterexample.

| id | property | status | theorems | remarks |
|----|----|----|----|----|
| C01 | Lite file behaves as a byte array | proved | `C01_lite_file_is_byte_array` | all configurations, random streams, histories; offsets up to the block limit (2^31-1 blocks) |
| C02 | Full-format file behaves as a byte array | proved | `C02_full_file_is_byte_array` | header read only after it was written; see C55 for the other case |
| C03 | Content survives close and reopen | proved | `C03_lite_reopen`, `C03_full_reopen` |  |
| C04 | Lite tamper evidence per block | proved | `C04_lite_tamper_evident`, `C04_moved_block_detected` | reduction: a block accepted but never encrypted is exhibited in the attacker's file |
| C05 | Full-format tamper evidence | partial | `C05_full_tamper_evident_partial`, `C05_empty_metadata_accepted` | false for an empty metadata file, which is accepted unauthenticated (proved); everything else proved |
| C06 | File length and holes are authenticated | partial | `C06_lite_truncation_undetected`, `C06_lite_zeroing_undetected`, `C06_full_truncation_undetected` | false as stated; the three theorems prove that truncation at a block boundary and zeroing whole blocks pass every check, for all files and histories. What does hold is C04 and C05. |
| C07 | Reported size of a lite file without opening it | proved | `C07_stat_size`, `C07_size_after_resize`, `C07_padding_bound` |  |
| C08 | Operations beyond the size limit fail cleanly | partial | `C08_lite_over_limit_partial`, `C08_full_over_limit_partial`, `C08_lite_gap_write_extends`, `C08_full_gap_write_extends`, `C08_lite_sparse_extension_accepted`, `C08_full_sparse_extension_accepted`, `C08_read_over_limit`, `C08_write_agree`, `C08_resize_agree` | false for writes behind a gap and for sparse extension (proved for all files); true in the remaining cases |
| C09 | Encrypted data is never mistaken for a hole | proved | `C09_lite_write_never_hole`, `C09_full_write_never_hole` |  |
| C10 | A torn lite write damages only the blocks it covers | proved | `C10_torn_write` | for every mixture of old and new bytes, not only prefixes |
| C100 | Contents stay with their name and version on a storage that is not honest | partial | `C100_new_names`, `C100_legacy_names`, `C100_plain_names`, `C100_nothing_new_partial`, `C100_swap_violated`, `C100_rollback_violated`, `C100_removal_violated`, `C100_old_blocks_violated`, `C100_full_rollback_violated` | Violated: names, contents and versions are not bound to each other in the lite format. The volume is proved to show exactly what a plain tree shows to which the same was done, whatever files, old versions and names the storage exchanges, moves or removes (for all keys and histories), so nothing is ever noticed; single blocks of a file can be rolled back, and in the full format whole files. What is left of the property is C100_nothing_new_partial: contents and names come from trees that were there. The storage acts while the volume is not mounted; bytes it makes itself are the subject of C05, C06 and C13. |
| C101 | Each call on names takes effect at one moment | partial | `C101_moment`, `C101_once`, `C101_refused`, `C101_orphan_violated`, `C101_path_violated` | The moment of each call and what its answer means are proved for all histories. Violated as to the last sentence: the directory in which mkdir makes a name may have been removed since it was found (FUSE on Linux is protected by the locks of the kernel on directories), and a path is followed at several moments. |
| C102 | Older versions of single files of a full-format volume | partial | `C102_unnoticed`, `C102_files`, `C102_lost`, `C102_moved`, `C102_mixture_violated`, `C102_root_violated` | Violated: nothing binds the versions of different files of a full-format volume to each other. Proved for all histories: every mixture of old pairs mounts and answers as the plain file system of these files, so nothing is noticed; and a pair cannot be moved to another identifier without an HMAC coincidence. The storage changes pairs as a whole and while the volume is not mounted; a data file and a meta file of different versions are the subject of C05, C13 and C100_old_blocks_violated. |
| C103 | Warning about keys that are not random | partial | `C103_popcount`, `C103_warns`, `C103_rare`, `C103_rare_32`, `C103_pattern_violated` | Proved: the count, when the warning is given, and that fewer than one in 2^115 random keys of 32 bytes give it. False as to what the warning says: a key that is one byte again and again is mostly not warned of. Where the function is called is not modelled; it only writes to the log. |
| C104 | One line at the prompt, one action | partial | `C104_line`, `C104_end`, `C104_action`, `C104_lines`, `C104_crlf_violated` | Proved for all inputs. False for lines that end with CR LF: an empty line is seen behind each of them. No command calls respond_to_user_action at this commit. |
| C105 | Calls of the full format never block each other for ever | partial | `C105_order`, `C105_uses`, `C105_no_deadlock`, `C105_ends`, `C105_waits_for_another`, `C105_alloc_violated` | Proved for all calls, numbers of threads and interleavings, as long as there is memory for the table of open files. Without it a thread waits for itself for ever (C105_alloc_violated). Ending is possible at every moment, not certain: std::lock has no fairness. |
| C106 | Calls on contents take effect at one moment; calls on handles are serial | proved | `C106_moment`, `C106_only_returned`, `C106_between`, `C106_read`, `C106_stat`, `C106_serial` | Proved for all calls, numbers of threads and interleavings. That a section is executed as a whole rests on the mutexes (C105_uses). C106_serial leaves out truncate, open with O_TRUNC on the same file, which find it by a path, and the removal of the file; for the former see C111. |
| C107 | Threads on an encrypted volume are threads on a plain file system | proved | `C107_threads`, `C107_whole`, `C107_full`, `C107_answers`, `C107_alone` | Proved for all histories within the limits of StartWithin and MoveWithin, up to the first event beyond them. That a section is executed as a whole rests on the mutexes (C105_uses). Operations give back what they opened on the way when they end; the model of the table is that of C85. |
| C108 | Reads and writes of concurrent threads on an encrypted file are serial | proved | `C108_serial` | Proved for all histories within the same limits, from C106_serial and C107. truncate and open with O_TRUNC, which find a file by its path, and the closing of the file itself are left out; for the former see C111. |
| C109 | Modes and owners change at one moment; what is told was true at one moment | proved | `C109_moment`, `C109_cut`, `C109_between`, `C109_told`, `C109_volume` | Proved for all calls, numbers of threads and interleavings, on the plain file system and on the encrypted volume within its limits. That a section is executed as a whole rests on the mutexes (C105_uses). Times are not part of what is told here; see C44 and C54. |
| C11 | Truncation and unflushed writes survive a crash | partial | `C11_lite_shrink_partial`, `C11_lite_grow`, `C11_lite_truncate_loses_block`, `C11_full_unflushed_rejected`, `C11_full_unflushed_witness` | false as stated (witnesses); the blocks below the new last block survive |
| C110 | Calls of threads on an encrypted volume take effect at one moment | proved | `C110_moments` | Proved for all histories within the limits of StartWithin and MoveWithin, up to the first event beyond them, from C101, C106, C107 and C109. One moment for each call and each of names, contents and attributes; that all calls together are serial is false (C101_orphan_violated, C101_path_violated). |
| C111 | All calls on the contents of a file are serial, also those that find it by a path | proved | `C111_serial`, `C111_volume` | Proved for all calls, numbers of threads and interleavings, on the plain file system and on the encrypted volume within its limits. The removal of the file (its closing, on a volume) is left out. Which calls by path have found the file is part of the statement (OnFile): the others have left it alone. |
| C112 | The manual that doc prints is complete and in order, and failure never looks like success | proved | `C112_manual`, `C112_unknown`, `C112_program`, `C112_distinct`, `C112_create`, `C112_mount`, `C112_usage`, `C112_status` | The table of options is data of the model and was copied by hand; the texts of help and descriptions are parameters. What TCLAP does with the arguments that are added to it (tclapList, tclapOwn) is an assumption about a library that is not part of the repository. The order of doc is proved for every list of declarations. |
| C113 | Calls of the lite format never block each other for ever | partial | `C113_order`, `C113_uses`, `C113_no_deadlock`, `C113_ends`, `C113_waits_for_another`, `C113_begin_violated` | Proved for all calls, numbers of threads and interleavings, as long as transactions on tables of long names begin. If one does not begin in a listing, the listing waits for itself for ever (C113_begin_violated). Waiting for a database is bounded by its timeout and is not waiting here (C94). |
| C114 | Paths of the full format lead where POSIX says | partial | `C114_found`, `C114_one`, `C114_exact_partial`, `C114_absolute_violated`, `C114_dots_violated`, `C114_notdir_violated` | Proved between operations, for all volumes and paths that end with a name: what POSIX finds is found, and nothing else if there are no detours (dots, absolute targets, slashes at the end of targets). False: absolute targets are followed from the directory of the link; a file is left by `..`; a path that ends with a dot is not found; a path over a file gives EPERM instead of ENOTDIR. |
| C115 | Changes show in the times of a file (full format, --store_time) | partial | `C115_shown`, `C115_stamped`, `C115_links_partial`, `C115_unmodified`, `C115_unchanged`, `C115_links_violated`, `C115_failed_violated`, `C115_forged_violated` | Proved for all interleavings: changes of contents, entries, mode and owner show in the times; times are set to that of the clock only; the same time of modification (change) means the same contents (and mode and owner) as long as nobody sets times. Violated, with executions: taking away one of several links does not set the time of change; an unlink that finds nothing sets the times of the directory; after utimens the time of change is indeterminate. |
| C116 | The names in directories of the full format are legal and different | partial | `C116_flat`, `C116_legal_partial`, `C116_fresh_partial`, `C116_root_violated`, `C116_dot_violated` | Proved for all interleavings and all paths: no slash, at most 255 bytes, no two the same. Not empty and not a dot for calls on paths that end with a name; for others this is violated (mkdir of / succeeds and adds an empty name), but the kernel does not make such calls. |
| C117 | Inode numbers tell files apart (full format) | partial | `C117_shown`, `C117_same_partial`, `C117_collide_violated` | Proved: the numbers are the same exactly if the first eight bytes of the identifiers are, so they tell all files apart in volumes where no two identifiers begin alike. Violated in others, with an execution; identifiers are random, so this is rare (birthday bound of 2^32 files). |
| C118 | What is stored has the layout that other versions know | proved | `C118_encrypted`, `C118_parameters`, `C118_header`, `C118_records`, `C118_free`, `C118_paths`, `C118_table`, `C118_names`, `C118_links`, `C118_values`, `C118_attributes`, `C118_types` | Layouts are stated in Spec/Layout.lean as relations that know nothing of the encoders: wire format of protobuf, numbers at offsets, base 32 of an encryption after RFC 5297. Pages of tree nodes are C29, blocks of files C95. |
| C119 | SQLite is used as its documentation says, and the table of long names holds what it is told | partial | `C119_legal`, `C119_rest`, `C119_reported`, `C119_constructor`, `C119_set_up`, `C119_rows`, `C119_section_partial`, `C119_commit_violated` | Proved for every SQLite (an arbitrary function of all calls before): the calls are allowed ones, nothing is left, and errors of functions and constructors are thrown. Proved for a SQLite that answers truly: the functions do with the rows what they are for, and a section is all or nothing as long as its commit or rollback is not refused. Violated, with an execution: finish only logs a refused commit, so that a section returns although its row is lost. |
| C12 | Size padding is invisible | proved | `C12_padding_invisible`, `C12_padding_invisible_any` |  |
| C120 | Guards give back the locks that they take | partial | `C120_scopes`, `C120_exceptions`, `C120_unique`, `C120_released`, `C120_reading_violated`, `C120_null_violated` | Proved for guards for writing and for UniqueLock. Violated, with executions: LockGuard for reading gives back with Unlock what it took with ReaderLock (no code uses it on a mutex), and a UniqueLock that is locked after its release calls through a null pointer (UniqueLock is not used at all). |
| C121 | On a terminal passwords are not shown, its settings are put back, and colours end with their line | partial | `C121_typed`, `C121_same`, `C121_hidden`, `C121_twice_partial`, `C121_long_violated`, `C121_unset_violated`, `C121_colours_partial`, `C121_blue_violated`, `C121_log`, `C121_file` | Proved for passwords of at most 4000 characters and a tcsetattr that works; texts of the log without escape characters. Violated, with executions: after a line of more than 4000 characters the terminal stays without echo; a tcsetattr that fails is not noticed and the password is shown; the sequence for blue has a colon and is not understood (blue is not used). |
| C122 | Streams are for the file that they were opened for, and no descriptor is lost | partial | `C122_files`, `C122_exactly`, `C122_end`, `C122_limit_partial`, `C122_unlimited_violated` | Proved for descriptors. The limit is proved below 2^63; RLIM_INFINITY is told as -1, with the execution (the number is only logged). |
| C123 | Passwords do not stay in memory | partial | `C123_served_partial`, `C123_command_partial`, `C123_mismatch`, `C123_long`, `C123_option_partial`, `C123_stdio_violated`, `C123_argv_violated`, `C123_chpass_violated`, `C123_const_violated` | Proved for all memory but the buffer of stdin and the arguments of the process, which keep the password; violated, with executions, also by chpass, which does not wipe its options, and with a TCLAP whose values are constants. Memory of the libraries that derive keys is not modelled. |
| C124 | Keys and ids are values, and tables of ids are maps | partial | `C124_values`, `C124_pointer`, `C124_wide_violated`, `C124_table`, `C124_casts` | Proved for arrays of bytes, as all keys and ids are. PODArray counts elements where bytes are meant, so that arrays of wider elements would be copied and compared in part; there are none. Tables of the library are simplified to chains. |
| C13 | Metadata integrity check accepts exactly what was flushed | proved | `C13_hmac_stream_is_byte_array`, `C13_hmac_accepts_iff`, `C13_hmac_tamper`, `C13_hmac_binds_id` |  |
| C14 | Hexadecimal coding is exact | proved | `C14_hexify_exact`, `C14_hexify_shape`, `C14_round_trip`, `C14_parse_accepts`, `C14_parse_canonical`, `C14_parse_injective`, `C14_parse_into` |  |
| C15 | Base32 file-name coding is exact | proved | `C15_encode_exact`, `C15_alphabet`, `C15_round_trip`, `C15_injective`, `C15_decode_safe`, `C15_decode_not_injective` | C15_decode_not_injective records that decoding also accepts other spellings |
| C16 | Deterministic name encryption round-trips and authenticates | proved | `C16_encrypt_rfc5297`, `C16_spec_deterministic`, `C16_round_trip`, `C16_accepts_only_encryptions`, `C16_injective`, `C16_accepted_determined` | AES-CMAC and AES-CTR are parameters |
| C17 | Key derivation follows RFC 5869 | proved | `C17_rfc5869`, `C17_no_salt`, `C17_too_long`, `C17_prefix` | HMAC-SHA-256 is a parameter |
| C18 | Integers on disk round-trip | proved | `C18_stored_form`, `C18_round_trip`, `C18_injective`, `C18_read_write`, `C18_inode_value`, `C18_inode_injective`, `C18_inode_surjective`, `C18_root_inode` |  |
| C19 | Extended attribute names round-trip | partial | `C19_round_trip_partial`, `C19_empty_name`, `C19_injective`, `C19_only_own_names`, `C19_listing`, `C19_listing_any`, `C19_listing_errors` | the empty attribute name is stored but never read back (proved); everything else proved; base64 of Abseil is a parameter |
| C20 | Extended attribute values round-trip (lite) | partial | `C20_exact_buffer_partial`, `C20_size`, `C20_larger_buffer_violated`, `C20_empty_violated` | Proved for nonempty values and a buffer of exactly their size, with the size query and ERANGE. False for larger buffers, where the zero padding is taken for the tag, and for the empty value, which is not stored. |
| C21 | Lite file names round-trip | partial | `C21_inline_partial`, `C21_long`, `C21_recorded_partial`, `C21_injective_partial`, `C21_path_injective_partial`, `C21_suffix_violated`, `C21_legacy_round_trip`, `C21_legacy_path_injective` | Full for the legacy translator and for every suffix that has a character outside the base32 alphabet (both built-in suffixes have). False for suffixes made of base32 symbols, which the command line accepts: C21_suffix_violated. |
| C22 | Backing names are always legal | proved | `C22_legal`, `C22_structure`, `C22_pieces`, `C22_legacy` | The length bounds are equivalences, so sharp. C22_pieces needs a suffix without a slash. |
| C23 | Symlink targets round-trip (lite) | proved | `C23_round_trip`, `C23_legacy_round_trip` | Legacy: components over 2000 bytes are refused with ENAMETOOLONG, which is proved as well. |
| C24 | Hostile symlink targets and names are handled safely | partial | `C24_component`, `C24_legacy_component`, `C24_symlink`, `C24_legacy_symlink_partial`, `C24_legacy_symlink_violated` | Proved for names of both translators and symbolic links of the new one. False for symbolic links of the legacy translator: a piece spelling fewer than sixteen bytes is read out of bounds. |
| C25 | Lite directory listing is exact | partial | `C25_listing_partial`, `C25_once_partial`, `C25_invalid_violated`, `C25_spelling_violated`, `C25_legacy_listing_partial` | Proved for both translators for directories without names that are base32 but do not authenticate. False for those: they are shown under the previous name; and other spellings of a genuine name show it twice. |
| C26 | Long-name table stays consistent with the directory | partial | `C26_partial`, `C26_listed_partial`, `C26_refused`, `C26_rmdir_violated`, `C26_rename_violated`, `C26_commit_violated` | Proved for all histories with failures of the system at any point, except three cases, for each of which the violation is proved: rmdir of a directory with long names inside, renaming onto another link of the same file, failing commit. |
| C27 | Directory is a finite map (B-tree) | proved | `C27_map`, `C27_spec_lookup`, `C27_overlong`, `C27_orders` | Refinement of the modelled B-tree to a finite set of entries over all histories; the four orders the code uses are shown to be admissible. I/O errors are not modelled. |
| C28 | B-tree stays sorted, balanced and within fill limits | proved | `C28_C30_well_formed`, `C28_depth` | Invariant over all histories, stated by an independent predicate on the pages of the file and the cached nodes. |
| C29 | Directory page format round-trips | proved | `C29_round_trip`, `C29_free`, `C29_nul_truncates`, `C29_inside` | Exact byte layout, fit and round trip; a node read from any bytes lies inside the page; a NUL in a name is cut (outside the stated quantifier, FUSE cannot send one). |
| C30 | Directory pages are neither leaked nor used twice | proved | `C28_C30_well_formed`, `C30_allocate` | Partition of the pages of the file into tree and free list over all histories; allocation returns the first free page or a new one. |
| C31 | Directory contents survive flush and reload | proved | `C31_reload`, `C27_map` | The pages on disk after a flush, without the cache, are a well-formed tree with the same entries. |
| C32 | Listing and emptiness of a full-format directory are exact | proved | `C32_listing` |  |
| C33 | Directory page addressing is safe for every size | partial | `C33_addressing_partial`, `C33_violated` | Proved for pages below 2^20; false beyond: page 2^20 lies on page 0, because num * BLOCK_SIZE is computed in 32 bits. |
| C34 | One live object per file | proved | `C34_one_object`, `C34_step`, `C34_open_succeeds` | For every schedule of any number of threads. Each critical section under a shard mutex is one step; object contents are an abstract value. |
| C35 | Deleted files disappear exactly when unused | proved | `C35_backing`, `C35_removed_only`, `C35_removed_when`, `C35_progress`, `C35_idle`, `C35_destroyed`, `C35_shutdown` | A failing flush or unlink of the backing file leaves the file in place. Files without a link still open at shutdown are flushed, not removed. |
| C36 | Closing is free of use-after-free | partial | `C36_violated`, `C36_window_partial`, `C36_calm_partial` | False: a schedule of two threads reads a destroyed object in the deleter of a handle. Proved: that read is the only place, and it cannot happen while no link count reaches zero and at most fifty files per shard are in use. |
| C37 | Backing paths of different files never collide | proved | `C37_v1_distinct`, `C37_v2_distinct`, `C37_v1_scan`, `C37_v2_scan` | Both layouts. |
| C38 | A failed rmdir changes nothing | partial | `C38_rmdir_partial`, `C38_unchanged`, `C38_empty`, `C38_violated` | Proved for empty directories and for names that do not exist or cannot be looked up, in every state that a sequential history reaches. False for names of files and of directories that are not empty: the call fails but the name is gone. |
| C39 | Rename is all-or-nothing | partial | `C39_moves_partial`, `C39_unchanged`, `C39_same_file`, `C39_violated`, `C39_spelling_violated` | Proved except when the source exists and the target place is not a directory or the target name is longer than 255 bytes: then the rename fails and the source name is gone. Replacing a directory that is not empty is a success, as in the code. On a mount without case, a rename between two names of one file can change a spelling. |
| C40 | Link counts equal the number of names | partial | `C40_links_partial`, `C40_names_le_links`, `C40_no_dangling`, `C40_violated` | Proved for every interleaving of any number of threads in which all operations succeed, unless a directory with entries is removed because a rename replaced it (for that the violation is proved). With failures at any point: never more names than links. Link counts below 2^32 - 1. |
| C41 | Path resolution always terminates | proved | `C41_resolves`, `C41_errors`, `C41_terminates`, `C41_every_operation_ends`, `C41_link_limit`, `C41_cycle`, `C41_eviction_violated` | Termination holds for every interleaving with other threads. Besides the answers in the statement, a place that is not a directory gives EPERM and a name of more than 255 bytes ENAMETOOLONG. C41_eviction_violated records that an eviction from the cache in the middle of a walk makes `..` lead to the root. |
| C42 | chmod and chown change what was asked and nothing else | proved | `C42_chmod`, `C42_chown` | All 32-bit values. |
| C43 | File attributes survive flush and reload | proved | `C43_refines`, `C43_header`, `C43_nanoseconds` | For time stamps with nanoseconds below 2^32 (valid ones are below 10^9); C43_nanoseconds shows that only the low 32 bits are stored. The encrypted header block is covered by C02 and C03. |
| C44 | Setting times sets the requested times | partial | `C44_violated`, `C44_requested_partial` | False: the current time is read from a variable that is never assigned. Proved: requested times are stored. |
| C45 | Changing the password is crash safe | partial | `C45_ordered_partial`, `C45_error_keeps_old`, `C45_success`, `C45_retry`, `C45_unsynced_violated` | Holds for every crash point and every failing call if the system calls reach the disk in order. False without that: the new file is not synchronised before the rename, and a crash can leave an empty configuration (C45_unsynced_violated). |
| C46 | Configuration decrypts only with the right password and key file | partial | `C46_encrypt_exact`, `C46_round_trip_partial`, `C46_suffix_violated`, `C46_wrong_credentials`, `C46_wrong_credentials_error`, `C46_empty_mac_violated`, `C46_legacy_round_trip`, `C46_legacy_wrong_credentials` | Round trip at byte level for current files and for legacy files with either of the two historical key derivations; success with other credentials gives an HMAC or KDF collision or a tag collision. Violated for a long-name suffix that is not UTF-8 (the file is written but cannot be parsed again), and for tampered files: the MAC length is taken from the file, so that an empty MAC switches authentication off (given that the library accepts that length). AES-GCM, Argon2id, scrypt, PBKDF2, HMAC and the JSON parser are parameters. |
| C47 | Migrating to long names keeps existing names | partial | `C47_component`, `C47_path`, `C47_listing_partial`, `C47_suffix_violated` | For every stored tree that migrate accepts, the threshold it sets keeps every existing component and path at its backing name. Listing the names back is proved for suffixes with a character that is not a base32 symbol (as the default has); migrate does not check a custom suffix, and C47_suffix_violated gives one for which listing an existing name fails. Here the stored names are a list; C98 is about the walk that finds them. |
| C48 | A thread-local cryptographic object is never stale | proved | `C48_refines`, `C48_made_here` | Every access is one step; the critical sections under the absl mutexes are taken to be atomic. |
| C49 | Idle unmount timer | partial | `C49_not_early`, `C49_runs_partial`, `C49_earlier`, `C49_runs_late`, `C49_late_violated`, `C49_not_rearmed`, `C49_idle_partial`, `C49_idle_violated`, `C49_ends` | The callback never runs early, and runs on time if the timer thread waits when the timer is set. False in general: a set between the check of the deadline and the wait is only noticed at the old wake-up time; a timer that has fired cannot be set again; threads that overtake each other move the deadline back. |
| C50 | Open modes are handled so that encryption can work | proved | `C50_flags`, `C50_truncate` |  |
| C51 | Two mounts of the same volume exclude each other | partial | `C51_exclusive_partial`, `C51_mount_iff`, `C51_takeover`, `C51_release`, `C51_overlap_violated`, `C51_unmount_violated`, `C51_reuse_violated` | Proved for attempts that do not overlap, from any lock file, with failures and deaths at any system call. False for overlapping attempts, for the end of an unmount (the lock is released before the file table is flushed), and when the mounting process has the identifier of the dead one. |
| C52 | Simple directory format round-trips | proved | `C52_round_trip`, `C52_history`, `C52_any_stream`, `C52_nul_violated` | On an ideal stream, for every order on names that is a total preorder and whatever the uninitialised m_dirty holds. C52_nul_violated shows that the assumption on NUL is needed. |
| C53 | Locking two files never deadlocks | proved | `C53_exclusive`, `C53_no_cycle`, `C53_progress`, `C53_gets_guard`, `C53_spin` | For both ways the standard libraries write std::lock. A thread takes one guard at a time, as the callers do. Fairness is not claimed. |
| C54 | Access times follow relatime | proved | `C54_read`, `C54_write`, `C54_history` |  |
| C55 | A header is reported only if one was written | partial | `C55_header_absent_partial`, `C55_header_reported_without_one` | false as stated: content written before any header makes a header appear; proved witness |
| C56 | Reading a symbolic link is exact | partial | `C56_readlink`, `C56_legacy_readlink_partial`, `C56_legacy_violated` | Proved for the new translator. Legacy: proved if the stored form is at most 2 * size + 126 bytes, false otherwise. |
| C57 | The reported maximum name length is truthful | partial | `C57_legacy`, `C57_namemax_partial`, `C57_violated` | Exact for the legacy translator. New translator: if the limit is at least 26 and long backing names fit; false otherwise. |
| C58 | Normalisation identifies exactly the paths with equal normal form | proved | `C58_normalised`, `C58_not_normalisable` | For the new translator; up to collisions of the keyed hash of long names. The Unicode functions are parameters. |
| C59 | All open handles of a lite file see one file | partial | `C59_handles_partial`, `C59_truncate_violated` | Proved if no handle is opened with O_TRUNC while others are open; false otherwise: the older handle keeps a key that no longer matches the file. |
| C60 | The directories of the full format form a tree | partial | `C60_tree_partial`, `C60_link_violated` | Proved for histories in which operations run one after the other and no hard link to a directory is made. The kernel refuses such links only for the path as given: when the source is a symbolic link to a directory, vlink follows it and the directory gets a second name (C60_link_violated). |
| C61 | Old JSON configurations and current ones are not confused | proved | `C61_json_not_message`, `C61_message_not_json` |  |
| C62 | Configuration messages round-trip on the wire | partial | `C62_encrypted`, `C62_parameters_partial`, `C62_text`, `C46_suffix_violated` | Full for the encrypted message; for the parameters the long-name suffix has to be UTF-8, C46_suffix_violated is the other case. The wire format is modelled from its published description, the library is not in /repo. |
| C63 | Changing the suffix of long names keeps every name | partial | `C63_success_partial`, `C63_failed_partial`, `C63_eventually_partial`, `C63_order_violated`, `C63_stale_violated`, `C63_fault_violated`, `C63_commit_violated`, `C63_nested_violated`, `C63_overwrite_violated` | For volumes whose tables agree with their directories, success keeps every path and row, and repeating the command finishes after at most as many failures as there are tables. Violated when a table is listed before a long-named directory (fails, names lost until repeated), when a row has no file, when a renaming fails or the machine stops (stuck for ever), when a commit fails, when the new suffix ends with the old one, and when a name is created again between attempts (data lost). How the tables are found is C98. |
| C64 | An interrupted migration can be repeated | partial | `C64_ordered_partial`, `C64_stuck_violated` | The configuration file is old or new in full; repeating the command is violated: the temporary file has the fixed suffix .tmp and is opened with O_EXCL. |
| C65 | Extended attributes of the full format are a map | partial | `C65_history`, `C65_listing`, `C65_tamper_evident`, `C65_interrupted_violated`, `C65_repaired`, `C65_empty_buffer` | Proved for all histories in which the system does not refuse the change of the second backing file after accepting that of the first. False there: the call fails and the old value is lost (C65_interrupted_violated); other names are not affected and setting the value again repairs it. The empty name is not listed (C19). |
| C66 | The stored spelling of a path is found | partial | `C66_spelling`, `C66_same_file`, `C66_root`, `C66_kept`, `C66_short_partial`, `C66_short_length_partial`, `C66_race_violated`, `C66_deep_violated`, `C66_readers_violated` | The loop keeps string views into the nodes of a directory after its lock is released and reads them at the end. Proved for an execution without other threads, in every state between operations, for paths of at most 42 names (or at most 41 directories in the same shard of the table). False without other threads for deeper paths: the object of a directory is evicted from the table before its name is read (C66_deep_violated). False with other threads: a concurrent removal (C66_race_violated), or just 41 files that another thread opens and closes (C66_readers_violated), make it read freed memory. C66_spelling and C66_same_file treat the objects as not evicted; C66_short_partial is the condition under which they are not. |
| C67 | The kernel gets the right answer | proved | `C67_code`, `C67_failure`, `C67_wrapped`, `C67_has`, `C67_mount`, `C67_magic`, `C67_kernel` | For every file system, given as an arbitrary function. That an exception is not reported as success needs a positive error number; all throws of the sources have one. Cancellation of a thread (no std::exception) is not caught; it happens only while waiting for a request (C69). |
| C68 | The log does not reveal contents | partial | `C68_redacted`, `C68_option`, `C68_option_needed`, `C68_quiet`, `C68_reported`, `C68_texts`, `C68_target_violated` | Proved for the contents of all buffers: data read and written, values and lists of extended attributes, targets read. False for the target of a new symbolic link, which is logged in full without the option (C68_target_violated), though it is redacted when read. The text of an exception is taken as part of the outcome; names and paths are logged by intention. |
| C69 | Serving and shutting down | partial | `C69_no_interruption`, `C69_serves`, `C69_noticed`, `C69_signal`, `C69_ends`, `C69_result`, `C69_no_abort_partial`, `C69_abort_violated`, `C69_worker_partial`, `C69_no_worker_violated` | Proved for all interleavings: requests are not interrupted by cancellation, nothing that should start the shutdown is lost, the shutdown ends, the result is right. False: a worker that is cancelled before it first waits for a request aborts the process (C69_abort_violated), because cancellation is still enabled when the deferred call, which must not throw, reaches its cancellation point; C69_no_abort_partial has the condition. False: no worker if hardware_concurrency answers 0 (C69_no_worker_violated). That processing a request ends is assumed. |
| C70 | Operations on names and attributes are exact (full format) | partial | `C70_make_partial`, `C70_exists`, `C70_found`, `C70_symlink_readlink`, `C70_unlink`, `C70_readlink`, `C70_attributes`, `C70_link_follows`, `C70_link_partial`, `C70_link_violated`, `C70_leak_violated` | unlink, readlink, chmod, chown, utimens, getattr and open give the result and the state of the ideal file system in every state between operations of a sequential history. create, mkdir and symlink do when they succeed; link does unless the source is a symbolic link. False: a create that fails because of the directory or the length of the name leaves a file with a link and no name, which nothing ever removes; link follows a symbolic link. rename and rmdir are C38 and C39. |
| C71 | The password that is used is the one that was meant | partial | `C71_typed`, `C71_confirmed`, `C71_chosen`, `C71_create_then_mount`, `C71_chpass_partial`, `C71_empty_argument_violated`, `C71_chpass_lines_partial`, `C71_crlf_violated` | Proved: what is typed is one whole line, confirmation, which source is taken, and that mount takes what create took. chpass agrees unless the argument is empty: then it sets the empty password, which the other commands take as no argument (C71_empty_argument_violated). chpass reads two lines of a pipe unless they end with CR LF: then the new password is empty, whatever was given (C71_crlf_violated). |
| C72 | create makes the volume that was asked for | partial | `C72_asked`, `C72_opens_partial`, `C72_touches`, `C72_found`, `C72_complete`, `C72_torn_violated`, `C72_shadow_violated`, `C72_suffix_violated`, `C72_sizes_violated`, `C72_full_iv_violated` | Proved: the arguments accepted and the volume made are exactly those of the specification; the volume opens with the same credentials if the suffix for long names is UTF-8; no existing file is changed. False: a suffix that is not UTF-8 makes a volume that cannot be opened; sizes that make every file unusable are accepted; a write error leaves a file that blocks the next create; a volume with the old name of the configuration is shadowed. |
| C73 | info shows no keys | proved | `C73_masked`, `C73_unmasked` | For any function as printer; the conversion to JSON itself is not modelled. |
| C74 | A mount in the background is the mount that was asked for | partial | `C74_message_partial`, `C74_same_partial`, `C74_noflock_violated`, `C74_text_violated`, `C74_child_files_partial`, `C74_stdin_violated`, `C74_feed`, `C74_exit_partial`, `C74_other_mount_violated`, `C74_lost_child_violated` | Proved without --noflock and with texts in UTF-8: the child sets up what the foreground would, including log and level. False: --noflock has no effect in the background; a mount point that is not UTF-8 fails only in the background; without a standard input the child gets none; something already mounted there counts as success; if the parent inherits that SIGCHLD is ignored, a failing child is never noticed. |
| C75 | The options of a mount have the effect that is documented | partial | `C75_created_lite`, `C75_created_full`, `C75_refused`, `C75_process`, `C75_use_ino`, `C75_stable`, `C75_uid`, `C75_normalization_violated`, `C75_use_ino_violated`, `C75_uid_violated` | Proved: keys, sizes, comparison of names, checking, and the refusal of wrong keys. False: an invalid --normalization is taken as none; use_ino is not on by default in the full format, as the format is looked up in an object that is never filled; --uid-override has no effect in the lite format. |
| C76 | The command that runs is the one that was named | partial | `C76_dispatch_partial`, `C76_empty_violated` | Proved for all arguments that are not empty. For an empty first argument the byte beyond its end is read (C76_empty_violated). |
| C77 | An open file of the full format is a plain file | proved | `C77_file`, `C77_durable`, `C77_padding_violated` | I/O errors are not modelled. With --max-padding 2^32-1 no file can be opened (C77_padding_violated). |
| C78 | Every file and every purpose has its own key | partial | `C78_keys`, `C78_streams`, `C78_distinct`, `C78_padding`, `C78_roles_violated` | Proved but for one clause: names and values of extended attributes are encrypted with different algorithms under the same key (C78_roles_violated). |
| C79 | Files of the full format behave as files through their handles | partial | `C79_open`, `C79_create`, `C79_read`, `C79_write`, `C79_truncate`, `C79_stat`, `C79_times`, `C79_contents`, `C79_history`, `C79_readdir`, `C79_listdir`, `C79_dotdot_violated`, `C79_release`, `C79_release_violated` | Proved but for two clauses. A directory that is renamed while it is open goes on to list its old parent (C79_dotdot_violated). open succeeds for directories, but release refuses their handles and keeps the object (C79_release_violated). Lengths are below 2^31. I/O errors are not modelled; the contents are those of the plain file of C77. |
| C80 | What was there at an fsync is there after a crash | partial | `C80_lite`, `C80_full_partial`, `C80_full_violated` | Proved for the lite format. In the full format fsync does not flush: the HMAC of the metadata stays in the process, and after a crash the file cannot be opened (C80_full_violated); C80_full_partial is about an fsync after a flush. |
| C81 | A mounted lite volume behaves as a plain tree of files | partial | `C81_new_names_partial`, `C81_legacy_names_partial`, `C81_plain_names_partial`, `C81_replace_violated`, `C81_moved_listing_violated`, `C81_alias_violated`, `C81_refused_rmdir_violated` | Proved for all histories of calls that fit (Terms.Fits), with refusals by the host at any call with a path. Four kinds of call that a user can make do not fit, and fail: renaming a directory onto an empty directory in which there was a long name, listing through a handle of a directory that was renamed, renaming a long name to another name of the same file, and removing a directory that has long names. A file that is open and opened again with O_TRUNC does not fit either (C59). Not represented: extended attributes, permissions, times that change by themselves, limits of the host, errors of the host in calls on handles, the configuration file in the root directory; callbacks are atomic. |
| C82 | The stream with a write cache is transparent | proved | `C82_transparent`, `C82_filled_violated` | Proved. It holds because nothing is ever put into the cache: C82_filled_violated shows that the functions would lose a write and return bytes of no file if the cache were filled, a state no call leads to. |
| C83 | The store of backing files is atomic under threads | partial | `C83_store`, `C83_same_shard`, `C83_paths`, `C83_frame`, `C83_others`, `C83_reported`, `C83_fault_violated`, `C83_legacy_violated` | Proved for runs without failing system calls, in both layouts (C83_store), and for failing ones as far as other files are concerned (C83_frame, C83_others) and in that they are reported (C83_reported). If the second file of a pair cannot be created the first one stays (C83_fault_violated), and the legacy layout leaves the outer directory (C83_legacy_violated). The system calls themselves and the mutexes are assumed to be atomic; the root, which is created before there are threads, is part of what is there at the beginning. Other programs do not change the directory. |
| C84 | A directory in its encrypted file is a set of entries with attributes | partial | `C84_dir`, `C84_durable`, `C84_flush_attrs`, `C84_flush_times_violated`, `C84_refused_times_violated` | Proved for all histories, for entries and attributes. Two parts of the claim fail: a flush that rebuilds a shrunken directory sets its times of modification and change (C84_flush_times_violated; C84_flush_attrs says exactly when), and a refused addition does as well (C84_refused_times_violated). Not represented: failing reads and writes of the backing files, threads (each call holds the lock of the object), and the size of the directory, of which only divisibility by 4096 is claimed. |
| C85 | A volume of the full format is a plain file system | partial | `C85_volume`, `C85_whole`, `C85_tree`, `C85_kept`, `C85_orphan_violated` | Proved for all histories within the limits that EventWithin names (sizes of files and directories, link counts, valid times, no zero bytes in names, drawn identifiers that are not those of removed directories, no hard link to a directory through a symbolic link): C85_volume compares the answers with those of the ideal file system of C38-C41, C60, C70 and C79, C85_tree says that it is one, C85_kept that other events change nothing. Sizes and times of directories are not compared (C84_flush_times_violated). The last sentence fails when the volume is unmounted while such a file is open (C85_orphan_violated). Not represented: failing reads and writes of the backing files, extended attributes (C62), and threads, whose interleavings C40 and C41 treat for the ideal file system. |
| C86 | A failing call damages only what it covers | partial | `C86_lite`, `C86_full`, `C86_full_reopen_partial`, `C86_lite_faultless`, `C86_full_faultless`, `C86_lite_torn`, `C86_lite_header_violated`, `C86_full_half_truncated`, `C86_full_reopen_violated` | Proved for open files of both formats (C86_lite, C86_full), for closing and reopening lite files, and for closing and reopening full-format files that are marked as changed (C86_full_reopen_partial). For unmarked ones it fails: a failing write of a record that is partly done makes the whole file unreadable for ever (C86_full_reopen_violated). Creating a lite file is not covered: a failure in its header makes it unusable (C86_lite_header_violated). C86_lite_torn and C86_full_half_truncated show that spoilt blocks really are, also for retries. What a read of a spoilt block returns is not specified (with a good MAC: an error, C06). Not represented: short reads in the middle of a file, loss of data that was written (C09 to C11 treat crashes). |
| C87 | Threads that use one file of the lite format at once get the answers of some order | proved | `C87_linear`, `C87_faults`, `C87_returns`, `C87_noflock_violated`, `C87_noflock_create_violated` | Trace inclusion for all schedules, with interruptions before every system call. C87_linear: no failures but of flock, also creation by several threads at once; C87_faults: any failures, files that exist; C87_returns: from every reachable state every thread in a call can return, so no deadlock (that a fair scheduler lets it return is not stated separately). C87_noflock_violated and C87_noflock_create_violated show that the condition is needed: with --noflock, two handles destroy a block and two creators get different keys. Trusted: flock excludes other descriptors, mutexes exclude other threads, preads and pwrites are atomic among themselves under both. Not represented: closing of handles, O_TRUNC (C59), getattr by path, which takes no lock and may see sizes in the middle of a call. |
| C88 | Times of files on Windows keep their instant | partial | `C88_read`, `C88_roundtrip`, `C88_write`, `C88_normal_partial`, `C88_normal_violated`, `C88_overflow_violated` | Proved but for the form: a time before 1970 that is no whole second is read with a negative tv_nsec (C88_normal_violated), and seconds outside the range of C88_write overflow a signed product (C88_overflow_violated). |
| C89 | A child process on Windows gets the arguments that were passed | proved | `C89_argv`, `C89_none`, `C89_program_violated` | The parser of the specification is written after the documentation of Microsoft. The name of the program is parsed by other rules; C89_program_violated shows that the condition on it is needed. Not represented: conversion to UTF-16, NUL in arguments. |
| C90 | Joining a path to the data directory gives the path below it | partial | `C90_join`, `C90_inside`, `C90_compose`, `C90_unix`, `C90_drive_violated`, `C90_absolute_violated` | Proved as stated but for the root: '..' can remove the drive (C90_drive_violated). An empty path and a name with a colon in the second place count as absolute (C90_absolute_violated). |
| C91 | Files on Windows are plain files | proved | `C91_read`, `C91_write`, `C91_open`, `C91_errno`, `C91_errno_table`, `C91_truncate` | Trusted: what ReadFile, WriteFile and CreateFileW do, written after their documentation. Failing calls in the middle of a transfer are not represented. |
| C92 | Directories and symbolic links on Windows are those of POSIX | partial | `C92_list_partial`, `C92_stale_violated`, `C92_empty_violated`, `C92_link_partial`, `C92_link_violated`, `C92_stored`, `C92_attributes`, `C92_blocks_violated` | Fails for rewinding a directory that was opened but not read (C92_stale_violated), for the root of an empty volume (C92_empty_violated), for targets with backslashes and links of other programs (C92_link_violated), and for st_blocks (C92_blocks_violated). |
| C93 | Threads keep the tables of long names in step with the directories | partial | `C93_history_partial`, `C93_finished_partial`, `C93_kept_partial`, `C93_listed_partial`, `C93_commit_violated`, `C93_rmdir_violated` | Proved for all runs in which no commit times out and vrmdir unlinks no table that a call is connected to; both exceptions lose a name of a call that succeeds (C93_commit_violated, C93_rmdir_violated). What locks SQLite takes is trusted, after its documentation. |
| C94 | Calls on long names do not block each other | partial | `C94_completes_partial`, `C94_progress_partial`, `C94_deadlock_violated`, `C94_busy_violated` | Proved if the moves between directories go up in some order of the directories. Moves in opposite directions deadlock until one times out (C94_deadlock_violated), and a call that begins while another commits fails at once (C94_busy_violated). |
| C95 | What is stored shows positions, lengths and IVs only | proved | `C95_lite_simulated`, `C95_full_simulated` | The cipher, the MAC and the generator are parameters. Before a flush the first 32 bytes of the metadata file hold the MAC of an earlier state; the theorem speaks of them when the stream is not dirty. |
| C96 | No IV is used twice | proved | `C96_lite_iv_once`, `C96_full_iv_once` | Per file, each has its own key. Assumes that the random draws made so far differ (the generator is a parameter). Compares the states between calls: what one call writes and overwrites itself is not seen. |
| C97 | I/O errors in directories of the full format | partial | `C97_reported`, `C97_calm_partial`, `C97_split_violated`, `C97_full_violated`, `C97_rebuild_violated`, `C97_rebuild_reached`, `C97_blank_violated`, `C97_remove_violated`, `C97_drain_violated` | Reporting is proved for all calls, states and failures; that a failing call does nothing is proved for questions, calls that change nothing, the search for the name that is added or removed, changes of directories of 1 to 12 entries, changes of larger ones for which no node is split or merged, and writing back without a rebuild. Violated: an addition that splits the root and finds no page for the new root loses half of the entries; an addition that finds no page for the second node has taken effect, and a second one makes a node that cannot be written; a rebuild that fails after cutting the file loses everything, and one that fails before loses names; a removal that cannot read the sibling of a node that has got too short reports an error but has removed, and after several of these a removal without failure asks for the last entry of an empty vector. |
| C98 | Walking the backing files visits each of them once | partial | `C98_calls`, `C98_visited`, `C98_once`, `C98_reported`, `C98_migrate_accepts`, `C98_migrate`, `C98_collect`, `C98_suffix`, `C98_untold_violated`, `C98_suffix_violated` | Proved for hosts that fill d_type. On others directories are not entered and no error is reported: migration accepts symbolic links and sets a threshold with which existing names are lost (C98_untold_violated), and a change of the suffix leaves the tables in directories as they were (C98_suffix_violated). |
| C99 | A file that cannot be written back costs nobody any changes | partial | `C99_kept`, `C99_close_fails`, `C99_retry`, `C99_unmount_saves`, `C99_unmount_partial`, `C99_root_violated`, `C99_execution_violated`, `C99_unmount_violated` | Proved for all files but the root while mounted. Violated for the root and at unmounting: FileTable::close flushes the root outside its try block, ~FileTable flushes without one, and both run in destructors, so a failure calls std::terminate and the other files lose what was not saved. Missing at unmounting: that the other files are saved; they are saved or as before. |

## Disagreements between code and properties

Each of these is a theorem about the model with a concrete execution, unless marked *(noted)*, which means
found while reading and recorded only here.

Confidentiality and integrity

* In the lite format a name is not bound to the contents below it, nor the contents to a version: the storage can exchange files, bring back old ones,
  move and copy names between directories and remove them, and the volume shows the result as its own (`C100_new_names` and the other two,
  `C100_swap_violated`, `C100_rollback_violated`, `C100_removal_violated`). Single blocks of an older version of the same file can be put back as well
  (`C100_old_blocks_violated`). The full format binds contents to identifiers, but an older pair of data and meta files is accepted
  (`C100_full_rollback_violated`).
* The same for the full format, file by file: for each identifier the storage can present the pair of backing files of any earlier unmounting, each of
  another one, or none. Every such mixture mounts without an error and answers as the plain file system of these files (`C102_unnoticed`), also if the
  volume never was in this state (`C102_mixture_violated`); a root that is missing becomes an empty one (`C102_root_violated`).
* Truncating a file at a block boundary or zeroing whole blocks passes every check, in both formats
  (`C06_lite_truncation_undetected`, `C06_lite_zeroing_undetected`, `C06_full_truncation_undetected`).
* An empty metadata file is accepted without authentication (`C05_empty_metadata_accepted`).
* Setting an extended attribute of the full format changes two backing files. A failure between the two
  loses the old value (`C65_interrupted_violated`). A buffer that is not null but empty would be overrun
  (`C65_empty_buffer`; libfuse does not pass one).
* The MAC of the full format is rewritten only by `flush`; a crash before it makes the file unreadable
  (`C11_full_unflushed_rejected`).
* The length of the MAC of the configuration is taken from the file, so an empty MAC switches
  authentication off, if the library accepts that length (`C46_empty_mac_violated`).
* HKDF without salt skips the extraction step of RFC 5869 (`C17_no_salt`).
* `legacy_decrypt_path` reads out of bounds for a piece spelling fewer than 16 bytes
  (`C24_legacy_symlink_violated`).

Loss of data or names

* `mkdir /a/b` and `rmdir /a` of the full format can both succeed when they overlap; the new directory is then in one that has no name
  (`C101_orphan_violated`). The kernel of Linux locks the directories, so that this needs another host. A call can find a file under a path that at no moment
  has led to it, when a directory on the path is renamed meanwhile (`C101_path_violated`).
* `vrmdir` of the full format removes the name before it looks whether the directory is empty
  (`C38_violated`).
* `vrename` of the full format loses the source when the target name is too long or the target is no
  directory (`C39_violated`), and renaming over a directory that is not empty discards its contents
  (`C40_violated`).
* A `create`, `mkdir` or `symlink` of the full format that fails because the place is no directory or the name is too
  long leaves the backing files of a file that has a link but no name; nothing ever removes them
  (`C70_leak_violated`).
* `vlink` of the full format follows a symbolic link although the kernel passes the link itself: the new name is one
  of the target (`C70_link_violated`), and for a link to a directory the directory has two names afterwards, which the
  kernel would have refused (`C60_link_violated`).
* `truncate` of a lite file to the middle of a block is not atomic (`C11_lite_truncate_loses_block`).
* Opening a lite file with `O_TRUNC` while another handle is open leaves the other handle with a key that does
  not fit (`C59_truncate_violated`).
* `vrmdir` of the lite format deletes the table of long names of a directory that is not empty
  (`C26_rmdir_violated`); renaming onto a hard link of the same file hides the file
  (`C26_rename_violated`); a failing commit of the table is swallowed (`C26_commit_violated`).
* Changing the suffix of long names: fails depending on the listing order (`C63_order_violated`), is stuck after a stale
  row, a failure or a crash (`C63_stale_violated`, `C63_fault_violated`), ignores a failing commit
  (`C63_commit_violated`), renames twice when the new suffix ends with the old one
  (`C63_nested_violated`), and overwrites a file created between attempts
  (`C63_overwrite_violated`).
* On backing file systems that answer `DT_UNKNOWN`, `recursive_traverse` takes directories for files: `migrate-long-name` accepts symbolic links,
  and chooses a threshold with which existing files are not found (`C98_untold_violated`); a change of the suffix succeeds but leaves
  the names in all directories but the root behind (`C98_suffix_violated`).
* `FileTable::close` (`file_table_v2.cpp:122-138`) catches what writing back a file throws, but not for the root, and `~FileTable` (lines 198-216)
  catches nothing.  Both run in destructors, so a root that cannot be written ends the process (`C99_root_violated`; almost every operation on a path
  drops the last handle of the root), and so does any file at unmounting (`C99_unmount_violated`).  What other files had not saved is lost.
* Changing the password does not synchronise the new file before renaming it (`C45_unsynced_violated`).
* Migration uses a fixed temporary name with `O_EXCL`; a leftover blocks every retry (`C64_stuck_violated`).
* A suffix that is not UTF-8 is written to a configuration that cannot be parsed any more
  (`C46_suffix_violated`); a suffix of base32 symbols makes names unreadable (`C21_suffix_violated`,
  `C47_suffix_violated`).
* Page numbers of a directory beyond 2^20 wrap to the first pages (`C33_violated`).

Concurrency

* The deleter of a file handle reads an object that another thread may have destroyed (`C36_violated`).
* `getpath` keeps pointers into the nodes of a directory after releasing its lock; a concurrent change makes it
  read freed memory (`C66_race_violated`; Windows only). Another thread that only opens and closes 41
  files does the same (`C66_readers_violated`), and so does a path with 42 closed directories in one shard of the table
  without any other thread (`C66_deep_violated`), as the first ones are evicted before their names are read. A rebuild
  of a directory that another thread closes drops its nodes as well *(noted)*.
* A worker thread that is cancelled before it first waits for a request aborts the process, in the middle of the
  requests of other workers and without the final flush (`C69_abort_violated`). If the number of processors is not
  known, no worker is started and the mount hangs (`C69_no_worker_violated`).
* Evicting a directory from the cache makes `..` lead to the root (`C41_eviction_violated`).
* The repository lock can be taken by two mounts at the same time, is released before the last
  writes, and is confused by process number reuse (`C51_overlap_violated`, `C51_unmount_violated`,
  `C51_reuse_violated`).
* The idle timer: lost wake-up, not re-armed after firing, and threads that overtake each other
  (`C49_late_violated`, `C49_not_rearmed`, `C49_idle_violated`).

Wrong answers

* The target of a new symbolic link is logged in full, without the option for sensitive logging
  (`C68_target_violated`).
* `utimens` of the full format uses an uninitialised variable (`C44_violated`). `UTIME_NOW` and
  `UTIME_OMIT` are not interpreted *(noted)*.
* Attribute values of the lite format are read back only with a buffer of exactly the right size, and an empty value
  is not stored (`C20_larger_buffer_violated`, `C20_empty_violated`); the empty attribute name is not
  read back (`C19_empty_name`).
* Listing a lite directory shows an entry that cannot be decrypted under the previous name
  (`C25_invalid_violated`), and other spellings twice (`C25_spelling_violated`,
  `C15_decode_not_injective`).
* Writes behind a gap and sparse extension beyond the size limit are accepted in part
  (`C08_*_extends`, `C08_*_accepted`).
* A header is reported although none was written (`C55_header_reported_without_one`).
* `vreadlink` with the legacy translator cuts long stored targets (`C56_legacy_violated`); the reported
  maximal name length can wrap (`C57_violated`).
* A NUL in a name cuts it (`C29_nul_truncates`, `C52_nul_violated`; the kernel cannot send one).

Windows

* Times before 1970 are read with negative nanoseconds, and far times overflow (`C88_normal_violated`,
  `C88_overflow_violated`).
* `..` in a path can remove the drive, an empty path is not the directory, and a relative name with a colon in the
  second place counts as absolute (`C90_drive_violated`, `C90_absolute_violated`).
* Rewinding a directory that was opened and not yet read shows old names; the root of an empty volume cannot be read
  (`C92_stale_violated`, `C92_empty_violated`).
* Backslashes in targets of symbolic links become slashes; sizes of links made by other programs and block counts in
  listings are wrong (`C92_link_violated`, `C92_blocks_violated`).
* A child that exits with code 259 (`STILL_ACTIVE`) counts as running for ever *(noted)*. `vector::insert` is given
  pointers into the vector itself, which the standard forbids (harmless, since it never grows) *(noted)*.

Commands

* `--noflock` is not part of the message to the child, so a mount in the background locks files nevertheless
  (`C74_noflock_violated`).
* `chpass` that reads two lines ending with CR LF from a pipe sets the empty password (`C71_crlf_violated`), because CR ends
  the first line and LF an empty second one. `--newpass ""` sets the empty password, `--pass ""` means no argument
  (`C71_empty_argument_violated`).
* `create` accepts sizes with which no file can be written, and a suffix with which the volume cannot be opened
  (`C72_sizes_violated`, `C72_full_iv_violated`, `C72_suffix_violated`); leaves a partial file after an error, which the
  next `create` refuses to replace (`C72_torn_violated`); and hides a volume with the old configuration name
  (`C72_shadow_violated`).
* `use_ino` is not on by default for the full format on file systems of unknown type, contrary to the documentation: the member
  `fsparams` of `MountCommand` is never assigned (`C75_use_ino_violated`). `--uid-override` does nothing in the lite format
  (`C75_uid_violated`), an unknown `--normalization` means none (`C75_normalization_violated`).
* `mount --background` fails for paths that are not UTF-8 (`C74_text_violated`) or without a standard input
  (`C74_stdin_violated`); reports success if anything is mounted there already (`C74_other_mount_violated`); and never ends
  if the child fails while SIGCHLD is ignored (`C74_lost_child_violated`).
* An empty first argument is read beyond its end (`C76_empty_violated`).
* `--max-padding 4294967295` makes every opening of a file fail: `max_padding_size + 1` is zero (`C77_padding_violated`).
* Names (AES-SIV) and values (AES-GCM) of extended attributes in the full format share a key (`C78_roles_violated`).
* A directory of the full format that is renamed into another one while it is open goes on to list the old `..` (`C79_dotdot_violated`).
* `vopen` of the full format succeeds for directories, but `vrelease` refuses the handle and keeps the object for ever (`C79_release_violated`). The kernel does not ask for it. Reading, writing or truncating such a handle, and `truncate` of a directory, give `EPERM` instead of `EISDIR`.
* `fsync` of the full format writes the backing files to the disk without flushing the file first. The HMAC of the metadata is still in the process, and after a crash the file cannot be opened (`C80_full_violated`). The lite format flushes.
* The file `.long_names.db` stays in a directory of the lite format when its last long name is gone. The directory looks empty, but renaming another directory onto it fails with `ENOTEMPTY` (`C81_replace_violated`).
* A directory of the lite format that is renamed while it is open loses its long names in listings through the old handle, since the table is looked for under the old path (`C81_moved_listing_violated`).
* `rename` of a long name to another hard link of the same file does nothing on POSIX systems, but the row of the long name is deleted, and the name is missing in listings from then on (`C81_alias_violated`).
* `FileTableIOVersion1::unlink` removes the inner directory twice and the outer one never (`file_table_v2.cpp:277-278`), so empty directories stay (`C83_legacy_violated`).
* If the second of the two files cannot be created, `FileTableIO::create` leaves the first one and its directory behind (`C83_fault_violated`).
* `BtreeDirectory::rebuild` puts the entries back with `add_entry`, so that a flush of a directory that has shrunk sets its times of modification and change (`C84_flush_times_violated`).
* A refused addition or removal (name present or absent, or too long) sets the times of the directory all the same (`C84_refused_times_violated`).
* `~FileTable` flushes all objects and removes none, so a file that has lost its last name while it is open leaves its backing files behind for ever if the volume is unmounted before it is closed (`C85_orphan_violated`).
* `HMACStream::write` and `resize` set `is_dirty` only after the call below has succeeded: if a `pwrite` to the meta file fails after a part (disk full while a block is appended) and the file was clean, no later flush repairs the HMAC, and the whole file is unreadable for ever (`C86_full_reopen_violated`).
* If the disk is full while the id or the padding of a new lite file is written, the part that was written stays, and every later attempt to open the file fails with `EINVAL`-like exceptions (`C86_lite_header_violated`).
* A partial-block write that fails halfway cannot be repeated: the retry reads the torn block first and fails (`C86_lite_torn`).
* `insert_and_balance` moves the upper half and the middle entry out of the root before it asks for the page of the new root. If the disk is full then, of 13 entries 6 are left, in memory and on disk (`C97_split_violated`).
* If the page for the second node cannot be had, the addition fails but the entry is in the node. After two such additions to a leaf (or one to an inner node) the node does not fit its page: `flush` throws for ever, and `~BtreeDirectory` swallows the exception, so that everything since the last flush is lost (`C97_full_violated`).
* `rebuild`, which `subflush` calls when two thirds of the pages are free, cuts the file to nothing before it adds the entries again; a failure then leaves an empty directory and an empty file (`C97_rebuild_violated`). A read that fails earlier, in `mutable_recursive_iterate`, leaves nodes whose names have been moved out, marked dirty, so that the next flush writes empty names (`C97_blank_violated`).
* `remove_entry_impl` takes the entry out before `balance_up` reads the sibling. If that read fails, the removal reports the error but has taken effect (`C97_remove_violated`), and the node stays too short. After several such removals the node is empty but for one entry; removing that one, without any failure, evaluates `entries().back()` on an empty vector, which is undefined behaviour (`C97_drain_violated`).
* If truncation fails between the data and the meta file, a retry is a no-op that succeeds, and later growth of a sparse file gives a block that cannot be read (`C86_full_half_truncated`).
* With `--noflock`, two handles of one lite file do not exclude each other, as the mutex belongs to the handle: two writes of a few bytes at once, both successful, leave a block that can never be read (`C87_noflock_violated`), and two threads that create a file at once use different ids, so that what one of them writes is lost (`C87_noflock_create_violated`).  The code warns of this option without `--single` (`commands.cpp:915-918`).
* A listing that is stalled for two seconds while it looks a long name up makes the `commit` of another thread give `SQLITE_BUSY`. `finish` only logs that, so the call succeeds and the name is lost (`C93_commit_violated`, and `C119_commit_violated` down to the calls of SQLite).
* `vrmdir` unlinks the table of the directory before `rmdir`. If another thread creates a long name there in between, `rmdir` fails and the new entry has no row (`C93_rmdir_violated`).
* If the hash table of open files cannot grow, `open_as` and `create_as` destroy the new holder before the guard of the shard. Its destructor calls `close`, which locks the mutex of the shard again: the thread waits for itself, and nobody can open or close a file of that shard any more (`C105_alloc_violated`).
* `LookupTableBase::lock` (`lite_long_name_lookup_table.h:20-24`) locks the mutex and then begins a transaction. If `begin` throws, the guard does not exist and the mutex stays locked. `begin` throws for lack of memory, or because an earlier transaction is still open after a commit and a rollback that both failed, which `finish` swallows. In a listing the exception is logged and the name skipped (`lite_format.cpp:690-697`), and the next long name waits for the mutex for ever, with the handle of the directory locked (`C113_begin_violated`). In the other calls the table is destroyed with a locked mutex, which is undefined for most mutexes.
* With stored times, taking one of several links of a file away does not set its time of change (`C115_links_violated`), and a call that fails
  because a name is not there (or is there already) sets the times of the directory all the same (`C115_failed_violated`). Since `utimens` sets the time of
  change to an indeterminate value (C44), that time need not tell of changes of the contents (`C115_forged_violated`).
* `mkdir("/")` succeeds and adds an entry with an empty name (`C116_root_violated`), and creating `/.` one with the name `.` (`C116_dot_violated`); the kernel does not ask for either.
* Inode numbers of the full format are the first eight bytes of the identifier and can collide (`C117_collide_violated`).
* On a mount without case, a rename between two names of one file, which is to do nothing, removes both and adds them again as the caller spells them (`C39_spelling_violated`).
* In the full format, absolute targets of symbolic links are followed from the directory of the link. The kernel resolves links itself, except the source of `link`: a hard link of a symbolic link to `/x` becomes one of the file `x` beside it (`C114_absolute_violated`). `f/..` on a regular file resolves, and a path that ends with `.` is not found (`C114_dots_violated`); a path over a regular file gives `EPERM` instead of `ENOTDIR` (`C114_notdir_violated`).
* Moves of long names in opposite directions between two directories wait for each other's `RESERVED` lock until one times out and fails (`C94_deadlock_violated`).
* The constructor of `LongNameLookupTable` runs `create table if not exists` before `set_timeout(2000)`, so a call that begins while another commits fails at once (`C94_busy_violated`); `DoubleLongNameLookupTable` sets the timeout first.
* An open directory keeps its connection to a table that has been unlinked and made again, and then does not show the names of the new one *(noted)*.
* Opening a backing file of length zero for reading only would try to write a header *(noted)*; such a file can only be left by a crash.
* `WriteCachedStream` never caches anything. Its code for a filled cache is wrong: a write behind the cached bytes is lost at the next flush (`C82_filled_violated`).
* Which of the two files `open` and `create` open first is left to the compiler, since both calls are arguments of `std::make_pair`; `C83_store` holds for both orders *(noted)*.
* A password of more than 4000 characters makes `read_password_no_confirmation` throw before it puts the settings of the terminal back, which then stays without echo (`C121_long_violated`). A `tcsetattr` that fails is not noticed, and the password is shown (`C121_unset_violated`).
* The escape sequence for blue is `[0:34m`, with a colon (`C121_blue_violated`); nothing uses blue.
* `raise_fd_limit` tells `RLIM_INFINITY` as −1 (`C122_unlimited_violated`); the number is only logged.
* The buffer of `stdin` keeps a password that was typed, and the arguments of the process one given with `--pass`; `chpass` does not wipe the values of its options (`C123_stdio_violated`, `C123_argv_violated`, `C123_chpass_violated`, `C123_const_violated`).
* `PODArray` counts elements where bytes are meant (`C124_wide_violated`); all its elements are bytes.
* `LockGuard<absl::Mutex>` for reading ends with `Unlock` rather than `ReaderUnlock` (`C120_reading_violated`); nothing uses it so.
* A call with a long last component whose directory does not exist fails with an error of SQLite rather than `ENOENT` (`LSys.tableDir`). The kernel looks the directory up first, so that this needs a race.

*(noted)* only: a block size of zero in the full format divides by zero (`streams.cpp:183`); the error number of a failed write to the
child is that of the `kill` or `waitpid` after it (`unix.cpp:921-924`); opening an empty file read-only tries to write; uninitialised bytes of B-tree
pages reach the (encrypted) disk;
`SimpleDirectory::m_dirty` is uninitialised (harmless, C52).

## Testing the theorems

In a scratch copy the model is edited to contain a realistic mistake and rebuilt; each attempt is a line of
`seeded/LOG.jsonl` with the proofs that failed and the property theorems depending on them. A failing proof does not by
itself show that the theorem is false for the wrong program, since a proof can break for other reasons; the test
that matters is the other direction, and every edit after which everything still built was examined: either the edit does not
contradict a claim (said in its `note`), or a theorem was added or tightened (`theorems_tightened`).

## Axioms per theorem

All theorems are in the namespace `Securefs.Props`.

* `Classical.choice`, `Quot.sound`, `propext`: `C01_lite_file_is_byte_array`, `C02_full_file_is_byte_array`, `C03_full_reopen`, `C03_lite_reopen`, `C04_lite_tamper_evident`, `C04_moved_block_detected`, `C05_empty_metadata_accepted`, `C05_full_tamper_evident_partial`, `C06_full_truncation_undetected`, `C06_lite_truncation_undetected`, `C06_lite_zeroing_undetected`, `C07_size_after_resize`, `C07_stat_size`, `C08_full_gap_write_extends`, `C08_full_over_limit_partial`, `C08_full_sparse_extension_accepted`, `C08_lite_gap_write_extends`, `C08_lite_over_limit_partial`, `C08_lite_sparse_extension_accepted`, `C09_full_write_never_hole`, `C09_lite_write_never_hole`, `C100_full_rollback_violated`, `C100_legacy_names`, `C100_new_names`, `C100_old_blocks_violated`, `C100_plain_names`, `C100_removal_violated`, `C100_rollback_violated`, `C100_swap_violated`, `C101_moment`, `C101_once`, `C101_refused`, `C102_files`, `C102_lost`, `C102_moved`, `C102_unnoticed`, `C103_pattern_violated`, `C103_rare`, `C103_rare_32`, `C103_warns`, `C105_alloc_violated`, `C105_ends`, `C105_no_deadlock`, `C106_between`, `C106_moment`, `C106_only_returned`, `C106_serial`, `C107_answers`, `C107_threads`, `C107_whole`, `C108_serial`, `C109_between`, `C109_cut`, `C109_moment`, `C109_told`, `C109_volume`, `C10_torn_write`, `C110_moments`, `C111_serial`, `C111_volume`, `C112_manual`, `C112_program`, `C112_unknown`, `C113_ends`, `C114_absolute_violated`, `C114_dots_violated`, `C114_exact_partial`, `C114_found`, `C114_notdir_violated`, `C114_one`, `C115_links_partial`, `C115_shown`, `C115_stamped`, `C115_unchanged`, `C115_unmodified`, `C116_flat`, `C116_fresh_partial`, `C116_legal_partial`, `C117_same_partial`, `C117_shown`, `C118_attributes`, `C118_encrypted`, `C118_header`, `C118_links`, `C118_names`, `C118_parameters`, `C118_paths`, `C118_table`, `C118_types`, `C119_commit_violated`, `C119_constructor`, `C119_legal`, `C119_reported`, `C119_rest`, `C119_rows`, `C119_section_partial`, `C119_set_up`, `C11_lite_grow`, `C11_lite_shrink_partial`, `C121_blue_violated`, `C121_colours_partial`, `C121_file`, `C121_hidden`, `C121_log`, `C121_long_violated`, `C121_twice_partial`, `C122_end`, `C122_exactly`, `C12_padding_invisible`, `C13_hmac_accepts_iff`, `C13_hmac_binds_id`, `C13_hmac_tamper`, `C14_parse_accepts`, `C14_parse_canonical`, `C14_parse_injective`, `C14_parse_into`, `C15_alphabet`, `C15_encode_exact`, `C15_injective`, `C15_round_trip`, `C16_accepted_determined`, `C16_accepts_only_encryptions`, `C16_encrypt_rfc5297`, `C16_injective`, `C16_round_trip`, `C16_spec_deterministic`, `C18_injective`, `C18_inode_injective`, `C18_inode_surjective`, `C18_inode_value`, `C18_read_write`, `C18_round_trip`, `C18_stored_form`, `C19_empty_name`, `C19_injective`, `C19_listing`, `C19_listing_any`, `C19_only_own_names`, `C19_round_trip_partial`, `C21_injective_partial`, `C21_inline_partial`, `C21_legacy_path_injective`, `C21_legacy_round_trip`, `C21_long`, `C21_path_injective_partial`, `C21_recorded_partial`, `C21_suffix_violated`, `C22_legacy`, `C22_legal`, `C22_pieces`, `C22_structure`, `C23_legacy_round_trip`, `C23_round_trip`, `C24_component`, `C24_legacy_component`, `C24_legacy_symlink_partial`, `C24_symlink`, `C25_legacy_listing_partial`, `C25_listing_partial`, `C26_commit_violated`, `C26_listed_partial`, `C26_partial`, `C26_rename_violated`, `C26_rmdir_violated`, `C27_map`, `C27_spec_lookup`, `C28_C30_well_formed`, `C28_depth`, `C29_free`, `C29_round_trip`, `C30_allocate`, `C31_reload`, `C32_listing`, `C33_violated`, `C34_one_object`, `C34_open_succeeds`, `C34_step`, `C35_backing`, `C35_destroyed`, `C35_idle`, `C35_progress`, `C35_removed_only`, `C35_removed_when`, `C35_shutdown`, `C36_calm_partial`, `C36_window_partial`, `C37_v1_scan`, `C37_v2_scan`, `C38_empty`, `C38_rmdir_partial`, `C38_unchanged`, `C38_violated`, `C39_moves_partial`, `C39_same_file`, `C39_unchanged`, `C39_violated`, `C40_links_partial`, `C40_names_le_links`, `C40_no_dangling`, `C41_cycle`, `C41_errors`, `C41_link_limit`, `C41_resolves`, `C41_terminates`, `C42_chmod`, `C43_header`, `C43_refines`, `C45_error_keeps_old`, `C45_ordered_partial`, `C45_retry`, `C45_success`, `C45_unsynced_violated`, `C46_legacy_round_trip`, `C46_legacy_wrong_credentials`, `C46_suffix_violated`, `C47_component`, `C47_listing_partial`, `C47_path`, `C47_suffix_violated`, `C48_made_here`, `C48_refines`, `C49_idle_partial`, `C50_truncate`, `C51_exclusive_partial`, `C51_mount_iff`, `C51_release`, `C51_takeover`, `C52_any_stream`, `C52_history`, `C52_round_trip`, `C54_history`, `C55_header_reported_without_one`, `C56_legacy_readlink_partial`, `C56_legacy_violated`, `C56_readlink`, `C57_legacy`, `C57_namemax_partial`, `C57_violated`, `C58_normalised`, `C59_handles_partial`, `C60_tree_partial`, `C62_text`, `C63_eventually_partial`, `C63_failed_partial`, `C63_order_violated`, `C63_success_partial`, `C64_ordered_partial`, `C64_stuck_violated`, `C65_empty_buffer`, `C65_history`, `C65_interrupted_violated`, `C65_listing`, `C65_repaired`, `C65_tamper_evident`, `C66_kept`, `C66_same_file`, `C66_short_length_partial`, `C66_short_partial`, `C66_spelling`, `C67_magic`, `C69_ends`, `C69_serves`, `C70_attributes`, `C70_exists`, `C70_found`, `C70_leak_violated`, `C70_link_follows`, `C70_link_partial`, `C70_make_partial`, `C70_readlink`, `C70_symlink_readlink`, `C70_unlink`, `C71_chosen`, `C71_create_then_mount`, `C72_asked`, `C72_complete`, `C72_found`, `C72_full_iv_violated`, `C72_opens_partial`, `C72_shadow_violated`, `C72_sizes_violated`, `C72_suffix_violated`, `C72_torn_violated`, `C74_same_partial`, `C74_text_violated`, `C75_created_full`, `C75_created_lite`, `C75_normalization_violated`, `C75_process`, `C75_stable`, `C75_use_ino`, `C75_use_ino_violated`, `C76_dispatch_partial`, `C77_durable`, `C77_file`, `C78_padding`, `C79_contents`, `C79_create`, `C79_history`, `C79_listdir`, `C79_open`, `C79_read`, `C79_readdir`, `C79_release`, `C79_stat`, `C79_times`, `C79_truncate`, `C79_write`, `C80_full_partial`, `C80_full_violated`, `C80_lite`, `C81_legacy_names_partial`, `C81_new_names_partial`, `C81_plain_names_partial`, `C83_frame`, `C83_others`, `C83_same_shard`, `C83_store`, `C84_dir`, `C84_durable`, `C84_flush_attrs`, `C84_flush_times_violated`, `C85_kept`, `C85_tree`, `C85_volume`, `C85_whole`, `C86_full`, `C86_full_reopen_partial`, `C86_lite`, `C87_faults`, `C87_linear`, `C87_noflock_violated`, `C88_normal_partial`, `C88_roundtrip`, `C88_write`, `C90_compose`, `C91_read`, `C92_stored`, `C93_finished_partial`, `C93_history_partial`, `C93_kept_partial`, `C93_listed_partial`, `C94_completes_partial`, `C94_progress_partial`, `C95_full_simulated`, `C95_lite_simulated`, `C96_full_iv_once`, `C96_lite_iv_once`, `C97_calm_partial`, `C97_rebuild_reached`, `C97_rebuild_violated`, `C97_reported`, `C98_migrate`, `C98_untold_violated`, `C99_close_fails`, `C99_kept`, `C99_retry`, `C99_root_violated`, `C99_unmount_partial`, `C99_unmount_saves`, `C99_unmount_violated`.
* `Quot.sound`, `propext`: `C07_padding_bound`, `C08_read_over_limit`, `C100_nothing_new_partial`, `C101_orphan_violated`, `C101_path_violated`, `C102_mixture_violated`, `C102_root_violated`, `C103_popcount`, `C104_action`, `C104_crlf_violated`, `C104_end`, `C104_line`, `C104_lines`, `C105_order`, `C105_waits_for_another`, `C106_read`, `C106_stat`, `C107_alone`, `C107_full`, `C112_distinct`, `C113_begin_violated`, `C113_no_deadlock`, `C113_order`, `C113_uses`, `C113_waits_for_another`, `C115_failed_violated`, `C115_forged_violated`, `C115_links_violated`, `C116_dot_violated`, `C116_root_violated`, `C117_collide_violated`, `C118_records`, `C11_full_unflushed_rejected`, `C11_lite_truncate_loses_block`, `C120_scopes`, `C120_unique`, `C121_same`, `C121_typed`, `C122_files`, `C122_limit_partial`, `C123_command_partial`, `C123_long`, `C123_mismatch`, `C123_served_partial`, `C123_stdio_violated`, `C124_casts`, `C124_pointer`, `C124_table`, `C124_values`, `C12_padding_invisible_any`, `C13_hmac_stream_is_byte_array`, `C14_hexify_exact`, `C14_hexify_shape`, `C14_round_trip`, `C15_decode_not_injective`, `C15_decode_safe`, `C17_no_salt`, `C17_prefix`, `C17_rfc5869`, `C19_listing_errors`, `C20_empty_violated`, `C20_exact_buffer_partial`, `C20_larger_buffer_violated`, `C20_size`, `C24_legacy_symlink_violated`, `C25_invalid_violated`, `C25_once_partial`, `C25_spelling_violated`, `C26_refused`, `C27_orders`, `C29_inside`, `C33_addressing_partial`, `C36_violated`, `C37_v1_distinct`, `C37_v2_distinct`, `C39_spelling_violated`, `C40_violated`, `C41_every_operation_ends`, `C41_eviction_violated`, `C46_empty_mac_violated`, `C46_encrypt_exact`, `C46_round_trip_partial`, `C46_wrong_credentials`, `C46_wrong_credentials_error`, `C49_earlier`, `C49_ends`, `C49_late_violated`, `C49_not_early`, `C49_runs_late`, `C49_runs_partial`, `C50_flags`, `C53_gets_guard`, `C55_header_absent_partial`, `C59_truncate_violated`, `C60_link_violated`, `C61_json_not_message`, `C61_message_not_json`, `C62_encrypted`, `C62_parameters_partial`, `C63_commit_violated`, `C63_fault_violated`, `C63_nested_violated`, `C63_stale_violated`, `C66_deep_violated`, `C66_race_violated`, `C66_readers_violated`, `C66_root`, `C67_failure`, `C67_has`, `C67_kernel`, `C67_mount`, `C67_wrapped`, `C68_option`, `C68_option_needed`, `C68_redacted`, `C69_no_abort_partial`, `C69_no_interruption`, `C69_no_worker_violated`, `C69_noticed`, `C69_result`, `C69_signal`, `C70_link_violated`, `C71_chpass_lines_partial`, `C71_confirmed`, `C71_crlf_violated`, `C71_empty_argument_violated`, `C71_typed`, `C72_touches`, `C74_child_files_partial`, `C74_exit_partial`, `C74_message_partial`, `C74_noflock_violated`, `C75_refused`, `C75_uid`, `C78_distinct`, `C78_keys`, `C78_streams`, `C79_dotdot_violated`, `C79_release_violated`, `C81_alias_violated`, `C81_moved_listing_violated`, `C81_refused_rmdir_violated`, `C81_replace_violated`, `C83_paths`, `C83_reported`, `C84_refused_times_violated`, `C85_orphan_violated`, `C86_full_faultless`, `C86_full_half_truncated`, `C86_full_reopen_violated`, `C86_lite_torn`, `C87_noflock_create_violated`, `C87_returns`, `C88_read`, `C89_argv`, `C90_inside`, `C90_join`, `C91_errno`, `C91_open`, `C91_write`, `C92_attributes`, `C92_link_partial`, `C93_commit_violated`, `C93_rmdir_violated`, `C94_busy_violated`, `C94_deadlock_violated`, `C97_blank_violated`, `C97_drain_violated`, `C97_full_violated`, `C97_remove_violated`, `C97_split_violated`, `C98_collect`, `C98_migrate_accepts`, `C98_once`, `C98_reported`, `C98_suffix`, `C98_suffix_violated`, `C98_visited`, `C99_execution_violated`.
* `propext`: `C08_resize_agree`, `C08_write_agree`, `C105_uses`, `C112_create`, `C112_mount`, `C112_status`, `C112_usage`, `C118_free`, `C118_values`, `C120_exceptions`, `C120_reading_violated`, `C120_released`, `C123_option_partial`, `C18_root_inode`, `C27_overlong`, `C29_nul_truncates`, `C42_chown`, `C43_nanoseconds`, `C49_idle_violated`, `C49_not_rearmed`, `C51_overlap_violated`, `C51_reuse_violated`, `C51_unmount_violated`, `C52_nul_violated`, `C53_exclusive`, `C53_no_cycle`, `C53_progress`, `C53_spin`, `C54_read`, `C58_not_normalisable`, `C63_overwrite_violated`, `C67_code`, `C68_quiet`, `C68_reported`, `C68_target_violated`, `C68_texts`, `C69_abort_violated`, `C71_chpass_partial`, `C74_feed`, `C75_uid_violated`, `C76_empty_violated`, `C77_padding_violated`, `C82_transparent`, `C83_fault_violated`, `C83_legacy_violated`, `C86_lite_faultless`, `C88_normal_violated`, `C90_unix`, `C91_errno_table`, `C91_truncate`, `C92_empty_violated`, `C92_list_partial`, `C92_stale_violated`, `C98_calls`.
* no axioms: `C11_full_unflushed_witness`, `C120_null_violated`, `C121_unset_violated`, `C122_unlimited_violated`, `C123_argv_violated`, `C123_chpass_violated`, `C123_const_violated`, `C124_wide_violated`, `C17_too_long`, `C44_requested_partial`, `C44_violated`, `C54_write`, `C69_worker_partial`, `C73_masked`, `C73_unmasked`, `C74_lost_child_violated`, `C74_other_mount_violated`, `C74_stdin_violated`, `C78_roles_violated`, `C82_filled_violated`, `C86_lite_header_violated`, `C88_overflow_violated`, `C89_none`, `C89_program_violated`, `C90_absolute_violated`, `C90_drive_violated`, `C92_blocks_violated`, `C92_link_violated`.
