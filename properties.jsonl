{"id": "C01", "title": "Lite file behaves as a byte array", "statement": "For a lite-format file, every sequence of read, write and truncate calls returns exactly what the same calls would return on a plain in-memory byte array: reads return the last bytes written, gaps created by writing past the end or by growing read as zeros, truncation discards, and the reported size is the array length. This holds whether or not the backing storage is sparse.", "quantifier": "all block sizes, IV sizes, padding sizes, keys, random-number streams, histories of operations, offsets and lengths within the documented block limit", "why_tests_cant": "Offsets, lengths and histories are unbounded; each partial-block boundary combination interacts with the previous state, so a finite set of tests covers a vanishing part.", "anchors": ["sources/streams.cpp: BlockBasedStream::read, write, unchecked_write, unchecked_resize, zero_fill", "sources/lite_stream.cpp: AESGCMCryptStream::read_multi_blocks, write_multi_blocks, adjust_logical_size, size"]}
{"id": "C02", "title": "Full-format file behaves as a byte array", "statement": "For a full-format file (data file plus authenticated metadata file), every sequence of read, write, truncate and header updates returns exactly what a plain byte array with a separate header buffer would return, sparse or not, and the header and the content never disturb each other. (Reading a header that was never written is property C55.)", "quantifier": "all block sizes, IV sizes, header sizes, keys, random streams and histories within the 2^30 block limit", "why_tests_cant": "Histories are unbounded and data and metadata are two files whose positions must stay aligned after every interleaving of growth, shrink and header writes.", "anchors": ["sources/streams.cpp: AESGCMCryptStream::read_multi_blocks, write_multi_blocks, adjust_logical_size, read_header, write_header, BlockBasedStream::*, HMACStream::*"]}
{"id": "C03", "title": "Content survives close and reopen", "statement": "After closing and reopening a file with the same keys, its content, size and (full format) header are what they were before closing; in the full format the metadata integrity check succeeds on reopen after a flush.", "quantifier": "all contents and histories before close, all identifiers, padding sizes and keys", "why_tests_cant": "Depends on every possible state reachable before the close, including empty files, holes and partially filled last blocks.", "anchors": ["sources/lite_stream.cpp: AESGCMCryptStream::AESGCMCryptStream", "sources/streams.cpp: HMACStream::HMACStream, HMACStream::flush, make_cryptstream_aes_gcm"]}
{"id": "C04", "title": "Lite tamper evidence per block", "statement": "With verification on, if a read of a lite file whose backing bytes were chosen by an attacker succeeds, then every block of the returned data is either all zeros with an all-zero stored block, or the plaintext that was genuinely encrypted for that same file at that same block index at some time, unless the attacker forged an AES-GCM tag. Swapping blocks inside a file or between files is therefore detected.", "quantifier": "all attacker-chosen backing files, offsets, lengths, and sets of previously encrypted blocks", "why_tests_cant": "The adversary ranges over all byte strings.", "anchors": ["sources/lite_stream.cpp: AESGCMCryptStream::read_multi_blocks"]}
{"id": "C05", "title": "Full-format tamper evidence", "statement": "With verification on, if a full-format file opens and a read succeeds although the data and metadata files were replaced by attacker-chosen bytes, then the metadata is byte for byte a version the file system itself authenticated for this file, and each returned block is the plaintext encrypted under the IV and tag at that index of that version (or a hole recorded there), unless HMAC-SHA256 or AES-GCM was forged.", "quantifier": "all attacker-chosen data and metadata files, offsets and lengths", "why_tests_cant": "The adversary ranges over all byte strings.", "anchors": ["sources/streams.cpp: HMACStream::run_mac, HMACStream::HMACStream, AESGCMCryptStream::read_multi_blocks"]}
{"id": "C06", "title": "File length and holes are authenticated", "statement": "An attacker without the key who modifies the backing files cannot make a verified read return a shorter file, or zeros where data had been written, without an error.", "quantifier": "all attacker modifications of the backing files", "why_tests_cant": "A universally quantified adversary; the interest is in finding the one modification that passes.", "anchors": ["sources/lite_stream.cpp: read_multi_blocks (all-zero block case), size", "sources/streams.cpp: AESGCMCryptStream::size, read_multi_blocks"]}
{"id": "C07", "title": "Reported size of a lite file without opening it", "statement": "The size reported by stat for a lite file, computed only from the size of the backing file, equals the size the opened file reports, for every content length; growing or shrinking to n and then asking for the size gives n.", "quantifier": "all lengths, block sizes, IV sizes and padding sizes", "why_tests_cant": "Arithmetic identity over all naturals with boundary cases at every block edge.", "anchors": ["sources/lite_stream.cpp: calculate_real_size, size, adjust_logical_size", "sources/lite_format.cpp: vgetattr, DirectoryImpl::next"]}
{"id": "C08", "title": "Operations beyond the size limit fail cleanly", "statement": "A write or truncate that would make the file exceed the maximum number of blocks is rejected with an error and leaves the file unchanged.", "quantifier": "all offsets and lengths around and beyond the limit, all file contents", "why_tests_cant": "Files of 2^31 blocks cannot be created in a test; 64-bit offsets cannot be enumerated.", "anchors": ["sources/streams.cpp: BlockBasedStream::write, unchecked_resize, check_block_number", "sources/lite_stream.cpp: MAX_BLOCKS"]}
{"id": "C09", "title": "Encrypted data is never mistaken for a hole", "statement": "No block produced by a write is ever interpreted as a hole on a later read, whatever the plaintext (including all-zero plaintext) and whatever the random generator returned.", "quantifier": "all plaintexts, keys and random streams", "why_tests_cant": "A random IV of zeros has probability 2^-96; a test never sees it.", "anchors": ["sources/lite_stream.cpp: write_multi_blocks (IV retry loop)", "sources/streams.cpp: AESGCMCryptStream::write_multi_blocks"]}
{"id": "C10", "title": "A torn lite write damages only the blocks it covers", "statement": "If the machine stops after any prefix of the bytes of one non-extending lite write has reached the backing file, every block not overlapped by that write still reads back as before.", "quantifier": "all write positions and lengths, all crash points inside the write, all previous contents", "why_tests_cant": "Every byte position is a crash point.", "anchors": ["sources/lite_stream.cpp: write_multi_blocks", "sources/streams.cpp: BlockBasedStream::unchecked_write"]}
{"id": "C11", "title": "Truncation and unflushed writes survive a crash", "statement": "If the machine stops in the middle of a truncation, the bytes below the new size are still readable afterwards; and if it stops after a full-format write but before a flush, the file can still be opened and the bytes outside the written range read.", "quantifier": "all crash points between the steps of truncate, and between write and flush", "why_tests_cant": "Crash points between two system calls cannot be hit deterministically by tests.", "anchors": ["sources/streams.cpp: BlockBasedStream::unchecked_resize, HMACStream::flush, HMACStream::write"]}
{"id": "C12", "title": "Size padding is invisible", "statement": "Wrapping a full-format file in size padding changes nothing a reader or writer can observe: every read, write, truncate and size query answers as it would without padding.", "quantifier": "all padding sizes, histories, offsets and lengths", "why_tests_cant": "Histories are unbounded.", "anchors": ["sources/streams.h: PaddedStream", "sources/streams.cpp: PaddedStream::PaddedStream"]}
{"id": "C13", "title": "Metadata integrity check accepts exactly what was flushed", "statement": "The integrity-checked metadata stream behaves as a byte array for its user; after a flush, reopening verifies; and any other byte string of the backing file is rejected on open with checking enabled unless it is empty or is a forged HMAC. The identifier of the file is bound, so metadata moved from another file is rejected.", "quantifier": "all contents, all attacker-chosen backing strings, all file identifiers", "why_tests_cant": "The adversary ranges over all byte strings.", "anchors": ["sources/streams.cpp: HMACStream"]}
{"id": "C14", "title": "Hexadecimal coding is exact", "statement": "Decoding the hexadecimal form of any byte string gives it back, the encoding uses only lower-case digits and twice the length, and decoding accepts exactly the even-length lower-case hexadecimal strings and is injective on them.", "quantifier": "all byte strings and all character strings", "why_tests_cant": "Infinite domain, and rejection must hold for all malformed strings.", "anchors": ["sources/mystring.cpp: hexify, parse_hex"]}
{"id": "C15", "title": "Base32 file-name coding is exact", "statement": "Decoding the base32 form of any byte string gives back exactly that byte string, the encoded form uses only the 32 symbols and has length ceil(8n/5), so distinct byte strings have distinct encodings. Decoding never reads or writes out of range whatever the input string.", "quantifier": "all byte strings and all input strings", "why_tests_cant": "Infinite domain with eight alignment cases.", "anchors": ["sources/mystring.cpp: base32_encode, base32_decode, get_alphabet_index, get_base32_pair"]}
{"id": "C16", "title": "Deterministic name encryption round-trips and authenticates", "statement": "For any key, associated data and message, decryption of a synthetic-IV encryption returns the message, and whatever decryption accepts is exactly what encryption would have produced for the recovered message; encryption of equal messages is equal and of different messages different.", "quantifier": "all keys, additional data, messages and attacker-chosen ciphertexts", "why_tests_cant": "Infinite domain, adversarial inputs.", "anchors": ["sources/crypto.cpp: AES_SIV::s2v, encrypt_and_authenticate, decrypt_and_verify, dbl, bitshift_left"]}
{"id": "C17", "title": "Key derivation follows RFC 5869", "statement": "The derived key material of any requested length up to 8160 bytes equals the RFC 5869 HKDF output with SHA-256 (with the documented deviation for an empty salt), asking for fewer bytes gives a prefix of asking for more, and longer requests are rejected.", "quantifier": "all keys, salts, info strings and output lengths", "why_tests_cant": "Infinite domain with off-by-one risks at each 32-byte boundary.", "anchors": ["sources/crypto.cpp: hkdf, hkdf_expand, hmac_sha256_calculate"]}
{"id": "C18", "title": "Integers on disk round-trip", "statement": "Every unsigned 16, 32 or 64 bit value written in little-endian form is read back unchanged, the stored bytes are the same on every machine, and distinct values have distinct stored forms; the reported inode number is a fixed bijective function of the first eight identifier bytes and never zero for the root.", "quantifier": "all values of each width, all identifiers", "why_tests_cant": "2^64 values.", "anchors": ["sources/myutils.h: to_little_endian, from_little_endian, to_inode_number"]}
{"id": "C19", "title": "Extended attribute names round-trip", "statement": "The stored name of an extended attribute decodes back to the name the user gave, different names never collide, stored names that were not produced by this file system with this key are hidden, and listing returns exactly the user names each followed by a NUL with the exact total length, or reports a too small buffer.", "quantifier": "all attribute names, all lists of stored names, all buffer sizes", "why_tests_cant": "Infinite domain.", "anchors": ["sources/xattr_name.cpp: encrypt_xattr_name, decrypt_xattr_name, wrapped_listxattr"]}
{"id": "C20", "title": "Extended attribute values round-trip (lite)", "statement": "After setting an extended attribute to a value, getting it with any buffer at least as large as the value returns exactly that value, also when the value is empty.", "quantifier": "all values and all buffer sizes at least the value size", "why_tests_cant": "Values and buffer sizes are unbounded.", "anchors": ["sources/lite_format.cpp: vgetxattr, vsetxattr, XattrCryptor::encrypt, decrypt, infer_decrypted_size, infer_encrypted_size"]}
{"id": "C21", "title": "Lite file names round-trip", "statement": "Every path component short enough to be stored inline is encrypted to a backing name that decrypts back to it; components above the threshold map to a backing name that carries the long-name suffix, and the recorded full encrypted name decrypts back to the component; two different components never share a backing name unless the keyed hash collides.", "quantifier": "all names of any length, thresholds, suffixes and keys", "why_tests_cant": "Infinite domain around a configurable threshold.", "anchors": ["sources/lite_format.cpp: NewStyleNameTranslator::encrypt_full_path, decrypt_path_component, LegacyNameTranslator"]}
{"id": "C22", "title": "Backing names are always legal", "statement": "Every backing name produced for a nonempty component is nonempty, contains no slash, NUL or dot other than in the long-name suffix, never begins with a dot, is never '.' or '..'; stored inline, it is at most 255 bytes long exactly if the component is at most 143 bytes, and stored by hash exactly if the suffix is at most 178 bytes; the directory structure of the path is preserved component by component.", "quantifier": "all paths, thresholds and suffixes", "why_tests_cant": "Infinite domain.", "anchors": ["sources/lite_format.cpp: encrypt_full_path", "sources/mystring.cpp: base32_encode"]}
{"id": "C23", "title": "Symlink targets round-trip (lite)", "statement": "The target given when creating a symbolic link is the target read back, for both the new-style and the legacy encoding, and the stored form has no component longer than 96 bytes in the new style.", "quantifier": "all nonempty targets, including absolute ones and ones with repeated slashes", "why_tests_cant": "Infinite domain.", "anchors": ["sources/lite_format.cpp: encrypt_path_for_symlink, decrypt_path_from_symlink, legacy_encrypt_path, legacy_decrypt_path"]}
{"id": "C24", "title": "Hostile symlink targets and names are handled safely", "statement": "Decoding any backing name or symbolic-link target, however malformed, either yields a name, skips it, or raises an error; it never reads outside its buffers.", "quantifier": "all strings stored by an attacker in the backing directory", "why_tests_cant": "The adversary ranges over all strings.", "anchors": ["sources/lite_format.cpp: legacy_decrypt_path, LegacyNameTranslator::decrypt_path_component, NewStyleNameTranslator::decrypt_path_component, decrypt_path_from_symlink"]}
{"id": "C25", "title": "Lite directory listing is exact", "statement": "Listing a lite directory yields '.' and '..', and for each backing entry whose name is a genuine encrypted name its plain name exactly once, and nothing else: entries that do not decrypt are skipped.", "quantifier": "all sets of backing entries, in all orders", "why_tests_cant": "The order and mixture of genuine and foreign entries is unbounded.", "anchors": ["sources/lite_format.cpp: DirectoryImpl::next, vreaddir"]}
{"id": "C26", "title": "Long-name table stays consistent with the directory", "statement": "After any sequence of create, mkdir, symlink, link, unlink, rmdir and rename calls, successful or failed, every long-named backing entry that exists has its row in the directory's long-name table, so it appears in listings; and a call that adds a name which is there is refused and changes neither the directories nor the tables.", "quantifier": "all histories, all failure points of the backing operations", "why_tests_cant": "Histories and failures are unbounded.", "anchors": ["sources/lite_format.cpp: process_possible_long_name, vrename, vrmdir, vunlink, vmkdir, vlink", "sources/lite_long_name_lookup_table.cpp"]}
{"id": "C27", "title": "Directory is a finite map (B-tree)", "statement": "A full-format directory behaves as a map from names to entries: lookup after any history of additions and removals returns the entry last added under that name and not since removed; adding an existing name is refused and changes nothing; removing an absent name is refused and changes nothing; other names are unaffected.", "quantifier": "all histories of add, remove, lookup, listing, flush, rebuild and reopening, all names up to 255 bytes without NUL (longer names are refused), any total preorder on names, any iteration order of the node cache, any uninitialised bytes; the directory never holds more than 6,291,444 entries, what is sure to fit 2^20 pages (see C33 for what happens beyond)", "why_tests_cant": "Splits, rotations and merges cascade over several levels only in large histories; their number is unbounded.", "anchors": ["sources/btree_dir.cpp: find_node, add_entry_impl, insert_and_balance, remove_entry_impl, replace_with_sub_entry, balance_up, rotate, merge, find_sibling"]}
{"id": "C28", "title": "B-tree stays sorted, balanced and within fill limits", "statement": "After any history every node except the root has between 6 and 13 entries, all leaves are at the same depth, entries are in strictly increasing order across the whole tree, and an inner node has exactly one child more than it has entries.", "quantifier": "all histories as in C27; the directory never holds more than 6,291,444 entries, what is sure to fit 2^20 pages (see C33 for what happens beyond)", "why_tests_cant": "Unbounded histories; the invariant must be inductive.", "anchors": ["sources/btree_dir.cpp: insert_and_balance, balance_up, rotate, merge, validate_node"]}
{"id": "C29", "title": "Directory page format round-trips", "statement": "Writing a directory node to its page and reading it back gives the same node, every node within the fill limit fits a 4096-byte page, and a page on the free list is never read as a node; and a node read from any bytes lies inside the page, a page that ends earlier being refused.", "quantifier": "all nodes with at most 13 entries and at most 14 children, all names up to 255 bytes without NUL", "why_tests_cant": "Infinite domain.", "anchors": ["sources/btree_dir.cpp: BtreeNode::from_buffer, to_buffer, read_free_page, write_free_page"]}
{"id": "C30", "title": "Directory pages are neither leaked nor used twice", "statement": "After any history, every page of the directory file is either in the tree exactly once or in the free list exactly once; allocation never returns a page in use; the free-page counter equals the length of the free list.", "quantifier": "all states reachable by histories as in C27; the directory never holds more than 6,291,444 entries, what is sure to fit 2^20 pages (see C33 for what happens beyond)", "why_tests_cant": "Unbounded histories.", "anchors": ["sources/btree_dir.cpp: allocate_page, deallocate_page, del_node, validate_free_list"]}
{"id": "C31", "title": "Directory contents survive flush and reload", "statement": "After a flush, dropping all cached nodes and reading the pages back gives the same directory contents, also when the flush decides to rebuild the tree.", "quantifier": "all histories as in C27 before the flush; the directory never holds more than 6,291,444 entries, what is sure to fit 2^20 pages (see C33 for what happens beyond)", "why_tests_cant": "Needs every modified node to have been marked for writing, in every history.", "anchors": ["sources/btree_dir.cpp: flush_cache, subflush, rebuild, retrieve_node, write_node, read_node"]}
{"id": "C32", "title": "Listing and emptiness of a full-format directory are exact", "statement": "Iterating over a directory visits every entry exactly once and nothing else, and the directory is reported empty exactly when it has no entries.", "quantifier": "all directories reachable by histories as in C27; the directory never holds more than 6,291,444 entries, what is sure to fit 2^20 pages (see C33 for what happens beyond)", "why_tests_cant": "Unbounded histories and tree shapes.", "anchors": ["sources/btree_dir.cpp: recursive_iterate, iterate_over_entries_impl, empty"]}
{"id": "C33", "title": "Directory page addressing is safe for every size", "statement": "Distinct directory pages always occupy distinct byte ranges of the directory file.", "quantifier": "all page numbers that can be allocated", "why_tests_cant": "A directory of 2^20 pages is too large for tests.", "anchors": ["sources/btree_dir.cpp: read_node, write_node, read_free_page, write_free_page, deallocate_page"]}
{"id": "C34", "title": "One live object per file", "statement": "At any moment under any interleaving of opens, creates and closes by any number of threads, at most one in-memory object exists for a file, the object is alive as long as some thread holds it, and two threads that hold the same file hold the same object.", "quantifier": "all schedules of any number of threads and files", "why_tests_cant": "Schedules cannot be enumerated.", "anchors": ["sources/file_table_v2.cpp: open_as, create_as, close_internal, FileTableCloser::operator()"]}
{"id": "C35", "title": "Deleted files disappear exactly when unused", "statement": "The backing files of a file are removed when, and only when, its link count is zero and the last holder has closed it; data of a linked file is flushed before it becomes idle, and idle objects are discarded only after being flushed, never more than 50 idle objects being kept per shard.", "quantifier": "all schedules of open, close and unlink, any number of threads", "why_tests_cant": "Schedules cannot be enumerated.", "anchors": ["sources/file_table_v2.cpp: close_internal"]}
{"id": "C36", "title": "Closing is free of use-after-free", "statement": "No interleaving of opens and closes makes a thread touch an object that has been destroyed.", "quantifier": "all schedules", "why_tests_cant": "The race window is a few instructions wide.", "anchors": ["sources/file_table_v2.cpp: FileTableCloser::operator(), close_internal"]}
{"id": "C37", "title": "Backing paths of different files never collide", "statement": "Different file identifiers have different data and metadata paths, no data path equals a metadata path, and the identifier can be recovered from the metadata path by the repair tool's scan, in both layouts.", "quantifier": "all pairs of 256-bit identifiers", "why_tests_cant": "2^256 identifiers.", "anchors": ["sources/file_table_v2.cpp: FileTableIOVersion1::calculate_paths, FileTableIOVersion2::calculate_paths", "sources/myutils.cpp: find_ids_helper"]}
{"id": "C38", "title": "A failed rmdir changes nothing", "statement": "Removing a full-format directory fails with an error and changes nothing when the target is not an empty directory; otherwise it removes exactly that entry.", "quantifier": "all directory trees and paths", "why_tests_cant": "Quantifies over all trees.", "anchors": ["sources/full_format.cpp: vrmdir"]}
{"id": "C39", "title": "Rename is all-or-nothing", "statement": "A full-format rename either fails leaving the name space unchanged, or moves exactly the named entry to the target, replacing and unlinking what was there, with every other name unaffected; renaming a name onto itself or onto another link of the same file loses nothing.", "quantifier": "all name spaces, sources and targets", "why_tests_cant": "Quantifies over all trees and names.", "anchors": ["sources/full_format.cpp: vrename"]}
{"id": "C40", "title": "Link counts equal the number of names", "statement": "After any history of successful create, mkdir, symlink, link, unlink and rename operations the link count of every file equals the number of directory entries that refer to it.", "quantifier": "all histories", "why_tests_cant": "Unbounded histories.", "anchors": ["sources/full_format.cpp: create, vlink, vunlink, vrename, vrmdir", "sources/files.h: FileBase::unlink"]}
{"id": "C41", "title": "Path resolution always terminates", "statement": "Resolving any path in any full-format tree, with any symbolic links including cycles, terminates, returning an object, 'no such file', or ELOOP; links nested up to the limit resolve.", "quantifier": "all trees, paths and link targets", "why_tests_cant": "Cyclic link graphs and self-expanding targets are unbounded.", "anchors": ["sources/full_format.cpp: generic_open, open_base, open_all"]}
{"id": "C42", "title": "chmod and chown change what was asked and nothing else", "statement": "chmod replaces exactly the nine permission bits and keeps the file type; chown changes exactly the fields that are not given as -1; both mark the file for saving when something changed.", "quantifier": "all modes, users and groups (all 32-bit values)", "why_tests_cant": "2^96 combinations.", "anchors": ["sources/full_format.cpp: vchmod, vchown", "sources/files.h: set_mode, set_uid, set_gid"]}
{"id": "C43", "title": "File attributes survive flush and reload", "statement": "Mode, owner, group, link count, directory bookkeeping fields and, when times are stored, all four time stamps read back after flush and reload exactly as set.", "quantifier": "all field values", "why_tests_cant": "Each field is a 32 or 64 bit value.", "anchors": ["sources/files.cpp: FileBase::flush, read_header"]}
{"id": "C44", "title": "Setting times sets the requested times", "statement": "When times are stored in the file, setting times to given values stores those values and updates the change time to the current time; setting to 'now' stores the current time.", "quantifier": "all requested values and clocks", "why_tests_cant": "Reading an uninitialised variable often happens to look right in a test.", "anchors": ["sources/files.cpp: FileBase::utimens"]}
{"id": "C45", "title": "Changing the password is crash safe", "statement": "If the machine stops at any point while changing the password, the configuration file holds either the old or the new configuration in full, and the same volume keys open with the old or the new password respectively; if an error is reported the old configuration is still in place.", "quantifier": "all crash points and configurations", "why_tests_cant": "Every system call boundary is a crash point.", "anchors": ["sources/commands.cpp: ChangePasswordCommand::execute", "sources/params_io.cpp: encrypt, decrypt"]}
{"id": "C46", "title": "Configuration decrypts only with the right password and key file", "statement": "Decrypting an encrypted configuration with the same password and key file gives back the same parameters, for current and legacy files; if decryption with other credentials succeeds then an AES-GCM forgery or a key-derivation collision occurred.", "quantifier": "all parameters, passwords, key files, salts and IVs", "why_tests_cant": "Infinite domain.", "anchors": ["sources/params_io.cpp: encrypt, decrypt, compute_password_derived_key, try_legacy_password_derived_key, hmac_sha256"]}
{"id": "C47", "title": "Migrating to long names keeps existing names", "statement": "The threshold chosen when migrating an existing volume to long names is such that every name already stored inline is still encrypted to the same backing name, so no existing file becomes unreachable.", "quantifier": "all sets of existing names and all backing name limits", "why_tests_cant": "Quantifies over all volumes.", "anchors": ["sources/commands.cpp: MigrateLongNameCommand", "sources/lite_format.cpp: NewStyleNameTranslator"]}
{"id": "C48", "title": "A thread-local cryptographic object is never stale", "statement": "A per-thread object obtained for a given owner is always one created by that owner's factory on this thread, never one left over from an already destroyed owner that used the same slot.", "quantifier": "all histories of creating, destroying and accessing owners on any number of threads", "why_tests_cant": "Slot reuse patterns are unbounded.", "anchors": ["sources/thread_local.h", "sources/thread_local.cpp"]}
{"id": "C49", "title": "Idle unmount timer", "statement": "The idle action runs no earlier than the idle period after the last activity, and runs once the period has elapsed without activity.", "quantifier": "all schedules of activity and all clock readings", "why_tests_cant": "Schedules and time instants cannot be enumerated.", "anchors": ["sources/resettable_timer.cpp"]}
{"id": "C50", "title": "Open modes are handled so that encryption can work", "statement": "Opening a lite file for writing or appending always gives the stream read access and never append mode on the backing file, opening for reading never adds write access, truncation on open empties the file, and no other flag is altered.", "quantifier": "all flag combinations", "why_tests_cant": "2^32 flag combinations.", "anchors": ["sources/lite_format.cpp: FuseHighLevelOps::open"]}
{"id": "C51", "title": "Two mounts of the same volume exclude each other", "statement": "A read-write mount succeeds only if no other live process recorded in the lock file holds the volume; a stale lock left by a dead process is taken over; unmounting releases the lock.", "quantifier": "all lock-file contents, process states and orders of mounts", "why_tests_cant": "Process crashes and orders are unbounded.", "anchors": ["sources/full_format.cpp: RepoLocker"]}
{"id": "C52", "title": "Simple directory format round-trips", "statement": "The flat directory format used by the non-tree directory is written and read back as the same map for all names up to 255 bytes without NUL.", "quantifier": "all maps", "why_tests_cant": "Infinite domain.", "anchors": ["sources/files.cpp: SimpleDirectory::initialize, subflush, add_entry_impl, remove_entry_impl, get_entry_impl"]}
{"id": "C53", "title": "Locking two files never deadlocks", "statement": "Any number of threads that each lock pairs of files with the pair lock, in any argument order, cannot form a deadlock cycle, and locking a file with itself does not self-deadlock.", "quantifier": "all sets of threads and pairs", "why_tests_cant": "Schedules cannot be enumerated.", "anchors": ["sources/files.h: DoubleFileLockGuard"]}
{"id": "C54", "title": "Access times follow relatime", "statement": "When times are stored, a read updates the access time exactly when it is older (in seconds) than the modification or change time, a write sets modification and change time together, and an attribute change sets the change time only.", "quantifier": "all time stamps and operation histories", "why_tests_cant": "Time stamps are 64-bit values; histories are unbounded.", "anchors": ["sources/files.h: update_atime_helper, update_mtime_helper, update_ctime_helper"]}
{"id": "C55", "title": "A header is reported only if one was written", "statement": "Reading the header of a full-format file reports 'no header' until a header has been written, whatever happened to the content.", "quantifier": "all histories of content operations on a file whose header was never written", "why_tests_cant": "Depends on the order of content and header writes over all histories; tests always write a header first.", "anchors": ["sources/streams.cpp: AESGCMCryptStream::read_header, unchecked_read_header, write_multi_blocks"]}
{"id": "C56", "title": "Reading a symbolic link is exact", "statement": "Reading a symbolic link of the lite format with a buffer that has room for the target and a terminator returns exactly the target it was created with, terminated.", "quantifier": "all targets, keys and buffer sizes greater than the target's length", "why_tests_cant": "The stored form is longer than the target by an amount that depends on its structure; whether the internal buffer always suffices needs an argument over all targets.", "anchors": ["sources/lite_format.cpp: vreadlink, vsymlink, encrypt_path_for_symlink, decrypt_path_from_symlink"]}
{"id": "C57", "title": "The reported maximum name length is truthful", "statement": "Every name that is at most as long as the maximum reported by statfs has a backing name that fits the backing file system's limit; for the legacy translator the reported maximum is the greatest such length.", "quantifier": "all names, all limits of the backing file system, all thresholds and suffixes", "why_tests_cant": "Tests run on one backing file system with one limit and the default threshold.", "anchors": ["sources/lite_format.cpp: max_virtual_path_component_size, vstatfs"]}
{"id": "C58", "title": "Normalisation identifies exactly the paths with equal normal form", "statement": "With Unicode normalisation or case folding on, two paths that have normal forms are the same file exactly if their normal forms are equal, and a path that cannot be normalised is used as it is.", "quantifier": "all pairs of paths, all combinations of flags, any normalisation functions", "why_tests_cant": "The pairs of paths are unboundedly many.", "anchors": ["sources/lite_format.cpp: PathNormalizingNameTranslator"]}
{"id": "C59", "title": "All open handles of a lite file see one file", "statement": "However calls on several open handles of the same lite file are interleaved, including opening it again with or without truncation, they answer as calls on one byte array.", "quantifier": "all interleavings of opens, reads, writes, truncations and size queries on any number of handles", "why_tests_cant": "Tests use one handle at a time; the key of a handle is fixed when it is opened, so only interleavings with a truncating open go wrong.", "anchors": ["sources/lite_format.cpp: FuseHighLevelOps::open", "sources/lite_format.h: File", "sources/lite_stream.cpp: AESGCMCryptStream::AESGCMCryptStream"]}
{"id": "C60", "title": "The directories of the full format form a tree", "statement": "Between operations of a full-format file system every directory entry refers to an existing file of the type that the entry records, never to the root; only directories have entries; no directory has two names; names in a directory are different; and no file has more names than its link count.", "quantifier": "all histories of operations, including failing ones, evictions from the cache and removals of unlinked files", "why_tests_cant": "Unbounded histories; the damage of a wrong step shows only operations later.", "anchors": ["sources/full_format.cpp: create, vmkdir, vlink, vsymlink, vunlink, vrename, vrmdir", "sources/file_table_v2.cpp: create_as, close_internal"]}
{"id": "C61", "title": "Old JSON configurations and current ones are not confused", "statement": "A legacy configuration file (JSON in ASCII, starting with a brace, without the character |) is always rejected by the protobuf parser that is tried first and so reaches the JSON parser, and a current configuration is never given to the JSON parser.", "quantifier": "all texts and messages", "why_tests_cant": "The protobuf parser accepts a great many byte strings; tests try a few files.", "anchors": ["sources/params_io.cpp: decrypt(std::string_view, ...)", "protos/params.proto"]}
{"id": "C62", "title": "Configuration messages round-trip on the wire", "statement": "Every configuration message that the commands write is parsed back as the same message, including which optional fields are present.", "quantifier": "all parameter values", "why_tests_cant": "Infinite domain.", "anchors": ["protos/params.proto", "sources/commands.cpp: CreateCommand::execute", "sources/params_io.cpp: encrypt, decrypt"]}
{"id": "C63", "title": "Changing the suffix of long names keeps every name", "statement": "Migrating a lite volume to another suffix for long names leaves every file with a long name reachable by the same name under the new parameters; if it fails half way, the volume is still usable under the parameters that are stored, or the command can be repeated to finish.", "quantifier": "all directory trees, all tables of long names, all suffixes and all points of failure", "why_tests_cant": "The order in which directories are listed, nesting of long-named directories and the point of failure are unbounded.", "anchors": ["sources/lite_format.cpp: change_long_name_suffix", "sources/lite_long_name_lookup_table.cpp: list_hashes, update_mapping, remove_mapping, finish", "sources/common_platform.cpp: recursive_traverse"]}
{"id": "C64", "title": "An interrupted migration can be repeated", "statement": "If the machine stops while the migration command replaces the configuration file, then the old or the new configuration is in place in full, all other files are as they were, and running the command again succeeds.", "quantifier": "all crash points, configurations and credentials", "why_tests_cant": "Every system call boundary is a crash point.", "anchors": ["sources/commands.cpp: MigrateLongNameCommand::execute"]}
{"id": "C65", "title": "Extended attributes of the full format are a map", "statement": "The extended attributes of a full-format file behave as a map from names to values: every value, also the empty one, is read back exactly with every buffer that is large enough; flags, missing attributes and small buffers give the errors of the manual pages; listing shows every name once; a value changed, replaced or moved by someone who writes the backing files is refused; a call that fails changes nothing.", "quantifier": "all histories of get, set, remove and list; all names, values, flags and buffer sizes; all contents of the backing attributes; all refusals of the system", "why_tests_cant": "Histories, values and attackers are unbounded; the point of failure lies between two system calls.", "anchors": ["sources/files.cpp: FileBase::getxattr, setxattr, removexattr, listxattr", "sources/full_format.cpp: vgetxattr, vsetxattr, vremovexattr, vlistxattr", "sources/xattr_name.cpp"]}
{"id": "C66", "title": "The stored spelling of a path is found", "statement": "On a file system that ignores case, getpath answers with the names as they are stored in the directories if and only if every name is there and all but the last are directories; the answer leads to the same file; it is followed by a NUL and never written beyond the buffer; nothing changes; it never reads memory that has been given back, whatever other threads do meanwhile. (The last clause is violated, by other threads and, for deep paths, without any.)", "quantifier": "all states between operations, all paths, all buffer sizes, all comparisons of names that are equivalences; all interleavings", "why_tests_cant": "Trees, names and interleavings are unbounded; a dangling pointer usually still shows the old bytes.", "anchors": ["sources/full_format.cpp: FuseHighLevelOps::vgetpath", "sources/btree_dir.cpp: BtreeDirectory::get_entry_impl"]}
{"id": "C67", "title": "The kernel gets the right answer", "statement": "Every request that libfuse passes on runs the operation of the file system exactly once and is answered with its return value, or with the negative error number of the exception it threw; no exception of the code escapes or is reported as success. The objects wrapped around a file system for a mount (idle timer, sensitive logging, unmounting) change no answer and no state for any request other than those for the mount itself, and those never reach the file system.", "quantifier": "all file systems, all requests with all arguments, all outcomes, all log levels, all combinations of the wrappers", "why_tests_cant": "There are thirty-one functions, each forwarded by hand through up to four classes; a swapped argument or a missed class of exception shows only for the right operation and failure.", "anchors": ["sources/fuse_high_level_ops_base.cpp: FuseHighLevelOpsBase::static_*, build_ops, DelegateFuseHighLevelOps, SpecialIoctlFuseHighLevelOps, SpecialFiledFuseHighLevelOps", "sources/fuse_tracer_v2.h: FuseTracer::traced_call", "sources/fuse_hook.h: HookedFuseHighLevelOps", "sources/internal_mount.cpp: make_fuse_high_level_ops"]}
{"id": "C68", "title": "The log does not reveal contents", "statement": "Without the option for sensitive logging, the lines logged for a call do not depend on the contents of any file, link or extended attribute, at any level. Above the level Trace nothing is logged for calls that succeed or fail in an expected way, and every unexpected failure is logged once.", "quantifier": "all requests, all memory contents, all outcomes, all log levels", "why_tests_cant": "That the log does not depend on the contents is a statement about pairs of executions for all contents.", "anchors": ["sources/fuse_tracer_v2.cpp: FuseTracer::print, print_function_starts, print_function_returns, print_function_exception", "sources/fuse_high_level_ops_base.cpp: FuseHighLevelOpsBase::static_*"]}
{"id": "C69", "title": "Serving and shutting down", "statement": "With any number of worker threads: no request that was received is abandoned half-way when the file system is unmounted; the end of any worker, a signal and the request to unmount are always noticed; the shutdown then neither hangs nor takes unboundedly many steps, and all threads end; the result says whether receiving has failed; the process is never aborted; there is always a thread that receives requests.", "quantifier": "all numbers of workers, all interleavings, all moments of a signal, all results of receiving", "why_tests_cant": "The bad interleavings need a thread that is not scheduled between its creation and the shutdown; cancellation of threads is practically untestable.", "anchors": ["sources/fuse2_workaround.cpp: worker_loop, self_pipe_signal_handler, clean_exit_fuse, my_fuse_main"]}
{"id": "C70", "title": "Operations on names and attributes are exact (full format)", "statement": "For create, mkdir, symlink, link, unlink, readlink, chmod, chown, utimens, getattr and open of the full format, the result and the next state are exactly those of an ideal file system, which is a map from identifiers to files: the names, contents, owners, permissions and link counts that the operation is about change as asked and nothing else does; a failed operation changes nothing; what was made is found at its path, and a symbolic link reads back as its target.", "quantifier": "all states between operations of a sequential history, all paths, modes, owners, targets and buffer sizes", "why_tests_cant": "The effect on everything else (the frame) and the error paths of every operation have to be checked in every reachable tree.", "anchors": ["sources/full_format.cpp: create, vcreate, vmkdir, vsymlink, vlink, vunlink, vreadlink, vchmod, vchown, vutimens, open_base, open_all", "sources/files.h: Directory::add_entry, Symlink::get, Symlink::set"]}
{"id": "C71", "title": "The password that is used is the one that was meant", "statement": "create, mount, info and chpass take the same password for the same arguments and input: the argument if one is given, a fixed stand-in if there is only a key file, otherwise one line of the input, all of it and nothing more; too long a line is refused and never cut; with confirmation on a terminal two different lines are refused; chpass takes the old and the new password from two successive lines.", "quantifier": "all arguments, all inputs of any length, terminals or pipes", "why_tests_cant": "A password that is taken differently by two commands locks the user out; it depends on combinations of arguments, line endings and lengths.", "anchors": ["sources/commands.cpp: SinglePasswordHolder::get_password, ChangePasswordCommand::parse_cmdline", "sources/unix.cpp: read_password_no_confirmation, read_password_with_confirmation"]}
{"id": "C72", "title": "create makes the volume that was asked for", "statement": "create succeeds exactly for valid arguments; the volume that it writes is then opened with the same credentials by the other commands and has the sizes, keys and options asked for; it can store files; no existing file is changed, neither of this nor of another volume; after an error nothing is left behind.", "quantifier": "all arguments, random values, contents of the machine, and failures of writing", "why_tests_cant": "Needs the composition of argument handling, key derivation, encryption and the wire format, for all values.", "anchors": ["sources/commands.cpp: CreateCommand, get_real_config_path_for_reading", "sources/params_io.cpp: encrypt, decrypt"]}
{"id": "C73", "title": "info shows no keys", "statement": "What info prints without --unmask is independent of all keys of the volume, and otherwise shows the configuration unchanged; with --unmask it shows all of it.", "quantifier": "all volumes, all keys, any printer", "why_tests_cant": "Independence of the secret is a statement about pairs of executions.", "anchors": ["sources/commands.cpp: InfoCommand::execute"]}
{"id": "C74", "title": "A mount in the background is the mount that was asked for", "statement": "A mount in the background sets up exactly what the same arguments set up in the foreground; the child receives the whole message on its standard input and keeps the open files of the parent; the command reports success exactly when the mount is there and failure exactly when the child has ended, and it ends.", "quantifier": "all arguments, volumes, descriptor tables, sequences of partial writes and of answers of waitpid", "why_tests_cant": "The message between the processes must carry everything for all values; the failures depend on descriptors and signals inherited from the caller.", "anchors": ["sources/commands.cpp: MountCommand::build_internal_mount_data, MountCommand::execute, ProtoMountCommand", "sources/unix.cpp: execute_child_process_with_data, POSIXChildProcess::exit_code", "sources/internal_mount.cpp: internal_mount", "protos/params.proto: InternalMountData"]}
{"id": "C75", "title": "The options of a mount have the effect that is documented", "statement": "A volume made by create is mounted with each key in its own role and with the sizes and the comparison of names asked for; checking is on unless --insecure is given; each option of mount has its documented effect in both formats, and an invalid value is refused.", "quantifier": "all volumes, all arguments, all types of the file system below", "why_tests_cant": "A key used in the wrong role or an option that is silently ignored shows in no ordinary test.", "anchors": ["sources/internal_mount.cpp: make_full_format_fuse_high_level_ops, make_lite_format_fuse_high_level_ops, params_to_dir_name_comparison", "sources/commands.cpp: build_internal_mount_data, should_use_ino"]}
{"id": "C76", "title": "The command that runs is the one that was named", "statement": "The first argument selects the command of which it is the long name or the letter, and no other; anything else prints the usage; arguments are never read beyond their end.", "quantifier": "all arguments", "why_tests_cant": "Reading one byte beyond an argument has no visible effect on most systems.", "anchors": ["sources/commands.cpp: commands_main"]}
{"id": "C77", "title": "An open file of the full format is a plain file", "statement": "From its creation on, whatever is read, written, truncated, changed in the attributes, flushed, or closed and opened again, a file answers as a plain sequence of bytes with plain attributes; after a flush its two backing files hold all of it. This holds with and without stored times and with every padding that leaves room for data, except the largest number of 32 bits.", "quantifier": "all volumes, identifiers, histories of calls with their times, states of the random generator", "why_tests_cant": "Keys, blocks, headers, padding and attributes are separate parts that are tested one by one; a disagreement between them shows for some sizes, paddings and orders only.", "anchors": ["sources/files.cpp: FileBase::FileBase, FileBase::flush, FileBase::stat", "sources/files.h: RegularFile", "sources/streams.cpp: PaddedStream, AESGCMCryptStream"]}
{"id": "C78", "title": "Every file and every purpose has its own key", "statement": "The keys of a file for contents, metadata, attributes and padding are the pieces that RFC 5869 gives for the master key and the identifier; equal keys of different files or purposes mean a collision of HMAC; each key serves one algorithm; the padding is at most what was asked for and depends on nothing else.", "quantifier": "all master keys, identifiers, paddings", "why_tests_cant": "That keys coincide shows in no behaviour of the program.", "anchors": ["sources/files.cpp: FileBase::FileBase", "sources/crypto.cpp: hkdf"]}
{"id": "C79", "title": "Files of the full format behave as files through their handles", "statement": "open, create, read, write, truncate, stat, opendir and readdir return and do what the ideal file system says. A handle stays one of its file whatever happens to its names; reading through it gives what the writes and truncations of this file made of it, and nothing else changes contents. Writing sets the times of change and reading, where due, the time of access of this file alone. A listing has every entry once, with the number and the type of its file and of the directory above. Closing a handle gives the object back.", "quantifier": "all states between operations of a sequential history, paths, handles, offsets, lengths, contents, histories of other operations", "why_tests_cant": "That an operation leaves the contents of all other files alone, and that a handle survives any sequence of renames, links and removals, are statements about all states and sequences.", "anchors": ["sources/full_format.cpp: vopen, vcreate, vread, vwrite, vtruncate, vftruncate, vgetattr, vfgetattr, vopendir, vreaddir, vrelease", "sources/files.h: RegularFile", "sources/files.cpp: FileBase::stat", "sources/myutils.h: to_inode_number"]}
{"id": "C80", "title": "What was there at an fsync is there after a crash", "statement": "When fsync has returned and nothing more is written, a crash of the machine leaves backing files that open, with the contents that the file had at the fsync.", "quantifier": "all histories before the fsync, all contents a crash may leave of backing files that were changed after they were written to the disk", "why_tests_cant": "Tests do not crash the machine; the backing files look right as long as the process that holds the rest of the state is alive and flushes later.", "anchors": ["sources/files.h: FileBase::fsync", "sources/full_format.cpp: vfsync", "sources/lite_format.cpp: vfsync", "sources/streams.cpp: HMACStream"]}
{"id": "C81", "title": "A mounted lite volume behaves as a plain tree of files", "statement": "Start with an empty directory and make any calls, any of which the host may refuse. Each call returns what it returns on a plain tree of files with the names, contents and link targets as given by the user: the same error number, attributes, bytes and targets, and in a listing the same names. This holds with each of the name translators, with names longer than the limit of the host, through renames, hard links, removals and open handles.", "quantifier": "all finite histories of calls with all arguments and refusals, all keys and random numbers, all orders in which the host lists directories", "why_tests_cant": "The state is a tree, a set of tables of long names and open handles; tests reach a few of the histories, and the errors are in unusual combinations, such as a rename onto a directory that was emptied or onto another name of the same file.", "anchors": ["sources/lite_format.cpp: FuseHighLevelOps", "sources/lite_format.cpp: process_possible_long_name", "sources/lite_format.cpp: DirectoryImpl", "sources/lite_long_name_lookup_table.cpp", "sources/unix.cpp: OSService"]}
{"id": "C82", "title": "The stream with a write cache is transparent", "statement": "A write-cached stream over any delegate answers every history of calls as the delegate alone does, fails exactly where it fails, and leaves the delegate in the same state.", "quantifier": "all delegates with any behaviour and errors, all capacities, all histories", "why_tests_cant": "Tests compare contents after some random writes over one delegate; errors in the middle and states of the delegate between the calls are not compared.", "anchors": ["sources/streams.cpp: WriteCachedStream", "sources/streams.h: WriteCachedStream"]}
{"id": "C83", "title": "The store of backing files is atomic under threads", "statement": "Threads open, create and remove the pairs of backing files of a volume of the full format, one system call at a time. The operations behave as if each happened at one moment: an identifier has both files or neither, opening finds them or fails with ENOENT, creating makes two new files or fails with EEXIST, no thread loses the directory in which it creates a file to another one, files of other identifiers and foreign files are never touched, and when no thread is at work no empty directory is left. Also when a system call fails.", "quantifier": "all numbers of threads, all interleavings of their system calls that the mutexes of the shards allow, both layouts, both orders of evaluation of the arguments of make_pair, all directories to start from that hold a volume and any other files", "why_tests_cant": "The race between removing the last file of a directory and creating another one there needs a switch between two particular system calls; tests would hardly ever hit it.", "anchors": ["sources/file_table_v2.cpp: FileTableIOVersion1", "sources/file_table_v2.cpp: FileTableIOVersion2", "sources/file_table_v2.cpp: FileTable::find_shard", "sources/unix.cpp: OSService"]}
{"id": "C84", "title": "A directory in its encrypted file is a set of entries with attributes", "statement": "A directory of the full format, that is the B-tree in pages of an encrypted, authenticated and padded file with its root and free list in the encrypted header, answers every history of additions, removals, lookups, listings, changes of attributes, flushes, rebuildings and reopenings as a finite set of entries with plain attributes. After a flush its backing files hold all of it. Flushing and refused calls change nothing that a user can see.", "quantifier": "all histories with valid arguments and no more entries than fit, all orders on names, all states of the random generator, all contents of uninitialised buffers, all iteration orders of the cache, with and without padding and stored times", "why_tests_cant": "Tests use the directory over unencrypted memory or over one volume for some thousand random names, and never compare times before and after a flush.", "anchors": ["sources/btree_dir.cpp: BtreeDirectory", "sources/files.h: Directory", "sources/files.cpp: FileBase::flush", "sources/files.cpp: FileBase::FileBase"]}
{"id": "C85", "title": "A volume of the full format is a plain file system", "statement": "A mounted volume of the full format keeps every file, directory and symbolic link in encrypted, authenticated, padded backing files of its own, some of them in memory with unsaved changes, some closed but cached, some only on disk. Whatever operations are done to it through paths and handles, and whenever objects are flushed, closed, thrown out of the memory and read back, or the volume is unmounted and mounted again, all answers are those of a plain file system without any of this. Nothing but operations changes a file or a name, and the backing files of a file without names are removed once nobody holds it.", "quantifier": "all histories of operations, releases, closings, evictions, remounts and clock ticks, one operation at a time; all primitives with the assumed laws, block and padding sizes, orders on names, states of the random generator, iteration orders of the caches", "why_tests_cant": "Which objects are in memory, dirty, closed or evicted at a moment depends on the whole history; evictions happen only with more than fifty closed objects in a shard, and tests remount at few points.", "anchors": ["sources/full_format.cpp: FuseHighLevelOps", "sources/file_table_v2.cpp: FileTable", "sources/files.cpp: FileBase", "sources/btree_dir.cpp: BtreeDirectory", "sources/full_format.h: FuseHighLevelOps"]}
{"id": "C86", "title": "A failing call damages only what it covers", "statement": "When system calls below an open file fail, at whatever moment, because the disk is full, the device has errors, or a write stops halfway, the call of the user is reported as failed and may spoil the blocks that it covers, but no others: everything else keeps its content and can be read, written, truncated and extended as before. Spoilt blocks can be replaced as a whole. The file can be closed and opened again with all intact blocks.", "quantifier": "all open files with any content, all sequences of reads, writes, truncations and extensions, all patterns of failing system calls, errors and lengths of partial writes, all primitives with the assumed laws, both formats", "why_tests_cant": "Tests run on a file system with free space and no errors; a failure has to hit one of several system calls of one call, after a certain number of bytes.", "anchors": ["sources/streams.cpp: BlockBasedStream", "sources/streams.cpp: HMACStream", "sources/streams.cpp: AESGCMCryptStream", "sources/lite_stream.cpp: AESGCMCryptStream", "sources/unix.cpp: UnixFileStream"]}
{"id": "C87", "title": "Threads that use one file of the lite format at once get the answers of some order", "statement": "When locking is enabled, or a file is opened only once, any number of threads may open a file of the lite format, create it by opening it, read, write, truncate and extend it and ask for its size, through any handles and at the same time: what they see is what they would see if each call took effect at one moment between its beginning and its return, on a plain byte array (linearizability). If system calls fail, a call that fails is one whose own system calls failed or that needs a block spoilt by one, and may spoil only the blocks that it covers. No thread waits for ever, and exceptions leave no lock behind.", "quantifier": "all files new or with any content, all numbers of threads and handles, all schedules between system calls, all calls, all failures of system calls and of flock, all primitives with the assumed laws", "why_tests_cant": "Races need an interruption between two particular system calls of two calls; the number of schedules is exponential, and failures add to it.", "anchors": ["sources/lite_format.h: File", "sources/lite_format.cpp: FuseHighLevelOps::vread, vwrite, vftruncate, vtruncate, vopen, vcreate", "sources/lock_guard.h: LockGuard", "sources/lock_enabled.cpp", "sources/unix.cpp: UnixFileStream::lock, unlock", "sources/lite_stream.cpp: AESGCMCryptStream"]}
{"id": "C88", "title": "Times of files on Windows keep their instant", "statement": "The conversions between the file times of Windows and the times of POSIX keep the instant: reading a file time gives the same instant, setting what was read changes nothing, setting any time from 1601 on stores the last multiple of 100 ns that is not after it, and what is read is a valid timespec with 0 ≤ tv_nsec < 10^9.", "quantifier": "all 64-bit file times below 2^63, all timespecs", "why_tests_cant": "Tests on Windows set the current time only; no test has times before 1970 or far in the future.", "anchors": ["sources/win.cpp: filetime_to_unix_time, unix_time_to_filetime, convert_dword_pair"]}
{"id": "C89", "title": "A child process on Windows gets the arguments that were passed", "statement": "Splitting the command line that is passed to CreateProcessW, by the rules of the C runtime or of CommandLineToArgvW, gives back the list of arguments, whatever bytes they contain: blanks, quotation marks, backslashes anywhere, nothing at all.", "quantifier": "all programs with a file name as name, all lists of arguments, both rules for doubled quotation marks", "why_tests_cant": "Quoting goes wrong for particular sequences of backslashes and quotation marks; tests try random ones on Windows only.", "anchors": ["sources/win.cpp: OSService::win_quote_argv, OSService::execute_child_process_with_data"]}
{"id": "C90", "title": "Joining a path to the data directory gives the path below it", "statement": "A relative path joined to an absolute directory gives the components of both, with '.', empty components and '..' resolved, in a form the kernel of Windows does not change any more; without '..' it stays below the directory; the root is its own parent; joining in two steps is joining at once. No string view into the buffer dangles. On Unix it is the path after the directory and one slash.", "quantifier": "all directories and paths", "why_tests_cant": "Tests have a dozen paths; that a vector is not moved while it is appended to depends on the lengths of all of them.", "anchors": ["sources/win.cpp: OSService::is_absolute, OSService::concat_and_norm", "sources/unix.cpp: OSService::is_absolute, OSService::concat_and_norm"]}
{"id": "C91", "title": "Files on Windows are plain files", "statement": "Reading and writing any number of bytes at any position, also more than 4 GiB in several calls with 32-bit lengths and halved offsets, is reading and writing a byte array. Opening with any flags creates, truncates, keeps or refuses as in POSIX. Every error code of Windows becomes a non-zero error number.", "quantifier": "all contents, offsets and lengths below 2^64, all flags that POSIX defines, all error codes", "why_tests_cant": "Tests do not read or write 4 GiB at once, and see few errors.", "anchors": ["sources/win.cpp: WindowsFileStream", "sources/win.cpp: WindowsException::error_number"]}
{"id": "C92", "title": "Directories and symbolic links on Windows are those of POSIX", "statement": "Reading an open directory gives each name that was there when it was opened or last rewound once, in every order of calls. A symbolic link is read back as it was set, and its size is the length of its target. Attributes do not depend on whether they come from a listing or a file.", "quantifier": "all directories, histories of readings and rewindings with changes in between, all targets", "why_tests_cant": "Tests rewind no directory, and the targets they use contain no backslash.", "anchors": ["sources/win.cpp: WindowsDirectoryTraverser", "sources/win.cpp: prepend_symlink_prefix, remove_symlink_prefix, OSService::readlink, stat_file_handle"]}
{"id": "C93", "title": "Threads keep the tables of long names in step with the directories", "statement": "Several threads create, remove, move and list entries with long names at once. Whatever the schedule, tree and tables change as if the calls were made one at a time, each at some moment between its beginning and its end, and the calls return what they return then. In particular the full name of every entry with a long name is on disk in the table of its directory, except while a call on that very entry is under way.", "quantifier": "all numbers of threads, programs, directories and tables, all interleavings of system calls, statements and locks of SQLite, all failures of system calls", "why_tests_cant": "What is lost depends on the exact order in which several threads get the locks of a database; tests run one thread, or a few without control over the order.", "anchors": ["sources/lite_format.cpp: process_possible_long_name, vrename, vrmdir, DirectoryImpl::next", "sources/lite_long_name_lookup_table.cpp"]}
{"id": "C94", "title": "Calls on long names do not block each other", "statement": "Whatever threads have done on the tables of long names, their calls can be finished without one of them waiting for a lock until its timeout, and no call fails because another one happens to be under way.", "quantifier": "all numbers of threads, programs and reachable states", "why_tests_cant": "A deadlock needs two threads to take the locks of two databases at the same moment in opposite orders.", "anchors": ["sources/lite_format.cpp: vrename", "sources/lite_long_name_lookup_table.cpp: LongNameLookupTable, DoubleLongNameLookupTable"]}
{"id": "C95", "title": "What is stored shows positions, lengths and IVs only", "statement": "The files in the storage are put together from ciphertexts, tags, IVs and zeros. The sizes of the files, the IVs and which blocks are zeros are the same for all histories of calls with the same positions and lengths; the bytes written go into the cipher (and into the MAC over what is stored) and nowhere else, and a block is stored as zeros only if no bytes were written to it.", "quantifier": "all contents, histories of reading, writing, resizing, reopening and header writing, all ciphers and generators of random numbers, lite and full format", "why_tests_cant": "A test compares some ciphertexts with the plaintext; that nothing depends on the contents needs all pairs of histories.", "anchors": ["sources/lite_stream.cpp: AESGCMCryptStream", "sources/streams.cpp: BlockBasedStream, AESGCMCryptStream, HMACStream"]}
{"id": "C96", "title": "No IV is used twice", "statement": "Whatever was stored at two moments of a history under one IV is the same block of the file (or its header) with the same bytes, as long as the generator of random numbers does not repeat itself. In particular a block that is written again, zero-filled, cut or joined gets a new IV, and header and blocks of a file of the full format, which share a key, never share an IV.", "quantifier": "all histories and all pairs of moments in them, lite and full format", "why_tests_cant": "A repeated IV gives no wrong result that a test could see; it has to be excluded for every pair of writes.", "anchors": ["sources/lite_stream.cpp: AESGCMCryptStream::write_multi_blocks", "sources/streams.cpp: AESGCMCryptStream::write_multi_blocks, unchecked_write_header", "sources/streams.cpp: BlockBasedStream"]}
{"id": "C97", "title": "I/O errors in directories of the full format", "statement": "When reading or writing the file of a directory fails, the call that met the failure reports its error, no call that returns has met one, and the call has done nothing: the directory keeps the entries it had, and the call can be repeated. (Violated by additions that split the root, by additions to a full node, by the rebuild of a directory that has shrunk, and by removals from a node that gets too short.)", "quantifier": "all histories, all subsets of the calls on the file that fail, each having taken effect or not; any state for the reporting of errors", "why_tests_cant": "No test makes a call on the file fail; the failure has to hit one call among those of one operation in a suitable state.", "anchors": ["sources/btree_dir.cpp: insert_and_balance, remove_entry_impl, balance_up, find_sibling, rebuild, mutable_recursive_iterate, flush_cache, subflush", "sources/btree_dir.cpp: allocate_page, retrieve_node, find_node"]}
{"id": "C98", "title": "Walking the backing files visits each of them once", "statement": "recursive_traverse calls its function exactly once for every entry below the directory, at any depth, with the right directory, name and type, until the function fails; it succeeds only if every directory could be opened and read to its end. migrate-long-name therefore accepts exactly the volumes without symbolic links, and keeps the backing name of every existing file; changing the suffix finds every table of long names. (Violated on hosts that answer DT_UNKNOWN: the contents of directories are skipped without any error.)", "quantifier": "all trees, all functions, all places where opening or reading fails; all keys, names and suffixes", "why_tests_cant": "Tests run on one file system, which fills d_type; the depth and shape of trees and the places of failures are unbounded.", "anchors": ["sources/common_platform.cpp: OSService::recursive_traverse", "sources/unix.cpp: UnixDirectoryTraverser", "sources/commands.cpp: MigrateLongNameCommand::execute", "sources/lite_format.cpp: change_long_name_suffix"]}
{"id": "C99", "title": "A file that cannot be written back costs nobody any changes", "statement": "Changes of a file live in memory until it is closed. If writing back fails, the changes stay in memory where every later opening finds them, are never evicted, and are written by the next closing or by unmounting once writing works; the failure changes no other file, open or stored, and costs no other file its changes. (Violated: if the root cannot be written when its last user is done, or any file at unmounting, the exception leaves a destructor; the process ends and the unsaved changes of the other files are lost.)", "quantifier": "all schedules of all threads, all files and values, all places where writing back fails and everything it may leave behind", "why_tests_cant": "No test makes the backing storage fail; whether a change is lost depends on which other files are open, on eviction, and on which flush fails.", "anchors": ["sources/file_table_v2.cpp: FileTable::close", "sources/file_table_v2.cpp: FileTable::close_internal", "sources/file_table_v2.cpp: FileTable::~FileTable", "sources/file_table_v2.cpp: FileTableCloser::operator()"]}
{"id": "C100", "title": "Contents stay with their name and version on a storage that is not honest", "statement": "Whatever a storage without the keys does to the backing files while the volume is not mounted, each later call gives what it would give had the storage done nothing, or an error. (Violated: in the lite format the storage can exchange files and links, bring back old versions of files or of single blocks, copy, move and remove names, and every later call answers as a plain tree to which the same was done; in the full format an old version of a file can be brought back. What holds: all contents and names that are shown come from trees that were there.)", "quantifier": "all keys, all histories of calls and times between mounts, all sequences of changes made by the storage out of all states it has seen, all three translators of names", "why_tests_cant": "A test tries one exchange of two files; that no sequence of such changes is ever noticed, and what is still guaranteed, is a statement about all of them.", "anchors": ["sources/lite_format.h: FuseHighLevelOps", "sources/lite_format.cpp: NewStyleNameTranslator", "sources/lite_stream.cpp: AESGCMCryptStream", "sources/lite_long_name_lookup_table.cpp: LongNameLookupTable", "sources/streams.cpp: HMACStream"]}
{"id": "C101", "title": "Each call on names takes effect at one moment", "statement": "However the calls of several threads on names of the full format overlap, each call changes names at one of its own moments at most, in the directory to which its path has led it component by component, and its answer is true at that moment: a name that it made was not there and is there afterwards, a name that it removed was there and is not, a name that it reports missing was missing, a directory that it removed was empty at a later moment of the call, and everything else is untouched. A call that fails at any place has changed names at one moment at most, and with most errors at none. Calls that overlap are as good as one after the other. (The last sentence is violated: mkdir in a directory and rmdir of the directory can both succeed, and a path can be found that never led anywhere.)", "quantifier": "all states, all numbers of threads with any calls, all interleavings of their sections, all evictions, removals of backing files and failures in between", "why_tests_cant": "The interleavings of the lock-protected sections of a few calls are too many to try, and a wrong one is rarely hit; that every call has exactly one moment of effect in all of them needs a proof over sections.", "anchors": ["sources/full_format.cpp: generic_open", "sources/full_format.cpp: open_base", "sources/full_format.cpp: create", "sources/full_format.cpp: vrename", "sources/full_format.cpp: vrmdir", "sources/full_format.cpp: vlink", "sources/files.h: FileLockGuard"]}
{"id": "C102", "title": "Older versions of single files of a full-format volume", "statement": "A full-format volume is mounted and unmounted again and again. Each time the storage may present for every identifier the pair of backing files as it was at any earlier unmounting, or none. A mixture that the volume never held is noticed when the volume is mounted or used. (Violated: every mixture mounts, and every answer is that of the plain file system made of these old files; a missing root becomes an empty one.) Metadata accepted for one identifier is not accepted for another one unless the HMAC of two different messages is the same.", "quantifier": "all keys and parameters within the limits, all numbers of sessions, all histories of operations in them, all choices of the storage at every mounting", "why_tests_cant": "Tests mount what was unmounted; what an arbitrary mixture of old files does over any later history is not a finite set of cases.", "anchors": ["sources/file_table_v2.cpp: FileTable", "sources/files.cpp: FileBase::FileBase", "sources/streams.cpp: HMACStream", "sources/full_format.cpp: FuseHighLevelOps"]}
{"id": "C103", "title": "Warning about keys that are not random", "statement": "popcount gives the number of bits that are ones, for every buffer, and never reads outside its table. The warning about a key is given exactly if at most one eighth or at least seven eighths of its bits are ones. A key of 32 bytes drawn at random is warned of with a probability below 2^-115, and a key that is a repeated pattern is warned of. (The last clause is violated: a repeated byte with two to six ones is not warned of.)", "quantifier": "all byte strings; all lengths n for the count of keys that are warned of", "why_tests_cant": "No test draws 2^115 keys, and a wrong number in a table of 256 is seen only with a key that has that byte.", "anchors": ["sources/myutils.cpp: popcount", "sources/myutils.cpp: warn_if_key_not_random"]}
{"id": "C104", "title": "One line at the prompt, one action", "statement": "get_user_input_until_enter takes one line, up to the first CR or LF, and gives it without the blanks at both ends; the end of the input is never taken for a command. respond_to_user_action ends for every input, runs the action of the first line that names one and no other, and complains once about each line before it. Lines that end with CR LF are lines like others. (The last clause is violated: an empty line is seen behind each of them.)", "quantifier": "all inputs, all sets of actions", "why_tests_cant": "Inputs are unbounded; the cases differ in where blanks, line ends and the end of input fall.", "anchors": ["sources/myutils.cpp: get_user_input_until_enter", "sources/myutils.cpp: respond_to_user_action"]}
{"id": "C105", "title": "Calls of the full format never block each other for ever", "statement": "Whatever the callbacks of the full format meet, they lock the mutexes of shards, files, parents' identifiers and the log in one order, take two files only with std::lock while holding nothing, use data only under its mutex, and end holding nothing. So whatever calls run at once, unless all have ended some thread can go on, at every moment all can still end, and no thread ever waits for a mutex of its own. (Violated if memory runs out in open_as: the holder is destroyed under the mutex of the shard, which its destructor locks again.)", "quantifier": "all sets of concurrent calls, all files, links, failures and last holders that they meet, all interleavings", "why_tests_cant": "A deadlock needs one interleaving out of unboundedly many, and the order of destructors on rare failures.", "anchors": ["sources/full_format.cpp: all callbacks, generic_open, open_base, open_all, create", "sources/file_table_v2.cpp: open_as, create_as, close, close_internal, ~FileTable", "sources/files.h: FileLockGuard, DoubleFileLockGuard, set_parent_id, get_parent_id", "sources/logger.cpp: log"]}
{"id": "C106", "title": "Calls on contents take effect at one moment; calls on handles are serial", "statement": "However the sections of concurrent calls are interleaved, a call of the full format that returns has changed the contents of at most one file, at one of its own moments: write, ftruncate, truncate and open with O_TRUNC as asked for, symlink those of the new link, all others none. A call that throws, fails or is still going on has changed no contents, nor does anything but calls, except that files without names are removed. read gives the contents of its moment, fgetattr their size. Reads, writes and ftruncates on handles of one file are as good as one after the other, in an order that keeps that of calls which did not overlap.", "quantifier": "all states, calls, numbers of threads, interleavings, failures and evictions", "why_tests_cant": "The interleavings are unbounded, and a torn write or a lost one shows only in few of them.", "anchors": ["sources/full_format.cpp: read, write, ftruncate, truncate, open, symlink, fgetattr and all other callbacks", "sources/files.h: RegularFile::read, write, truncate, Symlink::set"]}
{"id": "C107", "title": "Threads on an encrypted volume are threads on a plain file system", "statement": "A volume of the full format is used by any number of threads at once. Their sections are interleaved in any order; between any two of them objects are flushed, closed, dropped from memory and read back from their encrypted backing files, threads fail, and the volume is unmounted when nothing is under way. At each time the operations are where those of a plain file system with the same history are: under way, or ended with the same answers or exceptions; and the objects in use are those that the caller and the operations under way hold. This holds up to the first event that exceeds a limit, if there is one. So what is proved of threads on the plain file system (C60, C101, C106) holds for the encrypted volume.", "quantifier": "all volumes, keys and sizes of blocks, all histories with all interleavings, failures and evictions", "why_tests_cant": "Interleavings and evictions are unbounded, and each may meet any state of the caches and of the backing files.", "anchors": ["sources/full_format.cpp: all operations, generic_open, open_base, open_all, create", "sources/file_table_v2.cpp: open_as, create_as, close, close_internal", "sources/files.h: FileLockGuard, DoubleFileLockGuard"]}
{"id": "C108", "title": "Reads and writes of concurrent threads on an encrypted file are serial", "statement": "Calls of read, write and ftruncate through handles on a file of an encrypted volume, executed by any number of threads at once, give the answers, and the bytes, that they give one after the other on a plain sequence of bytes, in an order in which each call that had returned before another one was started comes before it. Meanwhile other calls may go on, and other objects may be closed, dropped and read back from encrypted backing files.", "quantifier": "all volumes, histories, numbers of threads and interleavings within the limits", "why_tests_cant": "A stale block or a torn write shows only under few of unboundedly many interleavings.", "anchors": ["sources/full_format.cpp: read, write, ftruncate", "sources/files.h: RegularFile", "sources/streams.cpp: BlockBasedStream, AESGCMCryptStream", "sources/file_table_v2.cpp"]}
{"id": "C109", "title": "Modes and owners change at one moment; what is told was true at one moment", "statement": "Under any interleaving of threads, chmod and chown change the bits of the mode that they may change, or the owners they are given, of the one file that the path leads to, at one moment; a file that is made has its mode and its owners before it has a name; no other call, and no call that has not returned, changes any mode or owner of a file that exists. What getattr, readlink, readdir and the other calls tell (type, mode, owners, number of links and size together; target; names) is what was true at one single moment of the call, on a plain file system and on an encrypted volume.", "quantifier": "all calls, states, numbers of threads, interleavings and failures between sections", "why_tests_cant": "A mixture of two states shows only under few of unboundedly many interleavings.", "anchors": ["sources/full_format.cpp: vchmod, vchown, vgetattr, vfgetattr, vreadlink, create, DirectoryImpl", "sources/files.h: set_mode, set_uid, set_gid, stat, FileLockGuard"]}
{"id": "C110", "title": "Calls of threads on an encrypted volume take effect at one moment", "statement": "Any number of threads call operations of an encrypted volume at once, while objects are dropped and read back from encrypted files. There is one history of the plain file system in which each call that has returned has changed the names, the contents, and the mode or owners as it should, each at one of its own moments, and has answered what was true at one of them; in which each call that has not returned has changed names at no more than one moment, and no contents; and in which a call that has been refused has changed what may be changed before it is refused.", "quantifier": "all volumes, keys, histories, numbers of threads, interleavings, failures and evictions within the limits of the format", "why_tests_cant": "Interleavings, evictions and failures are unbounded, and so are the states of the caches and backing files they meet.", "anchors": ["sources/full_format.cpp: all operations", "sources/files.h", "sources/file_table_v2.cpp", "sources/streams.cpp", "sources/btree_dir.cpp"]}
{"id": "C111", "title": "All calls on the contents of a file are serial, also those that find it by a path", "statement": "Calls of read, write and ftruncate through handles, truncate by path, and open with O_TRUNC, executed by any number of threads at once while others rename, link, remove and look up the file, have for its contents the effect, and give the answers and the bytes, that some of them have one after the other: all calls through handles that have returned, and those by path that have found the file. All other calls leave the contents alone at all of their moments. A call that had returned before another one was started comes before it. The same holds on an encrypted volume.", "quantifier": "all calls, files, histories, numbers of threads, interleavings and failures", "why_tests_cant": "Which file a path leads to depends on unboundedly many interleavings with renames; a lost or torn truncation shows only under few of them.", "anchors": ["sources/full_format.cpp: vtruncate, vopen, vread, vwrite, vftruncate, open_all", "sources/files.h: RegularFile::truncate"]}
{"id": "C112", "title": "The manual that doc prints is complete and in order, and failure never looks like success", "statement": "For all declarations of options, doc writes, for each command that is not hidden, a title with its names and then one line for each of its options, with the name, the flag, the description and the default value, exactly once: positional arguments first, then the others, each in the order of declaration, without those that TCLAP adds; then it returns 0. It fails exactly if an option that it has to show is of a class that it does not know. No option of the program is, no two options of a command have the same name or flag, and the defaults shown are those that create and mount use. The usage lists every command that is not hidden. The program ends with status 0 exactly if a command has returned 0.", "quantifier": "all lists of commands and of declared options of all classes, all texts, all ways in which a command ends", "why_tests_cant": "A test of the text sees the options of today only; the order rests on numbers that interleave two sequences and must never meet, for every number of options.", "anchors": ["sources/commands.cpp: DocCommand::execute, commands_main, print_usage", "sources/commands.h: CommandBase"]}
{"id": "C113", "title": "Calls of the lite format never block each other for ever", "statement": "Whatever the callbacks of the lite format meet, they take the mutexes of handles of directories, of tables of long names and of handles of files, the locks of backing files and the lock of the log in one order, use data only with its lock, and end with none. So whatever calls run at once, unless all have ended some thread can go on, at every moment all can still end, and no thread ever waits for a lock of its own. (Violated if a transaction does not begin in a listing: the mutex of the table stays locked, the exception is swallowed, and the next long name waits for it for ever with the handle locked.)", "quantifier": "all sets of concurrent calls, all names, files, locks refused and transactions failed that they meet, all interleavings", "why_tests_cant": "A deadlock needs one interleaving out of unboundedly many, or a rare failure between two steps of a guard.", "anchors": ["sources/lite_format.cpp: all callbacks, open, process_possible_long_name, DirectoryImpl::next", "sources/lite_format.h: File, Directory, LockGuard<File>", "sources/lite_long_name_lookup_table.h: lock, unlock", "sources/lite_long_name_lookup_table.cpp: begin, finish", "sources/unix.cpp: UnixFileStream::lock, unlock", "sources/logger.cpp: log"]}
{"id": "C114", "title": "Paths of the full format lead where POSIX says", "statement": "Between operations, a path that ends with a name leads in the full format to the file to which POSIX pathname resolution leads, over directories and symbolic links nested less than sixteen deep, and it finds nothing where POSIX finds nothing. (Violated for absolute targets of links, which are followed from the directory of the link, reachable by link(2); for `..` after a file that is no directory; for paths that end with a dot; and in the error number of a path over a file.)", "quantifier": "all reachable volumes, all trees and links, all paths", "why_tests_cant": "Trees, nestings of links and detours are unbounded, and the kernel resolves most of them itself before the code sees them.", "anchors": ["sources/full_format.cpp: generic_open, open_base, open_all, vlink"]}
{"id": "C115", "title": "Changes show in the times of a file (full format, --store_time)", "statement": "Whenever the contents of a file or the entries of a directory change, its times of modification and of change are those of the clock; whenever its mode, its owner or its number of links changes, its time of change is; no call but the one for this sets times to anything else; and a program that sees the same time of modification (or of change) twice, while the clock does not show this time again and nobody sets times, sees the same contents (and mode and owner). (Violated: taking one of several links away does not show; a call that fails without effect sets the times of the directory; after utimens the time of change may be what it was although the contents changed.)", "quantifier": "all states, all calls, all interleavings of sections of any number of threads, failures and evictions at any place, all readings of the clock", "why_tests_cant": "A change that does not show is missed only by a later backup or build; it needs the right interleaving and the right call, and there are unboundedly many.", "anchors": ["sources/files.h: update_atime_helper, update_mtime_helper, update_ctime_helper, set_mode, set_uid, set_gid, set_nlink, unlink", "sources/files.cpp: utimens, initialize_empty", "sources/full_format.cpp: vwrite, vtruncate, vcreate, vunlink, vlink, vrename, vchmod, vchown"]}
{"id": "C116", "title": "The names in directories of the full format are legal and different", "statement": "No name in a directory has a slash or more than 255 bytes, and no two names in one directory are the same on this mount; none is empty, `.` or `..`. (The last is violated for calls on `/` and on paths that end with a dot, which the kernel does not make: mkdir of `/` succeeds and adds an empty name.)", "quantifier": "all states, all paths, all interleavings of sections of any number of threads, failures and evictions at any place", "why_tests_cant": "Paths are unbounded and can have any slashes and dots; two threads that add the same name have to interleave section by section.", "anchors": ["sources/full_format.cpp: open_base, create, vlink, vrename", "sources/files.h: add_entry"]}
{"id": "C117", "title": "Inode numbers tell files apart (full format)", "statement": "Two paths show the same inode number exactly if they lead to the same file. (Violated for files whose random identifiers begin with the same eight bytes, since only these make the number; it holds if no two do.)", "quantifier": "all reachable volumes between operations, all pairs of paths", "why_tests_cant": "A collision needs two identifiers out of 2^64 beginnings; whether anything else makes numbers equal or different cannot be sampled.", "anchors": ["sources/myutils.h: to_inode_number", "sources/files.cpp: stat"]}
{"id": "C118", "title": "What is stored has the layout that other versions know", "statement": "The configuration is a protobuf message of the published schema (field numbers and types of params.proto, default values left out); the header of a file of the full format has its numbers at the published offsets, least significant byte first; records of flat directories are 256 bytes of name, 32 of identifier and 4 of type; free pages of directories hold their links at the published places; the files of the full format lie at the published paths (first byte of the identifier, then the rest, in hexadecimal, or five pieces in the first format); names and targets of links of the lite format are base 32 of the synthetic IV of RFC 5297 and then the ciphertext, long names the same of their hash with a suffix; attribute values are IV, ciphertext and tag.", "quantifier": "for all parameters, headers, records, identifiers, names, targets and values", "why_tests_cant": "A test that writes with the code and reads with the same code passes as well if both sides change alike; volumes written by earlier versions would no longer open. Only a statement of the layout apart from the code, for all values, excludes it.", "anchors": ["protos/params.proto", "sources/files.h", "sources/files.cpp", "sources/btree_dir.cpp", "sources/file_table_v2.cpp", "sources/lite_format.cpp", "sources/params_io.cpp"]}
{"id": "C119", "title": "SQLite is used as its documentation says, and the table of long names holds what it is told", "statement": "Whatever SQLite answers to the calls of a table object from its constructor to its destructor, each call is one that the documentation allows: statements are prepared before use and destroyed once, after use; every parameter is bound before a step, and columns are read only at a row; the connection is closed once, after all statements, also if opening it failed. A function of the table or a constructor returns only if each call did what it should, and otherwise throws the code of a call that did not. If SQLite gives the rows that its statements ask for, then lookup gives the name that is stored, listing gives each key, update adds a row unless there is one, and remove takes it out; and the functions under one lock take effect all together or, if one of them or something else fails, not at all.", "quantifier": "for all answers of SQLite to all calls, all kinds of tables, all sequences of sections of functions with all arguments", "why_tests_cant": "Tests meet a SQLite that does not fail. Misuse after an error (a statement that is left when the connection is closed, a column read without a row) shows only for particular answers at particular calls, and there are unboundedly many sequences of them.", "anchors": ["sources/sqlite_helper.cpp", "sources/sqlite_helper.h", "sources/lite_long_name_lookup_table.cpp", "sources/lite_long_name_lookup_table.h"]}
{"id": "C120", "title": "Guards give back the locks that they take", "statement": "A thread that takes mutexes with LockGuard, for writing, in scopes nested as they like (no mutex within itself), makes only calls that the documentation of the mutex allows and has given everything back in the end, whether an exception was thrown or not; exceptions are neither swallowed nor added. A UniqueLock, however it is constructed and whatever its member functions are called, makes only calls that are allowed, says truly whether it has the mutex, and gives it back; if it is released last, the mutex is left to the caller as it was.", "quantifier": "for all nestings of scopes with exceptions anywhere, all sequences of calls of member functions, all answers of try_lock", "why_tests_cant": "The sequences of scopes, exceptions and answers of try_lock are unbounded, and a mutex that is given back wrongly seldom shows at once.", "anchors": ["sources/lock_guard.h"]}
{"id": "C121", "title": "On a terminal passwords are not shown, its settings are put back, and colours end with their line", "statement": "While a password is read from a terminal, nothing that is typed is shown; afterwards the settings of the terminal are those of before, also if the two passwords differ, and only the line has been taken from the input. Each colour has an escape sequence that terminals understand; lines of the log have the colour of their level, and after each line the terminal has its own colour again; on other streams there are no escape sequences.", "quantifier": "for all that is typed, all settings, all kinds of standard streams, all sequences of lines of the log", "why_tests_cant": "Tests have no terminal; and what is typed and logged is unbounded.", "anchors": ["sources/unix.cpp", "sources/common_platform.cpp", "sources/logger.cpp", "sources/platform.h"]}
{"id": "C122", "title": "Streams are for the file that they were opened for, and no descriptor is lost", "statement": "Whatever a program opens, closes, uses and destroys, in whatever order, and whichever free descriptors the system gives again: each stream, directory and service reaches the file that it was opened for and no other; after close its calls are refused; a descriptor is never closed for another object; at any time there is exactly one descriptor for each open object, and when all are gone the table of descriptors is as it was at the start. The limit of descriptors is never lowered, and the limit that is told is the one in force.", "quantifier": "for all sequences of operations on all objects, all tables of descriptors at the start, all choices of free descriptors and failures by the system, all limits", "why_tests_cant": "Closing a descriptor twice harms only when another file has got the same number meanwhile; sequences and choices of the system are unbounded.", "anchors": ["sources/unix.cpp", "sources/platform.h"]}
{"id": "C123", "title": "Passwords do not stay in memory", "statement": "When mount serves a volume, and when another command ends, the memory of the program tells nothing of the password but its length: it is the same for any two passwords of that length. This holds for passwords that are typed once or twice, that do not match, or that are too long, and for passwords given as options.", "quantifier": "for all passwords, all memory before, all ways to give a password", "why_tests_cant": "Tests see what functions return, not the memory that they leave behind; and that two runs leave the same is a statement about pairs of all passwords.", "anchors": ["sources/unix.cpp", "sources/commands.cpp"]}
{"id": "C124", "title": "Keys and ids are values, and tables of ids are maps", "statement": "A copy of a key or an id is equal to it; two are equal exactly if all their bytes are; one made from a pointer has the bytes there, or an exception is thrown if there are not exactly as many as needed. A table whose keys are ids, with their hash and their comparison, is a map from ids to values, whatever is inserted and erased. Checked casts give the same number or throw.", "quantifier": "for all keys and ids, all contents of memory before, all sequences of insertions and removals, all numbers of chains, all integers", "why_tests_cant": "A comparison that ignores bytes, or a hash that does not fit it, shows only for particular pairs among 2^256 ids.", "anchors": ["sources/myutils.h", "sources/file_table_v2.h"]}
