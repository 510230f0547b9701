# Formal model of s3ql/s3ql in Lean 4 — design

## Technique

Each modelled part of the code is a shallow, total, computable Lean function (or a
`step : State → Op → State × Out` machine) that follows the Python source branch by branch,
with exceptions as values.  Every definition cites the file and lines it models.  Properties are
stated in `Props` files against small `Spec` definitions that do not use the model's helpers, and
are proved for all inputs / states / histories.  Where the code violates a property the negation
is proved with a concrete witness, and the strongest true part is proved under the suffix
`_partial`.

Layout (`/verif/lean/Verif/<Area>/`): `Model.lean` (code), `Spec.lean` (specification),
`Lemmas.lean` (helpers), `Props.lean` (property theorems + satisfiability examples).

## Trusted base

* Lean 4.33.0's kernel.  Axioms allowed: `propext`, `Classical.choice`, `Quot.sound`.  No own
  axioms, no `sorry`, no `native_decide`, no `bv_decide`.
* The reading of the Python source by the author: nothing in this sandbox executes /repo.
* Outside the model: CPython, trio's scheduler (modelled as: tasks interleave only at `await`),
  SQLite (modelled as: rows in lists/functions, statements are atomic, UNIQUE constraints, AUTOINCREMENT
  ids increase), the OS file system (rename atomic), the network stack h11/httpcore, compression
  libraries, the ciphers and hash functions (abstract parameters with stated hypotheses).
  Python integers are unbounded (`Nat`/`Int`); floats are not modelled except where stated.

## Plan per property

| Id | Modelled | Proof |
|----|----------|-------|
| C01 | `_readwrite`, `read`, `write`, size handling in `setattr`, `CacheEntry` over a block map | refinement to `List UInt8`-style byte array by induction over operations |
| C02 | the same with cache / object store / backend and upload, evict, drop, download steps | refinement with invariant relating cache, rows, objects |
| C03–C06, C53 | small-step transition system of `upload_if_dirty`, `_do_upload`, `_deref_obj`, `remove`, `get`, `evict`, one step per await-free segment, any number of tasks | invariant preserved by each step |
| C07 | `MultiLock` as step machine | invariant |
| C08 | doubly linked list nodes + dict; `mutable_values` cursors | representation invariant + refinement to ordered association list |
| C09 | ring cache + attrs dict + database | refinement to a map |
| C10–C13 | metadata object store, upload/download/expire, VFS write tracker, name format | invariants / refinement / round trip |
| C14, C15 | mount/fsck/adm protocol with crash points and several machines | invariants; negation witnesses where violated |
| C16–C25 | relational database state with the fs.py operations | invariants, frame theorems, refinement |
| C26–C28 | packet stream over abstract cipher and MAC; `_verify_meta` | round trip; authenticity from MAC hypothesis |
| C29–C31, C34 | encoders over characters/bytes | injectivity, round trip |
| C32, C33 | directory walk; marker protocol | exactness |
| C35–C37 | retry loop, download loop, ring buffer | induction over outcome sequences |
| C38–C40 | body streaming, pool, header dictionary | induction, invariant, refinement |
| C41 | the four `delete_multi` implementations; for Swift with feature detection, retries and the bulk middleware of the server | induction over batches, attempts and outcomes |
| C42–C44 | fsck checks as functions on database states | post-conditions |
| C45, C46 | `process_backups`, `format_list` | simulation lemma; denotation |
| C47 | pipeline as channel transition system | invariant |
| C48 | tmp-file/rename protocol with crash points and interleavings | invariant; witness |
| C49, C51, C56–C58 | decision logic | direct |
| C50 | LRU order and timestamps | invariant |
| C52 | verify worker | exactness |
| C54 | drop interleavings | witness + partial |
| C55 | batch manager and the connection it shares with other tasks | invariant over all schedules |
| C59 | the transition system of C03 with what each task waits for | well-founded measure on waiting |
| C60 | every fs.py request with its uncaught exceptions as a result | case analysis under the invariants of C16 |
| C61 | attributes before and after every request | frame theorem per request |
| C62–C64 | all fsck checks in order, with the cache directory and the backend | composition of per-check post-conditions |
| C65 | master key printing and parsing, `recover-key` | round trip |
| C66 | the tables of the Fs model as input of the Fsck model | the invariants of C16–C22 and C67 imply `Clean`, then C63; what is stored: invariants of the System model |
| C67 | the requests of C16 with the checks of the kernel's VFS layer as hypotheses | invariant: a rank on directories, one entry per directory, types |
| C68 | percent-encoding and the request targets of all HTTP backends; servers as decoders of targets and bodies | the server's decoding inverts the encoding |
| C69 | signature versions 2 and 4 with abstract cryptography; servers as verifiers written after the documentation | the canonical request computed from what is received is the signed one; invariant for the cached key |
| C70 | the file of C01 with cached, stored and damaged blocks; reads and writes as tasks whose steps are block accesses | ghost history of each read; invariant relating errors to damage |
| C71 | the same transition system | invariant: each byte is old or from an accepted write; comparison with sequential stores |
| C72 | the models of C01, C02 and C14 put together: requests on the block cache, whose tables are in the database that travels through the storage | one invariant that joins the three; refinement to one array of bytes per file |
| C73 | functions of os.path on texts, the path walk of the kernel, the checks of the three commands and what they send | walks as a deterministic relation; textual normalisation without `..` keeps where a path leads |
| C74 | cache directories on all computers in the model of C72 | invariant: the directory on every computer whose metadata are as new as those in the storage is valid |
| C75 | write_fh and delete of the network backends with retries, against a server and a connection that lose, refuse and damage requests | case analysis of one request, induction over the requests; witnesses for all contents |
| C76 | the whole model up to the crash, what fsck finds then, and the model of fsck | the invariants of C72 and the post-conditions of the checks of fsck, combined per block; witness |
| C77 | the block cache as for C02, `start_flush` and the part of `copy_tree` that gives objects to a new file | the specification of C02 with the contents registered for storing; invariant of `start_flush`; witnesses |
| C78 | `open_backend` on top of the encryption layer, with a storage chosen by an adversary | C28 twice, for the master key and for the data; witness for a storage without the passphrase object |
| C79 | `Fsck.check` as a whole, `resolve_free`, `escape`, `get_path` | relation between the tables before and after, kept by each of the nineteen checks; a directory in place is reached from the root, so that check_loops does not move it |
| C80 | `CacheEntry` on a file of the operating system with its own position, writes that are cut short | refinement to a file with a position, induction over the calls |
| C81 | `HTTPConnection` with the states of h11, and a server that reads the bytes sent to it as HTTP prescribes | invariant over all histories: what has been received or will be sent by the server belongs to the pending request; the server waits for exactly the bytes that are still to be sent |
| C82 | `blocking_umount` against a daemon and a process table that change between any two system calls | case analysis of one poll, induction over the polls |
| C83 | `statfs` with its cached figures over histories of changes and clock readings; `extstat`, `SUM` of SQLite, `struct.pack` and `unpack` | arithmetic of rounding; invariant: the cached figures come from an earlier call; round trip of the packed figures |
| C84 | swift.py `_borrow_conn`, `_do_authentication_expired`; gs.py `_ensure_token`: step machines with any number of tasks, locks and limiters | invariants over all schedules, on the log of logins, requests and rejections |
| C85 | contrib/pcp.py: the patterns given to each rsync, and rsync's filter rules as the environment | every name is matched by exactly one process, by induction over the tree |
| C86 | block_cache.py `evict`, mount.py `_determine_max_cache_entries` | termination by a measure; the rest by induction over the loop |
| C87 | mount.py `_expand_fstab_options`, `determine_threads` | the loop over options against the meaning of each option |
| C88 | mount.py `MetadataUploadTask`, as a step machine with requests, timeouts and changes | invariant over all histories |
| C89 | mount.py `main_async` with its exit stack, signals and cancelled tasks | case analysis over all failures, with any uploads failing |
| C90 | adm.py `upgrade` with interruptions between all writes; metadata blocks as stored | completed runs against what a mount downloads; interrupted ones by the checks of the next run |
| C91 | common.py `is_mounted` on lines as the kernel writes them; adm.py `clear` | fields of lines; induction over histories of mounts and over batches |
| C92 | the system of C72 on one computer, crashes as in C76, and the tables that fsck leaves as the start of the next mount | fsck re-establishes the invariant of C72 from any crash; each block is right or gone; induction over histories |
| C93 | `%d`, `repr` of byte strings and strings, the part of `literal_eval` that reads them (anything else: arbitrary), setxattr on the control file, log levels | reading inverts writing; case analysis; invariant over log commands |
| C94 | answers as status, body and Retry-After; error classes, mapping to missing objects and is_temp_failure of the three services, inside retry | case analysis over services and operations; whole calls by the theorems about retry (C13) |
| C95 | regular expressions for storage URLs and proxy settings as parsers; which connections each backend makes, given what servers answer; the steps of connecting | parsing inverts writing; case analysis over backends; induction over catalogs |
| C96 | the whole command fsck.s3ql: choice of metadata, question, old cache, exit status, with exceptions at any step, around the model of the check | case analysis of the command, composed with the theorems C42, C43 and C63 about the check |
| C97 | expire_backups.py with interruptions after any subset of deletions and between the renames, and --reconstruct-state | the simulation does not change if backups are left out that it does not keep; relaxed invariant of C45 by induction over histories; counterexamples for the rest |
| C98 | `fsync` on the file system of model System with the sizes in the database, `flush_id` on the inode cache of model Inode | every step keeps the row or makes it what the attributes are; invariant that the size in the database is the size of the file while no request changes it, then the theorem about fsck of C76; counterexample for fdatasync |
| C99 | `LogFilter.filter`, the handlers of `setup_logging` and `Logger.callHandlers`; `ConsoleHandler.emit` and a terminal | what the filter knows after any sequence of records, by induction; simulation between what is written to a terminal and a small specification of the screen; counterexample for two destinations |
| C100 | `main` and `mount` of mount.s3ql up to the upload of the parameters, the hook for exceptions, `open_raw_backend`, `open_backend`, what the backends ask when they are created, `get_metadata` | the table of the manual as a predicate on everything the start depends on; case analysis shows both directions; counterexamples for the situations in which exceptions are not translated |
| C101 | `verify_metadata_snapshots` on the worlds of the metadata protocol (C10, C14) | which versions are looked at is characterised by the number of newer versions; a new invariant (some version survives the deletions in progress) shows that there always is one; success follows from C10, failure by the witness of C10 |
| C102 | the script as a sequence of commands, each with a success, a failure and an interruption with partial results; the backups as a map from times to contents and immutability | invariant by case analysis over the point at which a run ends, induction over runs; witnesses for the violated parts |
| C103 | parse_suboptions on character lists, the known options of each backend, the headers, timeout, region and login that follow from them | round trip of a rendered list of options with arbitrary padding, by induction; the effects stated in terms of what is mentioned; witnesses for the violated parts |
| C104 | the text file (line ends, lines, rstrip), the loop over the keys with a result for each deletion | induction over the entries of the file and over the deletions; the request for a blank line by C68 |

Status of every item is kept in MANIFEST.json.

## Axioms

`AXIOMS.md` lists, for every theorem named in MANIFEST.json, the axioms it depends on (output of
`#print axioms`).  They are always a subset of `propext`, `Classical.choice`, `Quot.sound`.

## What is modelled

Lines refer to /repo/src/s3ql unless another directory is given.  "Model" is the Lean directory or
file under `lean/Verif`.

| Source | Modelled functions | Model |
|---|---|---|
| block_cache.py 45-141 | `CacheEntry` (read, write, truncate, flags) | FileData, Cache, Cache/Entry |
| block_cache.py 200-886 | upload workers, `upload_if_dirty`, `_deref_obj`, `_queue_or_transfer`, removal queue, `get`, `_get_entry`, `evict`, `remove`, `flush_local`, `drop` (limits), `_lock_entry`, `_unlock_entry` | Cache, Sync/DropLimits |
| mount.py `CommitTask` | one pass over the LRU list | Sync/Commit |
| _linked_dict.py | all of `LinkedDict` including `mutable_values` | Sync/LinkedDict |
| multi_lock.py | all of `MultiLock` | Sync/MultiLock |
| inode_cache.py | `_Inode`, `InodeCache` (get, create, del, evict by ring, flush, drop, destroy) | Inode |
| fs.py 1372-1380; inode_cache.py 264-266; block_cache.py 843-851 | `fsync` | System/Fsync, Inode/Sync |
| fs.py 130-1400 | lookup, getattr, readlink, opendir/readdir, xattrs, lock_tree, remove_tree, copy_tree, unlink, rmdir, symlink, rename, `_rename`, `_replace`, link, setattr, mknod, mkdir, create, open, read, write, release, forget, destroy (inode part), failsafe flag | Fs |
| fs.py 1180-1370 | `read`, `write`, `_readwrite`, size part of `setattr` on file contents, also interleaved and with damaged objects | FileData |
| fs.py 979-1013, 1231-1370; mount.py 273-442 | the same on the block cache of model Cache and the metadata protocol of model Meta; start and end of serving requests, with `load_cache` and `destroy` (block_cache.py 297-338) and the removal of outdated cache directories (mount.py 605-611) | System |
| database.py 105-150, 870-1386 | `FsAttributes`, metadata block names, upload, download, expire, parameter files | Meta, Codec/MetaName |
| database.py 375, 606-652 | `batch`, `Batched` | Sync/Batch |
| _sqlite3ext.cpp 124-197 | write tracking of the VFS | Meta/Model |
| mount.py 273-442, 577-614, 725-778; fsck.py 1314-1491; adm.py 329-351, 511-582; mkfs.py 209-242 | order of reads and writes of parameters and metadata in mount, unmount, periodic upload, fsck, shrink-db, restore-metadata, mkfs, with a crash between any two | Meta/Proto |
| fsck.py 127-1240 | `check` and all checks it calls | Fsck |
| common.py 332-398 | `freeze_basic_mapping`, `thaw_basic_mapping` | Codec |
| common.py 426-484 | `ParallelPipeline` | Sync/Pipeline |
| backends/common.py | `RateTracker`, `retry` and `is_temp_failure` handling, `checksum_basic_mapping`, `delete_multi` default | Backend, Codec/Checksum |
| backends/comprenc.py | `ComprencBackend` read, write, lookup, `_verify_meta`, packet encryption and decryption, compression streams | Comprenc |
| backends/local.py | escape, unescape, `_key_to_path`, `list`, `write_fh`, `readinto_fh`, `lookup`, `delete` | Local |
| backends/s3c.py, s3c4.py, s3.py, gs.py, swift.py | header encoding of metadata, listing loops, `delete_multi`, download loop with restarts | Codec/Headers, Backend/Listing, Backend/DeleteMulti, Backend/Body |
| backends/s3c.py 247-256, 393-443; swift.py 433-486, 552-615; gs.py 336-356, 460-510 | `write_fh`, `delete` with retries and failing requests | Backend/Store |
| backends/s3c.py 598-690, s3c4.py 101-246, swift.py 438-446, 664-724, gs.py 341-445, http.py 468-487 | request targets, bulk delete bodies, signatures, with the text of the headers | Backend/Address, Backend/Sign, Backend/SignText |
| remove.py 53-66, cp.py 58-98, lock.py 52-61, common.py 168-208 | s3qlrm, s3qlcp, s3qllock; `os.path` functions and the path walk of the kernel as the environment | Tools/Cmd |
| backends/__init__.py, mkfs.py 118-259, adm.py 145-232 | `open_backend` (key handling), mkfs, passphrase, recover-key, master key text form | Tools/Admin, Tools/MasterKey |
| http.py 399-534, 982-1068, `CaseInsensitiveDict` | request bodies, connection pool, header dictionary | Backend |
| swift.py 318-474, 939-951; gs.py 317-330, 525-570, 609-668 | logins and tokens with concurrent tasks; the exchange with the login server is one step | Backend/Auth, Backend/Token |
| http.py 235-315, 381-876 | `HTTPConnection`: requests, responses, reading, reuse, with the states of h11 | Backend/Exchange |
| parse_args.py 192-216, 286-304 | storage URL canonicalisation, cache file names | Tools/Url |
| authinfo.py | all of it except the terminal prompt | Tools/Authinfo |
| umount.py 74-187 | `blocking_umount`, `lazy_umount`, `get_cmdline` with `/proc` | Tools/Umount |
| fs.py 1037-1111, statfs.py 66-86, block_cache.py 896-922 | `statfs`, `extstat`, `s3qlstat` without formatting and percentages | Tools/Stat |
| verify.py 55-311 | the workers, the report, the start offset | Tools/Verify |
| contrib/expire_backups.py | `process_backups`, `format_list`, the state file; interrupted runs (a backup whose deletion was interrupted counts as not deleted); `--reconstruct-state` with times in microseconds | Expire |
| backends/swift.py 612-786, 847-935, 983-1000 | bulk deletion with retries, feature detection; the bulk middleware as its documentation describes it | Backend/SwiftBulk |
| logging.py 63-100, 166-173, 276-307 | filter of messages, handlers, updates in place on a terminal; texts are given, threads are not modelled | Tools/Messages |
| common.py 226-256 | `pretty_print_size`, for sizes below 2^53 | Tools/Size |
| mount.py 226-366, 443-449, 577-614; logging.py 104-131, 150-208, 233-254; backends/__init__.py 41-171; `create` of all backends | order of the checks at the start, exceptions and exit statuses; services are described by five facts | Tools/MountStart |
| fsck.py 1415-1446, 1517-1561 | verification of metadata backups; without revision check and `PRAGMA integrity_check` | Meta/Verify |
| contrib/s3ql_backup.sh 1-60 | the whole script; the commands are the environment; contents of backups are of any type | Contrib/BackupScript |
| backends/config.py 12-31, backends/__init__.py 59-75, known_options of all backends, s3.py 169-183, swiftks.py 104-166, http.py 448-449 | parsing, acceptance and effects of backend options; `int` on strings is a parameter; a login with several colons is not modelled | Backend/Options |
| contrib/remove_objects.py 65-69, verify.py 254-285 (`print`) | reading the list and the deletions; each deletion is done or fails before or after its effect | Contrib/RemoveObjects |
| contrib/pcp.py 54-90 | arguments of each rsync; rsync itself by its filter rules | Contrib/Pcp |
| block_cache.py 742-786; mount.py 453-480 | making room in the cache, number of entries | Cache/Evict |
| mount.py 527-576, 634-684 | fstab options, number of threads | Tools/MountOpts |
| fsck.py (as above), mount.py 329-420 | tables after fsck as the start of a mount | Fsck/Rows, System/Crashes |
| s3c.py 214-245, 247-442, 483-557, 754-918; swift.py 277-313, 449-618, 780-842; gs.py 107-160, 314-514, 655-675; backends/common.py 725-745 | meaning of answers, error classes, temporary failures | Backend/Answer |
| fs.py 281-345, 1412-1424; common.py 284-325; cp.py 97; remove.py 66; lock.py 61; ctrl.py 41-119; logging.py 161-199 | control messages, log levels | Tools/Control |
| s3c.py 101-205; s3.py 62-165; b2ng.py 35-170; gs.py 231-316, 590-612; swift.py 206-404; swiftks.py 57-244; rackspace.py 21-46; backends/common.py 546-582; http.py 235-390 | storage URLs, proxies, connections and encryption | Backend/Endpoint |
| fsck.py 1250-1498, database.py 123-147, 1297-1330 | the whole command fsck.s3ql; partial effects of a failing step are left out, except for the check | Fsck/Command |
| mount.py 306-442 | start and end of the process; the main loop is any change of the data | Tools/MountEnd |
| adm.py 352-506 | the upgrade; parameters other than sequence number, revision and sizes are left out | Tools/Upgrade |
| common.py 59-84; adm.py 237-296 | mount table, clear | Tools/Guard |
| mount.py 690-786; fs.py 301-306 | metadata uploads while mounted; contents counted in changes | Meta/Backup |

## What is not modelled

* FUSE (pyfuse3), its caches, and the kernel; requests arrive as calls of the methods of
  `Operations`.
* SQLite itself: statements are atomic functions on rows; the file level of the database is
  a sequence of positioned writes (Meta).  Its own crash recovery is assumed to work.
* The SHA-256, HMAC, AES, scrypt and compression code (parameters with stated laws).
* TLS, DNS, sockets and h11: the HTTP code is modelled at the level of request, body and response. Backend/Exchange has the states of h11 as its documentation describes them; the parsing of heads and chunks is not modelled.
* XML and JSON parsing of server replies; the messages of OAuth and Keystone logins.
* The command-line parsers (except fstab options), logging, daemonising, the parts of umount.py for systems without `/proc`.
* Power loss (as opposed to the death of a process), except that the database log survives.
* Floating point numbers: object metadata may contain them as opaque values; times are integers.
* Short writes and out-of-space errors of the local disk, except in Local/Write and Cache/Entry.

Simplifications of single definitions are stated in the comment at that definition.

## Violations found

Each is proved as a theorem with a concrete witness, next to the `_partial` theorem that says what
does hold.

| Property | Theorem | What happens |
|---|---|---|
| C03, C04 | `C03_violated_by_failing_hand_over`, `C04_violated_by_failing_hand_over` | if handing a block to the upload workers raises, the object row stays without data and one reference is leaked |
| C04 | `C04_violated` | a block that equals one being uploaded becomes clean at once; if that upload fails its data is lost |
| C07 | `C07_cancelled_release` | a `release` that is cancelled while it waits leaves the key locked for ever |
| C07 | `C07_nowait_can_fail_on_free_key` | `acquire_nowait` reports a busy key while another task is inside the lock |
| C09 | `C09_stale_object_loses_assignment` | an assignment through an inode object that is no longer cached is lost |
| C10 | `C10_untracked_change` | a crash just after the NFS index changed makes the next incremental upload inexact |
| C12 | `C12_holes` | blocks of the database file that were never written are not uploaded |
| C14 | `C14_stale_fsck`, `C14_stale_log`, `C14_interrupted_restore` | three histories after which old metadata is used without a warning |
| C15 | `C15_stuck`, `C15_assertion` | a crash between two writes at unmount leaves a file system that needs `--force` |
| C16–C19 | `removexattr_destroys_entry`, `removexattr_destroys_xattr`, `removexattr_breaks_count` | removing an attribute that is not set drops a reference of the name; other entries with that name can vanish |
| C16, C60 | `unlink_ctrl_breaks_links`, `unlink_ctrl_crashes` | unlinking the control file |
| C17 | `setxattr_leaks_name` | replacing an attribute leaks a reference of its name |
| C20 | `rmdir_leaks_inode` | a failing rmdir keeps the inode open until unmount |
| C22 | `locked_file_removed`, `locked_link_changes`, `locked_cptree_changes` | ways to change a locked tree |
| C23 | `rmtree_ctrl_crashes` | s3qlrm of the control file name |
| C23 | `rmtree_stale_crashes`, `rmtree_stale_loses_file`, `rmtree_renamed_crashes`, `rmtree_follows_moved` | s3qlrm acts on rows that it has read before other requests ran: if an entry was removed, replaced or renamed in the meantime, mount.s3ql crashes or a file loses its entry; a directory that was moved out of the tree is emptied all the same |
| C24 | `cptree_target_removed`, `cptree_target_clash`, `cptree_source_removed` | while s3qlcp runs the target is removed (the copies are unreachable), an entry of the same name is created in it (crash), or an open source file is deleted and closed (crash) |
| C24 | `cptree_stale_name` | an open source file is deleted while s3qlcp flushes its blocks: the copy gets an entry with a name that does not exist |
| C24 | `cptree_root_xattr` | extended attributes of the source directory are not copied |
| C28 | `C28_nul_key_swap`, `C28_same_clock_mix` | authentication input is ambiguous for NUL in keys; equal clock values allow mixing objects |
| C29 | `C29_violated` | checksum input is not injective with NUL characters |
| C30 | `C30_rejection_violated` | a literal that is not a dict raises AttributeError |
| C31 | `C31_dotdot_not_escaped` | keys `.` and `..` |
| C32 | `C32_violated` | `list(prefix)` of the local backend with some prefixes |
| C33 | `C33_swift_short_page` | a short page ends the listing |
| C34 | `C34_space_at_chunk_boundary` | a space at a chunk boundary makes an invalid header |
| C35 | `C35_server_delay_uncapped` | Retry-After exceeds the cap |
| C36 | `C36_gs_violated` | a retried Google Storage download ignores the offset |
| C38 | `C38_excess_item_ignored` | excess body parts are dropped silently |
| C39 | `C39_unclean_idle` | a connection with a cut-off body counts as idle |
| C41 | `C41_swift_violated`, `C41_s3_error_keeps_deleted` | reports of failed bulk deletes |
| C42–C44 | `C42_name_captured`, `C43_wrong_attribute_renamed`, `C44_object_left`, `C44_reported_again` | cases fsck does not repair in one run |
| C48 | `C48_same_thread_mixed`, `C48_short_write_damages` | temporary file names are per thread; short writes are not noticed |
| C49 | `C49_percent_crash` | a percent sign in authinfo2 |
| C51 | `C51_root`, `C51_b2_two_names` | root directory as local storage; B2 URLs with and without slash |
| C54 | `C54_violated_by_overlap`, `C54_violated_by_failure` | the cache limit stays zero |
| C55 | `C55_second_pass_fails`, `C55_first_pass_fails` | two tree commands at the same time: one fails |
| C58 | `C58_plain_after_interrupted` | mkfs --plain after an interrupted encrypted mkfs |
| C62 | `C62_dirty_block_lost` | fsck trusts a row whose upload was not complete |
| C66 | `C66_replaced_xattr`, `C66_long_name`, `C66_no_lost_found`, `C66_deep_tree` | fsck reports errors after a clean unmount: an extended attribute was replaced, a name has more than 255 bytes, lost+found was removed; a tree deeper than Python's recursion limit ends fsck with an exception |
| C67 | `rename_trusts_kernel` | not a violation: the code relies on the kernel not to move a directory below itself |
| C68 | `C68_wrong_bucket`, `C68_prefix_of_endpoint`, `C68_prefix_of_amazon` | a bucket whose name is the beginning of the host name (`s3c://backup.example.com/backup`) is taken for virtual-hosted, so all requests go to another bucket |
| C68 | `C68_delete_multi_cr` | a carriage return in the prefix becomes a line feed in multi-object deletions |
| C69 | `C69_v4_plain_http` | version 4 without TLS on port 80 (`s3://` with `no-ssl`): `host:80` is signed and `host` is sent, every request is rejected |
| C70 | `C70_failed_truncate_changes_size`, `C70_truncate_of_lost_block_crashes` | truncating a file whose last block is damaged: the size changes although EIO is reported; a lost object ends mount.s3ql |
| C71 | `C71_truncate_splits_a_write` | not a violation: the code relies on the kernel not to truncate a file while it is written |
| C73 | `C73_rm_link` | s3qlrm of a symbolic link to a directory removes the entry with the name of the link beside the directory it points to, and everything in it |
| C73 | `C73_cp_dotdot` | s3qlcp with `link/../name` as target creates the directory on one file system and sends its inode number to another one, which copies into an unrelated directory |
| C74 | `C74_restore` | restore-metadata and fsck leave a cache directory in place that belongs to newer metadata; files then show its blocks |
| C75 | `C75_old_object_deleted` | after an upload that was damaged in transit and refused by the server, the S3 backend deletes the old object |
| C75 | `C75_swift_damaged` | the Swift backend does not compare digests of uploads, contrary to its comment: damage goes unnoticed without encryption |
| C76 | `C76_upload_lost` | a crash while a block is being uploaded: fsck removes the cache file, which was the only copy |
| C77 | `C77_forgotten`, `C77_forgotten_stale`, `C77_checksum`, `C77_upload_fails` | s3qlcp of files with unsaved blocks: the copy is empty or outdated if the kernel has forgotten the file, or if the commit task is computing a checksum at that moment; it is damaged if an upload fails later |
| C78 | `C78_dropped` | if the storage has no passphrase object, a configured passphrase is ignored: plain objects are accepted and new data are stored unencrypted |
| C60 | `deep_rmdir_crashes`, `deep_rmdir_witness` | `rmdir` of a directory that is not empty ends the process if it is in a directory 255 levels below the root or deeper |
| C79 | `C79_first_byte_lost` | `check_contents_name` removes the slash of the path, and `escape` removes another byte: an entry in `/ab` whose name is lost is called `b-7` |
| C80 | `C80_short_write`, `C80_empty_write` | the cache file is written without a buffer and the number of bytes written is not looked at: if the disk gets full, bytes are lost silently and the next ones land at the wrong offset; an empty write after the end makes the counted size wrong |
| C81 | `C81_smuggled` | after an upload was refused before its body was sent, the connection is used again, although the server may still wait for the body; the next request is then taken for the body, and the contents of a file may be taken for a request |
| C81 | `C81_continue_returned`, `C81_closed_is_idle` | a second or unsolicited `100 Continue` is returned as the response; a connection whose end was the end of a body goes back to the pool |
| C82 | `C82_failed_daemon`, `C82_not_permitted`, `C82_hidden`, `C82_other_namespace`, `C82_renamed` | `umount.s3ql` returns 0 although nothing was uploaded: the daemon crashed, or it is still running and only looks as if it had ended |
| C82 | `C82_replaced` | the command waits for ever if the number of the daemon goes to a process with the same command line |
| C83 | `C83_clock_set_back` | when the clock is set back, `df` shows old figures until it has caught up |
| C83 | `C83_overflow` | files of together 8 EiB (sparse ones suffice) make `s3qlstat` fail |
| C84 | `Swift.C84_mixed_endpoint`, `Swift.C84_limit_exceeded` | after a new login, a task that waited for a connection to the old storage server sends the new token and the new path to the old server; meanwhile there are more connections than allowed |
| C84 | `Gs.C84_late_rejection` | a late rejection of an expired token discards the token that replaced it, so every request under way causes another refresh |
| C85 | `C85_no_archive`, `C85_hard_links_lost` | pcp.py without `-a` copies nothing and reports success; with `-H`, hard links between files copied by different processes are lost |
| C86 | `C86_no_entries`, `C86_negative_limit`, `C86_ctrl_negative` | `--max-cache-entries` with few file descriptors gives a negative limit, and `s3qlctrl cachesize` accepts a negative size; the next access to a block then never ends |
| C87 | `C87_backend_options`, `C87_second`, `C87_comma` | a value with `=` in fstab options gives a ValueError, a second `-o` is not expanded, an empty option becomes `--` |
| C88 | `C88_checkpoint_fails` | `backup-metadata` during `s3qlcp` uploads metadata without the latest changes |
| C88 | `C88_attributes_missing` | periodic metadata backups lack attributes that are still in the inode cache |
| C89 | `C89_attributes_lost` | if a background task fails, the attributes in the inode cache and the dirty blocks are not stored, although they could be |
| C89 | `C89_two_interrupts`, `C89_term_uploads`, `C89_dead_mount_point` | a second Ctrl-C makes fsck necessary; after SIGTERM data are uploaded in spite of the message; a failed start leaves a dead mount point |
| C90 | `C90_stuck`, `C90_old_version_mounts` | an upgrade that is interrupted after writing the local parameters can not be resumed; one interrupted later can not be completed, and the previous version still mounts the file system |
| C91 | `C91_space`, `C91_fs_name` | a file system whose URL has a space, or that is mounted with `--fs-name`, is not recognised as mounted |
| C94 | `C94_again_violated`, `C94_gs_too_many` | S3: an overloaded server that describes the error in XML with a code that S3QL does not know is not asked again; Google Storage: "too many requests" is final |
| C94 | `C94_plain_404`, `C94_gs_no_bucket`, `C94_swift_damaged`, `C94_strange_code` | a plain 404 for a read from S3 is not a missing object; writing to a missing Google Storage bucket reports a missing object; Swift does not read damaged objects again; a code that names a function of the module makes the program fail |
| C93 | `C93_robust_violated` | the message `{[]: 0}` to the control file ends the mount process (TypeError) |
| C93 | `C93_log_stale`, `C93_log_warn` | modules that were once given to `s3qlctrl log debug` stay in debugging mode; `log warn` does the same as `log info` |
| C95 | `C95_proxy_violated`, `C95_b2_proxy`, `C95_swift_plain` | the login to Backblaze ignores the proxy; unencrypted connections for Swift use the proxy for encrypted ones, and without a port in the URL an unencrypted login goes to port 443 |
| C95 | `C95_b2_no_ssl` | `no-ssl` with Backblaze sends login and key in clear to port 443, where the server expects TLS |
| C96 | `C96_documented_violated` | if errors are corrected but the result cannot be stored, the exit status is that of the failure, not 128 more as the manual says |
| C96 | `C96_outdated` | fsck.py:1325 compares an object with itself: if the metadata of this computer are marked as clean and newer than those in the storage (a crash at the very end of an unmount), nothing is done and the status is 0 |
| C96 | `C96_cache_removed` | if a mount process crashed here and the file system was used elsewhere since, `fsck.s3ql --force` removes cached blocks that were never stored, without a question |
| C97 | `C97_ages_wrong` | expire_backups.py is interrupted after it deleted a backup that is not yet in the state file: all older backups are taken for younger than they are from then on, and a configured range is not covered |
| C97 | `C97_state_lost` | expire_backups.py is interrupted between renaming the old state file and the new one: no later run does anything |
| C97 | `C97_newest_deleted` | with a first range longer than one cycle the backup just made is deleted, and an older one kept |
| C97 | `C97_reconstruct_shifted`, `C97_reconstruct_newest_deleted` | --reconstruct-state takes every backup for one cycle older than it is, and may delete the newest backup |
| C98 | `C98_fdatasync_lost` | fdatasync does not write the size of the file to the database: a file that was extended by a truncation is short again if the mount process dies afterwards |
| C99 | `C99_log_file_lacks`, `C99_violated` | with --log, messages that are to appear once or at a limited rate do not get into the log file, since the terminal and the log file share one filter |
| C99 | `C99_after_boot` | a limited message does not appear if the computer was started less than the interval ago |
| C100 | `C100_before_hook` | a log file that cannot be written and `-o ro` end with a traceback and status 1 instead of 10 and 35, since the hook for exceptions is not installed yet |
| C100 | `C100_fuse` | if FUSE refuses the mount point, the exception leaves a trio nursery; if trio wraps it in a group (default since 0.25), the status is 1 instead of 39 |
| C100 | `C100_s3` | with Amazon S3, wrong credentials, missing permissions and missing buckets end with a traceback and status 1 instead of 14, 15 and 16, since the response to the first request (HEAD) has no body |
| C100 | `C100_others` | missing buckets and permissions with Backblaze B2, wrong credentials and permissions with Swift, and file systems mounted on the same computer do not have the status of the manual |
| C101 | `C101_verify_blocks` | after the crash of `C10_untracked_change` and a normal mount, fsck without `--fast` fails in the verification of backups at each run and never gets to the repair |
| C102 | `C102_no_backup_after_crash` | after a crash, fsck corrects the errors and has exit status 128, which `set -e` takes for a failure: no backup is made in this run |
| C102 | `C102_mixture_locked` | the directory left by an interrupted rsync is made immutable by the next run and kept as a backup, although it is no state of the source |
| C102 | `C102_mutable_left` | if a run is interrupted in rsync and the next one in s3qlcp, which comes before s3qllock, the first directory stays mutable for ever |
| C103 | `C103_rrs_ignored` | the manual says that `rrs` overwrites `ia`; with both, objects get the class STANDARD_IA |
| C103 | `C103_bare_timeout` | `tcp-timeout` without a value is accepted and means one second |
| C103 | `C103_known_partial` | the Keystone options, documented for the OpenStack backend as a whole, are rejected for `swift://` |
| C104 | `C104_blank_line` | a blank line in the list is taken for a key; without a prefix, the S3 backends then ask the server to delete the bucket |
| C104 | `C104_trailing_space` | a key that ends with white space is stripped: another object may be deleted instead |
