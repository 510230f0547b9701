{"id": "C01", "title": "A file behaves like one byte array with zero-filled holes", "statement": "After any sequence of write(offset, data) and truncate(size) calls on a file, a read(offset, n) returns exactly the bytes that the same sequence applied to a plain in-memory byte array would give (bytes never written read as zero, reads stop at end of file), and the reported size is the array's length; the block size chosen at mkfs time never shows.", "quantifier": "all block sizes > 0, all sequences of write/truncate/read with any offsets and lengths", "why_tests_cant": "The interesting cases are the combinations of offset, length, block boundary and earlier truncation; tests sample a few block sizes and offsets.", "anchors": ["src/s3ql/fs.py: Operations.read, write, _readwrite, setattr", "src/s3ql/block_cache.py: CacheEntry.read/seek/truncate/write"]}
{"id": "C02", "title": "Data survives caching: upload, eviction and re-download never change what is read", "statement": "With reads, writes and truncations interleaved in any order with uploads of dirty blocks, cache evictions, cache drops and downloads from the backend, every read still returns what the byte-array model returns.", "quantifier": "all histories interleaving file operations on any number of files with upload/evict/drop/download of any blocks", "why_tests_cant": "Needs every ordering of writes, uploads, deduplication hits and evictions.", "anchors": ["src/s3ql/block_cache.py: upload_if_dirty, _do_upload, evict, _get_entry, remove", "src/s3ql/fs.py: _readwrite"]}
{"id": "C03", "title": "Object reference counts are exact under every interleaving", "statement": "At every scheduling point of concurrently running cache operations, each stored block refers to an existing object record, and the reference count of each object record is the number of blocks that refer to it plus the number of releases that running tasks still owe; when all tasks are idle it is exactly the number of blocks.", "quantifier": "all interleavings (at await points) of any number of concurrent uploads, removals, dereferences and worker completions/failures", "why_tests_cant": "Schedules are unbounded in number and length; tests run a handful of them.", "anchors": ["src/s3ql/block_cache.py: upload_if_dirty, _do_upload, _deref_obj, remove"]}
{"id": "C04", "title": "A dirty block never leaves the cache without being uploaded or explicitly removed", "statement": "At every scheduling point, if the most recently written contents of a block are not represented by an object whose upload has completed or is in progress, the block's cache entry is present and marked dirty; eviction and cache dropping remove only entries that are not dirty.", "quantifier": "all interleavings of writes, uploads, eviction, drop and removal, including failing uploads", "why_tests_cant": "A lost write shows only in a rare interleaving between eviction, upload and a concurrent writer.", "anchors": ["src/s3ql/block_cache.py: evict, upload_if_dirty, drop, get"]}
{"id": "C05", "title": "The backend never loses an object that is still referenced, and object ids are never reused", "statement": "A backend delete is issued only for an object id that no block refers to at that moment and that no block will ever refer to again; every uploaded object gets an id that was never used before.", "quantifier": "all interleavings of uploads, deduplication hits, removals and removal workers", "why_tests_cant": "A delete racing with a deduplicating upload is a matter of schedule.", "anchors": ["src/s3ql/block_cache.py: _deref_obj, _removal_task, _removal_task_multi, upload_if_dirty", "src/s3ql/database.py: create_tables (objects AUTOINCREMENT)"]}
{"id": "C06", "title": "Cache size accounting is exact", "statement": "At every scheduling point at which no block is being modified, the recorded total cache size is the sum of the sizes of the cached blocks; while blocks are being modified it is off by exactly the pending growth of those blocks.", "quantifier": "all interleavings of get (fast and slow path), write, truncate, remove, evict and upload", "why_tests_cant": "Accounting drift accumulates over histories of unbounded length.", "anchors": ["src/s3ql/block_cache.py: CacheDict.remove, get, _get_entry, evict, remove"]}
{"id": "C07", "title": "Per-key locks give mutual exclusion", "statement": "For each key at most one holder exists at any time, acquire_nowait succeeds exactly if the key is free, releasing a key that is not held fails (or is a no-op with noerror), and a release makes exactly that key available without touching others; every waiter is re-examined after each release, so no waiter on a free key sleeps forever.", "quantifier": "all sequences and interleavings of acquire, acquire_nowait and release on any keys", "why_tests_cant": "Mutual exclusion is a statement about all schedules.", "anchors": ["src/s3ql/multi_lock.py: MultiLock.acquire, acquire_nowait, release"]}
{"id": "C08", "title": "The LRU dictionary is an ordered map, and iteration tolerates concurrent changes", "statement": "LinkedDict behaves as an insertion-ordered map under any sequence of set, delete, pop, lookup and move_to_tail; an iteration with mutable_values() under arbitrary interleaved mutation yields every entry that stays in place throughout exactly once, in order, never yields a removed entry, and terminates if no new entries are added at the tail forever.", "quantifier": "all operation sequences, with any number of concurrently active iterations", "why_tests_cant": "Interleavings of cursor movement with deletion and re-insertion are unbounded.", "anchors": ["src/s3ql/_linked_dict.py: LinkedDict, mutable_values"]}
{"id": "C09", "title": "Inode attributes read back what was last set, and flushing loses nothing", "statement": "Through the inode cache, an attribute read returns the value last set on that inode whatever evictions and flushes happened in between; after flush or destroy the database holds every inode's latest attributes; a deleted inode is gone.", "quantifier": "all histories of create, getattr, setattr/attribute assignment, delete, flush, drop for any number of inodes relative to the cache capacity", "why_tests_cant": "Cache-ring eviction order times history length is unbounded.", "anchors": ["src/s3ql/inode_cache.py: InodeCache.__getitem__, create_inode, __delitem__, setattr, flush, destroy"]}
{"id": "C10", "title": "Metadata snapshots stay restorable", "statement": "Once a metadata snapshot with sequence number n has been completed, downloading with the parameters of n gives exactly the database file as it was at that time, after any further history of (incremental or full) uploads under higher sequence numbers and any number of expirations, as long as n is among the retained versions.", "quantifier": "all histories of metadata uploads, database growth and shrinkage, and expirations", "why_tests_cant": "Each snapshot shares blocks with others; which block versions are needed depends on the whole history.", "anchors": ["src/s3ql/database.py: upload_metadata, download_metadata, expire_objects, first_le_than, get_block_objects"]}
{"id": "C11", "title": "Metadata expiration keeps exactly the newest 32 versions and deletes only unneeded objects", "statement": "After expire_objects the remaining parameter objects are exactly the 32 highest sequence numbers (or all, if fewer), every metadata block object needed by one of them remains, and every other metadata block object is deleted.", "quantifier": "all sets of parameter and block objects", "why_tests_cant": "The set of histories that lead to a bucket state is unbounded.", "anchors": ["src/s3ql/database.py: expire_objects, first_le_than, get_available_seq_nos"]}
{"id": "C12", "title": "An incremental metadata upload makes the remote copy equal to the local database", "statement": "If the remote copy equals the database file when write tracking starts, then after any sequence of file writes and truncations followed by an incremental upload, a download reproduces the database file.", "quantifier": "all sequences of VFS writes (any offset and length) and truncations between uploads, for any metadata block size", "why_tests_cant": "Correctness depends on which blocks each write touches and on shrink/regrow histories.", "anchors": ["src/s3ql/_sqlite3ext.cpp: vfstraceWrite, vfstraceTruncate", "src/s3ql/database.py: UploadMetadata, DownloadMetadata"]}
{"id": "C13", "title": "Metadata object names encode block number and sequence number unambiguously", "statement": "Formatting a (block number, sequence number) pair as a metadata object name and parsing it back gives the same pair, for numbers of any size; distinct pairs get distinct names.", "quantifier": "all natural block numbers and sequence numbers", "why_tests_cant": "Numbers beyond the zero-padded width are never sampled.", "anchors": ["src/s3ql/database.py: METADATA_OBJ_NAME, METADATA_OBJ_RE, get_block_objects"]}
{"id": "C14", "title": "Mounting never silently uses outdated metadata", "statement": "Whatever sequence of mounts, unmounts, fsck runs and crashes on several machines preceded it, a mount or fsck that succeeds works on the metadata written by the most recent session that modified the file system (or asks the user first).", "quantifier": "all histories of mount/unmount/fsck/crash on any number of machines sharing a backend, with a crash allowed between any two externally visible steps", "why_tests_cant": "Crash points times machines times history is unbounded.", "anchors": ["src/s3ql/mount.py: mount, get_metadata", "src/s3ql/fsck.py: fsck", "src/s3ql/database.py: read_cached_params, read_remote_params, write_params, upload_params"]}
{"id": "C15", "title": "A crash at any point leaves the file system mountable or repairable by plain fsck", "statement": "If the process dies between any two externally visible steps of mounting, periodic metadata upload, unmounting, fsck or shrink-db, then on the same machine the next mount succeeds, or it tells the user to run fsck and a plain fsck run then leads to a mountable file system.", "quantifier": "all crash points in all histories", "why_tests_cant": "Each crash point has to be hit separately; tests kill processes at random times at best.", "anchors": ["src/s3ql/mount.py: mount, MetadataUploadTask.run", "src/s3ql/fsck.py: fsck", "src/s3ql/adm.py: shrink_db, restore_metadata"]}
{"id": "C16", "title": "Link counts equal the number of directory entries", "statement": "In every state reachable by file system operations, the stored reference count of each inode (other than root, control file) is the number of directory entries that refer to it, every directory entry refers to an existing inode, its parent and its name, and no directory has two entries of the same name.", "quantifier": "all sequences of create, mkdir, mknod, symlink, link, unlink, rmdir, rename (with and without replacement), lookup, forget", "why_tests_cant": "An invariant over all operation histories.", "anchors": ["src/s3ql/fs.py: _create, link, _remove, _rename, _replace, _add_name, _del_name"]}
{"id": "C17", "title": "Name reference counts are exact", "statement": "In every reachable state, the reference count of each name record is the number of directory entries plus extended attributes that use the name, and unused names are removed.", "quantifier": "all sequences of namespace and extended-attribute operations", "why_tests_cant": "An invariant over all operation histories.", "anchors": ["src/s3ql/fs.py: _add_name, _del_name, setxattr, removexattr, _purge_inode, _remove, _rename"]}
{"id": "C18", "title": "Extended attributes form a map per inode, independent of everything else", "statement": "setxattr followed by getxattr returns the value; listxattr lists exactly the names set and not removed; operations on one inode's attributes do not change other inodes' attributes, directory listings or file names, whether they succeed or fail.", "quantifier": "all sequences of xattr and namespace operations", "why_tests_cant": "Independence must hold for every other name and inode in the system.", "anchors": ["src/s3ql/fs.py: setxattr, getxattr, listxattr, removexattr"]}
{"id": "C19", "title": "Namespace operations follow POSIX directory-map semantics", "statement": "Seen as a map from (directory, name) to inode, create/mkdir/symlink/link add exactly one entry, unlink/rmdir remove exactly that entry, rename moves exactly one entry and replaces an existing target atomically, and every failing operation leaves the map unchanged.", "quantifier": "all states and all operations with all arguments", "why_tests_cant": "Frame conditions quantify over all other entries.", "anchors": ["src/s3ql/fs.py: lookup, _create, link, unlink, rmdir, rename, _rename, _replace"]}
{"id": "C20", "title": "A deleted file stays usable until it is no longer open, then it disappears completely", "statement": "An inode is removed from the database exactly when its link count is zero and the kernel has forgotten all lookups of it; until then its attributes and data remain accessible; afterwards no attribute, block, symlink target or extended attribute record of it remains.", "quantifier": "all histories of lookups, opens, unlinks, renames and forgets", "why_tests_cant": "Depends on the order of unlink and forget over the whole history.", "anchors": ["src/s3ql/fs.py: forget, _remove, _purge_inode, _lookup, unlink, rmdir, rename"]}
{"id": "C21", "title": "In failsafe (read-only) mode nothing is modified", "statement": "When the file system is in failsafe mode, every operation that would modify directory entries, inodes, attributes or data fails with EPERM and leaves the database unchanged.", "quantifier": "all operations and arguments in all states", "why_tests_cant": "Ranges over every operation and argument.", "anchors": ["src/s3ql/fs.py: Operations.failsafe checks"]}
{"id": "C22", "title": "Locked (immutable) trees cannot be changed", "statement": "After s3qllock of a tree, no sequence of ordinary file system operations changes a directory entry inside the tree, or the contents, attributes or extended attributes of any inode in it, until it is removed with s3qlrm.", "quantifier": "all sequences of operations after locking, all trees", "why_tests_cant": "Every operation must be checked against every reachable tree.", "anchors": ["src/s3ql/fs.py: lock_tree, and the locked checks in setxattr, removexattr, unlink, rmdir, rename, link, setattr, open, _create, write, copy_tree"]}
{"id": "C23", "title": "s3qlrm removes the whole subtree and nothing else", "statement": "remove_tree(parent, name) deletes the entry and every entry below it, leaves all other entries and their link counts exact, and deletes every inode that has no remaining link and is not open.", "quantifier": "all trees of any depth and width, including hard links into and out of the subtree, and all requests that other processes make while the command runs", "why_tests_cant": "Trees are unbounded; the traversal is re-queued with partial batches.", "anchors": ["src/s3ql/fs.py: remove_tree, _remove"]}
{"id": "C24", "title": "s3qlcp produces an exact copy that shares data", "statement": "copy_tree makes the target's subtree isomorphic to the source's (names, attributes, symlink targets, extended attributes, block-to-object mapping, hard-link structure inside the tree), leaves the source unchanged, and keeps all reference counts exact.", "quantifier": "all source trees, including hard links and shared blocks, and all requests that other processes make while the command runs", "why_tests_cant": "Trees and sharing patterns are unbounded.", "anchors": ["src/s3ql/fs.py: copy_tree"]}
{"id": "C25", "title": "A directory listing returns every stable entry exactly once", "statement": "Reading a directory in any number of chunks, each continuing from the last returned offset, yields every entry that exists throughout exactly once, whatever entries are added or removed between the chunks.", "quantifier": "all directories, all chunk sizes, all interleaved changes", "why_tests_cant": "Chunk boundaries and concurrent changes are unbounded.", "anchors": ["src/s3ql/fs.py: readdir"]}
{"id": "C26", "title": "Encrypted objects decrypt to what was encrypted", "statement": "For any data, key and nonce, decrypting the packet stream produced by encryption yields the original data, whatever the sizes of the reads and writes.", "quantifier": "all plaintexts of any length, all keys and nonces, all ways of splitting I/O", "why_tests_cant": "Lengths around the buffer boundary and packet framing are unbounded.", "anchors": ["src/s3ql/backends/comprenc.py: encrypt_fh, decrypt_fh"]}
{"id": "C27", "title": "A modified encrypted object is rejected", "statement": "Assuming an unforgeable MAC, decryption of a stream succeeds only if it is exactly the stream produced by encryption (truncated, extended, reordered or altered streams raise CorruptedObjectError).", "quantifier": "all byte streams given to decryption", "why_tests_cant": "The adversary picks any stream.", "anchors": ["src/s3ql/backends/comprenc.py: decrypt_fh"]}
{"id": "C28", "title": "Objects are bound to their key and to the encryption state of the file system", "statement": "With a passphrase set, reading a key returns data only if its metadata was authenticated for that very key; swapping objects, altering metadata or substituting unencrypted objects is detected; without passphrase encrypted objects are refused.", "quantifier": "all metadata dictionaries returned by the backend", "why_tests_cant": "The adversary picks any metadata.", "anchors": ["src/s3ql/backends/comprenc.py: _verify_meta, readinto_fh, lookup, write_fh"]}
{"id": "C29", "title": "The metadata checksum covers every key and value unambiguously", "statement": "Two different metadata mappings never have the same checksum input, so (with a collision-free hash) a changed mapping always has a different checksum.", "quantifier": "all pairs of basic mappings", "why_tests_cant": "Ambiguities need adversarially chosen strings.", "anchors": ["src/s3ql/backends/common.py: checksum_basic_mapping"]}
{"id": "C30", "title": "Serialised mappings read back identically", "statement": "thaw_basic_mapping(freeze_basic_mapping(d)) == d for every mapping of supported values, and anything that is not such a serialisation is rejected with ThawError.", "quantifier": "all mappings with string keys and str/bytes/int/float/bool/None values; all byte strings for rejection", "why_tests_cant": "Quoting, escaping and base64 corner cases are unbounded.", "anchors": ["src/s3ql/common.py: freeze_basic_mapping, thaw_basic_mapping, parse_literal"]}
{"id": "C31", "title": "Local backend: keys and file names correspond one to one", "statement": "unescape(escape(k)) == k for every key, distinct keys map to distinct paths, escaped names contain neither '/' nor '#', so a stored object is never confused with another one or with a temporary file.", "quantifier": "all key strings", "why_tests_cant": "Escape sequences inside keys, order of replacements.", "anchors": ["src/s3ql/backends/local.py: escape, unescape, _key_to_path"]}
{"id": "C32", "title": "Local backend: list(prefix) returns exactly the stored keys with that prefix", "statement": "list(prefix) yields every stored key that starts with prefix, each exactly once, and no other key.", "quantifier": "all sets of stored keys and all prefixes", "why_tests_cant": "Directory pruning depends on prefix length relative to the nesting.", "anchors": ["src/s3ql/backends/local.py: list, _key_to_path"]}
{"id": "C33", "title": "Remote backends: paged listing returns exactly the keys with the prefix", "statement": "Whatever page sizes the server chooses, the concatenation of pages obtained with the marker protocol is exactly the list of stored keys with the prefix, each once, and the loop terminates.", "quantifier": "all key sets, all page sizes and server truncation decisions", "why_tests_cant": "Page boundaries times key sets is unbounded.", "anchors": ["src/s3ql/backends/s3c.py: list, _list_page", "src/s3ql/backends/swift.py: list, _list_page", "src/s3ql/backends/gs.py: list, _list_page"]}
{"id": "C34", "title": "Object metadata survives the HTTP header encoding", "statement": "Splitting encoded metadata over numbered headers and reassembling gives back the same mapping, and metadata that does not fit is refused rather than truncated.", "quantifier": "all metadata mappings, all chunk sizes", "why_tests_cant": "Chunk boundaries fall anywhere, including inside escape sequences.", "anchors": ["src/s3ql/backends/s3c.py: _add_meta_headers, _extractmeta", "src/s3ql/backends/swift.py: same"]}
{"id": "C35", "title": "Retries: only temporary failures are retried, with bounded back-off, and the last result is returned", "statement": "A retried backend call returns the result of the first attempt that does not fail temporarily, propagates a permanent error immediately, gives up once the total waiting time exceeds the limit, and no delay exceeds the cap unless the server asked for it.", "quantifier": "all sequences of attempt outcomes and Retry-After values", "why_tests_cant": "Failure sequences are unbounded.", "anchors": ["src/s3ql/backends/common.py: retry"]}
{"id": "C36", "title": "A download that is retried still delivers exactly the object", "statement": "Whatever temporary failures interrupt a download, when readinto_fh finally returns, the output holds exactly the object's bytes from the original offset on.", "quantifier": "all failure schedules and partial transfers, for each backend", "why_tests_cant": "Needs a failure at every byte position, repeatedly.", "anchors": ["src/s3ql/backends/s3c.py: readinto_fh, _readinto_fh", "src/s3ql/backends/swift.py: _readinto_fh", "src/s3ql/backends/gs.py: _readinto_fh"]}
{"id": "C37", "title": "The rate tracker counts exactly the events in its window", "statement": "get_count() returns the number of registered events within the tracked window, for any history of registrations with a non-decreasing clock.", "quantifier": "all histories of (time, count) registrations", "why_tests_cant": "Ring-buffer wrap-around depends on unbounded histories.", "anchors": ["src/s3ql/backends/common.py: RateTracker"]}
{"id": "C38", "title": "An HTTP request body has exactly the announced length", "statement": "When send_request streams a body, either exactly Content-Length bytes are sent and they are the concatenation of the body parts (cut at the announced length only for files), or an error is raised and the request is not completed.", "quantifier": "all bodies (lists of byte strings and files), all announced lengths, all read granularities", "why_tests_cant": "Short reads and mixed parts are unbounded.", "anchors": ["src/s3ql/http.py: _stream_body, _stream_file"]}
{"id": "C39", "title": "The connection pool never exceeds its limit and only reuses clean connections", "statement": "At most max_connections connections are lent out at any time, a connection is never lent to two users at once, only connections in idle keep-alive state are reused, and after close no idle connection remains in the pool.", "quantifier": "all interleavings of borrow, return (clean or not) and close", "why_tests_cant": "Schedules are unbounded.", "anchors": ["src/s3ql/http.py: Pool.get, _pop_conn, aclose"]}
{"id": "C40", "title": "Header dictionaries are case-insensitive maps", "statement": "CaseInsensitiveDict behaves as a map on lower-cased keys under any operation sequence, and iteration yields for each key the spelling used last.", "quantifier": "all operation sequences and keys", "why_tests_cant": "All sequences.", "anchors": ["src/s3ql/http.py: CaseInsensitiveDict"]}
{"id": "C41", "title": "Bulk delete reports honestly what was deleted", "statement": "When delete_multi returns or raises, every key that is no longer in the caller's list has been deleted from the backend.", "quantifier": "all key lists, batch sizes and per-key outcomes", "why_tests_cant": "Partial failures at every position and batch boundary.", "anchors": ["src/s3ql/backends/local.py: delete_multi", "src/s3ql/backends/s3c4.py: delete_multi, _delete_multi", "src/s3ql/backends/swift.py: delete_multi, _delete_multi", "src/s3ql/backends/common.py: _ParallelDelete"]}
{"id": "C42", "title": "fsck makes reference counts exact", "statement": "After a completed fsck run, every inode, name and object reference count equals the number of references, whatever the database contained before.", "quantifier": "all (corrupted) database states", "why_tests_cant": "Corruptions are unbounded in shape.", "anchors": ["src/s3ql/fsck.py: check_inodes_refcount, check_names_refcount, check_objects_refcount, check"]}
{"id": "C43", "title": "fsck makes the tree connected and references valid", "statement": "After a completed fsck run, every directory entry refers to an existing name, inode and parent directory, every block refers to an existing object and inode, and every inode is reachable from the root.", "quantifier": "all (corrupted) database states", "why_tests_cant": "Corruptions are unbounded in shape.", "anchors": ["src/s3ql/fsck.py: check_contents_name, check_contents_parent_inode, check_contents_inode, check_loops, check_inode_blocks_inode, check_inode_blocks_obj_id, check_symlinks_inode"]}
{"id": "C44", "title": "A second fsck run finds nothing to repair", "statement": "Running fsck twice in a row, the second run reports no errors and changes nothing.", "quantifier": "all (corrupted) database states", "why_tests_cant": "Interaction between the order of the checks and all corruptions.", "anchors": ["src/s3ql/fsck.py: check"]}
{"id": "C45", "title": "expire_backups always leaves a backup in every age range that could have one", "statement": "With one backup per cycle, after every run and in every future cycle, each configured age range contains a backup whenever it would contain one had no backup ever been deleted.", "quantifier": "all age-range configurations, all histories of cycles", "why_tests_cant": "The guarantee concerns all future cycles.", "anchors": ["contrib/expire_backups.py: process_backups"]}
{"id": "C46", "title": "Cycle lists are displayed faithfully", "statement": "format_list of a strictly increasing list of cycle numbers denotes exactly the numbers in the list.", "quantifier": "all strictly increasing lists", "why_tests_cant": "Run lengths and positions are unbounded.", "anchors": ["contrib/expire_backups.py: format_list"]}
{"id": "C47", "title": "Parallel pipelines process every job exactly once", "statement": "A ParallelPipeline run that finishes without error has handed each produced job to exactly one worker, for any number of workers, buffer size and schedule.", "quantifier": "all job lists, worker counts, buffer sizes and interleavings", "why_tests_cant": "Schedules are unbounded.", "anchors": ["src/s3ql/common.py: ParallelPipeline"]}
{"id": "C48", "title": "An interrupted local write never damages an object", "statement": "At every crash point of the local backend's write_fh, a reader sees the complete old object or the complete new object; concurrent writers of the same key leave one of the complete new objects.", "quantifier": "all crash points and interleavings of writers and readers", "why_tests_cant": "Crash points and schedules.", "anchors": ["src/s3ql/backends/local.py: write_fh, readinto_fh, _read_meta"]}
{"id": "C49", "title": "Configuration sections are merged predictably", "statement": "For a storage URL the effective setting of each authinfo2 key is the value from the last section whose storage-url is a prefix of the URL and that sets the key; a command-line value, if given, overrides it even when falsy.", "quantifier": "all section lists and URLs", "why_tests_cant": "All combinations of overlapping sections.", "anchors": ["src/s3ql/authinfo.py: Authinfo.from_file, pick, CompressSpec.parse"]}
{"id": "C50", "title": "Dirty data idle for long enough is uploaded in the next commit pass", "statement": "A pass of the background commit task considers every block that has not been accessed during the configured delay: stopping at the first recently written block in LRU order never skips such a block.", "quantifier": "all cache contents and access histories", "why_tests_cant": "Depends on the relation between LRU order and write times over all histories.", "anchors": ["src/s3ql/mount.py: CommitTask.run", "src/s3ql/block_cache.py: get, _get_entry"]}
{"id": "C51", "title": "Different storage URLs never share local state", "statement": "Canonicalisation of storage URLs is idempotent, and distinct canonical URLs get distinct cache file names.", "quantifier": "all storage URLs", "why_tests_cant": "All strings.", "anchors": ["src/s3ql/parse_args.py: _canonicalize_storage_url, init_cachedir", "src/s3ql/common.py: escape"]}
{"id": "C52", "title": "s3ql_verify reports exactly the bad objects", "statement": "With --data, the union of the missing and corrupted lists is exactly the set of objects after the start offset whose backend data is missing, undecodable, or of wrong size or hash; nothing else is reported.", "quantifier": "all object tables and backend states, all worker schedules", "why_tests_cant": "All backend states.", "anchors": ["src/s3ql/verify.py: RetrieveObjects"]}
{"id": "C53", "title": "Identical blocks are stored once", "statement": "At every scheduling point no two live object records carry the same content hash, and uploading a block whose content is already stored creates no new object.", "quantifier": "all interleavings of uploads", "why_tests_cant": "Races between two uploads of equal content.", "anchors": ["src/s3ql/block_cache.py: upload_if_dirty", "src/s3ql/database.py: create_tables (hash UNIQUE)"]}
{"id": "C54", "title": "Dropping the cache leaves the configured limits in place", "statement": "After drop() (any number, also concurrently) has finished, the cache limits are what they were before.", "quantifier": "all interleavings of drop calls", "why_tests_cant": "Needs concurrent drops.", "anchors": ["src/s3ql/block_cache.py: drop"]}
{"id": "C55", "title": "Batched transactions commit everything", "statement": "Long-running database passes through the batched transaction manager end with every statement committed, batches keep a minimum size, and no statement is left outside a transaction.", "quantifier": "all timing behaviours and statement sequences", "why_tests_cant": "Batch size adapts to timing.", "anchors": ["src/s3ql/database.py: BatchedTransactionManager"]}
{"id": "C56", "title": "Opening a file with truncation or for writing respects the file system state", "statement": "open() fails with EPERM/EROFS exactly for write access to a read-only or locked inode, and truncates iff O_TRUNC is given with permission to write.", "quantifier": "all flag combinations and states", "why_tests_cant": "All flag words.", "anchors": ["src/s3ql/fs.py: open"]}
{"id": "C57", "title": "Changing the passphrase never locks the user out", "statement": "At every crash point of a passphrase change, the main key object can be opened with the old or the new passphrase and yields the unchanged master key.", "quantifier": "all crash points", "why_tests_cant": "Crash points.", "anchors": ["src/s3ql/adm.py: passphrase, recover_key", "src/s3ql/mkfs.py: mkfs"]}
{"id": "C58", "title": "mkfs never overwrites an existing file system", "statement": "mkfs fails without writing anything if the backend holds an S3QL file system.", "quantifier": "all backend states", "why_tests_cant": "All backend states.", "anchors": ["src/s3ql/mkfs.py: mkfs"]}
{"id": "C59", "title": "Block cache tasks never deadlock", "statement": "Whenever a block lock is held, an object release is owed or an object deletion is queued, at least one running task can take its next step: readers waiting for an upload, uploads, releases and deletions never wait for each other in a circle.", "quantifier": "all interleavings of any number of cache users, uploads, downloads, releases and deletions, including failures", "why_tests_cant": "Deadlocks depend on the schedule.", "anchors": ["src/s3ql/block_cache.py: get, _get_entry, upload_if_dirty, _do_upload, _deref_obj, _removal_task"]}
{"id": "C60", "title": "No request can crash the file system", "statement": "Whatever requests the kernel sends, each is answered with a reply or an error number; the file system process never ends with an uncaught exception, and unmounting always succeeds.", "quantifier": "all histories of requests the kernel can send, and all arguments", "why_tests_cant": "Depends on all states the database can reach.", "anchors": ["src/s3ql/fs.py: Operations", "src/s3ql/common.py: get_path"]}
{"id": "C61", "title": "Requests change exactly the attributes they should", "statement": "After any successful request, the size, mode, owner, group, link count and the three time stamps of every inode that existed before are what they were, except for the changes POSIX prescribes for that request: reading updates the access time by the relatime rule, writing the size and the modification and change times, changing a directory its modification and change times, linking and unlinking the link count and change time, and so on. New inodes have the attributes of the request, with group and setgid bit inherited from setgid directories.", "quantifier": "every reachable file system state, every request, every inode", "why_tests_cant": "Tests look at a few attributes of the inode a request is about. That no other attribute of any other inode changes must hold for all states and requests.", "anchors": ["src/s3ql/fs.py: Operations.setattr, _create, link, _remove, _replace, _rename, read, write, readdir, open", "src/s3ql/inode_cache.py: InodeCache"]}
{"id": "C62", "title": "fsck stores blocks that a crash left in the cache", "statement": "After a completed fsck run with the cache directory of a crashed mount, the data of every cached block of an existing file is in the storage, and the file refers to it.", "quantifier": "all database states, storage contents and sets of cache files", "why_tests_cant": "What a crash leaves behind is any combination of cache files, table rows and objects.", "anchors": ["src/s3ql/fsck.py: check_cache, check_objects_refcount, check_objects_id, check_inode_blocks_obj_id, check"]}
{"id": "C63", "title": "fsck reports an error exactly if there is one", "statement": "A fsck run completes without reporting an error if and only if the tables, the storage and the cache are consistent; and a run that reports no error changes neither the tables nor the storage.", "quantifier": "all database states, storage contents and sets of cache files", "why_tests_cant": "A missed or a spurious report shows only for particular states; there is no bound on them.", "anchors": ["src/s3ql/fsck.py: Fsck.check and all check_* methods"]}
{"id": "C64", "title": "fsck loses nothing that can be kept", "statement": "A completed fsck run keeps every inode with its attributes (only link counts are corrected, sizes grow, and missing file types are filled in), every symbolic link, extended attribute and directory entry of an existing inode (perhaps under another name or in lost+found), and every block whose object is in the storage.", "quantifier": "all database states, storage contents and sets of cache files", "why_tests_cant": "A repair that removes too much shows only for particular damages; there is no bound on them.", "anchors": ["src/s3ql/fsck.py: Fsck.check and all check_* methods"]}
{"id": "C65", "title": "The printed master key restores access", "statement": "The master key that mkfs prints, typed in again in any of the accepted forms, is read as exactly the same key by recover-key, and after recover-key with any new passphrase the file system opens with that passphrase and that key. Different keys are printed differently.", "quantifier": "all keys, all new passphrases, all storage states", "why_tests_cant": "All 32 byte keys; a wrong encoding of one value loses the whole file system.", "anchors": ["src/s3ql/mkfs.py: mkfs", "src/s3ql/adm.py: recover_key", "src/s3ql/common.py: split_by_n"]}
{"id": "C67", "title": "The directory tree is always a tree", "statement": "At every moment every thing with a directory entry can be reached from the root, no directory contains itself through any number of steps, a directory has exactly one entry (the root none), only directories have entries, exactly symbolic links have a target, and only the matching types have sizes and device numbers; whatever sequence of requests, tree copies, tree removals, locks and remounts came before.", "quantifier": "all histories of file system requests with any arguments that the kernel may send", "why_tests_cant": "A cycle or a detached directory appears only after particular sequences of renames, links and removals; there is no bound on them.", "anchors": ["src/s3ql/fs.py: Operations.mknod, create, symlink, link, rename, rmdir, unlink, setattr, copy_tree, remove_tree"]}
{"id": "C66", "title": "After a clean unmount fsck finds nothing to repair", "statement": "After any history of file system requests, once the file system is unmounted and all data is uploaded, a check of the file system completes, reports no error, and changes neither the metadata nor the storage.", "quantifier": "all histories of file system requests with any arguments that the kernel may send, followed by an unmount and any fsck mode", "why_tests_cant": "The invariants maintained by the file system and those checked by fsck are written down in two independent programs; a mismatch shows only for particular histories.", "anchors": ["src/s3ql/fs.py: Operations", "src/s3ql/fsck.py: Fsck.check"]}
{"id": "C68", "title": "Requests are about the configured bucket and object", "statement": "For every bucket, prefix and object name, whatever characters they contain, every request made for an object reaches exactly that object in the configured bucket (container), with exactly the intended parameters; requests for different objects or file systems are never confused, and bulk deletions name exactly the given objects.", "quantifier": "all host names, buckets, prefixes, object names, query parameters; S3, Swift and Google storage", "why_tests_cant": "Tests use a few plain names and a mock server; the wrong object is only addressed for particular combinations of host, bucket and name.", "anchors": ["src/s3ql/backends/s3c.py: AsyncBackend._do_request_inner, _list_page", "src/s3ql/backends/s3c4.py: _delete_multi", "src/s3ql/backends/swift.py: _do_request, _delete_multi", "src/s3ql/backends/gs.py: _do_request, delete, readinto_fh"]}
{"id": "C69", "title": "Requests are signed the way the server verifies them", "statement": "Every request is accepted by a server that verifies signatures according to the documentation: the signature covers exactly the method, path, parameters and headers that are sent, and is made with the key for its date and region, over any sequence of requests, days, changes of the region and of the host. The server reads the text of the header as it was meant, and rejects the request only if its clock is more than fifteen minutes away.", "quantifier": "all methods, paths, parameters, headers, ports and histories of requests, dates and region changes; signature versions 2 and 4", "why_tests_cant": "A mock server does not check signatures; mismatches arise for particular characters, ports or at midnight.", "anchors": ["src/s3ql/backends/s3c4.py: AsyncBackend._authorize_request, update_signing_key", "src/s3ql/backends/s3c.py: AsyncBackend._authorize_request, _do_request_inner", "src/s3ql/http.py: HTTPConnection.send_request", "src/s3ql/backends/s3.py: _discover_region"]}
{"id": "C70", "title": "Damaged objects give errors, never wrong data", "statement": "If objects in the storage are lost or corrupted at any moment, a read that succeeds still returns, for every position, a byte that the file held at some moment during the read, and has the length the size of the file demands. A read or write fails with EIO only if a block it covers was damaged; without damage nothing fails and nothing is refused. After a failure nothing in the file changes any more. Every request ends.", "quantifier": "all block sizes, all histories of reads, writes, truncations, uploads and evictions of a file, interleaved in any way at the granularity of block accesses, with damage to any objects at any point", "why_tests_cant": "the damage can happen at any point of any interleaving, and what is read depends on which blocks were in the cache, uploaded or changed at that point", "anchors": ["src/s3ql/fs.py: Operations._readwrite, read, write, setattr", "src/s3ql/block_cache.py: BlockCache.get, _get_entry, evict, remove"]}
{"id": "C71", "title": "Reads and writes of one file at the same time", "statement": "While any number of reads and writes of one file run at the same time, every byte of the file is the one it had before or comes from an accepted write that covers it. Once a write has succeeded, each position it covers holds its data or that of another write accepted meanwhile, and the file reaches at least as far as the write; it never becomes longer than the writes require. When no write is running nothing is stored behind the end of the file. Writes to disjoint ranges that all succeed have together the effect of performing them one after the other.", "quantifier": "all block sizes, all histories before, all interleavings of reads, writes, uploads, evictions and damage at the granularity of block accesses, all offsets and lengths", "why_tests_cant": "the number of interleavings is unbounded, and a lost update shows only in a few of them", "anchors": ["src/s3ql/fs.py: Operations.read, write, _readwrite, setattr", "src/s3ql/block_cache.py: BlockCache.get, CacheEntry"]}
{"id": "C72", "title": "Files keep their contents wherever the file system is mounted", "statement": "Every file is one array of bytes. A read that starts while no request changes the file, and during which none starts to, returns what the successful writes and truncations so far made of the file, in the order in which they ended. It does not matter which of several computers made them, nor how often blocks were cached, deduplicated, uploaded, evicted and deleted and the file system was unmounted and mounted elsewhere in between. The size of the file is the length of the array. A file system that was unmounted cleanly can be mounted on every computer and has the same files there, and unless an upload failed, every block needed there can be downloaded.", "quantifier": "all histories of requests on any number of files, interleaved with each other, with the block cache, with periodic and final metadata uploads, and with any number of unmounts and mounts on any number of computers; all block sizes and contents", "why_tests_cant": "The number of interleavings and histories is unbounded, and a test of one component does not show that the components fit together.", "anchors": ["src/s3ql/fs.py: Operations.read, write, _readwrite, setattr", "src/s3ql/block_cache.py: BlockCache", "src/s3ql/mount.py: main_async, get_metadata, MetadataUploadTask.run", "src/s3ql/database.py: download_metadata, upload_metadata"]}
{"id": "C73", "title": "The commands act on what the user named", "statement": "s3qlrm removes exactly the file or directory that its argument denotes. s3qlcp copies the contents of the directory that its first argument denotes to a new, empty directory of the same file system, which the second argument denotes afterwards. s3qllock makes exactly the directory immutable that its argument denotes. If that is impossible they do nothing.", "quantifier": "all texts of paths, all trees of files, symbolic links and mounted file systems, all working directories", "why_tests_cant": "Paths can take symbolic links, dots and mount points in any combination, and programs look at them as texts while the kernel follows them.", "anchors": ["src/s3ql/remove.py: remove", "src/s3ql/cp.py: cp", "src/s3ql/lock.py: lock", "src/s3ql/common.py: assert_fs_owner, assert_s3ql_fs"]}
{"id": "C74", "title": "A kept cache is used only if it is up to date", "statement": "If mount.s3ql --keep-cache leaves the block cache on a computer, the next mount on that computer uses it if the file system has not been mounted anywhere else since, and otherwise ignores it. Blocks from a kept cache always have the contents that the file has now.", "quantifier": "all histories of mounts with and without --keep-cache on any number of computers, restored metadata and fsck, with all file operations and cache events in between", "why_tests_cant": "Whether old data are shown depends on the whole history of all computers since the cache was kept.", "anchors": ["src/s3ql/block_cache.py: BlockCache.__init__, load_cache, destroy", "src/s3ql/mount.py: get_metadata", "src/s3ql/fsck.py: fsck", "src/s3ql/adm.py: restore_metadata"]}
{"id": "C75", "title": "Writes and deletions over an unreliable connection do what they report", "statement": "If storing an object in a network backend returns, the server holds exactly the given contents and metadata under the key. If it fails, or the process is killed, the server holds the old or the new object, never a damaged one and never none if there was one. If deleting an object returns, the object is gone. Other objects are never touched.", "quantifier": "all contents, metadata and stored objects, all sequences of requests that are lost, refused, executed without an answer or damaged in transit, all points at which the process is killed or gives up, all servers with and without checks of digests, with and without encryption", "why_tests_cant": "The combinations of failures of consecutive requests, including those of the clean-up after a failed upload, are unbounded.", "anchors": ["src/s3ql/backends/s3c.py: AsyncBackend.write_fh, delete, is_temp_failure", "src/s3ql/backends/swift.py: AsyncBackend.write_fh, _do_request, delete", "src/s3ql/backends/gs.py: AsyncBackend.write_fh, delete", "src/s3ql/backends/common.py: retry"]}
{"id": "C76", "title": "A crash of the mount process loses no completed write", "statement": "If the mount process dies at any moment, and fsck.s3ql is then run on the same computer and completes, every file on which no write or truncation was in progress has the contents that the successful writes and truncations before the crash gave it (up to zeros at its end, if its size had not been written to the database yet).", "quantifier": "all histories of mounts on all computers, writes, truncations, uploads, evictions and downloads, all schedules, all moments of the crash, all states of the other tables of the database, all block sizes and cache options of fsck", "why_tests_cant": "The state that a crash leaves is spread over the database, the cache directory and the storage, and depends on how far every upload got; the crash points times schedules are unbounded.", "anchors": ["src/s3ql/block_cache.py: BlockCache.upload_if_dirty, _get_entry, CacheEntry", "src/s3ql/fsck.py: Fsck.check_cache, check_objects_id, check_inodes_size, main", "src/s3ql/fs.py: Operations.write, setattr"]}
{"id": "C77", "title": "A copy has the contents of the original", "statement": "When s3qlcp has copied a tree that nobody changed meanwhile, every file in the copy has the contents of the original, whether or not they had been stored before, and later changes of one of the two do not affect the other.", "quantifier": "all histories of writes, truncations, uploads, evictions, downloads, removals and failures of uploads, all schedules of other tasks during the copy, all files, all later histories", "why_tests_cant": "What a copy gets depends on how far the uploads of the original are at that moment, and whether data are lost shows only when the copy is read much later.", "anchors": ["src/s3ql/fs.py: Operations.copy_tree, forget", "src/s3ql/block_cache.py: BlockCache.start_flush, upload_if_dirty"]}
{"id": "C78", "title": "A passphrase protects against the storage service", "statement": "If a passphrase is configured (or entered) for a storage URL, whatever the service answers, the file system is opened only with a master key that was stored with this passphrase, everything that is then read was stored under its name with this key, and everything that is then written is encrypted with it.", "quantifier": "all states of the storage, including those made by a malicious service, all configured and entered passphrases, all objects, all later writes", "why_tests_cant": "It is a statement about all answers a malicious service can give, and about data that are accepted without any sign of an error.", "anchors": ["src/s3ql/backends/__init__.py: open_backend", "src/s3ql/backends/comprenc.py: AsyncComprencBackend.readinto_fh, _verify_meta, write_fh", "src/s3ql/authinfo.py: Authinfo.fs_passphrase"]}
{"id": "C79", "title": "fsck leaves what is fine where it is, and gives what it moves a usable name", "statement": "After a completed run of fsck.s3ql, a directory entry is at the same place under the same name if it and all entries on its path have nothing wrong with them: name, directory and target exist, all its data are stored, it is no directory with two entries or in itself, and it is not a lost+found that is no directory. Every other entry is in lost+found afterwards, except lost+found itself and something that was in itself, which may be in the root. The names given in lost+found are free, have no slash or zero byte, are neither empty nor '.' nor '..', have at most 255 bytes unless a thousand names like it are taken, and tell where the entry was: its path, its name and the number of its lost directory, or the number of its inode.", "quantifier": "all metadata with the key constraints of the schema, all states of the storage and of the cache directory, all entries, all names of any length", "why_tests_cant": "Whether an entry is moved depends on nineteen checks that run one after the other and change the same tables; an entry could be moved because of an error elsewhere.", "anchors": ["src/s3ql/fsck.py: Fsck.check, check_lof, check_contents_name, check_contents_parent_inode, check_inode_blocks_obj_id, check_inodes_refcount, check_loops, resolve_free, escape, to_str", "src/s3ql/common.py: get_path, inode_for_path"]}
{"id": "C80", "title": "A block in the cache behaves like a file, and its size and dirty flag are right", "statement": "Whatever is read, written, truncated and sought in a cached block, each call returns what it would return on an ordinary file with the same contents, and the cache file has the contents of that file at the end. A write either puts all bytes at the current position or raises an exception. The size that is counted and stored is the size of the file. A block that is not marked dirty has the contents it was loaded with.", "quantifier": "all initial contents, all sequences of calls with all arguments, all decisions of the operating system to write all, a part or nothing", "why_tests_cant": "Position and size are kept twice, by the operating system and in attributes; they may come apart only after particular sequences of calls, or when a disk is full.", "anchors": ["src/s3ql/block_cache.py: CacheEntry.__init__, read, seek, tell, truncate, write"]}
{"id": "C81", "title": "An HTTP response belongs to the request it is returned for, and its body is complete", "statement": "Whatever requests are made on a connection, and however they, the reading of responses, the network and the server fail in between: each response that is returned is the final answer to the request it is returned for, the bytes read of its body are the bytes of that answer from the beginning on, and when the end of the body is reported, all of them were read. This includes connections that go back to the pool and are used for other requests.", "quantifier": "all histories of requests with and without bodies and 100-continue, partial reads, closes and reuse; all answers; all ways to cut the answers into pieces; all timeouts, resets and refused uploads at all points", "why_tests_cant": "A connection that is out of step is only noticed by the next request, after a particular failure and a particular timing of the server.", "anchors": ["src/s3ql/http.py: HTTPConnection.send_request, _stream_body, _stream_file, _send_event, _read_response, _make_response, read, readall, discard, _next_event, _finish_cycle, aclose, is_idle, connect", "src/s3ql/http.py: Pool.get, _pop_conn"]}
{"id": "C82", "title": "umount.s3ql returns only when everything is uploaded", "statement": "When umount.s3ql returns with exit code 0, the process that served the file system has ended and everything that was written is in the storage. When it reports an error, the file system is still mounted. When the process has ended, the command returns soon.", "quantifier": "all lifetimes of the serving process, all moments at which the command looks at it, everything the operating system may show instead of it", "why_tests_cant": "It depends on when a process ends, on who asks and on which process gets its number next.", "anchors": ["src/s3ql/umount.py: blocking_umount, lazy_umount, get_cmdline"]}
{"id": "C83", "title": "df and s3qlstat show the figures of the file system", "statement": "The used space that df shows differs from the total size of the stored blocks by less than one block of the unit df uses; free space and free inodes are always at least about as much as is used, and at least half a TiB; the figures are less than 30 seconds old. s3qlstat shows the numbers of names, inodes and objects, the sizes before and after de-duplication and compression and the contents of the cache as they are, including changes not yet written to the database. A size that is shown with a unit differs from the true one by less than one percent.", "quantifier": "all contents of the tables and of the caches, all histories of changes and calls, all clock readings", "why_tests_cant": "The figures are sums over everything stored; overflows and roundings occur for particular sums only, stale figures for particular clock readings only.", "anchors": ["src/s3ql/fs.py: Operations.statfs, Operations.extstat", "src/s3ql/statfs.py: statfs", "src/s3ql/block_cache.py: BlockCache.get_usage"]}
{"id": "C84", "title": "Logins and access tokens are used correctly by requests running at the same time", "statement": "Whatever requests run at the same time and whenever tokens expire: only one login (token refresh) is under way at a time, and one is made only if the current token was rejected or is about to expire; a request whose token was rejected is repeated with a new one; every request goes to the storage server and path that the login reported, with a token that is valid; there are never more connections than configured; and requests never wait for each other for ever.", "quantifier": "all numbers of tasks, all interleavings, all expiry times, rejections and answers of the login server", "why_tests_cant": "Several tasks meet an expired token at the same time only rarely, and each order of rejections, logins and waiting for connections is a different case.", "anchors": ["src/s3ql/backends/swift.py: _borrow_conn, _authenticate, _do_request, _do_authentication_expired", "src/s3ql/backends/gs.py: _ensure_token, _get_access_token, _do_request, is_temp_failure"]}
{"id": "C85", "title": "Parallel copying copies every file exactly once", "statement": "`pcp.py` started with a number of processes copies each file of the source tree by exactly one of them, whatever the names of the files are; nothing else is copied; and it exits with 0 only if every process did. Hard links are kept if asked for.", "quantifier": "all directory trees with any file names, all numbers of processes, all exit statuses", "why_tests_cant": "Which process copies a file depends on filter patterns over its name; a file that no pattern matches is silently missing from the backup.", "anchors": ["contrib/pcp.py: main"]}
{"id": "C86", "title": "The cache is kept within its limits by removing what was used least recently", "statement": "When the cache is full, room is made: the operation ends, afterwards the size and the number of entries are within the limits, blocks are removed in the order of their last use and only as many as needed, and a block with changes is not removed before it has been uploaded. The number of entries chosen at the start leaves enough file descriptors for connections.", "quantifier": "all limits, all contents of the cache, all orders in which uploads end, all limits of open files", "why_tests_cant": "What is removed depends on the whole history of the cache and on when concurrent uploads end.", "anchors": ["src/s3ql/block_cache.py: evict, is_full", "src/s3ql/mount.py: _determine_max_cache_entries", "src/s3ql/ctrl.py: cachesize"]}
{"id": "C87", "title": "Mount options from /etc/fstab mean what the same command-line options mean", "statement": "`mount.s3ql -o a,b=c` is the same as `--a --b c`, at the same place of the command line; general options such as `rw` or `_netdev` are ignored and unknown ones refused; a command line without `-o` is not changed. The number of compression threads keeps within the memory and the cores.", "quantifier": "all lists of options, all other arguments, all numbers of cores and amounts of memory", "why_tests_cant": "Options come in any number and order, before and after other arguments, and with any value.", "anchors": ["src/s3ql/mount.py: _expand_fstab_options, determine_threads"]}
{"id": "C88", "title": "A requested metadata backup contains everything done before the request", "statement": "After `s3qlctrl backup-metadata` a metadata backup is made that contains every change made before the command, also if it is given while another backup is under way; periodic backups contain what was changed before they began; a backup is never replaced by an older one.", "quantifier": "all histories of changes, requests, timeouts and uploads, in any interleaving", "why_tests_cant": "A request can come at any point of a running upload, and changes are made all the time during one.", "anchors": ["src/s3ql/mount.py: MetadataUploadTask", "src/s3ql/fs.py: setxattr (upload-meta)", "src/s3ql/database.py: sync_checkpoint, inhibit_writes"]}
{"id": "C89", "title": "A file system is marked as clean only when everything is stored", "statement": "However the mount process ends - unmounted, Ctrl-C, other signals, exceptions in any thread or task, failures of any step of the shutdown - the file system is marked as cleanly unmounted only if every changed block, all attributes and the metadata are stored; exit status 0 means just that; and an abnormal end leaves the mark that forces a check, and as much data stored as possible.", "quantifier": "all signals, all failing steps and tasks, all uploads that fail, all states of the file system", "why_tests_cant": "There are many ways in which a shutdown can go wrong, and each combination of failures is a different case.", "anchors": ["src/s3ql/mount.py: main_async, setup_exchook", "src/s3ql/fs.py: destroy, forget", "src/s3ql/block_cache.py: destroy"]}
{"id": "C90", "title": "An upgrade of the file system is complete or can be resumed", "statement": "`s3qladm upgrade` keeps the metadata exactly, refuses file systems that it cannot upgrade without changing anything, and afterwards this version can use the file system and the previous one cannot; if it is interrupted at any point it can be run again, as its message says.", "quantifier": "all file systems of the previous revision, all block sizes, all points of interruption", "why_tests_cant": "Interruptions between any two writes leave different states, and there is only one chance to upgrade a user's file system.", "anchors": ["src/s3ql/adm.py: upgrade", "src/s3ql/database.py: upload_metadata, upload_params, write_params", "src/s3ql/mount.py: get_metadata"]}
{"id": "C91", "title": "A mounted file system is not mounted, checked or changed a second time on the same machine, and clearing a storage is complete", "statement": "`mount.s3ql`, `fsck.s3ql` and `s3qladm` refuse to work on a file system that is mounted on the same machine; other file systems, also with similar URLs, are not affected. `s3qladm clear` deletes every object or reports a failure, and does not leave cached metadata of a deleted file system.", "quantifier": "all storage URLs, all mount tables, all histories of mounts and unmounts, all failing deletions", "why_tests_cant": "URLs and mount points can have any characters, and the table can have any entries.", "anchors": ["src/s3ql/common.py: is_mounted", "src/s3ql/mount.py: main_async, get_fuse_opts", "src/s3ql/adm.py: _resolve, clear"]}
{"id": "C92", "title": "Files survive any number of crashes, each followed by fsck", "statement": "A file system is used on one computer; the mount process dies any number of times at any moments, and each time fsck.s3ql is run to completion and the file system is mounted again. At any time, a read of a file that is not being changed gives at each offset the byte that was last written there (zero after a truncation, or if nothing was written). Only if a crash happened while the file was being changed, before its inode was in the database or while something that it needs was not stored, may bytes be zero or come from the write that was under way. No file ever shows any other bytes, such as those of other files.", "quantifier": "all histories of requests, block cache activity, unmounts, mounts and crashes, any number of them, all interleavings, all contents, all block sizes", "why_tests_cant": "Every crash leaves a different database, cache directory and storage, and what fsck makes of them is the start of the next history.", "anchors": ["src/s3ql/fsck.py: Fsck.check, check_cache, check_objects_id, check_inodes_size", "src/s3ql/block_cache.py: BlockCache", "src/s3ql/fs.py: read, write, setattr", "src/s3ql/mount.py: main_async"]}
{"id": "C94", "title": "Answers of the storage service are understood", "statement": "An operation on a storage service (S3, Swift, Google Storage) succeeds exactly if the service said that it did it and what arrived is intact. Looking for an object, asking for its size and reading it report a missing object exactly if the service said that there is none. A request that the service asks to try again later (5xx, 408, 429) is repeated, one that it refuses is not. Whatever Retry-After says, the delay between attempts is at most five minutes, and up to 288 temporary failures in a row do no harm.", "quantifier": "all operations, all statuses, bodies and headers of answers, all sequences of answers and broken connections", "why_tests_cant": "The services choose among unboundedly many answers, and their error codes are open-ended; tests replay a few.", "anchors": ["src/s3ql/backends/s3c.py: _parse_error_response, get_S3Error, is_temp_failure, _parse_retry_after", "src/s3ql/backends/swift.py: _do_request, is_temp_failure, delete", "src/s3ql/backends/gs.py: _parse_error_response, _map_request_error, is_temp_failure", "src/s3ql/backends/common.py: retry, assert_empty_response"]}
{"id": "C93", "title": "What the command line tools ask for is what the file system does", "statement": "What s3qlcp, s3qlrm, s3qllock and s3qlctrl send to the control file is understood by the file system as exactly what the tool meant, for all inodes, all names (whatever bytes they consist of), sizes, levels and modules. The file system acts only on messages that are literals of exactly the right type; all others are rejected and the mount process goes on. s3qlctrl log info and warn switch debugging messages off, log debug switches exactly those of the given modules on, and all other messages always appear. Until the first such command, the modules given on the command line count.", "quantifier": "all inodes, names, sizes, modules and messages, all histories of log commands", "why_tests_cant": "Names are arbitrary bytes, quoted and unquoted by Python's repr and literal_eval; tests use a few names.", "anchors": ["src/s3ql/cp.py: main", "src/s3ql/remove.py: main", "src/s3ql/lock.py: main", "src/s3ql/ctrl.py: cachesize, set_log_level", "src/s3ql/fs.py: Operations.setxattr, update_logging", "src/s3ql/common.py: parse_literal, parse_literal_tuple", "src/s3ql/logging.py: setup_logging"]}
{"id": "C95", "title": "S3QL connects to the configured servers, encrypted unless told otherwise", "statement": "A storage URL means what the manual says: host, port, region, bucket and prefix are those written in it. Logins and keys go only to the server that the URL names; data go there or to a server that it names (for Keystone: the first public object storage in the configured region). Without no-ssl everything is encrypted, with the certificate checked against the server's name, before anything is sent; only for Swift the authentication server may ask for plain connections to the storage server. no-ssl switches encryption off. Encrypted connections use https_proxy and others http_proxy.", "quantifier": "all storage URLs, options and proxy settings, all redirects, addresses and catalogs that servers send", "why_tests_cant": "URLs and answers of servers are arbitrary text; tests use a few of them with mock servers.", "anchors": ["src/s3ql/backends/s3c.py: AsyncBackend._parse_storage_url", "src/s3ql/backends/s3.py: _discover_region, _parse_storage_url", "src/s3ql/backends/b2ng.py: _discover_region, _parse_storage_url", "src/s3ql/backends/gs.py: AsyncBackend.__init__", "src/s3ql/backends/swift.py: _authenticate, _borrow_conn", "src/s3ql/backends/swiftks.py: _authenticate", "src/s3ql/backends/rackspace.py: _parse_storage_url", "src/s3ql/backends/common.py: get_proxy", "src/s3ql/http.py: HTTPConnection.connect, _tunnel"]}
{"id": "C96", "title": "fsck.s3ql asks before it discards anything, and its exit status tells what it did", "statement": "fsck.s3ql ends with status 0 only if the parameters say that the file system is clean and --force was not given (then nothing is changed), or if it has checked the file system and there was no error. It ends with 128 if errors were found and corrected; then all references are right and the file system is marked as clean. It ends with 172 if there are errors that it cannot correct; then the file system stays marked as in use. If it refuses (mounted here, in use elsewhere, aborted by the user) nothing is changed at all, and if the local database is corrupted nothing in the storage. If the storage says that the file system is in use and this computer does not have the newest metadata, it changes nothing unless the user gives --force-remote or types the requested sentence. Whatever fails, either the storage is unchanged, or the file system is marked as in use, or it is checked and marked as clean. If it does not use the metadata of this computer and the file system needs a check, the files in the cache directory are kept under a new name. As the manual says, the status is at least 128 whenever errors were found.", "quantifier": "all options, typed texts, parameters, databases, contents of the cache directory and failures at any step", "why_tests_cant": "The branches depend on two sets of parameters, options, typed text, the state of the cache directory, the outcome of the check and eleven places where an exception can occur; tests cover a few of the combinations, and no test covers a failure after the repair.", "anchors": ["src/s3ql/fsck.py: fsck (command), Fsck.check", "src/s3ql/database.py: read_cached_params, read_remote_params, FsAttributes.deserialize", "src/s3ql/logging.py: QuietError, setup_excepthook", "rst/man/fsck.rst"]}
{"id": "C97", "title": "Interrupted runs of expire_backups.py can be repeated, and the newest backup is kept", "statement": "If a run of expire_backups.py is interrupted at any point, the next run gives the result that the run without interruption would have given: the same backups and the same state file. A second run directly after the first changes nothing. Every configured age range stays covered (as in C45) in histories with interrupted runs. The newest backup is never deleted. If the state file is lost, --reconstruct-state finds the right ages of backups that were made at regular intervals.", "quantifier": "every list of cycles, every history of backups, runs and interrupted runs, every set of backups that were deleted before the interruption", "why_tests_cant": "the order in which backups are deleted is that of a Python set, and a run can be interrupted after each of them; the effect on the state file shows only many cycles later", "anchors": ["contrib/expire_backups.py: expire_backups, process_backups, upgrade_to_state"]}
{"id": "C98", "title": "fsync protects a file against the death of the mount process", "statement": "When fsync or fdatasync of a file has returned, the file survives the death of the mount process at any later moment: as long as no request changes it, fsck.s3ql on the same computer leaves exactly the bytes and the length it had then. The attributes that fsync wrote to the database stay there, whatever the inode cache evicts, flushes and loads, until they change.", "quantifier": "every history before and after fsync, every moment of death, every content and size of caches", "why_tests_cant": "the size is written to the database at other times as well, so that whether the call did it shows only if the process dies before the next of them", "anchors": ["src/s3ql/fs.py: Operations.fsync, Operations.fsyncdir", "src/s3ql/inode_cache.py: InodeCache.flush_id, InodeCache.setattr", "src/s3ql/block_cache.py: BlockCache.flush_local"]}
{"id": "C99", "title": "Messages appear as often as they should", "statement": "Every message that is not marked appears at every destination (terminal, log file) for which it is important enough. A message that is to appear once appears the first time that it is logged and never again with the same arguments. A message whose rate is limited is left out exactly if it was shown less than the given time before and is not the last one. On a terminal an update replaces the line of the same message and nothing else, and all other messages stay in full on lines of their own; elsewhere each message is on lines of its own, in order.", "quantifier": "every sequence of messages, marks, levels and times, every text", "why_tests_cant": "which messages appear depends on all messages before; tests log two or three", "anchors": ["src/s3ql/logging.py: LogFilter, ConsoleHandler, setup_logging"]}
{"id": "C100", "title": "The exit status of mount.s3ql tells what is wrong", "statement": "mount.s3ql mounts the file system if and only if nothing is wrong that the table of exit statuses in its manual mentions; it then stores the parameters it found with the next sequence number, marked as mounted. Otherwise it ends with a status of the table, and what the table says about this status is the case.", "quantifier": "every command line, configuration, storage service and state of the file system and the cache directory, and all combinations of things that are wrong", "why_tests_cant": "tests try one error with one backend; the status depends on which check comes first, on where exceptions are translated and on the service", "anchors": ["src/s3ql/mount.py: main, mount, get_metadata, _determine_max_cache_entries", "src/s3ql/logging.py: setup_logging, setup_excepthook", "src/s3ql/backends/__init__.py: open_raw_backend, open_backend", "src/s3ql/backends/s3.py: AsyncBackend.create, _discover_region", "src/s3ql/backends/b2ng.py: _discover_region", "src/s3ql/backends/swift.py: _container_exists", "rst/man/mount.rst"]}
{"id": "C101", "title": "fsck verifies the newest metadata backups without false alarms", "statement": "fsck.s3ql (without --fast) completes its verification of the newest metadata backups if and only if each of the five newest retained versions (leaving out the one just used, if so) that was unmounted cleanly can be restored with its recorded checksum; in every orderly history they can, there is always a retained version, and what has been verified stays valid until it expires.", "quantifier": "all histories of mounts, crashes, periodic uploads, checks, restores and expirations on any number of machines, at any time of verification, and any number of versions to verify", "why_tests_cant": "whether a backup can be restored depends on all uploads and expirations since it was made; a false alarm would block every repair", "anchors": ["src/s3ql/fsck.py: verify_metadata_snapshots, main", "src/s3ql/database.py: get_available_seq_nos, download_metadata, expire_objects"]}
{"id": "C102", "title": "The backup script reports honestly and never damages earlier backups", "statement": "If s3ql_backup.sh ends with exit status 0, there is a new immutable backup with exactly the data of the source and the file system is unmounted. Whatever happens during a run, earlier backups keep their contents and stay immutable until expire_backups.py deletes them. A run in which no command is disturbed succeeds, everything that looks like a backup is a state of the source, and all but the newest are immutable.", "quantifier": "all sequences of runs, each command of which may succeed, fail or be interrupted with any partial result, or the computer may die at any point", "why_tests_cant": "tests run the script once without errors; the claims are about every sequence of interrupted runs", "anchors": ["contrib/s3ql_backup.sh", "rst/contrib.rst: s3ql_backup.sh", "src/s3ql/cp.py: main"]}
{"id": "C103", "title": "Backend options mean what the manual says", "statement": "The text given with --backend-options or backend-options is a comma-separated list of names and name=value pairs; white space around them does not matter, values may contain equal signs, and the last mention of a name counts. Options on the command line replace those of the authentication file. A command goes on exactly if the backend knows all the options, and it knows the documented ones. The options for the storage class and server side encryption determine the headers of every new object as documented, tcp-timeout gives the timeout (20 seconds by default), disable-expect100 stops the use of 100-continue, sig-region determines the region of signatures, and the Keystone options determine the login request.", "quantifier": "all lists of options with any names, values and white space, all backends, all logins", "why_tests_cant": "tests parse a few texts; the claims are about every text and every combination of options", "anchors": ["src/s3ql/backends/config.py: parse_suboptions", "src/s3ql/backends/__init__.py: open_raw_backend", "src/s3ql/backends/s3.py: _set_storage_options", "src/s3ql/backends/swiftks.py: _authenticate", "rst/backends.rst"]}
{"id": "C104", "title": "remove_objects.py deletes exactly the listed objects", "statement": "If remove_objects.py ends with exit status 0, the objects listed in the file, one per line, are gone and all others are as before. If it does not, a deletion has failed; the objects listed before it are gone, those listed after it and all others are as before. This works for the lists written by s3ql_verify, with Unix and DOS line ends, white space at the end of lines, and a last line without end.", "quantifier": "all lists of keys, line ends and white space, all failures of deletions, all contents of the backend", "why_tests_cant": "there are no tests of the script; the claims are about every file and every failure", "anchors": ["contrib/remove_objects.py: remove_objects", "rst/contrib.rst: remove_objects.py", "rst/fsck.rst", "src/s3ql/verify.py"]}
