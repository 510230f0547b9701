{
 "claims": [
  {
   "property": "C01",
   "status": "proved",
   "theorems": [
    "Verif.FileData.C01_file_is_byte_array",
    "Verif.FileData.C01_block_size_unobservable",
    "Verif.FileData.C01_blocks_bounded",
    "Verif.FileData.C01_zero_length_write_extends"
   ],
   "note": "Refinement of read/write/_readwrite/truncate over blocks to a byte array."
  },
  {
   "property": "C02",
   "status": "proved",
   "theorems": [
    "Verif.Cache.C02_reads_return_last_write",
    "Verif.Cache.C02_last_read",
    "Verif.Cache.C02_download_finds_data"
   ],
   "note": "Block level, for every schedule of the concurrent cache model, SHA-256 assumed collision free; the step from blocks to files is C01."
  },
  {
   "property": "C03",
   "status": "partial",
   "theorems": [
    "Verif.Cache.C03_refcounts_exact",
    "Verif.Cache.C03_idle",
    "Verif.Cache.C03_never_too_small",
    "Verif.Cache.C03_violated_by_failing_hand_over"
   ],
   "note": "Exact for every schedule in which handing over a block to the upload workers does not raise; if it raises, one reference is leaked (witness proved), counts are never too small."
  },
  {
   "property": "C04",
   "status": "partial",
   "theorems": [
    "Verif.Cache.C04_contents_safe_partial",
    "Verif.Cache.C04_backend_complete_partial",
    "Verif.Cache.C04_dirty_stays",
    "Verif.Cache.C04_hashed_has_data",
    "Verif.Cache.C04_violated",
    "Verif.Cache.C04_violated_by_failing_hand_over"
   ],
   "note": "Proved for all schedules without failing uploads; false of the code with failing uploads (two witnesses proved)."
  },
  {
   "property": "C05",
   "status": "proved",
   "theorems": [
    "Verif.Cache.C05_delete_unreferenced",
    "Verif.Cache.C05_ids_never_reused",
    "Verif.Cache.C05_objects_immutable",
    "Verif.Cache.C05_release_clean",
    "Verif.Cache.C05_no_garbage_partial"
   ],
   "note": ""
  },
  {
   "property": "C06",
   "status": "proved",
   "theorems": [
    "Verif.Cache.C06_size_exact",
    "Verif.Cache.C06_size_while_open"
   ],
   "note": ""
  },
  {
   "property": "C07",
   "status": "partial",
   "theorems": [
    "Verif.Sync.MultiLock.C07_mutual_exclusion",
    "Verif.Sync.MultiLock.C07_no_lost_wakeup",
    "Verif.Sync.MultiLock.C07_turns_in_order",
    "Verif.Sync.MultiLock.C07_nowait_partial",
    "Verif.Sync.MultiLock.C07_release_frame",
    "Verif.Sync.MultiLock.C07_nowait_can_fail_on_free_key",
    "Verif.Sync.MultiLock.C07_cancel_frame",
    "Verif.Sync.MultiLock.C07_cancelled_release"
   ],
   "note": "acquire_nowait can report failure for a free key while another task holds the internal lock (witness proved). Schedules include cancellation at every wait; a cancelled release leaves its key locked for ever (C07_cancelled_release)."
  },
  {
   "property": "C08",
   "status": "proved",
   "theorems": [
    "Verif.Sync.LinkedDict.C08_ordered_map",
    "Verif.Sync.LinkedDict.C08_total",
    "Verif.Sync.LinkedDict.C08_iteration_complete",
    "Verif.Sync.LinkedDict.C08_iteration_terminates"
   ],
   "note": "Pointer-level model refined to an ordered list."
  },
  {
   "property": "C09",
   "status": "proved",
   "theorems": [
    "Verif.Inode.C09_cache_is_a_table",
    "Verif.Inode.C09_flush_complete",
    "Verif.Inode.C09_drop_complete",
    "Verif.Inode.C09_new_object_stays",
    "Verif.Inode.C09_stale_object_loses_assignment"
   ],
   "note": "Under the documented rule that attributes are accessed through the most recently looked-up object; breaking the rule loses assignments (witness)."
  },
  {
   "property": "C10",
   "status": "partial",
   "theorems": [
    "Verif.Meta.C10_versions_download_partial",
    "Verif.Meta.C10_periodic_partial",
    "Verif.Meta.C10_snapshots_stay",
    "Verif.Meta.C10_untracked_change"
   ],
   "note": "Once stored, a version stays exact in every history. Creation of an exact version is proved for orderly histories (Meta/ProtoSpec.lean); a witness shows that a crash right after the NFS index is changed breaks it."
  },
  {
   "property": "C100",
   "status": "partial",
   "theorems": [
    "Verif.Tools.MountStart.C100_mounts",
    "Verif.Tools.MountStart.C100_uploads",
    "Verif.Tools.MountStart.C100_status_partial",
    "Verif.Tools.MountStart.C100_sound",
    "Verif.Tools.MountStart.C100_before_hook",
    "Verif.Tools.MountStart.C100_fuse",
    "Verif.Tools.MountStart.C100_s3",
    "Verif.Tools.MountStart.C100_others"
   ],
   "note": "When the file system is mounted and what is uploaded then: proved in full. The status: proved but for situations in which the code violates the property. These are a log file that cannot be written and wrong -o options (status 1, C100_before_hook), a mount point that FUSE refuses (status 1 with current trio, C100_fuse), every problem with credentials, permissions or the bucket with Amazon S3 (status 1, C100_s3), some of them with Backblaze B2 and Swift, and a file system that is mounted on this computer (status 40, not in the manual; C100_others). Assumed: in which order services check login, permission and bucket, and that local and remote parameters with the same sequence number are the same."
  },
  {
   "property": "C101",
   "status": "partial",
   "theorems": [
    "Verif.Meta.C101_version_exists",
    "Verif.Meta.C101_verify_iff",
    "Verif.Meta.C101_verify_partial",
    "Verif.Meta.C101_verify_stays",
    "Verif.Meta.C101_verify_blocks"
   ],
   "note": "That there is always a version, what success of the verification means, and that verified versions stay valid: every history. That it succeeds: orderly histories (Meta/ProtoSpec.lean); C101_verify_blocks shows a history in which the code stores a clean version that cannot be restored, after which fsck without --fast stops at each run before repairing anything."
  },
  {
   "property": "C102",
   "status": "partial",
   "theorems": [
    "Verif.Contrib.BackupScript.C102_success",
    "Verif.Contrib.BackupScript.C102_unchanged",
    "Verif.Contrib.BackupScript.C102_kept",
    "Verif.Contrib.BackupScript.C102_succeeds",
    "Verif.Contrib.BackupScript.C102_status_partial",
    "Verif.Contrib.BackupScript.C102_no_backup_after_crash",
    "Verif.Contrib.BackupScript.C102_two_runs_needed",
    "Verif.Contrib.BackupScript.C102_mixture_locked",
    "Verif.Contrib.BackupScript.C102_older_locked_partial",
    "Verif.Contrib.BackupScript.C102_older_never_locked",
    "Verif.Contrib.BackupScript.C102_mutable_left"
   ],
   "note": "Proved in full: what exit status 0 means, and that earlier backups are not changed, for any sequence of runs. Three parts are violated by the script: after the death of the computer the next run makes no backup (C102_no_backup_after_crash), an interrupted run leaves a directory that the next run makes immutable like a complete backup (C102_mixture_locked), and a directory can stay mutable for ever (C102_mutable_left). The commands that are called are the environment; deletion of one backup is one step."
  },
  {
   "property": "C103",
   "status": "partial",
   "theorems": [
    "Verif.Backend.Options.C103_parse",
    "Verif.Backend.Options.C103_open",
    "Verif.Backend.Options.C103_known_partial",
    "Verif.Backend.Options.C103_class_partial",
    "Verif.Backend.Options.C103_rrs_ignored",
    "Verif.Backend.Options.C103_timeout",
    "Verif.Backend.Options.C103_bare_timeout",
    "Verif.Backend.Options.C103_expect",
    "Verif.Backend.Options.C103_region",
    "Verif.Backend.Options.C103_keystone",
    "Verif.Backend.Options.C103_tenant"
   ],
   "note": "Parsing, acceptance, region and Keystone login proved for all texts. Violated parts: with ia and rrs the class is that of ia although the manual says that rrs overwrites it (C103_rrs_ignored); a bare tcp-timeout means one second (C103_bare_timeout); the Keystone options, documented for the whole OpenStack backend, are rejected for swift:// (C103_known_partial). ssl-ca-path is not modelled, no-ssl is C95 and no-feature-detection C41."
  },
  {
   "property": "C104",
   "status": "partial",
   "theorems": [
    "Verif.Contrib.RemoveObjects.C104_remove",
    "Verif.Contrib.RemoveObjects.C104_after_verify",
    "Verif.Contrib.RemoveObjects.C104_data_objects",
    "Verif.Contrib.RemoveObjects.C104_blank_line",
    "Verif.Contrib.RemoveObjects.C104_trailing_space"
   ],
   "note": "Proved for all keys that contain no line ends and do not end with white space, which includes those of S3QL. Violated: a blank line is taken for a key, and with an S3 storage URL without a prefix the request is to delete the bucket (C104_blank_line); a key that ends with white space is confused with another one (C104_trailing_space). Opening the backend is covered by C95 and C103."
  },
  {
   "property": "C11",
   "status": "proved",
   "theorems": [
    "Verif.Meta.C11_expire",
    "Verif.Meta.C11_succeeds"
   ],
   "note": "Also when deletion is interrupted between any two objects (expire_part_keeps)."
  },
  {
   "property": "C12",
   "status": "partial",
   "theorems": [
    "Verif.Meta.C12_incremental_partial",
    "Verif.Meta.C12_full",
    "Verif.Meta.C12_holes"
   ],
   "note": "Incremental uploads are exact if writes leave no holes in the database file; a witness shows what happens with a hole."
  },
  {
   "property": "C13",
   "status": "proved",
   "theorems": [
    "Verif.Codec.C13_name_roundtrip",
    "Verif.Codec.C13_names_distinct",
    "Verif.Codec.C13_params_roundtrip",
    "Verif.Codec.C13_kinds_disjoint"
   ],
   "note": ""
  },
  {
   "property": "C14",
   "status": "partial",
   "theorems": [
    "Verif.Meta.C14_no_stale_partial",
    "Verif.Meta.C14_stale_fsck",
    "Verif.Meta.C14_stale_log",
    "Verif.Meta.C14_interrupted_restore"
   ],
   "note": "Proved for every orderly history of mounts, checks, crashes and periodic uploads on any number of machines (Meta/ProtoSpec.lean says what is excluded); three witnesses show that each exclusion is needed."
  },
  {
   "property": "C15",
   "status": "partial",
   "theorems": [
    "Verif.Meta.C15_repairable_partial",
    "Verif.Meta.C15_stuck",
    "Verif.Meta.C15_assertion"
   ],
   "note": "Proved for a crash at any point outside the two windows shown by the witnesses: between writing the final parameters locally and storing them, a crash leaves a file system that can be neither mounted nor checked without --force."
  },
  {
   "property": "C16",
   "status": "partial",
   "theorems": [
    "Verif.Fs.links_exact_partial",
    "Verif.Fs.objects_exact_partial",
    "Verif.Fs.removexattr_destroys_entry",
    "Verif.Fs.unlink_ctrl_breaks_links"
   ],
   "note": "Holds in all histories without two requests the code mishandles: removexattr of an attribute that is not set (witness: destroys a directory entry) and unlink of the control file (witness). Tree commands are separate."
  },
  {
   "property": "C17",
   "status": "partial",
   "theorems": [
    "Verif.Fs.names_exact_partial",
    "Verif.Fs.names_kept",
    "Verif.Fs.setxattr_leaks_name",
    "Verif.Fs.removexattr_breaks_count"
   ],
   "note": "Exact while no attribute is replaced and no unset attribute removed; both cases are shown to violate the property (witnesses)."
  },
  {
   "property": "C18",
   "status": "partial",
   "theorems": [
    "Verif.Fs.xattrs_map_partial",
    "Verif.Fs.listxattr_exact",
    "Verif.Fs.removexattr_destroys_xattr",
    "Verif.Fs.removexattr_destroys_entry"
   ],
   "note": "Holds except for removexattr of an attribute that is not set, which can destroy attributes and entries of other files (witnesses)."
  },
  {
   "property": "C19",
   "status": "partial",
   "theorems": [
    "Verif.Fs.namespace_map_partial",
    "Verif.Fs.new_inode_partial",
    "Verif.Fs.unlink_ok_iff",
    "Verif.Fs.rmdir_ok_iff",
    "Verif.Fs.mknod_ok_iff",
    "Verif.Fs.symlink_ok_iff",
    "Verif.Fs.link_ok_iff",
    "Verif.Fs.rename_ok_iff",
    "Verif.Fs.removexattr_destroys_entry"
   ],
   "note": "Map semantics and exact success conditions; histories exclude the two mishandled requests (witness)."
  },
  {
   "property": "C20",
   "status": "partial",
   "theorems": [
    "Verif.Fs.inode_exists_iff_partial",
    "Verif.Fs.inode_kept",
    "Verif.Fs.inode_intact_partial",
    "Verif.Fs.no_rows_remain",
    "Verif.Fs.remount_cleans",
    "Verif.Fs.rmdir_leaks_inode",
    "Verif.Fs.inode_never_reused"
   ],
   "note": "Exact if no unlink/rmdir/rename failed since mounting; after a failing one the inode stays until unmount (witness, and proof that unmounting cleans up)."
  },
  {
   "property": "C21",
   "status": "proved",
   "theorems": [
    "Verif.Fs.failsafe_refuses",
    "Verif.Fs.failsafe_eperm",
    "Verif.Fs.reading_changes_atime",
    "Verif.Fs.failsafe_lasts",
    "Verif.Fs.damage_turns_on",
    "Verif.Fs.damage_turns_on_write",
    "Verif.Fs.failsafe_trees"
   ],
   "note": "Nothing changes; the error is EPERM unless an argument check comes first (control file name, unknown inode, timestamp range)."
  },
  {
   "property": "C22",
   "status": "partial",
   "theorems": [
    "Verif.Fs.locked_tree_frozen_partial",
    "Verif.Fs.locked_write_refused",
    "Verif.Fs.locked_blocks_kept",
    "Verif.Fs.lock_tree_complete",
    "Verif.Fs.lock_tree_no_crash",
    "Verif.Fs.lock_tree_frozen_partial",
    "Verif.Fs.locked_link_changes",
    "Verif.Fs.locked_file_removed",
    "Verif.Fs.locked_cptree_changes",
    "Verif.Fs.C22_only_by_request",
    "Verif.Fs.C22_fresh"
   ],
   "note": "Locking reaches everything, also with other requests in between, and everything in the tree except link count, change time and access time stays. False for a single locked file, for hard links outside the tree, and for s3qlcp into the tree (witnesses)."
  },
  {
   "property": "C23",
   "status": "partial",
   "theorems": [
    "Verif.Fs.rmtree_exact",
    "Verif.Fs.rmtree_deletes",
    "Verif.Fs.rmtree_counts",
    "Verif.Fs.rmtree_terminates",
    "Verif.Fs.rmtree_succeeds",
    "Verif.Fs.rmtree_ctrl_crashes",
    "Verif.Fs.rmtree_works",
    "Verif.Fs.rmtree_exact_tree",
    "Verif.Fs.rmtree_mixed_counts_partial",
    "Verif.Fs.rmtree_mixed_frame_partial",
    "Verif.Fs.rmtree_mixed_done_partial",
    "Verif.Fs.rmtree_mixed_fails_partial",
    "Verif.Fs.rmtree_stale_crashes",
    "Verif.Fs.rmtree_stale_loses_file",
    "Verif.Fs.rmtree_renamed_crashes",
    "Verif.Fs.rmtree_follows_moved"
   ],
   "note": "Any batch sizes and orders of rows. The name of the control file makes it crash (witness). With other requests in between (rmtree_mixed_*): proved as long as they do not remove or replace an entry that remove_tree has read and not yet handled; otherwise it crashes or loses a file, and it empties directories that were moved out of the tree (witnesses)."
  },
  {
   "property": "C24",
   "status": "partial",
   "theorems": [
    "Verif.Fs.cptree_exact_partial",
    "Verif.Fs.cptree_counts",
    "Verif.Fs.cptree_terminates",
    "Verif.Fs.cptree_succeeds",
    "Verif.Fs.cptree_root_xattr",
    "Verif.Fs.cptree_exact_tree_partial",
    "Verif.Fs.cptree_target_removed",
    "Verif.Fs.cptree_target_clash",
    "Verif.Fs.cptree_source_removed",
    "Verif.Fs.copy_exact_partial",
    "Verif.Fs.copies_consistent_partial",
    "Verif.Fs.copies_hidden",
    "Verif.Fs.copies_no_dup",
    "Verif.Fs.cptree_stale_name"
   ],
   "note": "Any batch sizes and uploads in between; contents of files are the subject of C77. With any other requests and any number of other copies in between: the copy is exact if they do not change the source (copy_exact_partial), all counts stay exact if they neither delete the target nor an entry that is being copied (copies_consistent_partial), and nobody sees a copy before it is complete (copies_hidden). If they do, the property fails (witnesses). Extended attributes of the source directory itself are not copied (witness)."
  },
  {
   "property": "C25",
   "status": "partial",
   "theorems": [
    "Verif.Fs.listing_at_most_once",
    "Verif.Fs.listing_exactly_once",
    "Verif.Fs.listing_true",
    "Verif.Fs.listing_progress"
   ],
   "note": "Any chunk sizes and any requests in between, except the two requests the code mishandles (see C16)."
  },
  {
   "property": "C26",
   "status": "proved",
   "theorems": [
    "Verif.Comprenc.C26_decrypt_encrypt",
    "Verif.Comprenc.C26_write_read",
    "Verif.Comprenc.C26_write_succeeds",
    "Verif.Comprenc.C26_write_lookup",
    "Verif.Comprenc.C26_old_format"
   ],
   "note": "SHA-256, HMAC, the AES-CTR key stream and the compression libraries are parameters; the libraries are assumed to invert themselves on any non-empty pieces."
  },
  {
   "property": "C27",
   "status": "proved",
   "theorems": [
    "Verif.Comprenc.C27_only_authentic",
    "Verif.Comprenc.C27_truncated_or_extended",
    "Verif.Comprenc.C27_error",
    "Verif.Comprenc.C27_compressed_complete",
    "Verif.Comprenc.C27_encrypted_complete"
   ],
   "note": "For any cryptographic functions: what is accepted carries a valid MAC over exactly the returned data."
  },
  {
   "property": "C28",
   "status": "partial",
   "theorems": [
    "Verif.Comprenc.C28_read_authentic",
    "Verif.Comprenc.C28_lookup_authentic_partial",
    "Verif.Comprenc.C28_plain_refused",
    "Verif.Comprenc.C28_plain_error",
    "Verif.Comprenc.C28_encrypted_refused",
    "Verif.Comprenc.C28_nul_key_swap",
    "Verif.Comprenc.C28_same_clock_mix",
    "Verif.Comprenc.keyOk_data",
    "Verif.Comprenc.unforged_written"
   ],
   "note": "No forged MACs assumed. Holds for keys without NUL characters and if the clock advances between writes; both restrictions are necessary (universal counterexamples proved). A lookup alone only authenticates the metadata."
  },
  {
   "property": "C29",
   "status": "partial",
   "theorems": [
    "Verif.Codec.Checksum.C29_violated",
    "Verif.Codec.Checksum.C29_input_injective_partial",
    "Verif.Codec.Checksum.C29_order_independent"
   ],
   "note": "False of the code for strings containing NUL (witness proved); proved for NUL-free keys and strings."
  },
  {
   "property": "C30",
   "status": "partial",
   "theorems": [
    "Verif.Codec.C30_thaw_freeze",
    "Verif.Codec.C30_freeze_injective",
    "Verif.Codec.C30_rejection_violated",
    "Verif.Codec.C30_rejection_partial"
   ],
   "note": "Round trip proved for all mappings. Rejection is false of the code: a literal that is not a dict raises AttributeError (witness proved). literal_eval is modelled for dict displays and elementary literals only."
  },
  {
   "property": "C31",
   "status": "partial",
   "theorems": [
    "Verif.Local.C31_unescape_escape",
    "Verif.Local.C31_escaped_safe",
    "Verif.Local.C31_paths_distinct",
    "Verif.Local.C31_no_file_directory_clash",
    "Verif.Local.C31_tmp_files_disjoint",
    "Verif.Local.C31_dotdot_not_escaped"
   ],
   "note": "Escaping, distinctness and disjointness proved; keys '.' and '..' are not escaped (witness proved)."
  },
  {
   "property": "C32",
   "status": "partial",
   "theorems": [
    "Verif.Local.C32_violated",
    "Verif.Local.C32_list_exact_partial"
   ],
   "note": "False of the code in general (witness proved); proved for the listed class of prefixes."
  },
  {
   "property": "C33",
   "status": "proved",
   "theorems": [
    "Verif.Backend.Listing.C33_s3_list",
    "Verif.Backend.Listing.C33_s3_list_sound",
    "Verif.Backend.Listing.C33_swift_list",
    "Verif.Backend.Listing.C33_gs_list",
    "Verif.Backend.Listing.C33_swift_short_page"
   ],
   "note": "For a bucket that does not change during the listing and servers that keep the stated paging contract; Swift needs full pages (witness otherwise)."
  },
  {
   "property": "C34",
   "status": "partial",
   "theorems": [
    "Verif.Codec.C34_headers_roundtrip",
    "Verif.Codec.C34_refused_iff_too_large",
    "Verif.Codec.C34_fits",
    "Verif.Codec.C34_space_at_chunk_boundary",
    "Verif.Codec.C34_gs_roundtrip",
    "Verif.Codec.C34_gs_legacy",
    "Verif.Codec.C34_gs_not_legacy",
    "Verif.Backend.SwiftBulk.C34_swift_limit"
   ],
   "note": "Round trip proved for all metadata and chunk sizes if headers arrive unchanged; a space at a chunk boundary makes a header that the HTTP library refuses (witness proved)."
  },
  {
   "property": "C35",
   "status": "proved",
   "theorems": [
    "Verif.Backend.Retry.C35_retry",
    "Verif.Backend.Retry.C35_delays_bounded",
    "Verif.Backend.Retry.C35_backoff",
    "Verif.Backend.Retry.C35_server_delay_uncapped"
   ],
   "note": "Microsecond time; negative Retry-After values are not modelled; the random factor of the delay is not part of the accounting, as in the code."
  },
  {
   "property": "C36",
   "status": "partial",
   "theorems": [
    "Verif.Backend.Retry.C36_download_exact",
    "Verif.Backend.Retry.C36_gs_violated",
    "Verif.Backend.Retry.C36_gs_exact_partial"
   ],
   "note": "Exact for the S3 and Swift backends (digest injective, failed attempts deliver at most the object's length). False for Google Storage (witness)."
  },
  {
   "property": "C37",
   "status": "proved",
   "theorems": [
    "Verif.Backend.Rate.C37_count"
   ],
   "note": "Single-threaded use."
  },
  {
   "property": "C38",
   "status": "partial",
   "theorems": [
    "Verif.Backend.Body.C38_body_length_partial",
    "Verif.Backend.Body.C38_short_body_rejected",
    "Verif.Backend.Body.C38_error_incomplete",
    "Verif.Backend.Body.C38_exact_body_sent",
    "Verif.Backend.Body.C38_excess_item_ignored"
   ],
   "note": "Exactly the announced number of bytes is sent; byte strings after the announced length are dropped without an error (witness)."
  },
  {
   "property": "C39",
   "status": "partial",
   "theorems": [
    "Verif.Backend.Pool.C39_pool",
    "Verif.Backend.Pool.C39_reuse_clean",
    "Verif.Backend.Pool.C39_all_closed",
    "Verif.Backend.Pool.C39_idle_is_clean_partial",
    "Verif.Backend.Pool.C39_unclean_idle"
   ],
   "note": "Limit, exclusivity and closing proved for all schedules; a connection whose body was cut off, or rejected with Connection: close, counts as idle (witness)."
  },
  {
   "property": "C40",
   "status": "proved",
   "theorems": [
    "Verif.Backend.CaseDict.C40_case_insensitive_map",
    "Verif.Backend.CaseDict.C40_missing_key"
   ],
   "note": "For any lower-casing function."
  },
  {
   "property": "C41",
   "status": "partial",
   "theorems": [
    "Verif.Backend.DeleteMulti.C41_local",
    "Verif.Backend.DeleteMulti.C41_s3",
    "Verif.Backend.DeleteMulti.C41_s3_returns",
    "Verif.Backend.DeleteMulti.C41_parallel",
    "Verif.Backend.SwiftBulk.C41_swift_bulk",
    "Verif.Backend.SwiftBulk.C41_swift_completes",
    "Verif.Backend.SwiftBulk.C41_swift_batch_limit",
    "Verif.Backend.DeleteMulti.C41_swift_partial",
    "Verif.Backend.DeleteMulti.C41_swift_violated",
    "Verif.Backend.DeleteMulti.C41_s3_error_keeps_deleted"
   ],
   "note": "Proved for the local, S3 and generic implementations, and for Swift, with retries, lost answers and expired tokens, if the bulk middleware works as documented and keeps to the limits it announces. A Swift server that refuses a whole bulk request empties the list (C41_swift_violated). The S3 backend leaves deleted keys in the list after an error (C41_s3_error_keeps_deleted)."
  },
  {
   "property": "C42",
   "status": "partial",
   "theorems": [
    "Verif.Fsck.C42_refcounts_exact_partial",
    "Verif.Fsck.C42_name_captured"
   ],
   "note": "Inode and object counts always; name counts unless rows refer to missing names whose numbers SQLite gives to new names (witness)."
  },
  {
   "property": "C43",
   "status": "proved",
   "theorems": [
    "Verif.Fsck.C43_references_valid",
    "Verif.Fsck.C43_wrong_attribute_renamed"
   ],
   "note": "For runs that complete. In the case of the witness the run does not complete, but aborts with uncorrectable errors."
  },
  {
   "property": "C44",
   "status": "partial",
   "theorems": [
    "Verif.Fsck.C44_second_run_partial",
    "Verif.Fsck.C44_object_left",
    "Verif.Fsck.C44_reported_again"
   ],
   "note": "Proved unless the first run found blocks of missing inodes or captured names, or errors that are only reported remain (witnesses)."
  },
  {
   "property": "C45",
   "status": "proved",
   "theorems": [
    "Verif.Expire.C45_every_range_covered",
    "Verif.Expire.C45_future_cycles_covered",
    "Verif.Expire.C45_state_file_exact",
    "Verif.Expire.C45_proportion",
    "Verif.Expire.C45_warning_right"
   ],
   "note": ""
  },
  {
   "property": "C46",
   "status": "proved",
   "theorems": [
    "Verif.Expire.C46_format_list_faithful"
   ],
   "note": ""
  },
  {
   "property": "C47",
   "status": "proved",
   "theorems": [
    "Verif.Sync.Pipeline.C47_each_exactly_once",
    "Verif.Sync.Pipeline.C47_never_twice",
    "Verif.Sync.Pipeline.C47_error_raised",
    "Verif.Sync.Pipeline.C47_bounded",
    "Verif.Sync.Pipeline.C47_terminates",
    "Verif.Sync.Pipeline.C47_never_stuck"
   ],
   "note": "Any number of workers and any schedule of sending, receiving, finishing, failing."
  },
  {
   "property": "C48",
   "status": "partial",
   "theorems": [
    "Verif.Local.Write.C48_atomic_partial",
    "Verif.Local.Write.C48_reader_partial",
    "Verif.Local.Write.C48_writer_completes",
    "Verif.Local.Write.C48_parse_whole",
    "Verif.Local.Write.C48_same_thread_mixed",
    "Verif.Local.Write.C48_short_write_damages"
   ],
   "note": "Any number of writers and readers, killed at any step. Two restrictions, each with a witness that it is needed: no two calls for the same key from the same thread, and no short writes of the operating system. Power loss is not modelled."
  },
  {
   "property": "C49",
   "status": "proved",
   "theorems": [
    "Verif.Tools.Authinfo.C49_last_section_wins",
    "Verif.Tools.Authinfo.C49_unique",
    "Verif.Tools.Authinfo.C49_unknown_option",
    "Verif.Tools.Authinfo.C49_insecure",
    "Verif.Tools.Authinfo.C49_other_sections",
    "Verif.Tools.Authinfo.C49_command_line",
    "Verif.Tools.Authinfo.C49_defaults",
    "Verif.Tools.Authinfo.C49_accepts",
    "Verif.Tools.Authinfo.C49_plain_value",
    "Verif.Tools.Authinfo.C49_percent_crash",
    "Verif.Tools.Authinfo.C49_compress"
   ],
   "note": "From the sections as configparser presents them. Includes interpolation and DEFAULT. A witness shows that a single percent sign in a value, as in many passwords, ends the program with an uncaught exception."
  },
  {
   "property": "C50",
   "status": "proved",
   "theorems": [
    "Verif.Sync.Commit.C50_idle_blocks_considered",
    "Verif.Sync.Commit.C50_seen_dirty_uploaded",
    "Verif.Sync.Commit.C50_stops_at_recent_write",
    "Verif.Sync.Commit.C50_pass_ends"
   ],
   "note": "Monotone clock assumed; the stop event is not modelled."
  },
  {
   "property": "C51",
   "status": "partial",
   "theorems": [
    "Verif.Tools.Url.C51_idempotent_partial",
    "Verif.Tools.Url.C51_files_distinct",
    "Verif.Tools.Url.C51_inside_cachedir",
    "Verif.Tools.Url.C51_root",
    "Verif.Tools.Url.C51_b2_two_names"
   ],
   "note": "File names are always distinct. Canonicalisation is idempotent for URLs without line breaks, except for the root directory as local storage (witness)."
  },
  {
   "property": "C52",
   "status": "proved",
   "theorems": [
    "Verif.Tools.Verify.C52_reports_exactly"
   ],
   "note": "For runs that end without an exception; the storage does not change meanwhile. Without --data only what lookup notices is reported."
  },
  {
   "property": "C53",
   "status": "proved",
   "theorems": [
    "Verif.Cache.C53_hashes_unique",
    "Verif.Cache.C53_equal_blocks_share"
   ],
   "note": ""
  },
  {
   "property": "C54",
   "status": "partial",
   "theorems": [
    "Verif.Sync.DropLimits.C54_limit_restored_partial",
    "Verif.Sync.DropLimits.C54_limit_values",
    "Verif.Sync.DropLimits.C54_violated_by_overlap",
    "Verif.Sync.DropLimits.C54_violated_by_failure"
   ],
   "note": "Restored for nested, successful drops; overlapping or failing drops leave the limit at zero (witnesses)."
  },
  {
   "property": "C55",
   "status": "proved",
   "theorems": [
    "Verif.Sync.Batch.C55_all_committed",
    "Verif.Sync.Batch.C55_others_committed",
    "Verif.Sync.Batch.C55_in_transaction",
    "Verif.Sync.Batch.C55_exit",
    "Verif.Sync.Batch.C55_nothing_undone",
    "Verif.Sync.Batch.C55_second_pass_fails",
    "Verif.Sync.Batch.C55_first_pass_fails"
   ],
   "note": "Any number of passes and other tasks on one connection, any clock, exceptions anywhere. Also proved: of two passes at the same time one always fails."
  },
  {
   "property": "C56",
   "status": "proved",
   "theorems": [
    "Verif.Fs.open_eperm_iff",
    "Verif.Fs.open_einval_iff",
    "Verif.Fs.open_ok",
    "Verif.Fs.open_truncates",
    "Verif.Fs.open_keeps"
   ],
   "note": ""
  },
  {
   "property": "C57",
   "status": "proved",
   "theorems": [
    "Verif.Tools.Admin.C57_old_or_new",
    "Verif.Tools.Admin.C57_completed",
    "Verif.Tools.Admin.C57_rest_unchanged",
    "Verif.Tools.Admin.C57_plain",
    "Verif.Tools.Admin.C57_recover"
   ],
   "note": "Killed before any write to the storage; every write is atomic (C48 for the local backend)."
  },
  {
   "property": "C58",
   "status": "proved",
   "theorems": [
    "Verif.Tools.Admin.C58_refuses",
    "Verif.Tools.Admin.C58_interrupted",
    "Verif.Tools.Admin.C58_completed",
    "Verif.Tools.Admin.C58_plain_after_interrupted"
   ],
   "note": "Also: an interrupted mkfs can be repeated, and a completed one can be opened. A witness shows that mkfs --plain after an interrupted encrypted mkfs makes a file system that cannot be opened."
  },
  {
   "property": "C59",
   "status": "proved",
   "theorems": [
    "Verif.Cache.C59_no_deadlock",
    "Verif.Cache.C59_no_deadlock_with_failures"
   ],
   "note": ""
  },
  {
   "property": "C60",
   "status": "partial",
   "theorems": [
    "Verif.Fs.no_crash_partial",
    "Verif.Fs.no_crash_depth_partial",
    "Verif.Fs.deep_rmdir_crashes",
    "Verif.Fs.deep_rmdir_witness",
    "Verif.Fs.remount_ok",
    "Verif.Fs.unlink_ctrl_crashes"
   ],
   "note": "Crashes only for directories deeper than 254 levels or a missing last block, apart from the mishandled requests (witness)."
  },
  {
   "property": "C61",
   "status": "proved",
   "theorems": [
    "Verif.Fs.attrs_exact",
    "Verif.Fs.new_attrs"
   ],
   "note": "For requests that succeed, in every history without the two mishandled requests of C16."
  },
  {
   "property": "C62",
   "status": "partial",
   "theorems": [
    "Verif.Fsck.C62_dirty_blocks_stored_partial",
    "Verif.Fsck.C62_dirty_block_lost"
   ],
   "note": "Proved if no object with the hash of the block is missing in the storage. A crash can leave the row of an object whose upload was not complete; then the dirty block is lost (witness)."
  },
  {
   "property": "C63",
   "status": "proved",
   "theorems": [
    "Verif.Fsck.C63_reports_exactly_errors",
    "Verif.Fsck.C63_quiet_run_changes_nothing"
   ],
   "note": "For storages whose listing is exact. Clean (Fsck/Spec.lean) says what consistent means."
  },
  {
   "property": "C64",
   "status": "proved",
   "theorems": [
    "Verif.Fsck.C64_nothing_lost",
    "Verif.Fsck.C64_blocks_stay",
    "Verif.Fsck.C64_lost_and_found",
    "Verif.Fsck.C64_created_usable"
   ],
   "note": "For runs that complete. An entry lost+found that is not a directory is set to a new directory; its inode is kept."
  },
  {
   "property": "C65",
   "status": "proved",
   "theorems": [
    "Verif.Tools.MasterKey.C65_read_back",
    "Verif.Tools.MasterKey.C65_recovered",
    "Verif.Tools.MasterKey.C65_length",
    "Verif.Tools.MasterKey.C65_injective"
   ],
   "note": "Base64 is modelled bit by bit; encryption by its laws."
  },
  {
   "property": "C66",
   "status": "partial",
   "theorems": [
    "Verif.Fsck.C66_fsck_after_unmount_partial",
    "Verif.Fsck.C66_replaced_xattr",
    "Verif.Fsck.C66_long_name",
    "Verif.Fsck.C66_no_lost_found",
    "Verif.Fsck.C66_deep_tree",
    "Verif.System.C66_uploaded",
    "Verif.System.C66_system_partial"
   ],
   "note": "The model of the file system is connected with the model of fsck. Excluded: replaced extended attributes, names over 255 bytes, a removed lost+found and very deep trees; four witnesses show that fsck then reports errors or crashes, although nobody did anything wrong. The condition on the storage (Uploaded) is proved from the model of contents, cache and uploads if no upload failed (C66_uploaded); in C66_system_partial the tables belong to a history of that model and to a history of the model of requests."
  },
  {
   "property": "C67",
   "status": "proved",
   "theorems": [
    "Verif.Fs.tree_no_loops",
    "Verif.Fs.dir_single_entry",
    "Verif.Fs.root_on_top",
    "Verif.Fs.tree_connected",
    "Verif.Fs.types_agree",
    "Verif.Fs.rename_trusts_kernel"
   ],
   "note": "The checks of the kernel's VFS layer that the code relies on are stated in Vfs (ShapeSpec.lean): it does not move a directory below itself, does not link directories and so on. A witness shows that the code itself would move a directory below itself."
  },
  {
   "property": "C68",
   "status": "partial",
   "theorems": [
    "Verif.Backend.Addr.C68_s3_object_partial",
    "Verif.Backend.Addr.C68_s3_list_partial",
    "Verif.Backend.Addr.C68_s3_distinct_partial",
    "Verif.Backend.Addr.C68_s3_delete_multi_partial",
    "Verif.Backend.Addr.C68_swift_object",
    "Verif.Backend.Addr.C68_gs_object",
    "Verif.Backend.Addr.C68_swift_bulk_delete",
    "Verif.Backend.Addr.C68_swift_bulk_failed",
    "Verif.Backend.Addr.C68_wrong_bucket",
    "Verif.Backend.Addr.C68_prefix_of_endpoint",
    "Verif.Backend.Addr.C68_prefix_of_amazon",
    "Verif.Backend.Addr.C68_delete_multi_cr"
   ],
   "note": "Proved for Swift and Google storage. For S3 under the condition Usable: the name of the bucket is not the beginning of the name of the endpoint. Otherwise every request goes to another bucket (C68_wrong_bucket, two witnesses). Multi-object deletion: names without carriage returns (witness)."
  },
  {
   "property": "C69",
   "status": "partial",
   "theorems": [
    "Verif.Backend.Addr.C69_v4_wire_partial",
    "Verif.Backend.Addr.C69_v2_wire_partial",
    "Verif.Backend.Addr.C69_v4_accepted_partial",
    "Verif.Backend.Addr.C69_v2_signed_partial",
    "Verif.Backend.Addr.C69_v4_plain_http",
    "Verif.Backend.Addr.C69_v2_wrong_bucket_rejected"
   ],
   "note": "Version 4: with encryption, or on a port other than 80 and 443. Proved: without encryption on port 80 no request is accepted, because the host header sent is not the one signed. The server is modelled with its parser of the Authorization and date headers and the check of its clock; version 2 is proved for the default port and without buckets whose name begins the name of the endpoint (C69_v2_wrong_bucket_rejected). Logins, regions and header names must not have the characters that separate the parts of the header."
  },
  {
   "property": "C70",
   "status": "partial",
   "theorems": [
    "Verif.FileData.C70_reads_are_right",
    "Verif.FileData.C70_read_error_is_local",
    "Verif.FileData.C70_write_error_is_local",
    "Verif.FileData.C70_no_damage_no_errors",
    "Verif.FileData.C70_frozen_after_damage",
    "Verif.FileData.C70_requests_end",
    "Verif.FileData.C70_failed_truncate_changes_size",
    "Verif.FileData.C70_truncate_of_lost_block_crashes"
   ],
   "note": "Proved for reads and writes, with truncations in between. Violated by truncate itself: one that reports EIO has changed the size, and one that meets a lost object ends the file system process. An upload is one step here; its parts are the subject of C03 and C04."
  },
  {
   "property": "C71",
   "status": "proved",
   "theorems": [
    "Verif.FileData.C71_every_byte_from_a_write",
    "Verif.FileData.C71_no_write_is_lost",
    "Verif.FileData.C71_size",
    "Verif.FileData.C71_nothing_behind_the_end",
    "Verif.FileData.C71_disjoint_writes",
    "Verif.FileData.C71_truncate_splits_a_write"
   ],
   "note": "Truncation is not among the requests that run at the same time: the kernel serialises it with writes. C71_truncate_splits_a_write shows what would happen otherwise. C71_nothing_behind_the_end needs that no truncate has failed."
  },
  {
   "property": "C72",
   "status": "proved",
   "theorems": [
    "Verif.System.C72_read",
    "Verif.System.C72_size",
    "Verif.System.C72_mount_anywhere",
    "Verif.System.C72_found"
   ],
   "note": "Composition of the models of file contents, block cache and metadata protocol; dec reads the tables from a database file. Processes do not crash here (C14, C15, C62 are about crashes), and writes do not fail (C70). The hash of deduplication is injective. Hypothesis Plain: the download workers handle every job once, and neither fsck nor restore-metadata is run (C62-C64, C10). Mounts may use --keep-cache."
  },
  {
   "property": "C73",
   "status": "partial",
   "theorems": [
    "Verif.Cmd.C73_rm_partial",
    "Verif.Cmd.C73_cp_partial",
    "Verif.Cmd.C73_lock",
    "Verif.Cmd.C73_rm_link",
    "Verif.Cmd.C73_cp_dotdot"
   ],
   "note": "Proved for s3qllock, for s3qlrm with names that are not symbolic links and for s3qlcp with targets without '..'. The rest is violated: given a symbolic link to a directory, s3qlrm removes something else, and with '..' after a symbolic link in its target, s3qlcp copies into an unrelated directory. Changes made by other processes between the checks and the command are not modelled."
  },
  {
   "property": "C74",
   "status": "partial",
   "theorems": [
    "Verif.System.C74_loaded_partial",
    "Verif.System.C74_used",
    "Verif.System.C74_restore"
   ],
   "note": "Proved for all histories of mounts, with and without --keep-cache, without restore-metadata and fsck. With restore-metadata it is violated: neither it nor the following fsck removes the cache directory, so that a new file can show the contents of a file that no longer exists. Processes do not crash here."
  },
  {
   "property": "C75",
   "status": "partial",
   "theorems": [
    "Verif.Backend.Store.C75_write_returns_partial",
    "Verif.Backend.Store.C75_write_atomic_partial",
    "Verif.Backend.Store.C75_write_plain_partial",
    "Verif.Backend.Store.C75_delete",
    "Verif.Backend.Store.C75_session_partial",
    "Verif.Backend.Store.C75_old_object_deleted",
    "Verif.Backend.Store.C75_swift_damaged"
   ],
   "note": "Proved with encryption for all three backends, and without encryption for writes that return with S3. Violated without encryption: after a damaged upload that the server refused, the S3 backend deletes the old object, which is lost if it cannot go on; Swift does not notice damage. Requests that a server executes after the client gave up on them are not modelled."
  },
  {
   "property": "C76",
   "status": "partial",
   "theorems": [
    "Verif.System.C76_contents_partial",
    "Verif.System.C76_backed",
    "Verif.System.C76_exact_partial",
    "Verif.System.C76_upload_lost"
   ],
   "note": "Proved for all histories of the whole model and all states that fsck may then find, if no object that the file needs is missing in the storage; this is so if no upload failed and none is under way. Violated while a block is being uploaded: fsck takes the block for stored since the row already has its hash, removes the cache file, and then the row. Exactly equal contents if the size had reached the database and no empty cache file lies beyond the end of the file."
  },
  {
   "property": "C77",
   "status": "partial",
   "theorems": [
    "Verif.Cache.C77_copy_partial",
    "Verif.Cache.C77_read_partial",
    "Verif.Cache.C77_forgotten",
    "Verif.Cache.C77_forgotten_stale",
    "Verif.Cache.C77_checksum",
    "Verif.Cache.C77_upload_fails"
   ],
   "note": "Proved for files that the kernel has not forgotten, if no upload fails and no other upload is computing the checksum of a block at that moment. Otherwise violated: the dirty blocks of a file that the kernel has forgotten are not registered before the copy, so the copy is empty or outdated without any error; the same for a block whose checksum is being computed by another task; and if the upload fails later, only the original is uploaded again."
  },
  {
   "property": "C78",
   "status": "partial",
   "theorems": [
    "Verif.Tools.Admin.C78_open_exact",
    "Verif.Tools.Admin.C78_protected_partial",
    "Verif.Tools.Admin.C78_dropped"
   ],
   "note": "Proved for storages that have the object s3ql_passphrase, assuming that no MAC is forged. Otherwise violated: if the service hides that object, a configured passphrase is dropped without a message; what the service (or anybody) has put there is accepted, and new data are stored unencrypted."
  },
  {
   "property": "C79",
   "status": "partial",
   "theorems": [
    "Verif.Fsck.C79_in_place",
    "Verif.Fsck.C79_moved",
    "Verif.Fsck.C79_names_usable",
    "Verif.Fsck.C79_free_name",
    "Verif.Fsck.C79_lacking_data",
    "Verif.Fsck.C79_lost_name",
    "Verif.Fsck.C79_lost_parent",
    "Verif.Fsck.C79_no_entry",
    "Verif.Fsck.C79_own_loop",
    "Verif.Fsck.C79_loop_name",
    "Verif.Fsck.C79_first_byte_lost"
   ],
   "note": "All clauses are proved for databases in which name numbers do not exceed the largest one (NamesKnown, as in C42). Exception: the name of an entry whose own name is lost is made of the path of its directory without its first byte (C79_lost_name), e.g. b-7 for an entry in /ab (C79_first_byte_lost). The clauses about single names are about the steps of the run; the others about whole runs."
  },
  {
   "property": "C80",
   "status": "partial",
   "theorems": [
    "Verif.CacheEntry.C80_file_partial",
    "Verif.CacheEntry.C80_size_partial",
    "Verif.CacheEntry.C80_clean",
    "Verif.CacheEntry.C80_short_write",
    "Verif.CacheEntry.C80_short_silent",
    "Verif.CacheEntry.C80_empty_write"
   ],
   "note": "Proved as a refinement of a file with a position, for all sequences of calls in which the operating system does each write completely or refuses it. Violated otherwise: a write that is cut short is not noticed (C80_short_silent), and the next bytes replace the missing ones (C80_short_write). An empty write after the end makes the size wrong (C80_empty_write)."
  },
  {
   "property": "C81",
   "status": "partial",
   "theorems": [
    "Verif.Backend.Exchange.C81_pairing_partial",
    "Verif.Backend.Exchange.C81_continue_returned",
    "Verif.Backend.Exchange.C81_smuggled",
    "Verif.Backend.Exchange.C81_unframed",
    "Verif.Backend.Exchange.C81_closed_is_idle"
   ],
   "note": "Proved for servers that send 100 Continue only once and when asked, and that either need not be asked (no request expects it, option disable-expect100) or do not wait for a body after having refused it. Violated otherwise: an unsolicited or repeated 100 Continue is returned as the response (C81_continue_returned); a server that discards the body it has refused swallows the next request and may take file contents for a request (C81_smuggled). Bodies without a length can be cut off unnoticed, which HTTP cannot avoid (C81_unframed); afterwards the closed connection still counts as idle (C81_closed_is_idle)."
  },
  {
   "property": "C82",
   "status": "partial",
   "theorems": [
    "Verif.Tools.Umount.C82_uploaded_partial",
    "Verif.Tools.Umount.C82_error_keeps_mount",
    "Verif.Tools.Umount.C82_returns_partial",
    "Verif.Tools.Umount.C82_failed_daemon",
    "Verif.Tools.Umount.C82_not_permitted",
    "Verif.Tools.Umount.C82_hidden",
    "Verif.Tools.Umount.C82_other_namespace",
    "Verif.Tools.Umount.C82_renamed",
    "Verif.Tools.Umount.C82_replaced",
    "Verif.Tools.Umount.C82_lazy"
   ],
   "note": "Proved for a daemon that does not end before everything is uploaded and that the command can watch: same process numbers, unchanged command line, may be signalled, shown in /proc. Each of these is needed: exit code 0 is returned also for a daemon that failed, that may not be signalled, that is hidden, that lives in another namespace or that changes its command line. If its number goes to a process with the same command line, the command does not return."
  },
  {
   "property": "C83",
   "status": "partial",
   "theorems": [
    "Verif.Tools.Stat.C83_df_partial",
    "Verif.Tools.Stat.C83_clock_set_back",
    "Verif.Tools.Stat.C83_s3qlstat_partial",
    "Verif.Tools.Stat.C83_overflow",
    "Verif.Tools.Size.C83_size",
    "Verif.Tools.Size.C83_size_small"
   ],
   "note": "df: proved for all histories, where the age of the figures is measured by the clock; if it is set back, the figures stay old for as long (C83_clock_set_back). s3qlstat: proved if all figures are below 2^63; two large sparse files make it fail (C83_overflow). Sizes with units: the error is below one percent for sizes up to 8 PiB."
  },
  {
   "property": "C84",
   "status": "partial",
   "theorems": [
    "Verif.Backend.Auth.Swift.C84_one_login",
    "Verif.Backend.Auth.Swift.C84_login_needed",
    "Verif.Backend.Auth.Swift.C84_limit_per_pool",
    "Verif.Backend.Auth.Swift.C84_not_reused",
    "Verif.Backend.Auth.Swift.C84_endpoint_partial",
    "Verif.Backend.Auth.Swift.C84_mixed_endpoint",
    "Verif.Backend.Auth.Swift.C84_limit_exceeded",
    "Verif.Backend.Auth.Swift.C84_progress",
    "Verif.Backend.Auth.Gs.C84_token_valid",
    "Verif.Backend.Auth.Gs.C84_one_refresh",
    "Verif.Backend.Auth.Gs.C84_refresh_needed_partial",
    "Verif.Backend.Auth.Gs.C84_late_rejection"
   ],
   "note": "Swift: proved, except that requests go to the right server only if all logins report the same one (C84_mixed_endpoint: the new token and path are sent to the old server), and that the limit of connections holds per login only (C84_limit_exceeded). Google Storage: tokens are valid when used if the server keeps its promises and answers within five minutes; a late rejection of an old token discards the new one, so that more tokens are asked for than needed (C84_late_rejection)."
  },
  {
   "property": "C85",
   "status": "partial",
   "theorems": [
    "Verif.Contrib.Pcp.C85_each_file_once_partial",
    "Verif.Contrib.Pcp.C85_processes",
    "Verif.Contrib.Pcp.C85_exit_status",
    "Verif.Contrib.Pcp.C85_no_archive",
    "Verif.Contrib.Pcp.C85_hard_links_lost"
   ],
   "note": "Proved with -a, for the meaning of rsync's filter rules. Without -a nothing is copied and the status is 0 (C85_no_archive); hard links between files of different processes are lost with -H (C85_hard_links_lost)."
  },
  {
   "property": "C86",
   "status": "partial",
   "theorems": [
    "Verif.Cache.Evict.C86_evict_ends",
    "Verif.Cache.Evict.C86_least_recently_used",
    "Verif.Cache.Evict.C86_not_before_upload",
    "Verif.Cache.Evict.C86_entries_partial",
    "Verif.Cache.Evict.C86_entries_positive",
    "Verif.Cache.Evict.C86_no_entries",
    "Verif.Cache.Evict.C86_negative_limit",
    "Verif.Cache.Evict.C86_full",
    "Verif.Cache.Evict.C86_not_full",
    "Verif.Cache.Evict.C86_ctrl_negative"
   ],
   "note": "Proved for limits that are not negative. With --max-cache-entries and few file descriptors a negative limit is chosen (C86_no_entries), and s3qlctrl accepts a negative size; making room then never ends (C86_negative_limit)."
  },
  {
   "property": "C87",
   "status": "partial",
   "theorems": [
    "Verif.Tools.MountOpts.C87_fstab_partial",
    "Verif.Tools.MountOpts.C87_refused",
    "Verif.Tools.MountOpts.C87_unchanged",
    "Verif.Tools.MountOpts.C87_backend_options",
    "Verif.Tools.MountOpts.C87_second",
    "Verif.Tools.MountOpts.C87_comma",
    "Verif.Tools.MountOpts.C87_threads",
    "Verif.Tools.MountOpts.C87_threads_cores",
    "Verif.Tools.MountOpts.C87_threads_unknown"
   ],
   "note": "Proved for one -o with non-empty options whose values have no '='. Values with '=' are refused with a ValueError (C87_backend_options), a second -o is not expanded (C87_second), and an empty option becomes '--' (C87_comma)."
  },
  {
   "property": "C88",
   "status": "partial",
   "theorems": [
    "Verif.Meta.Backup.C88_request_partial",
    "Verif.Meta.Backup.C88_request_kept",
    "Verif.Meta.Backup.C88_carried_out",
    "Verif.Meta.Backup.C88_periodic_partial",
    "Verif.Meta.Backup.C88_newer",
    "Verif.Meta.Backup.C88_only_on_request",
    "Verif.Meta.Backup.C88_attributes_missing",
    "Verif.Meta.Backup.C88_checkpoint_fails"
   ],
   "note": "Proved if no checkpoint fails. While a copy is under way the checkpoint fails with only a warning, and the backup lacks the latest changes (C88_checkpoint_fails); periodic backups lack attributes that are only in the inode cache (C88_attributes_missing)."
  },
  {
   "property": "C89",
   "status": "partial",
   "theorems": [
    "Verif.Tools.MountEnd.C89_clean_mark",
    "Verif.Tools.MountEnd.C89_exit_zero",
    "Verif.Tools.MountEnd.C89_normal",
    "Verif.Tools.MountEnd.C89_not_clean",
    "Verif.Tools.MountEnd.C89_term_uploads",
    "Verif.Tools.MountEnd.C89_two_interrupts",
    "Verif.Tools.MountEnd.C89_attributes_lost",
    "Verif.Tools.MountEnd.C89_dead_mount_point"
   ],
   "note": "The mark and the exit status are proved in full. Violated: a second Ctrl-C makes a check necessary; if a background task fails, attributes and blocks that could be stored are not (C89_attributes_lost); after a failed start the mount point stays (C89_dead_mount_point). The message about a termination signal is wrong: data are uploaded (C89_term_uploads)."
  },
  {
   "property": "C90",
   "status": "partial",
   "theorems": [
    "Verif.Tools.Upgrade.C90_completed",
    "Verif.Tools.Upgrade.C90_mounts",
    "Verif.Tools.Upgrade.C90_other_versions",
    "Verif.Tools.Upgrade.C90_refused",
    "Verif.Tools.Upgrade.C90_refuses",
    "Verif.Tools.Upgrade.C90_resumed_partial",
    "Verif.Tools.Upgrade.C90_stuck",
    "Verif.Tools.Upgrade.C90_old_version_mounts"
   ],
   "note": "Proved for completed and refused upgrades and for interruptions during the upload of metadata. Violated by later interruptions: after the local parameters are written nothing can use or upgrade the file system (C90_stuck); after s3ql_params is stored the previous version can still mount it (C90_old_version_mounts). The conversion of other parameters is not modelled."
  },
  {
   "property": "C91",
   "status": "partial",
   "theorems": [
    "Verif.Tools.Guard.C91_guard_partial",
    "Verif.Tools.Guard.C91_once_partial",
    "Verif.Tools.Guard.C91_space",
    "Verif.Tools.Guard.C91_fs_name",
    "Verif.Tools.Guard.Clear.C91_clear",
    "Verif.Tools.Guard.Clear.C91_clear_honest"
   ],
   "note": "Proved for URLs without characters that the kernel escapes, and without --fs-name. Otherwise the guard never finds the file system (C91_space, C91_fs_name). s3qladm clear is proved in full, given the contract of delete_multi (C41)."
  },
  {
   "property": "C92",
   "status": "proved",
   "theorems": [
    "Verif.System.C92_read",
    "Verif.System.C92_length",
    "Verif.System.C92_kept"
   ],
   "note": "For fsck without --keep-cache and with an exact listing of the storage; SHA-256 is assumed to be injective. That bytes may be lost while the file needs an object that is not stored is a violation of C76 (C76_upload_lost)."
  },
  {
   "property": "C93",
   "status": "partial",
   "theorems": [
    "Verif.Control.C93_copy",
    "Verif.Control.C93_rmtree",
    "Verif.Control.C93_lock",
    "Verif.Control.C93_cachesize",
    "Verif.Control.C93_simple",
    "Verif.Control.C93_log",
    "Verif.Control.C93_only",
    "Verif.Control.C93_robust_partial",
    "Verif.Control.C93_robust_violated",
    "Verif.Control.C93_robust_false",
    "Verif.Control.C93_log_messages",
    "Verif.Control.C93_log_start",
    "Verif.Control.C93_log_off",
    "Verif.Control.C93_log_on_partial",
    "Verif.Control.C93_log_stale",
    "Verif.Control.C93_log_warn"
   ],
   "note": "The code violates two parts of the statement: a message on which literal_eval raises TypeError ends the mount process (C93_robust_violated), and modules that were given before stay in debugging mode (C93_log_stale). Python's literal_eval is modelled for the values that the tools send and one other text; what it makes of all other texts is arbitrary."
  },
  {
   "property": "C94",
   "status": "partial",
   "theorems": [
    "Verif.Backend.Answer.C94_success",
    "Verif.Backend.Answer.C94_missing",
    "Verif.Backend.Answer.C94_not_missing",
    "Verif.Backend.Answer.C94_again_partial",
    "Verif.Backend.Answer.C94_expired",
    "Verif.Backend.Answer.C94_nonsense",
    "Verif.Backend.Answer.C94_again_violated",
    "Verif.Backend.Answer.C94_gs_too_many",
    "Verif.Backend.Answer.C94_refused",
    "Verif.Backend.Answer.C94_call",
    "Verif.Backend.Answer.C94_wait",
    "Verif.Backend.Answer.C94_survives",
    "Verif.Backend.Answer.C94_network",
    "Verif.Backend.Answer.C94_outage",
    "Verif.Backend.Answer.C94_plain_404",
    "Verif.Backend.Answer.C94_gs_no_bucket",
    "Verif.Backend.Answer.C94_swift_damaged",
    "Verif.Backend.Answer.C94_strange_code"
   ],
   "note": "The code violates the full statement about repetition (C94_again_violated, C94_gs_too_many): S3 errors described in XML are judged by their code only, so 503 with an unknown code is final; Google Storage's 429 is final. Proved for answers whose body does not stand in the way (Plain)."
  },
  {
   "property": "C95",
   "status": "partial",
   "theorems": [
    "Verif.Backend.Endpoint.C95_host_url",
    "Verif.Backend.Endpoint.C95_ks_url",
    "Verif.Backend.Endpoint.C95_s3_url",
    "Verif.Backend.Endpoint.C95_s3_host",
    "Verif.Backend.Endpoint.C95_b2_url",
    "Verif.Backend.Endpoint.C95_rackspace_url",
    "Verif.Backend.Endpoint.C95_gs_url",
    "Verif.Backend.Endpoint.C95_encrypted",
    "Verif.Backend.Endpoint.C95_secret",
    "Verif.Backend.Endpoint.C95_no_ssl",
    "Verif.Backend.Endpoint.C95_servers",
    "Verif.Backend.Endpoint.C95_region",
    "Verif.Backend.Endpoint.C95_tls_first",
    "Verif.Backend.Endpoint.C95_tcp",
    "Verif.Backend.Endpoint.C95_proxy_setting",
    "Verif.Backend.Endpoint.C95_proxy_partial",
    "Verif.Backend.Endpoint.C95_proxy_violated",
    "Verif.Backend.Endpoint.C95_b2_proxy",
    "Verif.Backend.Endpoint.C95_swift_plain",
    "Verif.Backend.Endpoint.C95_b2_no_ssl"
   ],
   "note": "The code violates the statement about proxies (C95_proxy_violated, C95_b2_proxy) and the default port of unencrypted Swift logins is 443 (C95_swift_plain). urlsplit is not modelled: addresses sent by servers are given by their parts. TLS itself is trusted."
  },
  {
   "property": "C96",
   "status": "partial",
   "theorems": [
    "Verif.Fsck.Command.C96_status_zero",
    "Verif.Fsck.Command.C96_status_errors",
    "Verif.Fsck.Command.C96_status_uncorrectable",
    "Verif.Fsck.Command.C96_refused",
    "Verif.Fsck.Command.C96_consent",
    "Verif.Fsck.Command.C96_aborted",
    "Verif.Fsck.Command.C96_cache_kept",
    "Verif.Fsck.Command.C96_works",
    "Verif.Fsck.Command.C96_documented_partial",
    "Verif.Fsck.Command.C96_documented_violated",
    "Verif.Fsck.Command.C96_documented_false",
    "Verif.Fsck.Command.C96_outdated",
    "Verif.Fsck.Command.C96_cache_removed",
    "Verif.Fsck.Command.C96_checks",
    "Verif.Fsck.Command.C96_cache_saved_partial"
   ],
   "note": "All parts are proved except the sentence of the manual, which the code violates: if errors were found and storing the result fails, the status is that of the failure (C96_documented_violated). Also shown: a storage with outdated metadata is not noticed (C96_outdated), and a check on a computer where a mount process crashed long ago removes its cached blocks without asking, if the file system was used elsewhere since (C96_cache_removed). That nothing in the cache is lost holds under the condition of C62 (see C62_dirty_block_lost). Partial uploads and downloads are the subject of C12 and C15."
  },
  {
   "property": "C97",
   "status": "partial",
   "theorems": [
    "Verif.Expire.C97_disk",
    "Verif.Expire.C97_repeat",
    "Verif.Expire.C97_covered",
    "Verif.Expire.C97_again",
    "Verif.Expire.C97_newest_kept_partial",
    "Verif.Expire.C97_one_new",
    "Verif.Expire.C97_no_trace",
    "Verif.Expire.C97_newest_deleted",
    "Verif.Expire.C97_ages_wrong",
    "Verif.Expire.C97_state_lost",
    "Verif.Expire.C97_reconstruct_shifted",
    "Verif.Expire.C97_reconstruct_ignored",
    "Verif.Expire.C97_reconstruct_newest_deleted"
   ],
   "note": "Proved for interruptions before which no backup was deleted that is not yet in the state file; this is so if the first range is 0-1 and there is only one new backup (C97_one_new), and then interruptions leave no trace (C97_no_trace). The code violates the rest: a new backup that is deleted before the interruption makes all later ages too small, and a range is not covered (C97_ages_wrong); an interruption between the two renames leaves no state file, and all later runs refuse (C97_state_lost); the newest backup may be deleted if the first range is longer (C97_newest_deleted); --reconstruct-state takes every backup for one cycle too old (C97_reconstruct_shifted) and may therefore delete the newest one (C97_reconstruct_newest_deleted)."
  },
  {
   "property": "C98",
   "status": "partial",
   "theorems": [
    "Verif.System.C98_fsync_partial",
    "Verif.Inode.C98_row",
    "Verif.System.C98_fdatasync_lost"
   ],
   "note": "Proved for fsync, if nothing that the file needs is missing in the storage when the process dies (false otherwise, see C76_upload_lost) and no empty cache file is left beyond the end. The code violates the property for fdatasync, which does not write the size (C98_fdatasync_lost). Loss of power is not modelled; no data are written with os.fsync."
  },
  {
   "property": "C99",
   "status": "partial",
   "theorems": [
    "Verif.Tools.Messages.C99_unmarked",
    "Verif.Tools.Messages.C99_once_partial",
    "Verif.Tools.Messages.C99_limited_partial",
    "Verif.Tools.Messages.C99_log_file_lacks",
    "Verif.Tools.Messages.C99_violated",
    "Verif.Tools.Messages.C99_after_boot",
    "Verif.Tools.Messages.C99_terminal",
    "Verif.Tools.Messages.C99_terminal_keeps",
    "Verif.Tools.Messages.C99_not_terminal"
   ],
   "note": "Unmarked messages and the terminal are proved in full. Messages that are to appear once or at a limited rate: proved for a single destination. With two destinations the code violates the property: they share a filter, so the log file never gets such messages if the terminal does (C99_log_file_lacks). In the first second after booting a limited message does not appear (C99_after_boot). Hashes of messages are assumed to differ; threads are not modelled."
  }
 ]
}