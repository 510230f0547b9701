# Axioms of every theorem in MANIFEST.json

Output of `#print axioms`.

| Property | Theorem | Axioms |
|---|---|---|
| C01 | `Verif.FileData.C01_file_is_byte_array` | propext, Classical.choice, Quot.sound |
| C01 | `Verif.FileData.C01_block_size_unobservable` | propext, Classical.choice, Quot.sound |
| C01 | `Verif.FileData.C01_blocks_bounded` | propext, Classical.choice, Quot.sound |
| C01 | `Verif.FileData.C01_zero_length_write_extends` | propext, Quot.sound |
| C02 | `Verif.Cache.C02_reads_return_last_write` | propext, Classical.choice, Quot.sound |
| C02 | `Verif.Cache.C02_last_read` | propext, Classical.choice, Quot.sound |
| C02 | `Verif.Cache.C02_download_finds_data` | propext, Classical.choice, Quot.sound |
| C03 | `Verif.Cache.C03_refcounts_exact` | propext, Classical.choice, Quot.sound |
| C03 | `Verif.Cache.C03_idle` | propext, Classical.choice, Quot.sound |
| C03 | `Verif.Cache.C03_never_too_small` | propext, Classical.choice, Quot.sound |
| C03 | `Verif.Cache.C03_violated_by_failing_hand_over` | propext |
| C04 | `Verif.Cache.C04_contents_safe_partial` | propext, Classical.choice, Quot.sound |
| C04 | `Verif.Cache.C04_backend_complete_partial` | propext, Classical.choice, Quot.sound |
| C04 | `Verif.Cache.C04_dirty_stays` | propext, Quot.sound |
| C04 | `Verif.Cache.C04_hashed_has_data` | propext, Classical.choice, Quot.sound |
| C04 | `Verif.Cache.C04_violated` | propext, Quot.sound |
| C04 | `Verif.Cache.C04_violated_by_failing_hand_over` | propext |
| C05 | `Verif.Cache.C05_delete_unreferenced` | propext, Classical.choice, Quot.sound |
| C05 | `Verif.Cache.C05_ids_never_reused` | propext, Classical.choice, Quot.sound |
| C05 | `Verif.Cache.C05_objects_immutable` | propext, Classical.choice, Quot.sound |
| C05 | `Verif.Cache.C05_release_clean` | propext, Classical.choice, Quot.sound |
| C05 | `Verif.Cache.C05_no_garbage_partial` | propext, Classical.choice, Quot.sound |
| C06 | `Verif.Cache.C06_size_exact` | propext, Classical.choice, Quot.sound |
| C06 | `Verif.Cache.C06_size_while_open` | propext, Classical.choice, Quot.sound |
| C07 | `Verif.Sync.MultiLock.C07_mutual_exclusion` | propext |
| C07 | `Verif.Sync.MultiLock.C07_no_lost_wakeup` | propext, Quot.sound |
| C07 | `Verif.Sync.MultiLock.C07_turns_in_order` | propext |
| C07 | `Verif.Sync.MultiLock.C07_nowait_partial` | propext |
| C07 | `Verif.Sync.MultiLock.C07_release_frame` | propext |
| C07 | `Verif.Sync.MultiLock.C07_nowait_can_fail_on_free_key` | (none) |
| C07 | `Verif.Sync.MultiLock.C07_cancel_frame` | propext, Quot.sound |
| C07 | `Verif.Sync.MultiLock.C07_cancelled_release` | propext |
| C08 | `Verif.Sync.LinkedDict.C08_ordered_map` | propext, Classical.choice, Quot.sound |
| C08 | `Verif.Sync.LinkedDict.C08_total` | propext, Classical.choice, Quot.sound |
| C08 | `Verif.Sync.LinkedDict.C08_iteration_complete` | propext, Classical.choice, Quot.sound |
| C08 | `Verif.Sync.LinkedDict.C08_iteration_terminates` | propext, Classical.choice, Quot.sound |
| C09 | `Verif.Inode.C09_cache_is_a_table` | propext, Classical.choice, Quot.sound |
| C09 | `Verif.Inode.C09_flush_complete` | propext, Classical.choice, Quot.sound |
| C09 | `Verif.Inode.C09_drop_complete` | propext, Classical.choice, Quot.sound |
| C09 | `Verif.Inode.C09_new_object_stays` | propext, Classical.choice, Quot.sound |
| C09 | `Verif.Inode.C09_stale_object_loses_assignment` | (none) |
| C10 | `Verif.Meta.C10_versions_download_partial` | propext, Classical.choice, Quot.sound |
| C10 | `Verif.Meta.C10_periodic_partial` | propext, Classical.choice, Quot.sound |
| C10 | `Verif.Meta.C10_snapshots_stay` | propext, Classical.choice, Quot.sound |
| C10 | `Verif.Meta.C10_untracked_change` | propext |
| C100 | `Verif.Tools.MountStart.C100_mounts` | propext, Classical.choice, Quot.sound |
| C100 | `Verif.Tools.MountStart.C100_uploads` | propext, Classical.choice, Quot.sound |
| C100 | `Verif.Tools.MountStart.C100_status_partial` | propext, Classical.choice, Quot.sound |
| C100 | `Verif.Tools.MountStart.C100_sound` | propext, Classical.choice, Quot.sound |
| C100 | `Verif.Tools.MountStart.C100_before_hook` | propext, Classical.choice, Quot.sound |
| C100 | `Verif.Tools.MountStart.C100_fuse` | propext, Classical.choice, Quot.sound |
| C100 | `Verif.Tools.MountStart.C100_s3` | propext, Classical.choice, Quot.sound |
| C100 | `Verif.Tools.MountStart.C100_others` | propext, Classical.choice, Quot.sound |
| C101 | `Verif.Meta.C101_version_exists` | propext, Classical.choice, Quot.sound |
| C101 | `Verif.Meta.C101_verify_iff` | propext, Classical.choice, Quot.sound |
| C101 | `Verif.Meta.C101_verify_partial` | propext, Classical.choice, Quot.sound |
| C101 | `Verif.Meta.C101_verify_stays` | propext, Classical.choice, Quot.sound |
| C101 | `Verif.Meta.C101_verify_blocks` | propext |
| C102 | `Verif.Contrib.BackupScript.C102_success` | propext, Classical.choice, Quot.sound |
| C102 | `Verif.Contrib.BackupScript.C102_unchanged` | propext, Classical.choice, Quot.sound |
| C102 | `Verif.Contrib.BackupScript.C102_kept` | propext, Classical.choice, Quot.sound |
| C102 | `Verif.Contrib.BackupScript.C102_succeeds` | propext, Classical.choice, Quot.sound |
| C102 | `Verif.Contrib.BackupScript.C102_status_partial` | propext, Classical.choice, Quot.sound |
| C102 | `Verif.Contrib.BackupScript.C102_no_backup_after_crash` | propext |
| C102 | `Verif.Contrib.BackupScript.C102_two_runs_needed` | propext, Classical.choice, Quot.sound |
| C102 | `Verif.Contrib.BackupScript.C102_mixture_locked` | propext |
| C102 | `Verif.Contrib.BackupScript.C102_older_locked_partial` | propext, Classical.choice, Quot.sound |
| C102 | `Verif.Contrib.BackupScript.C102_older_never_locked` | propext, Quot.sound |
| C102 | `Verif.Contrib.BackupScript.C102_mutable_left` | propext |
| C103 | `Verif.Backend.Options.C103_parse` | propext, Quot.sound |
| C103 | `Verif.Backend.Options.C103_open` | propext, Classical.choice, Quot.sound |
| C103 | `Verif.Backend.Options.C103_known_partial` | propext |
| C103 | `Verif.Backend.Options.C103_class_partial` | propext, Classical.choice, Quot.sound |
| C103 | `Verif.Backend.Options.C103_rrs_ignored` | propext, Classical.choice, Quot.sound |
| C103 | `Verif.Backend.Options.C103_timeout` | propext, Classical.choice, Quot.sound |
| C103 | `Verif.Backend.Options.C103_bare_timeout` | propext, Classical.choice, Quot.sound |
| C103 | `Verif.Backend.Options.C103_expect` | propext, Classical.choice, Quot.sound |
| C103 | `Verif.Backend.Options.C103_region` | propext, Classical.choice, Quot.sound |
| C103 | `Verif.Backend.Options.C103_keystone` | propext, Classical.choice, Quot.sound |
| C103 | `Verif.Backend.Options.C103_tenant` | propext, Classical.choice, Quot.sound |
| C104 | `Verif.Contrib.RemoveObjects.C104_remove` | propext, Quot.sound |
| C104 | `Verif.Contrib.RemoveObjects.C104_after_verify` | propext, Quot.sound |
| C104 | `Verif.Contrib.RemoveObjects.C104_data_objects` | propext, Classical.choice, Quot.sound |
| C104 | `Verif.Contrib.RemoveObjects.C104_blank_line` | propext, Quot.sound |
| C104 | `Verif.Contrib.RemoveObjects.C104_trailing_space` | propext, Classical.choice, Quot.sound |
| C11 | `Verif.Meta.C11_expire` | propext, Classical.choice, Quot.sound |
| C11 | `Verif.Meta.C11_succeeds` | propext, Classical.choice, Quot.sound |
| C12 | `Verif.Meta.C12_incremental_partial` | propext, Classical.choice, Quot.sound |
| C12 | `Verif.Meta.C12_full` | propext, Classical.choice, Quot.sound |
| C12 | `Verif.Meta.C12_holes` | propext, Quot.sound |
| C13 | `Verif.Codec.C13_name_roundtrip` | propext, Classical.choice, Quot.sound |
| C13 | `Verif.Codec.C13_names_distinct` | propext, Classical.choice, Quot.sound |
| C13 | `Verif.Codec.C13_params_roundtrip` | propext, Classical.choice, Quot.sound |
| C13 | `Verif.Codec.C13_kinds_disjoint` | propext, Classical.choice, Quot.sound |
| C14 | `Verif.Meta.C14_no_stale_partial` | propext, Classical.choice, Quot.sound |
| C14 | `Verif.Meta.C14_stale_fsck` | propext |
| C14 | `Verif.Meta.C14_stale_log` | propext |
| C14 | `Verif.Meta.C14_interrupted_restore` | propext |
| C15 | `Verif.Meta.C15_repairable_partial` | propext, Classical.choice, Quot.sound |
| C15 | `Verif.Meta.C15_stuck` | propext |
| C15 | `Verif.Meta.C15_assertion` | propext |
| C16 | `Verif.Fs.links_exact_partial` | propext, Classical.choice, Quot.sound |
| C16 | `Verif.Fs.objects_exact_partial` | propext, Classical.choice, Quot.sound |
| C16 | `Verif.Fs.removexattr_destroys_entry` | propext, Classical.choice, Quot.sound |
| C16 | `Verif.Fs.unlink_ctrl_breaks_links` | propext, Classical.choice, Quot.sound |
| C17 | `Verif.Fs.names_exact_partial` | propext, Classical.choice, Quot.sound |
| C17 | `Verif.Fs.names_kept` | propext, Classical.choice, Quot.sound |
| C17 | `Verif.Fs.setxattr_leaks_name` | propext, Classical.choice, Quot.sound |
| C17 | `Verif.Fs.removexattr_breaks_count` | propext, Classical.choice, Quot.sound |
| C18 | `Verif.Fs.xattrs_map_partial` | propext, Classical.choice, Quot.sound |
| C18 | `Verif.Fs.listxattr_exact` | propext, Classical.choice, Quot.sound |
| C18 | `Verif.Fs.removexattr_destroys_xattr` | propext, Classical.choice, Quot.sound |
| C18 | `Verif.Fs.removexattr_destroys_entry` | propext, Classical.choice, Quot.sound |
| C19 | `Verif.Fs.namespace_map_partial` | propext, Classical.choice, Quot.sound |
| C19 | `Verif.Fs.new_inode_partial` | propext, Classical.choice, Quot.sound |
| C19 | `Verif.Fs.unlink_ok_iff` | propext, Classical.choice, Quot.sound |
| C19 | `Verif.Fs.rmdir_ok_iff` | propext, Classical.choice, Quot.sound |
| C19 | `Verif.Fs.mknod_ok_iff` | propext, Classical.choice, Quot.sound |
| C19 | `Verif.Fs.symlink_ok_iff` | propext, Classical.choice, Quot.sound |
| C19 | `Verif.Fs.link_ok_iff` | propext, Classical.choice, Quot.sound |
| C19 | `Verif.Fs.rename_ok_iff` | propext, Classical.choice, Quot.sound |
| C19 | `Verif.Fs.removexattr_destroys_entry` | propext, Classical.choice, Quot.sound |
| C20 | `Verif.Fs.inode_exists_iff_partial` | propext, Classical.choice, Quot.sound |
| C20 | `Verif.Fs.inode_kept` | propext, Classical.choice, Quot.sound |
| C20 | `Verif.Fs.inode_intact_partial` | propext, Classical.choice, Quot.sound |
| C20 | `Verif.Fs.no_rows_remain` | propext, Classical.choice, Quot.sound |
| C20 | `Verif.Fs.remount_cleans` | propext, Classical.choice, Quot.sound |
| C20 | `Verif.Fs.rmdir_leaks_inode` | propext, Classical.choice, Quot.sound |
| C20 | `Verif.Fs.inode_never_reused` | propext, Classical.choice, Quot.sound |
| C21 | `Verif.Fs.failsafe_refuses` | propext, Classical.choice, Quot.sound |
| C21 | `Verif.Fs.failsafe_eperm` | propext, Classical.choice, Quot.sound |
| C21 | `Verif.Fs.reading_changes_atime` | propext, Classical.choice, Quot.sound |
| C21 | `Verif.Fs.failsafe_lasts` | propext, Classical.choice, Quot.sound |
| C21 | `Verif.Fs.damage_turns_on` | propext, Classical.choice, Quot.sound |
| C21 | `Verif.Fs.damage_turns_on_write` | propext, Classical.choice, Quot.sound |
| C21 | `Verif.Fs.failsafe_trees` | propext, Quot.sound |
| C22 | `Verif.Fs.locked_tree_frozen_partial` | propext, Classical.choice, Quot.sound |
| C22 | `Verif.Fs.locked_write_refused` | propext, Classical.choice, Quot.sound |
| C22 | `Verif.Fs.locked_blocks_kept` | propext, Classical.choice, Quot.sound |
| C22 | `Verif.Fs.lock_tree_complete` | propext, Classical.choice, Quot.sound |
| C22 | `Verif.Fs.lock_tree_no_crash` | propext, Classical.choice, Quot.sound |
| C22 | `Verif.Fs.lock_tree_frozen_partial` | propext, Classical.choice, Quot.sound |
| C22 | `Verif.Fs.locked_link_changes` | propext, Quot.sound |
| C22 | `Verif.Fs.locked_file_removed` | propext, Classical.choice, Quot.sound |
| C22 | `Verif.Fs.locked_cptree_changes` | propext, Classical.choice, Quot.sound |
| C22 | `Verif.Fs.C22_only_by_request` | propext, Quot.sound |
| C22 | `Verif.Fs.C22_fresh` | propext, Quot.sound |
| C23 | `Verif.Fs.rmtree_exact` | propext, Classical.choice, Quot.sound |
| C23 | `Verif.Fs.rmtree_deletes` | propext, Classical.choice, Quot.sound |
| C23 | `Verif.Fs.rmtree_counts` | propext, Classical.choice, Quot.sound |
| C23 | `Verif.Fs.rmtree_terminates` | propext, Classical.choice, Quot.sound |
| C23 | `Verif.Fs.rmtree_succeeds` | propext, Classical.choice, Quot.sound |
| C23 | `Verif.Fs.rmtree_ctrl_crashes` | propext, Classical.choice, Quot.sound |
| C23 | `Verif.Fs.rmtree_works` | propext, Classical.choice, Quot.sound |
| C23 | `Verif.Fs.rmtree_exact_tree` | propext, Classical.choice, Quot.sound |
| C23 | `Verif.Fs.rmtree_mixed_counts_partial` | propext, Classical.choice, Quot.sound |
| C23 | `Verif.Fs.rmtree_mixed_frame_partial` | propext, Classical.choice, Quot.sound |
| C23 | `Verif.Fs.rmtree_mixed_done_partial` | propext, Classical.choice, Quot.sound |
| C23 | `Verif.Fs.rmtree_mixed_fails_partial` | propext, Classical.choice, Quot.sound |
| C23 | `Verif.Fs.rmtree_stale_crashes` | propext, Classical.choice, Quot.sound |
| C23 | `Verif.Fs.rmtree_stale_loses_file` | propext, Classical.choice, Quot.sound |
| C23 | `Verif.Fs.rmtree_renamed_crashes` | propext, Classical.choice, Quot.sound |
| C23 | `Verif.Fs.rmtree_follows_moved` | propext, Classical.choice, Quot.sound |
| C24 | `Verif.Fs.cptree_exact_partial` | propext, Classical.choice, Quot.sound |
| C24 | `Verif.Fs.cptree_counts` | propext, Classical.choice, Quot.sound |
| C24 | `Verif.Fs.cptree_terminates` | propext, Classical.choice, Quot.sound |
| C24 | `Verif.Fs.cptree_succeeds` | propext, Classical.choice, Quot.sound |
| C24 | `Verif.Fs.cptree_root_xattr` | propext, Classical.choice, Quot.sound |
| C24 | `Verif.Fs.cptree_exact_tree_partial` | propext, Classical.choice, Quot.sound |
| C24 | `Verif.Fs.cptree_target_removed` | propext, Classical.choice, Quot.sound |
| C24 | `Verif.Fs.cptree_target_clash` | propext, Classical.choice, Quot.sound |
| C24 | `Verif.Fs.cptree_source_removed` | propext, Classical.choice, Quot.sound |
| C24 | `Verif.Fs.copy_exact_partial` | propext, Classical.choice, Quot.sound |
| C24 | `Verif.Fs.copies_consistent_partial` | propext, Classical.choice, Quot.sound |
| C24 | `Verif.Fs.copies_hidden` | propext, Classical.choice, Quot.sound |
| C24 | `Verif.Fs.copies_no_dup` | propext, Classical.choice, Quot.sound |
| C24 | `Verif.Fs.cptree_stale_name` | propext, Classical.choice, Quot.sound |
| C25 | `Verif.Fs.listing_at_most_once` | propext, Classical.choice, Quot.sound |
| C25 | `Verif.Fs.listing_exactly_once` | propext, Classical.choice, Quot.sound |
| C25 | `Verif.Fs.listing_true` | propext, Classical.choice, Quot.sound |
| C25 | `Verif.Fs.listing_progress` | propext, Classical.choice, Quot.sound |
| C26 | `Verif.Comprenc.C26_decrypt_encrypt` | propext, Classical.choice, Quot.sound |
| C26 | `Verif.Comprenc.C26_write_read` | propext, Classical.choice, Quot.sound |
| C26 | `Verif.Comprenc.C26_write_succeeds` | propext, Classical.choice, Quot.sound |
| C26 | `Verif.Comprenc.C26_write_lookup` | propext, Classical.choice, Quot.sound |
| C26 | `Verif.Comprenc.C26_old_format` | propext, Classical.choice, Quot.sound |
| C27 | `Verif.Comprenc.C27_only_authentic` | propext, Classical.choice, Quot.sound |
| C27 | `Verif.Comprenc.C27_truncated_or_extended` | propext, Classical.choice, Quot.sound |
| C27 | `Verif.Comprenc.C27_error` | propext, Classical.choice, Quot.sound |
| C27 | `Verif.Comprenc.C27_compressed_complete` | propext, Classical.choice, Quot.sound |
| C27 | `Verif.Comprenc.C27_encrypted_complete` | propext, Classical.choice, Quot.sound |
| C28 | `Verif.Comprenc.C28_read_authentic` | propext, Classical.choice, Quot.sound |
| C28 | `Verif.Comprenc.C28_lookup_authentic_partial` | propext, Classical.choice, Quot.sound |
| C28 | `Verif.Comprenc.C28_plain_refused` | propext, Classical.choice, Quot.sound |
| C28 | `Verif.Comprenc.C28_plain_error` | propext, Classical.choice, Quot.sound |
| C28 | `Verif.Comprenc.C28_encrypted_refused` | propext, Classical.choice, Quot.sound |
| C28 | `Verif.Comprenc.C28_nul_key_swap` | propext, Classical.choice, Quot.sound |
| C28 | `Verif.Comprenc.C28_same_clock_mix` | propext, Classical.choice, Quot.sound |
| C28 | `Verif.Comprenc.keyOk_data` | propext, Quot.sound |
| C28 | `Verif.Comprenc.unforged_written` | propext, Classical.choice, Quot.sound |
| C29 | `Verif.Codec.Checksum.C29_violated` | propext, Quot.sound |
| C29 | `Verif.Codec.Checksum.C29_input_injective_partial` | propext, Quot.sound |
| C29 | `Verif.Codec.Checksum.C29_order_independent` | propext, Quot.sound |
| C30 | `Verif.Codec.C30_thaw_freeze` | propext, Classical.choice, Quot.sound |
| C30 | `Verif.Codec.C30_freeze_injective` | propext, Classical.choice, Quot.sound |
| C30 | `Verif.Codec.C30_rejection_violated` | propext, Classical.choice, Quot.sound |
| C30 | `Verif.Codec.C30_rejection_partial` | propext, Classical.choice, Quot.sound |
| C31 | `Verif.Local.C31_unescape_escape` | propext, Quot.sound |
| C31 | `Verif.Local.C31_escaped_safe` | propext, Quot.sound |
| C31 | `Verif.Local.C31_paths_distinct` | propext, Quot.sound |
| C31 | `Verif.Local.C31_no_file_directory_clash` | propext, Quot.sound |
| C31 | `Verif.Local.C31_tmp_files_disjoint` | propext, Quot.sound |
| C31 | `Verif.Local.C31_dotdot_not_escaped` | propext, Quot.sound |
| C32 | `Verif.Local.C32_violated` | propext, Classical.choice, Quot.sound |
| C32 | `Verif.Local.C32_list_exact_partial` | propext, Quot.sound |
| C33 | `Verif.Backend.Listing.C33_s3_list` | propext, Classical.choice, Quot.sound |
| C33 | `Verif.Backend.Listing.C33_s3_list_sound` | propext, Classical.choice, Quot.sound |
| C33 | `Verif.Backend.Listing.C33_swift_list` | propext, Classical.choice, Quot.sound |
| C33 | `Verif.Backend.Listing.C33_gs_list` | propext, Classical.choice, Quot.sound |
| C33 | `Verif.Backend.Listing.C33_swift_short_page` | propext |
| C34 | `Verif.Codec.C34_headers_roundtrip` | propext, Classical.choice, Quot.sound |
| C34 | `Verif.Codec.C34_refused_iff_too_large` | propext, Classical.choice, Quot.sound |
| C34 | `Verif.Codec.C34_fits` | propext, Classical.choice, Quot.sound |
| C34 | `Verif.Codec.C34_space_at_chunk_boundary` | propext, Classical.choice, Quot.sound |
| C34 | `Verif.Codec.C34_gs_roundtrip` | propext, Classical.choice, Quot.sound |
| C34 | `Verif.Codec.C34_gs_legacy` | propext, Classical.choice, Quot.sound |
| C34 | `Verif.Codec.C34_gs_not_legacy` | propext, Classical.choice, Quot.sound |
| C34 | `Verif.Backend.SwiftBulk.C34_swift_limit` | propext, Quot.sound |
| C35 | `Verif.Backend.Retry.C35_retry` | propext, Classical.choice, Quot.sound |
| C35 | `Verif.Backend.Retry.C35_delays_bounded` | propext, Quot.sound |
| C35 | `Verif.Backend.Retry.C35_backoff` | propext, Quot.sound |
| C35 | `Verif.Backend.Retry.C35_server_delay_uncapped` | propext, Quot.sound |
| C36 | `Verif.Backend.Retry.C36_download_exact` | propext, Classical.choice, Quot.sound |
| C36 | `Verif.Backend.Retry.C36_gs_violated` | (none) |
| C36 | `Verif.Backend.Retry.C36_gs_exact_partial` | propext |
| C37 | `Verif.Backend.Rate.C37_count` | propext, Classical.choice, Quot.sound |
| C38 | `Verif.Backend.Body.C38_body_length_partial` | propext, Classical.choice, Quot.sound |
| C38 | `Verif.Backend.Body.C38_short_body_rejected` | propext, Classical.choice, Quot.sound |
| C38 | `Verif.Backend.Body.C38_error_incomplete` | propext, Classical.choice, Quot.sound |
| C38 | `Verif.Backend.Body.C38_exact_body_sent` | propext, Classical.choice, Quot.sound |
| C38 | `Verif.Backend.Body.C38_excess_item_ignored` | propext, Quot.sound |
| C39 | `Verif.Backend.Pool.C39_pool` | propext, Classical.choice, Quot.sound |
| C39 | `Verif.Backend.Pool.C39_reuse_clean` | propext, Quot.sound |
| C39 | `Verif.Backend.Pool.C39_all_closed` | propext, Classical.choice, Quot.sound |
| C39 | `Verif.Backend.Pool.C39_idle_is_clean_partial` | propext |
| C39 | `Verif.Backend.Pool.C39_unclean_idle` | (none) |
| C40 | `Verif.Backend.CaseDict.C40_case_insensitive_map` | propext, Classical.choice, Quot.sound |
| C40 | `Verif.Backend.CaseDict.C40_missing_key` | propext, Classical.choice, Quot.sound |
| C41 | `Verif.Backend.DeleteMulti.C41_local` | propext, Quot.sound |
| C41 | `Verif.Backend.DeleteMulti.C41_s3` | propext, Quot.sound |
| C41 | `Verif.Backend.DeleteMulti.C41_s3_returns` | propext, Quot.sound |
| C41 | `Verif.Backend.DeleteMulti.C41_parallel` | propext, Classical.choice, Quot.sound |
| C41 | `Verif.Backend.SwiftBulk.C41_swift_bulk` | propext, Classical.choice, Quot.sound |
| C41 | `Verif.Backend.SwiftBulk.C41_swift_completes` | propext, Classical.choice, Quot.sound |
| C41 | `Verif.Backend.SwiftBulk.C41_swift_batch_limit` | propext, Classical.choice, Quot.sound |
| C41 | `Verif.Backend.DeleteMulti.C41_swift_partial` | propext |
| C41 | `Verif.Backend.DeleteMulti.C41_swift_violated` | propext |
| C41 | `Verif.Backend.DeleteMulti.C41_s3_error_keeps_deleted` | propext |
| C42 | `Verif.Fsck.C42_refcounts_exact_partial` | propext, Classical.choice, Quot.sound |
| C42 | `Verif.Fsck.C42_name_captured` | propext, Quot.sound |
| C43 | `Verif.Fsck.C43_references_valid` | propext, Classical.choice, Quot.sound |
| C43 | `Verif.Fsck.C43_wrong_attribute_renamed` | propext |
| C44 | `Verif.Fsck.C44_second_run_partial` | propext, Classical.choice, Quot.sound |
| C44 | `Verif.Fsck.C44_object_left` | propext |
| C44 | `Verif.Fsck.C44_reported_again` | propext |
| C45 | `Verif.Expire.C45_every_range_covered` | propext, Classical.choice, Quot.sound |
| C45 | `Verif.Expire.C45_future_cycles_covered` | propext, Classical.choice, Quot.sound |
| C45 | `Verif.Expire.C45_state_file_exact` | propext, Classical.choice, Quot.sound |
| C45 | `Verif.Expire.C45_proportion` | propext, Classical.choice, Quot.sound |
| C45 | `Verif.Expire.C45_warning_right` | propext, Quot.sound |
| C46 | `Verif.Expire.C46_format_list_faithful` | propext, Classical.choice, Quot.sound |
| C47 | `Verif.Sync.Pipeline.C47_each_exactly_once` | propext, Quot.sound |
| C47 | `Verif.Sync.Pipeline.C47_never_twice` | propext, Quot.sound |
| C47 | `Verif.Sync.Pipeline.C47_error_raised` | propext, Quot.sound |
| C47 | `Verif.Sync.Pipeline.C47_bounded` | propext, Quot.sound |
| C47 | `Verif.Sync.Pipeline.C47_terminates` | propext, Quot.sound |
| C47 | `Verif.Sync.Pipeline.C47_never_stuck` | propext, Classical.choice, Quot.sound |
| C48 | `Verif.Local.Write.C48_atomic_partial` | propext, Quot.sound |
| C48 | `Verif.Local.Write.C48_reader_partial` | propext, Classical.choice, Quot.sound |
| C48 | `Verif.Local.Write.C48_writer_completes` | propext, Quot.sound |
| C48 | `Verif.Local.Write.C48_parse_whole` | propext, Quot.sound |
| C48 | `Verif.Local.Write.C48_same_thread_mixed` | propext, Quot.sound |
| C48 | `Verif.Local.Write.C48_short_write_damages` | propext, Quot.sound |
| C49 | `Verif.Tools.Authinfo.C49_last_section_wins` | propext, Classical.choice, Quot.sound |
| C49 | `Verif.Tools.Authinfo.C49_unique` | propext, Classical.choice, Quot.sound |
| C49 | `Verif.Tools.Authinfo.C49_unknown_option` | propext, Classical.choice, Quot.sound |
| C49 | `Verif.Tools.Authinfo.C49_insecure` | propext, Classical.choice, Quot.sound |
| C49 | `Verif.Tools.Authinfo.C49_other_sections` | propext, Classical.choice, Quot.sound |
| C49 | `Verif.Tools.Authinfo.C49_command_line` | (none) |
| C49 | `Verif.Tools.Authinfo.C49_defaults` | propext, Classical.choice, Quot.sound |
| C49 | `Verif.Tools.Authinfo.C49_accepts` | propext, Classical.choice, Quot.sound |
| C49 | `Verif.Tools.Authinfo.C49_plain_value` | propext |
| C49 | `Verif.Tools.Authinfo.C49_percent_crash` | propext, Classical.choice, Quot.sound |
| C49 | `Verif.Tools.Authinfo.C49_compress` | propext, Classical.choice, Quot.sound |
| C50 | `Verif.Sync.Commit.C50_idle_blocks_considered` | propext, Quot.sound |
| C50 | `Verif.Sync.Commit.C50_seen_dirty_uploaded` | propext, Quot.sound |
| C50 | `Verif.Sync.Commit.C50_stops_at_recent_write` | propext, Quot.sound |
| C50 | `Verif.Sync.Commit.C50_pass_ends` | propext, Quot.sound |
| C51 | `Verif.Tools.Url.C51_idempotent_partial` | propext, Classical.choice, Quot.sound |
| C51 | `Verif.Tools.Url.C51_files_distinct` | propext, Classical.choice, Quot.sound |
| C51 | `Verif.Tools.Url.C51_inside_cachedir` | propext, Classical.choice, Quot.sound |
| C51 | `Verif.Tools.Url.C51_root` | propext, Classical.choice, Quot.sound |
| C51 | `Verif.Tools.Url.C51_b2_two_names` | propext, Classical.choice, Quot.sound |
| C52 | `Verif.Tools.Verify.C52_reports_exactly` | propext, Quot.sound |
| C53 | `Verif.Cache.C53_hashes_unique` | propext, Classical.choice, Quot.sound |
| C53 | `Verif.Cache.C53_equal_blocks_share` | propext, Classical.choice, Quot.sound |
| C54 | `Verif.Sync.DropLimits.C54_limit_restored_partial` | propext, Quot.sound |
| C54 | `Verif.Sync.DropLimits.C54_limit_values` | (none) |
| C54 | `Verif.Sync.DropLimits.C54_violated_by_overlap` | (none) |
| C54 | `Verif.Sync.DropLimits.C54_violated_by_failure` | (none) |
| C55 | `Verif.Sync.Batch.C55_all_committed` | propext, Quot.sound |
| C55 | `Verif.Sync.Batch.C55_others_committed` | propext, Quot.sound |
| C55 | `Verif.Sync.Batch.C55_in_transaction` | propext, Quot.sound |
| C55 | `Verif.Sync.Batch.C55_exit` | propext, Quot.sound |
| C55 | `Verif.Sync.Batch.C55_nothing_undone` | propext, Quot.sound |
| C55 | `Verif.Sync.Batch.C55_second_pass_fails` | propext, Quot.sound |
| C55 | `Verif.Sync.Batch.C55_first_pass_fails` | propext, Quot.sound |
| C56 | `Verif.Fs.open_eperm_iff` | propext, Classical.choice, Quot.sound |
| C56 | `Verif.Fs.open_einval_iff` | propext, Classical.choice, Quot.sound |
| C56 | `Verif.Fs.open_ok` | propext, Classical.choice, Quot.sound |
| C56 | `Verif.Fs.open_truncates` | propext, Classical.choice, Quot.sound |
| C56 | `Verif.Fs.open_keeps` | propext, Classical.choice, Quot.sound |
| C57 | `Verif.Tools.Admin.C57_old_or_new` | propext, Classical.choice, Quot.sound |
| C57 | `Verif.Tools.Admin.C57_completed` | propext, Classical.choice, Quot.sound |
| C57 | `Verif.Tools.Admin.C57_rest_unchanged` | propext, Classical.choice, Quot.sound |
| C57 | `Verif.Tools.Admin.C57_plain` | propext, Classical.choice, Quot.sound |
| C57 | `Verif.Tools.Admin.C57_recover` | propext, Classical.choice, Quot.sound |
| C58 | `Verif.Tools.Admin.C58_refuses` | propext, Classical.choice, Quot.sound |
| C58 | `Verif.Tools.Admin.C58_interrupted` | propext, Classical.choice, Quot.sound |
| C58 | `Verif.Tools.Admin.C58_completed` | propext, Classical.choice, Quot.sound |
| C58 | `Verif.Tools.Admin.C58_plain_after_interrupted` | propext, Classical.choice, Quot.sound |
| C59 | `Verif.Cache.C59_no_deadlock` | propext, Classical.choice, Quot.sound |
| C59 | `Verif.Cache.C59_no_deadlock_with_failures` | propext, Classical.choice, Quot.sound |
| C60 | `Verif.Fs.no_crash_partial` | propext, Classical.choice, Quot.sound |
| C60 | `Verif.Fs.no_crash_depth_partial` | propext, Classical.choice, Quot.sound |
| C60 | `Verif.Fs.deep_rmdir_crashes` | propext, Classical.choice, Quot.sound |
| C60 | `Verif.Fs.deep_rmdir_witness` | propext, Classical.choice, Quot.sound |
| C60 | `Verif.Fs.remount_ok` | propext, Classical.choice, Quot.sound |
| C60 | `Verif.Fs.unlink_ctrl_crashes` | propext, Classical.choice, Quot.sound |
| C61 | `Verif.Fs.attrs_exact` | propext, Classical.choice, Quot.sound |
| C61 | `Verif.Fs.new_attrs` | propext, Classical.choice, Quot.sound |
| C62 | `Verif.Fsck.C62_dirty_blocks_stored_partial` | propext, Classical.choice, Quot.sound |
| C62 | `Verif.Fsck.C62_dirty_block_lost` | propext |
| C63 | `Verif.Fsck.C63_reports_exactly_errors` | propext, Classical.choice, Quot.sound |
| C63 | `Verif.Fsck.C63_quiet_run_changes_nothing` | propext, Classical.choice, Quot.sound |
| C64 | `Verif.Fsck.C64_nothing_lost` | propext, Classical.choice, Quot.sound |
| C64 | `Verif.Fsck.C64_blocks_stay` | propext, Classical.choice, Quot.sound |
| C64 | `Verif.Fsck.C64_lost_and_found` | propext, Classical.choice, Quot.sound |
| C64 | `Verif.Fsck.C64_created_usable` | propext, Classical.choice, Quot.sound |
| C65 | `Verif.Tools.MasterKey.C65_read_back` | propext, Quot.sound |
| C65 | `Verif.Tools.MasterKey.C65_recovered` | propext, Classical.choice, Quot.sound |
| C65 | `Verif.Tools.MasterKey.C65_length` | propext, Classical.choice, Quot.sound |
| C65 | `Verif.Tools.MasterKey.C65_injective` | propext, Quot.sound |
| C66 | `Verif.Fsck.C66_fsck_after_unmount_partial` | propext, Classical.choice, Quot.sound |
| C66 | `Verif.Fsck.C66_replaced_xattr` | propext, Classical.choice, Quot.sound |
| C66 | `Verif.Fsck.C66_long_name` | propext, Classical.choice, Quot.sound |
| C66 | `Verif.Fsck.C66_no_lost_found` | propext, Classical.choice, Quot.sound |
| C66 | `Verif.Fsck.C66_deep_tree` | propext, Classical.choice, Quot.sound |
| C66 | `Verif.System.C66_uploaded` | propext, Classical.choice, Quot.sound |
| C66 | `Verif.System.C66_system_partial` | propext, Classical.choice, Quot.sound |
| C67 | `Verif.Fs.tree_no_loops` | propext, Classical.choice, Quot.sound |
| C67 | `Verif.Fs.dir_single_entry` | propext, Classical.choice, Quot.sound |
| C67 | `Verif.Fs.root_on_top` | propext, Classical.choice, Quot.sound |
| C67 | `Verif.Fs.tree_connected` | propext, Classical.choice, Quot.sound |
| C67 | `Verif.Fs.types_agree` | propext, Classical.choice, Quot.sound |
| C67 | `Verif.Fs.rename_trusts_kernel` | propext, Classical.choice, Quot.sound |
| C68 | `Verif.Backend.Addr.C68_s3_object_partial` | propext, Quot.sound |
| C68 | `Verif.Backend.Addr.C68_s3_list_partial` | propext, Classical.choice, Quot.sound |
| C68 | `Verif.Backend.Addr.C68_s3_distinct_partial` | propext, Classical.choice, Quot.sound |
| C68 | `Verif.Backend.Addr.C68_s3_delete_multi_partial` | propext, Classical.choice, Quot.sound |
| C68 | `Verif.Backend.Addr.C68_swift_object` | propext, Quot.sound |
| C68 | `Verif.Backend.Addr.C68_gs_object` | propext, Classical.choice, Quot.sound |
| C68 | `Verif.Backend.Addr.C68_swift_bulk_delete` | propext, Classical.choice, Quot.sound |
| C68 | `Verif.Backend.Addr.C68_swift_bulk_failed` | propext, Classical.choice, Quot.sound |
| C68 | `Verif.Backend.Addr.C68_wrong_bucket` | propext, Quot.sound |
| C68 | `Verif.Backend.Addr.C68_prefix_of_endpoint` | propext, Classical.choice, Quot.sound |
| C68 | `Verif.Backend.Addr.C68_prefix_of_amazon` | propext, Classical.choice, Quot.sound |
| C68 | `Verif.Backend.Addr.C68_delete_multi_cr` | propext, Classical.choice, Quot.sound |
| C69 | `Verif.Backend.Addr.C69_v4_wire_partial` | propext, Classical.choice, Quot.sound |
| C69 | `Verif.Backend.Addr.C69_v2_wire_partial` | propext, Classical.choice, Quot.sound |
| C69 | `Verif.Backend.Addr.C69_v4_accepted_partial` | propext, Classical.choice, Quot.sound |
| C69 | `Verif.Backend.Addr.C69_v2_signed_partial` | propext, Classical.choice, Quot.sound |
| C69 | `Verif.Backend.Addr.C69_v4_plain_http` | propext, Classical.choice, Quot.sound |
| C69 | `Verif.Backend.Addr.C69_v2_wrong_bucket_rejected` | propext, Classical.choice, Quot.sound |
| C70 | `Verif.FileData.C70_reads_are_right` | propext, Classical.choice, Quot.sound |
| C70 | `Verif.FileData.C70_read_error_is_local` | propext, Classical.choice, Quot.sound |
| C70 | `Verif.FileData.C70_write_error_is_local` | propext, Classical.choice, Quot.sound |
| C70 | `Verif.FileData.C70_no_damage_no_errors` | propext, Classical.choice, Quot.sound |
| C70 | `Verif.FileData.C70_frozen_after_damage` | propext, Classical.choice, Quot.sound |
| C70 | `Verif.FileData.C70_requests_end` | propext, Classical.choice, Quot.sound |
| C70 | `Verif.FileData.C70_failed_truncate_changes_size` | propext |
| C70 | `Verif.FileData.C70_truncate_of_lost_block_crashes` | propext |
| C71 | `Verif.FileData.C71_every_byte_from_a_write` | propext, Classical.choice, Quot.sound |
| C71 | `Verif.FileData.C71_no_write_is_lost` | propext, Classical.choice, Quot.sound |
| C71 | `Verif.FileData.C71_size` | propext, Classical.choice, Quot.sound |
| C71 | `Verif.FileData.C71_nothing_behind_the_end` | propext, Classical.choice, Quot.sound |
| C71 | `Verif.FileData.C71_disjoint_writes` | propext, Classical.choice, Quot.sound |
| C71 | `Verif.FileData.C71_truncate_splits_a_write` | propext |
| C72 | `Verif.System.C72_read` | propext, Classical.choice, Quot.sound |
| C72 | `Verif.System.C72_size` | propext, Classical.choice, Quot.sound |
| C72 | `Verif.System.C72_mount_anywhere` | propext, Classical.choice, Quot.sound |
| C72 | `Verif.System.C72_found` | propext, Classical.choice, Quot.sound |
| C73 | `Verif.Cmd.C73_rm_partial` | propext, Classical.choice, Quot.sound |
| C73 | `Verif.Cmd.C73_cp_partial` | propext, Classical.choice, Quot.sound |
| C73 | `Verif.Cmd.C73_lock` | propext |
| C73 | `Verif.Cmd.C73_rm_link` | propext, Classical.choice, Quot.sound |
| C73 | `Verif.Cmd.C73_cp_dotdot` | propext, Classical.choice, Quot.sound |
| C74 | `Verif.System.C74_loaded_partial` | propext, Classical.choice, Quot.sound |
| C74 | `Verif.System.C74_used` | propext, Quot.sound |
| C74 | `Verif.System.C74_restore` | propext, Quot.sound |
| C75 | `Verif.Backend.Store.C75_write_returns_partial` | propext, Quot.sound |
| C75 | `Verif.Backend.Store.C75_write_atomic_partial` | propext, Quot.sound |
| C75 | `Verif.Backend.Store.C75_write_plain_partial` | propext, Quot.sound |
| C75 | `Verif.Backend.Store.C75_delete` | propext, Quot.sound |
| C75 | `Verif.Backend.Store.C75_session_partial` | propext, Quot.sound |
| C75 | `Verif.Backend.Store.C75_old_object_deleted` | propext, Quot.sound |
| C75 | `Verif.Backend.Store.C75_swift_damaged` | propext, Quot.sound |
| C76 | `Verif.System.C76_contents_partial` | propext, Classical.choice, Quot.sound |
| C76 | `Verif.System.C76_backed` | propext, Classical.choice, Quot.sound |
| C76 | `Verif.System.C76_exact_partial` | propext, Classical.choice, Quot.sound |
| C76 | `Verif.System.C76_upload_lost` | propext, Classical.choice, Quot.sound |
| C77 | `Verif.Cache.C77_copy_partial` | propext, Classical.choice, Quot.sound |
| C77 | `Verif.Cache.C77_read_partial` | propext, Classical.choice, Quot.sound |
| C77 | `Verif.Cache.C77_forgotten` | propext |
| C77 | `Verif.Cache.C77_forgotten_stale` | propext |
| C77 | `Verif.Cache.C77_checksum` | propext |
| C77 | `Verif.Cache.C77_upload_fails` | propext |
| C78 | `Verif.Tools.Admin.C78_open_exact` | propext, Classical.choice, Quot.sound |
| C78 | `Verif.Tools.Admin.C78_protected_partial` | propext, Classical.choice, Quot.sound |
| C78 | `Verif.Tools.Admin.C78_dropped` | propext, Classical.choice, Quot.sound |
| C79 | `Verif.Fsck.C79_in_place` | propext, Classical.choice, Quot.sound |
| C79 | `Verif.Fsck.C79_moved` | propext, Classical.choice, Quot.sound |
| C79 | `Verif.Fsck.C79_names_usable` | propext, Classical.choice, Quot.sound |
| C79 | `Verif.Fsck.C79_free_name` | propext, Classical.choice, Quot.sound |
| C79 | `Verif.Fsck.C79_lacking_data` | propext, Classical.choice, Quot.sound |
| C79 | `Verif.Fsck.C79_lost_name` | propext, Classical.choice, Quot.sound |
| C79 | `Verif.Fsck.C79_lost_parent` | propext, Classical.choice, Quot.sound |
| C79 | `Verif.Fsck.C79_no_entry` | propext, Classical.choice, Quot.sound |
| C79 | `Verif.Fsck.C79_own_loop` | propext, Classical.choice, Quot.sound |
| C79 | `Verif.Fsck.C79_loop_name` | propext, Classical.choice, Quot.sound |
| C79 | `Verif.Fsck.C79_first_byte_lost` | propext, Quot.sound |
| C80 | `Verif.CacheEntry.C80_file_partial` | propext, Quot.sound |
| C80 | `Verif.CacheEntry.C80_size_partial` | propext, Quot.sound |
| C80 | `Verif.CacheEntry.C80_clean` | (none) |
| C80 | `Verif.CacheEntry.C80_short_write` | propext |
| C80 | `Verif.CacheEntry.C80_short_silent` | (none) |
| C80 | `Verif.CacheEntry.C80_empty_write` | (none) |
| C81 | `Verif.Backend.Exchange.C81_pairing_partial` | propext, Classical.choice, Quot.sound |
| C81 | `Verif.Backend.Exchange.C81_continue_returned` | propext |
| C81 | `Verif.Backend.Exchange.C81_smuggled` | propext |
| C81 | `Verif.Backend.Exchange.C81_unframed` | propext |
| C81 | `Verif.Backend.Exchange.C81_closed_is_idle` | propext |
| C82 | `Verif.Tools.Umount.C82_uploaded_partial` | propext |
| C82 | `Verif.Tools.Umount.C82_error_keeps_mount` | propext |
| C82 | `Verif.Tools.Umount.C82_returns_partial` | propext, Quot.sound |
| C82 | `Verif.Tools.Umount.C82_failed_daemon` | propext, Quot.sound |
| C82 | `Verif.Tools.Umount.C82_not_permitted` | propext |
| C82 | `Verif.Tools.Umount.C82_hidden` | propext |
| C82 | `Verif.Tools.Umount.C82_other_namespace` | propext |
| C82 | `Verif.Tools.Umount.C82_renamed` | propext |
| C82 | `Verif.Tools.Umount.C82_replaced` | propext, Quot.sound |
| C82 | `Verif.Tools.Umount.C82_lazy` | (none) |
| C83 | `Verif.Tools.Stat.C83_df_partial` | propext, Classical.choice, Quot.sound |
| C83 | `Verif.Tools.Stat.C83_clock_set_back` | (none) |
| C83 | `Verif.Tools.Stat.C83_s3qlstat_partial` | propext, Classical.choice, Quot.sound |
| C83 | `Verif.Tools.Stat.C83_overflow` | (none) |
| C83 | `Verif.Tools.Size.C83_size` | propext, Classical.choice, Quot.sound |
| C83 | `Verif.Tools.Size.C83_size_small` | propext, Classical.choice, Quot.sound |
| C84 | `Verif.Backend.Auth.Swift.C84_one_login` | propext, Classical.choice, Quot.sound |
| C84 | `Verif.Backend.Auth.Swift.C84_login_needed` | propext, Classical.choice, Quot.sound |
| C84 | `Verif.Backend.Auth.Swift.C84_limit_per_pool` | propext, Classical.choice, Quot.sound |
| C84 | `Verif.Backend.Auth.Swift.C84_not_reused` | propext, Classical.choice, Quot.sound |
| C84 | `Verif.Backend.Auth.Swift.C84_endpoint_partial` | propext, Quot.sound |
| C84 | `Verif.Backend.Auth.Swift.C84_mixed_endpoint` | propext |
| C84 | `Verif.Backend.Auth.Swift.C84_limit_exceeded` | propext |
| C84 | `Verif.Backend.Auth.Swift.C84_progress` | propext, Classical.choice, Quot.sound |
| C84 | `Verif.Backend.Auth.Gs.C84_token_valid` | propext, Classical.choice, Quot.sound |
| C84 | `Verif.Backend.Auth.Gs.C84_one_refresh` | propext, Classical.choice, Quot.sound |
| C84 | `Verif.Backend.Auth.Gs.C84_refresh_needed_partial` | propext, Classical.choice, Quot.sound |
| C84 | `Verif.Backend.Auth.Gs.C84_late_rejection` | propext |
| C85 | `Verif.Contrib.Pcp.C85_each_file_once_partial` | propext, Classical.choice, Quot.sound |
| C85 | `Verif.Contrib.Pcp.C85_processes` | propext, Classical.choice, Quot.sound |
| C85 | `Verif.Contrib.Pcp.C85_exit_status` | propext, Quot.sound |
| C85 | `Verif.Contrib.Pcp.C85_no_archive` | propext, Classical.choice, Quot.sound |
| C85 | `Verif.Contrib.Pcp.C85_hard_links_lost` | propext, Classical.choice, Quot.sound |
| C86 | `Verif.Cache.Evict.C86_evict_ends` | propext, Classical.choice, Quot.sound |
| C86 | `Verif.Cache.Evict.C86_least_recently_used` | propext, Quot.sound |
| C86 | `Verif.Cache.Evict.C86_not_before_upload` | propext, Quot.sound |
| C86 | `Verif.Cache.Evict.C86_entries_partial` | propext, Quot.sound |
| C86 | `Verif.Cache.Evict.C86_entries_positive` | propext, Quot.sound |
| C86 | `Verif.Cache.Evict.C86_no_entries` | (none) |
| C86 | `Verif.Cache.Evict.C86_negative_limit` | propext, Quot.sound |
| C86 | `Verif.Cache.Evict.C86_full` | propext, Classical.choice, Quot.sound |
| C86 | `Verif.Cache.Evict.C86_not_full` | propext, Classical.choice, Quot.sound |
| C86 | `Verif.Cache.Evict.C86_ctrl_negative` | (none) |
| C87 | `Verif.Tools.MountOpts.C87_fstab_partial` | propext, Classical.choice, Quot.sound |
| C87 | `Verif.Tools.MountOpts.C87_refused` | propext, Classical.choice, Quot.sound |
| C87 | `Verif.Tools.MountOpts.C87_unchanged` | propext, Classical.choice, Quot.sound |
| C87 | `Verif.Tools.MountOpts.C87_backend_options` | propext, Classical.choice, Quot.sound |
| C87 | `Verif.Tools.MountOpts.C87_second` | propext, Classical.choice, Quot.sound |
| C87 | `Verif.Tools.MountOpts.C87_comma` | propext, Classical.choice, Quot.sound |
| C87 | `Verif.Tools.MountOpts.C87_threads` | propext, Quot.sound |
| C87 | `Verif.Tools.MountOpts.C87_threads_cores` | propext, Quot.sound |
| C87 | `Verif.Tools.MountOpts.C87_threads_unknown` | propext |
| C88 | `Verif.Meta.Backup.C88_request_partial` | propext, Quot.sound |
| C88 | `Verif.Meta.Backup.C88_request_kept` | propext |
| C88 | `Verif.Meta.Backup.C88_carried_out` | propext, Quot.sound |
| C88 | `Verif.Meta.Backup.C88_periodic_partial` | propext, Quot.sound |
| C88 | `Verif.Meta.Backup.C88_newer` | propext, Quot.sound |
| C88 | `Verif.Meta.Backup.C88_only_on_request` | propext |
| C88 | `Verif.Meta.Backup.C88_attributes_missing` | propext |
| C88 | `Verif.Meta.Backup.C88_checkpoint_fails` | propext |
| C89 | `Verif.Tools.MountEnd.C89_clean_mark` | propext, Classical.choice, Quot.sound |
| C89 | `Verif.Tools.MountEnd.C89_exit_zero` | propext, Classical.choice, Quot.sound |
| C89 | `Verif.Tools.MountEnd.C89_normal` | propext |
| C89 | `Verif.Tools.MountEnd.C89_not_clean` | propext |
| C89 | `Verif.Tools.MountEnd.C89_term_uploads` | propext |
| C89 | `Verif.Tools.MountEnd.C89_two_interrupts` | (none) |
| C89 | `Verif.Tools.MountEnd.C89_attributes_lost` | (none) |
| C89 | `Verif.Tools.MountEnd.C89_dead_mount_point` | (none) |
| C90 | `Verif.Tools.Upgrade.C90_completed` | propext, Classical.choice, Quot.sound |
| C90 | `Verif.Tools.Upgrade.C90_mounts` | propext, Classical.choice, Quot.sound |
| C90 | `Verif.Tools.Upgrade.C90_other_versions` | propext, Classical.choice, Quot.sound |
| C90 | `Verif.Tools.Upgrade.C90_refused` | propext |
| C90 | `Verif.Tools.Upgrade.C90_refuses` | propext, Quot.sound |
| C90 | `Verif.Tools.Upgrade.C90_resumed_partial` | propext, Classical.choice, Quot.sound |
| C90 | `Verif.Tools.Upgrade.C90_stuck` | propext, Quot.sound |
| C90 | `Verif.Tools.Upgrade.C90_old_version_mounts` | propext, Classical.choice, Quot.sound |
| C91 | `Verif.Tools.Guard.C91_guard_partial` | propext, Quot.sound |
| C91 | `Verif.Tools.Guard.C91_once_partial` | propext, Classical.choice, Quot.sound |
| C91 | `Verif.Tools.Guard.C91_space` | propext, Classical.choice, Quot.sound |
| C91 | `Verif.Tools.Guard.C91_fs_name` | propext, Classical.choice, Quot.sound |
| C91 | `Verif.Tools.Guard.Clear.C91_clear` | propext, Quot.sound |
| C91 | `Verif.Tools.Guard.Clear.C91_clear_honest` | propext, Quot.sound |
| C92 | `Verif.System.C92_read` | propext, Classical.choice, Quot.sound |
| C92 | `Verif.System.C92_length` | propext, Classical.choice, Quot.sound |
| C92 | `Verif.System.C92_kept` | propext, Classical.choice, Quot.sound |
| C93 | `Verif.Control.C93_copy` | propext, Classical.choice, Quot.sound |
| C93 | `Verif.Control.C93_rmtree` | propext, Classical.choice, Quot.sound |
| C93 | `Verif.Control.C93_lock` | propext, Classical.choice, Quot.sound |
| C93 | `Verif.Control.C93_cachesize` | propext, Classical.choice, Quot.sound |
| C93 | `Verif.Control.C93_simple` | propext, Classical.choice, Quot.sound |
| C93 | `Verif.Control.C93_log` | propext, Classical.choice, Quot.sound |
| C93 | `Verif.Control.C93_only` | propext, Classical.choice, Quot.sound |
| C93 | `Verif.Control.C93_robust_partial` | propext, Classical.choice, Quot.sound |
| C93 | `Verif.Control.C93_robust_violated` | propext, Classical.choice, Quot.sound |
| C93 | `Verif.Control.C93_robust_false` | propext, Classical.choice, Quot.sound |
| C93 | `Verif.Control.C93_log_messages` | propext, Classical.choice, Quot.sound |
| C93 | `Verif.Control.C93_log_start` | propext, Classical.choice, Quot.sound |
| C93 | `Verif.Control.C93_log_off` | propext, Classical.choice, Quot.sound |
| C93 | `Verif.Control.C93_log_on_partial` | propext, Classical.choice, Quot.sound |
| C93 | `Verif.Control.C93_log_stale` | propext, Classical.choice, Quot.sound |
| C93 | `Verif.Control.C93_log_warn` | propext, Classical.choice, Quot.sound |
| C94 | `Verif.Backend.Answer.C94_success` | propext, Classical.choice, Quot.sound |
| C94 | `Verif.Backend.Answer.C94_missing` | propext, Classical.choice, Quot.sound |
| C94 | `Verif.Backend.Answer.C94_not_missing` | propext, Classical.choice, Quot.sound |
| C94 | `Verif.Backend.Answer.C94_again_partial` | propext, Classical.choice, Quot.sound |
| C94 | `Verif.Backend.Answer.C94_expired` | propext, Classical.choice, Quot.sound |
| C94 | `Verif.Backend.Answer.C94_nonsense` | propext, Classical.choice, Quot.sound |
| C94 | `Verif.Backend.Answer.C94_again_violated` | propext, Classical.choice, Quot.sound |
| C94 | `Verif.Backend.Answer.C94_gs_too_many` | propext, Classical.choice, Quot.sound |
| C94 | `Verif.Backend.Answer.C94_refused` | propext, Classical.choice, Quot.sound |
| C94 | `Verif.Backend.Answer.C94_call` | propext, Classical.choice, Quot.sound |
| C94 | `Verif.Backend.Answer.C94_wait` | propext, Classical.choice, Quot.sound |
| C94 | `Verif.Backend.Answer.C94_survives` | propext, Classical.choice, Quot.sound |
| C94 | `Verif.Backend.Answer.C94_network` | propext, Classical.choice, Quot.sound |
| C94 | `Verif.Backend.Answer.C94_outage` | propext, Classical.choice, Quot.sound |
| C94 | `Verif.Backend.Answer.C94_plain_404` | propext, Classical.choice, Quot.sound |
| C94 | `Verif.Backend.Answer.C94_gs_no_bucket` | propext, Classical.choice, Quot.sound |
| C94 | `Verif.Backend.Answer.C94_swift_damaged` | propext, Classical.choice, Quot.sound |
| C94 | `Verif.Backend.Answer.C94_strange_code` | propext, Classical.choice, Quot.sound |
| C95 | `Verif.Backend.Endpoint.C95_host_url` | propext, Classical.choice, Quot.sound |
| C95 | `Verif.Backend.Endpoint.C95_ks_url` | propext, Classical.choice, Quot.sound |
| C95 | `Verif.Backend.Endpoint.C95_s3_url` | propext, Classical.choice, Quot.sound |
| C95 | `Verif.Backend.Endpoint.C95_s3_host` | propext, Classical.choice, Quot.sound |
| C95 | `Verif.Backend.Endpoint.C95_b2_url` | propext, Classical.choice, Quot.sound |
| C95 | `Verif.Backend.Endpoint.C95_rackspace_url` | propext, Classical.choice, Quot.sound |
| C95 | `Verif.Backend.Endpoint.C95_gs_url` | propext, Classical.choice, Quot.sound |
| C95 | `Verif.Backend.Endpoint.C95_encrypted` | propext, Classical.choice, Quot.sound |
| C95 | `Verif.Backend.Endpoint.C95_secret` | propext, Classical.choice, Quot.sound |
| C95 | `Verif.Backend.Endpoint.C95_no_ssl` | propext, Classical.choice, Quot.sound |
| C95 | `Verif.Backend.Endpoint.C95_servers` | propext, Classical.choice, Quot.sound |
| C95 | `Verif.Backend.Endpoint.C95_region` | propext, Classical.choice, Quot.sound |
| C95 | `Verif.Backend.Endpoint.C95_tls_first` | propext |
| C95 | `Verif.Backend.Endpoint.C95_tcp` | propext, Quot.sound |
| C95 | `Verif.Backend.Endpoint.C95_proxy_setting` | propext, Classical.choice, Quot.sound |
| C95 | `Verif.Backend.Endpoint.C95_proxy_partial` | propext, Classical.choice, Quot.sound |
| C95 | `Verif.Backend.Endpoint.C95_proxy_violated` | propext, Classical.choice, Quot.sound |
| C95 | `Verif.Backend.Endpoint.C95_b2_proxy` | propext, Classical.choice, Quot.sound |
| C95 | `Verif.Backend.Endpoint.C95_swift_plain` | propext, Classical.choice, Quot.sound |
| C95 | `Verif.Backend.Endpoint.C95_b2_no_ssl` | propext, Classical.choice, Quot.sound |
| C96 | `Verif.Fsck.Command.C96_status_zero` | propext, Classical.choice, Quot.sound |
| C96 | `Verif.Fsck.Command.C96_status_errors` | propext, Classical.choice, Quot.sound |
| C96 | `Verif.Fsck.Command.C96_status_uncorrectable` | propext, Classical.choice, Quot.sound |
| C96 | `Verif.Fsck.Command.C96_refused` | propext, Classical.choice, Quot.sound |
| C96 | `Verif.Fsck.Command.C96_consent` | propext, Classical.choice, Quot.sound |
| C96 | `Verif.Fsck.Command.C96_aborted` | propext, Classical.choice, Quot.sound |
| C96 | `Verif.Fsck.Command.C96_cache_kept` | propext, Classical.choice, Quot.sound |
| C96 | `Verif.Fsck.Command.C96_works` | propext, Classical.choice, Quot.sound |
| C96 | `Verif.Fsck.Command.C96_documented_partial` | propext, Classical.choice, Quot.sound |
| C96 | `Verif.Fsck.Command.C96_documented_violated` | propext, Classical.choice, Quot.sound |
| C96 | `Verif.Fsck.Command.C96_documented_false` | propext, Classical.choice, Quot.sound |
| C96 | `Verif.Fsck.Command.C96_outdated` | propext, Classical.choice, Quot.sound |
| C96 | `Verif.Fsck.Command.C96_cache_removed` | propext, Classical.choice, Quot.sound |
| C96 | `Verif.Fsck.Command.C96_checks` | propext, Classical.choice, Quot.sound |
| C96 | `Verif.Fsck.Command.C96_cache_saved_partial` | propext, Classical.choice, Quot.sound |
| C97 | `Verif.Expire.C97_disk` | propext, Quot.sound |
| C97 | `Verif.Expire.C97_repeat` | propext, Classical.choice, Quot.sound |
| C97 | `Verif.Expire.C97_covered` | propext, Classical.choice, Quot.sound |
| C97 | `Verif.Expire.C97_again` | propext, Classical.choice, Quot.sound |
| C97 | `Verif.Expire.C97_newest_kept_partial` | propext, Classical.choice, Quot.sound |
| C97 | `Verif.Expire.C97_one_new` | propext, Classical.choice, Quot.sound |
| C97 | `Verif.Expire.C97_no_trace` | propext, Classical.choice, Quot.sound |
| C97 | `Verif.Expire.C97_newest_deleted` | propext, Quot.sound |
| C97 | `Verif.Expire.C97_ages_wrong` | propext, Classical.choice, Quot.sound |
| C97 | `Verif.Expire.C97_state_lost` | propext, Quot.sound |
| C97 | `Verif.Expire.C97_reconstruct_shifted` | propext, Classical.choice, Quot.sound |
| C97 | `Verif.Expire.C97_reconstruct_ignored` | propext, Quot.sound |
| C97 | `Verif.Expire.C97_reconstruct_newest_deleted` | propext, Classical.choice, Quot.sound |
| C98 | `Verif.System.C98_fsync_partial` | propext, Classical.choice, Quot.sound |
| C98 | `Verif.Inode.C98_row` | propext, Classical.choice, Quot.sound |
| C98 | `Verif.System.C98_fdatasync_lost` | propext, Classical.choice, Quot.sound |
| C99 | `Verif.Tools.Messages.C99_unmarked` | propext, Quot.sound |
| C99 | `Verif.Tools.Messages.C99_once_partial` | propext, Quot.sound |
| C99 | `Verif.Tools.Messages.C99_limited_partial` | propext, Classical.choice, Quot.sound |
| C99 | `Verif.Tools.Messages.C99_log_file_lacks` | propext, Quot.sound |
| C99 | `Verif.Tools.Messages.C99_violated` | propext, Classical.choice, Quot.sound |
| C99 | `Verif.Tools.Messages.C99_after_boot` | propext, Quot.sound |
| C99 | `Verif.Tools.Messages.C99_terminal` | propext, Quot.sound |
| C99 | `Verif.Tools.Messages.C99_terminal_keeps` | propext, Quot.sound |
| C99 | `Verif.Tools.Messages.C99_not_terminal` | (none) |
