{
 "claims": [
  {
   "property": "C01",
   "status": "proved",
   "theorems": [
    "Verif.Chunked.C01_chunked_refines_flat",
    "Verif.Chunked.C01_modes"
   ],
   "note": "Any operation sequence, chunk size, eviction order; assumes no hash collision among contents hashed in the execution."
  },
  {
   "property": "C02",
   "status": "proved",
   "theorems": [
    "Verif.Chunked.C02_close_reopen"
   ],
   "note": ""
  },
  {
   "property": "C03",
   "status": "proved",
   "theorems": [
    "Verif.Chunked.C03_seek_zero_fills"
   ],
   "note": ""
  },
  {
   "property": "C04",
   "status": "proved",
   "theorems": [
    "Verif.Chunked.C04_reads_are_certified",
    "Verif.Chunked.C04_bad_chunk_fails",
    "Verif.Chunked.C04_sessions",
    "Verif.Chunked.C04_backend_error"
   ],
   "note": "Arbitrary damaged store: every byte of a successful read in a read-only session is certified, and reads of a bad chunk fail. C04_sessions: any number of sessions for reading and writing, with damage to chunk files at any time, are as on a plain file as long as no operation fails. C04_backend_error: a read that returns no bytes raises a backend error, and only if a chunk in its range is bad."
  },
  {
   "property": "C05",
   "status": "proved",
   "theorems": [
    "Verif.Chunked.C05_other_images_unchanged"
   ],
   "note": ""
  },
  {
   "property": "C06",
   "status": "partial",
   "theorems": [
    "Verif.Chunked.C06_truncate_partial",
    "Verif.Chunked.C06_truncate_false_stale",
    "Verif.Chunked.C06_truncate_false_grow"
   ],
   "note": "False of the code for sizes below the position or above the size (counterexamples proved); proved for position <= size argument <= image size."
  },
  {
   "property": "C07",
   "status": "proved",
   "theorems": [
    "Verif.Rbd.C07_gc_keeps_local"
   ],
   "note": ""
  },
  {
   "property": "C08",
   "status": "proved",
   "theorems": [
    "Verif.Rbd.C08_gc_exact",
    "Verif.Rbd.C08_gc_succeeds_iff",
    "Verif.Rbd.C08_gc_seen_sound"
   ],
   "note": ""
  },
  {
   "property": "C09",
   "status": "proved",
   "theorems": [
    "Verif.Diff.C09_decode_exact"
   ],
   "note": ""
  },
  {
   "property": "C10",
   "status": "proved",
   "theorems": [
    "Verif.Diff.C10_truncated_rejected"
   ],
   "note": ""
  },
  {
   "property": "C11",
   "status": "proved",
   "theorems": [
    "Verif.Diff.C11_integrate_new"
   ],
   "note": ""
  },
  {
   "property": "C12",
   "status": "proved",
   "theorems": [
    "Verif.Diff.C12_wrong_snapshot",
    "Verif.Diff.C12_unknown_record",
    "Verif.Diff.C12_late_metadata",
    "Verif.Diff.C12_bad_header",
    "Verif.Diff.C12_negative_length"
   ],
   "note": ""
  },
  {
   "property": "C13",
   "status": "proved",
   "theorems": [
    "Verif.Backup.C13_restores_snapshot",
    "Verif.Backup.C13_record_stable",
    "Verif.Backup.C13_backup_succeeds"
   ],
   "note": "Events do not overlap in time; every process reads the directory when it starts; rbd writes either the whole export or a prefix of a correct diff (Faithful). See C45 and C60 for what happens otherwise."
  },
  {
   "property": "C14",
   "status": "proved",
   "theorems": [
    "Verif.Backup.C14_parent",
    "Verif.Backup.C14_terminates",
    "Verif.Backup.C14_full_without_base",
    "Verif.Backup.C14_applies"
   ],
   "note": ""
  },
  {
   "property": "C15",
   "status": "partial",
   "theorems": [
    "Verif.Backup.C15_forced_write_partial",
    "Verif.Backup.C15_false_not_rewritten"
   ],
   "note": "False of the code: contains_distrusted compares a Revision with a Trust value and is never true, so writes are never forced. Proved: what happens when the flag is set."
  },
  {
   "property": "C16",
   "status": "partial",
   "theorems": [
    "Verif.Backup.C16_success_complete_partial",
    "Verif.Backup.C16_failure_incomplete_partial",
    "Verif.Backup.C16_exit_code_partial",
    "Verif.Backup.C16_complete_agrees_partial",
    "Verif.Backup.C16_false_exit_code"
   ],
   "note": "The two implications about complete revisions hold in every state. \"Exit code 0 exactly when verified\" holds in reachable states, and is false when the verification of another distrusted revision raises."
  },
  {
   "property": "C17",
   "status": "partial",
   "theorems": [
    "Verif.Backup.C17_distrusted_partial",
    "Verif.Backup.C17_false_masked_error"
   ],
   "note": "False of the code if rbd snap ls fails as well: its exception replaces the backend error. Proved otherwise."
  },
  {
   "property": "C18",
   "status": "partial",
   "theorems": [
    "Verif.Backup.C18_foreign_untouched_partial",
    "Verif.Backup.C18_newest_kept_partial",
    "Verif.Backup.C18_false_failed_backup"
   ],
   "note": "Foreign snapshots are never touched. Keeping the snapshot of the newest valid revision is false for a backup that fails verification."
  },
  {
   "property": "C19",
   "status": "partial",
   "theorems": [
    "Verif.Backup.C19_verified_or_removed_partial",
    "Verif.Backup.C19_verified_kept_partial",
    "Verif.Backup.C19_false_trusted_loses_chunk"
   ],
   "note": "\"No revision that stays trusted loses a chunk\" is false of the code; the rest is proved."
  },
  {
   "property": "C20",
   "status": "proved",
   "theorems": [
    "Verif.Files.C20_restore_file",
    "Verif.Files.C20_restore_stdout"
   ],
   "note": "Python restore path; the Rust backy-extract tool is not modelled."
  },
  {
   "property": "C21",
   "status": "proved",
   "theorems": [
    "Verif.Files.C21_copy_overwrite"
   ],
   "note": ""
  },
  {
   "property": "C22",
   "status": "proved",
   "theorems": [
    "Verif.Files.C22_files_are_equal"
   ],
   "note": ""
  },
  {
   "property": "C23",
   "status": "partial",
   "theorems": [
    "Verif.Files.C23_equal_accepted_partial",
    "Verif.Files.C23_difference_reported_partial",
    "Verif.Files.C23_accepted_sound_partial",
    "Verif.Files.C23_every_full_block_sampled_partial",
    "Verif.Files.C23_false_tail_never_examined"
   ],
   "note": "False of the code for the last incomplete block of a source of at least one block: it is never sampled; everything else proved."
  },
  {
   "property": "C24",
   "status": "proved",
   "theorems": [
    "Verif.Repo.C24_next_slot",
    "Verif.Repo.C24_within_interval",
    "Verif.Repo.C24_slot_passed_over"
   ],
   "note": "Double precision arithmetic is modelled (round to nearest, ties to even, 53 bits; no overflow). Intervals are whole seconds, as durations are."
  },
  {
   "property": "C25",
   "status": "proved",
   "theorems": [
    "Verif.Repo.C25_missed_tags_are_caught_up"
   ],
   "note": ""
  },
  {
   "property": "C26",
   "status": "proved",
   "theorems": [
    "Verif.Repo.C26_keeps_newest_and_young",
    "Verif.Repo.C27_expiry_exact"
   ],
   "note": ""
  },
  {
   "property": "C27",
   "status": "proved",
   "theorems": [
    "Verif.Repo.C27_expiry_exact",
    "Verif.Repo.C27_expiry_tags"
   ],
   "note": ""
  },
  {
   "property": "C28",
   "status": "proved",
   "theorems": [
    "Verif.Repo.C28_gone_iff_untagged"
   ],
   "note": ""
  },
  {
   "property": "C29",
   "status": "proved",
   "theorems": [
    "Verif.Repo.C29_restartable",
    "Verif.Repo.C29_idempotent"
   ],
   "note": ""
  },
  {
   "property": "C30",
   "status": "proved",
   "theorems": [
    "Verif.Repo.C30_sla_exact",
    "Verif.Repo.C30_on_time_is_held"
   ],
   "note": ""
  },
  {
   "property": "C31",
   "status": "proved",
   "theorems": [
    "Verif.Repo.C31_durations"
   ],
   "note": ""
  },
  {
   "property": "C32",
   "status": "proved",
   "theorems": [
    "Verif.Daemon.C32_backoff",
    "Verif.Daemon.C32_bounded_monotone"
   ],
   "note": "Passes in which connecting and planning succeed; see C62 for the others."
  },
  {
   "property": "C33",
   "status": "proved",
   "theorems": [
    "Verif.Repo.C33_scan_sorted_unique",
    "Verif.Repo.C33_scan_order_independent"
   ],
   "note": ""
  },
  {
   "property": "C34",
   "status": "proved",
   "theorems": [
    "Verif.Repo.C34_metadata_roundtrip",
    "Verif.Repo.C34_metadata_roundtrip_full",
    "Verif.Repo.C34_required_keys",
    "Verif.Repo.C34_text_time"
   ],
   "note": "At the level of the metadata dictionary; the YAML and JSON libraries are trusted."
  },
  {
   "property": "C35",
   "status": "proved",
   "theorems": [
    "Verif.Repo.C35_tag_change",
    "Verif.Repo.C35_unknown_action"
   ],
   "note": ""
  },
  {
   "property": "C36",
   "status": "proved",
   "theorems": [
    "Verif.Repo.C36_number",
    "Verif.Repo.C36_number_too_large",
    "Verif.Repo.C36_negative",
    "Verif.Repo.C36_id",
    "Verif.Repo.C36_keywords",
    "Verif.Repo.C36_empty",
    "Verif.Repo.C36_unknown",
    "Verif.Repo.C36_call"
   ],
   "note": ""
  },
  {
   "property": "C37",
   "status": "proved",
   "theorems": [
    "Verif.Repo.C37_expressions",
    "Verif.Repo.C37_results_from_history",
    "Verif.Repo.C37_selectors",
    "Verif.Repo.C37_single_selector"
   ],
   "note": ""
  },
  {
   "property": "C38",
   "status": "partial",
   "theorems": [
    "Verif.Repo.C38_range_partial",
    "Verif.Repo.C38_open_range_partial",
    "Verif.Repo.C38_false_oldest_date",
    "Verif.Repo.C38_false_same_time"
   ],
   "note": "False of the code for a date equal to the oldest revision time (KeyError) and for dates with several revisions (AssertionError); proved otherwise."
  },
  {
   "property": "C39",
   "status": "partial",
   "theorems": [
    "Verif.Conc.C39_clean_partial",
    "Verif.Conc.C39_clean_current_partial",
    "Verif.Conc.C39_false_stale"
   ],
   "note": "False of the code: a process cleans according to the list of revisions it read earlier, and removes a revision that was completed since. Proved: what is removed relative to the list in memory, and the full property if the directory did not change since it was read."
  },
  {
   "property": "C40",
   "status": "partial",
   "theorems": [
    "Verif.Locks.C40_exclusion",
    "Verif.Locks.C40_one_editor",
    "Verif.Locks.C40_gc_alone_partial",
    "Verif.Locks.C40_refused",
    "Verif.Locks.C40_changes_only_locked",
    "Verif.Locks.C40_never_reentrant",
    "Verif.Locks.C40_false_verify_gc"
   ],
   "note": "False of the code for the garbage collection at the end of a verification, which runs under the shared lock. Everything else is proved for all interleavings."
  },
  {
   "property": "C41",
   "status": "partial",
   "theorems": [
    "Verif.Conc.C41_no_loss_partial",
    "Verif.Conc.C41_gc_known_partial",
    "Verif.Conc.C41_false_verify_gc",
    "Verif.Conc.C41_false_gc",
    "Verif.Beside.C41_false_running_gc"
   ],
   "note": "False of the code: garbage collection uses a list of revisions read before the lock was taken. Proved: no loss for all interleavings in which executions know what they have to know; bodies take effect atomically. C41_false_running_gc: even a garbage collection that knows all revisions removes chunks of a running backup. For everything except garbage collections, access by access, see C122."
  },
  {
   "property": "C42",
   "status": "partial",
   "theorems": [
    "Verif.Locks.C42_start_partial",
    "Verif.Locks.C42_false_unlocked"
   ],
   "note": "False of the code: the lock is held while the coroutine is created, not while it runs."
  },
  {
   "property": "C43",
   "status": "partial",
   "theorems": [
    "Verif.Fs.C43_crash_atomic",
    "Verif.Fs.C43_result_partial",
    "Verif.Fs.C43_false_tempfile_left"
   ],
   "note": "Crash atomicity is proved in full. \"The temporary file is removed if writing raises\" is false if the implicit flush at the end of the write fails (for example a full disk)."
  },
  {
   "property": "C44",
   "status": "partial",
   "theorems": [
    "Verif.Fs.C44_after_sync_partial",
    "Verif.Fs.C44_before_rename_partial",
    "Verif.Fs.C44_false_before_sync"
   ],
   "note": "False of the code: neither chunk files, the mapping file nor the metadata are synced before the metadata says complete. Proved: the cases in which it holds."
  },
  {
   "property": "C45",
   "status": "partial",
   "theorems": [
    "Verif.Backup.C45_chunks_complete_partial",
    "Verif.Backup.C45_complete_survive_partial",
    "Verif.Backup.C45_next_backup_partial",
    "Verif.Backup.C45_false_stale_history",
    "Verif.Fs.C45_chunk_file_atomic_partial"
   ],
   "note": "False of the code for a process that has read the directory before the killed backup; proved for a process that reads it afterwards."
  },
  {
   "property": "C46",
   "status": "proved",
   "theorems": [
    "Verif.Api.C46_authenticated"
   ],
   "note": ""
  },
  {
   "property": "C47",
   "status": "proved",
   "theorems": [
    "Verif.Api.C47_active_untouched",
    "Verif.Api.C47_purge",
    "Verif.Api.C47_put_tags",
    "Verif.Api.C47_bad_request"
   ],
   "note": ""
  },
  {
   "property": "C48",
   "status": "proved",
   "theorems": [
    "Verif.Sync.C48_mirror",
    "Verif.Sync.C48_idempotent",
    "Verif.Sync.C48_mirrors_peer",
    "Verif.Sync.C48_errors_counted"
   ],
   "note": "Revision ids are unique across servers and the directory was read before the exchange (the daemon scans before pulling)."
  },
  {
   "property": "C49",
   "status": "partial",
   "theorems": [
    "Verif.Sync.C49_local_untouched_partial",
    "Verif.Sync.C49_false_same_id"
   ],
   "note": "False of the code if a peer reports a revision with the id of a local one: it is overwritten. Proved for ids that no peer reports."
  },
  {
   "property": "C50",
   "status": "proved",
   "theorems": [
    "Verif.Sync.C50_push",
    "Verif.Sync.C50_what_is_pushed",
    "Verif.Sync.C50_purge",
    "Verif.Sync.C50_errors",
    "Verif.Sync.C50_interrupted",
    "Verif.Sync.C50_raises"
   ],
   "note": "Revision ids consist of letters and digits (PlainId), as backy generates them; the directory was read before; C50_interrupted: a push that is broken off because an answer takes too long (the code does not catch this time-out). A confirmation that gets lost leaves the change pending here although it was made at the origin."
  },
  {
   "property": "C51",
   "status": "partial",
   "theorems": [
    "Verif.Sync.C51_connection_error_partial",
    "Verif.Sync.C51_false_error_drops",
    "Verif.Sync.C51_false_pull_discards",
    "Verif.Sync.C51_failed_push_partial",
    "Verif.Sync.C51_unreachable_partial"
   ],
   "note": "False of the code: the pull at the start of every job run discards changes that are not pushed yet, and an HTTP error of the peer removes its revisions. Proved: failed pushes and connection errors."
  },
  {
   "property": "C52",
   "status": "proved",
   "theorems": [
    "Verif.Daemon.C52_skips_only_if",
    "Verif.Daemon.C52_immediate",
    "Verif.Daemon.C52_runs_own",
    "Verif.Daemon.C52_waiting_ends"
   ],
   "note": ""
  },
  {
   "property": "C53",
   "status": "proved",
   "theorems": [
    "Verif.Slots.C53_limit",
    "Verif.Slots.C53_no_slot_lost"
   ],
   "note": ""
  },
  {
   "property": "C54",
   "status": "proved",
   "theorems": [
    "Verif.Reload.C54_reload",
    "Verif.Reload.C54_succeeds",
    "Verif.Reload.C54_starts_iff"
   ],
   "note": ""
  },
  {
   "property": "C55",
   "status": "proved",
   "theorems": [
    "Verif.Purge.C55_purge_by_age",
    "Verif.Purge.C55_failure_blocks_rest"
   ],
   "note": ""
  },
  {
   "property": "C56",
   "status": "partial",
   "theorems": [
    "Verif.FileSource.C56_restores_partial",
    "Verif.FileSource.C56_success_partial",
    "Verif.FileSource.C56_gc_data_partial",
    "Verif.FileSource.C56_false_gc",
    "Verif.FileSource.C56_verify_partial",
    "Verif.FileSource.C56_exit_code_partial"
   ],
   "note": "False of the code: gc of the file source removes all metadata files. Proved: restoring, and that gc keeps the data."
  },
  {
   "property": "C57",
   "status": "proved",
   "theorems": [
    "Verif.Cli.C57_check",
    "Verif.Cli.C57_worst",
    "Verif.Cli.C57_error"
   ],
   "note": "An error in a later repository hides a violated SLA of an earlier one (1 instead of 2), as the statement says."
  },
  {
   "property": "C58",
   "status": "partial",
   "theorems": [
    "Verif.Consul.C58_cleanup_partial",
    "Verif.Consul.C58_false_garbage"
   ],
   "note": "False of the code for garbage entries: a missing continue makes the backup fail and leaves later requests behind. Proved if all entries are readable."
  },
  {
   "property": "C59",
   "status": "partial",
   "theorems": [
    "Verif.Report.C59_reports_kept_partial",
    "Verif.Report.C59_show_partial",
    "Verif.Report.C59_false_delete",
    "Verif.Report.C59_listed_partial",
    "Verif.Report.C59_show_all_partial"
   ],
   "note": "False of the code: deleting always raises ValueError (suffix without a dot). Proved: storing and showing."
  },
  {
   "property": "C60",
   "status": "partial",
   "theorems": [
    "Verif.Backup.C60_cut_diff_partial",
    "Verif.Backup.C60_false_cut_export"
   ],
   "note": "False of the code for full backups: the exit status of rbd export is ignored. Proved for incremental ones."
  },
  {
   "property": "C61",
   "status": "partial",
   "theorems": [
    "Verif.Purge.C61_others_untouched_partial",
    "Verif.Purge.C61_false_never_purged",
    "Verif.Purge.C61_passes_iff_partial"
   ],
   "note": "False of the code: the mark is set but nothing ever acts on it. Proved: nothing else is removed."
  },
  {
   "property": "C62",
   "status": "partial",
   "theorems": [
    "Verif.Daemon.C62_keeps_running_partial",
    "Verif.Daemon.C62_false_loop_ends"
   ],
   "note": "False of the code: connecting and planning are outside the try block, their failure ends the loop for good. Proved for all other failures."
  },
  {
   "property": "C63",
   "status": "partial",
   "theorems": [
    "Verif.Reload.C63_daemon_follows_partial",
    "Verif.Reload.C63_false_stored_config",
    "Verif.Reload.C63_false_stale_schedule"
   ],
   "note": "False of the code: the schedule stored in the repository, which commands use, is not updated. Proved for the daemon itself."
  },
  {
   "property": "C64",
   "status": "proved",
   "theorems": [
    "Verif.Locks.C64_no_deadlock",
    "Verif.Locks.C64_released"
   ],
   "note": ""
  },
  {
   "property": "C65",
   "status": "partial",
   "theorems": [
    "Verif.Conc.C65_current_copy_partial",
    "Verif.Conc.C65_fresh_partial",
    "Verif.Conc.C65_false_verify_loses_tag",
    "Verif.Conc.C65_false_verify_resurrects"
   ],
   "note": "False of the code: verification writes back metadata it read when it started, without the lock .backup. Proved: an execution whose copy of a record is current never brings the record back and changes at most its tags (tags, expiry), its trust (distrust, verify, backup) or removes it, in every state and at every moment; tags and expiry need no current copy, they read the directory again."
  },
  {
   "property": "C66",
   "status": "proved",
   "theorems": [
    "Verif.Migrate.C66_nothing_lost",
    "Verif.Migrate.C66_found",
    "Verif.Migrate.C66_succeeds_iff",
    "Verif.Migrate.C66_stuck"
   ],
   "note": "Success characterised exactly: a leftover temporary file in an old sub directory makes every start fail."
  },
  {
   "property": "C67",
   "status": "proved",
   "theorems": [
    "Verif.Commands.C67_rm",
    "Verif.Commands.C67_tags",
    "Verif.Commands.C67_distrust",
    "Verif.Commands.C67_distrust_fails",
    "Verif.Commands.C67_restore",
    "Verif.Commands.C67_restore_code",
    "Verif.Commands.C67_no_config",
    "Verif.Commands.C67_tags_code"
   ],
   "note": "Locks held by others are parameters; the effect of a command is that of an uninterrupted run. restore also after histories with damage (C74, C75)."
  },
  {
   "property": "C68",
   "status": "proved",
   "theorems": [
    "Verif.Commands.C68_reads"
   ],
   "note": ""
  },
  {
   "property": "C69",
   "status": "partial",
   "theorems": [
    "Verif.Commands.C69_final_clean_does_nothing_partial",
    "Verif.Commands.C69_only_own_partial",
    "Verif.Commands.C69_refused_partial",
    "Verif.Commands.C69_bad_tags_partial",
    "Verif.Commands.C69_false"
   ],
   "note": "False of the code: the final cleaning uses the list of revisions read before the new one existed and never does anything. Proved: no incomplete local revision other than its own is left."
  },
  {
   "property": "C70",
   "status": "partial",
   "theorems": [
    "Verif.Commands.C70_ignored_partial",
    "Verif.Commands.C70_false"
   ],
   "note": "False of the code: the option is stored and never looked at. Read-only commands: C68."
  },
  {
   "property": "C71",
   "status": "proved",
   "theorems": [
    "Verif.Commands.C71_tags_text",
    "Verif.Commands.C71_never_empty",
    "Verif.Commands.C71_tags_trimmed"
   ],
   "note": ""
  },
  {
   "property": "C72",
   "status": "proved",
   "theorems": [
    "Verif.Commands.C72_none",
    "Verif.Commands.C72_others",
    "Verif.Commands.C72_all",
    "Verif.Commands.C72_works"
   ],
   "note": "For rev-parse, log, distrust, rm, tags; check is C57. The daemon reports distinct paths."
  },
  {
   "property": "C73",
   "status": "partial",
   "theorems": [
    "Verif.Commands.C73_verify_partial",
    "Verif.Commands.C73_gc_partial",
    "Verif.Commands.C73_expire_refused_partial",
    "Verif.Commands.C73_expire_partial",
    "Verif.Commands.C73_false_verify",
    "Verif.Commands.C73_false_gc"
   ],
   "note": "False of the code: verify gives 0 for damaged revisions (which it removes), gc always gives 0. Proved: what 0 of verify means, other revisions are untouched, gc works if it can."
  },
  {
   "property": "C74",
   "status": "proved",
   "theorems": [
    "Verif.Backup.C74_restore_file",
    "Verif.Backup.C74_restore_stdout"
   ],
   "note": "Damage never produces, in a chunk file, a content nobody hashed before that has the hash of its name (no hash collisions, as in all properties); mapping files are lost or unreadable, not replaced by other mappings. The repository starts empty."
  },
  {
   "property": "C75",
   "status": "proved",
   "theorems": [
    "Verif.Backup.C75_intact_restores"
   ],
   "note": "Same kinds of damage as in C74."
  },
  {
   "property": "C76",
   "status": "proved",
   "theorems": [
    "Verif.Backup.C76_verified_restores"
   ],
   "note": "Same kinds of damage as in C74. Chunks of revisions that count as verified are not checked again by the code; C19 says what the mark means then."
  },
  {
   "property": "C77",
   "status": "proved",
   "theorems": [
    "Verif.Daemon.C77_status_exact",
    "Verif.Daemon.C77_fails_iff"
   ],
   "note": "problem_reports is the number found when the repository was last connected. JSON encoding is not modelled."
  },
  {
   "property": "C78",
   "status": "proved",
   "theorems": [
    "Verif.Daemon.C78_skipped_has_backup",
    "Verif.Daemon.C78_wrong_job",
    "Verif.Daemon.C78_only_this_job"
   ],
   "note": "For other names false: the name is used as a regular expression without escaping (C78_wrong_job)."
  },
  {
   "property": "C79",
   "status": "proved",
   "theorems": [
    "Verif.Overlap.C79_restore",
    "Verif.Overlap.C79_verify",
    "Verif.Overlap.C79_verify_sound"
   ],
   "note": "The other processes read the directory when they start (for garbage collections with an outdated list of revisions see C41). restore: Python implementation."
  },
  {
   "property": "C80",
   "status": "proved",
   "theorems": [
    "Verif.Daemon.C80_in_order",
    "Verif.Daemon.C80_stops_at_failure",
    "Verif.Daemon.C80_complete"
   ],
   "note": "Cleaning up and waiting for a slot are steps, too, but are left out of the order stated."
  },
  {
   "property": "C81",
   "status": "proved",
   "theorems": [
    "Verif.Backup.C81_record",
    "Verif.Backup.C81_size_zero"
   ],
   "note": ""
  },
  {
   "property": "C82",
   "status": "proved",
   "theorems": [
    "Verif.Daemon.C82_best_peer",
    "Verif.Daemon.C82_not_circular",
    "Verif.Daemon.C82_someone_runs"
   ],
   "note": "A peer that answers with an empty list (the job is not configured there) makes the job do its own backup."
  },
  {
   "property": "C83",
   "status": "proved",
   "theorems": [
    "Verif.Backup.C83_remote_untouched",
    "Verif.Backup.C83_local_record",
    "Verif.Backup.C83_none_removed"
   ],
   "note": "A damaged revision can be removed: by the verification that a bad chunk triggers."
  },
  {
   "property": "C84",
   "status": "proved",
   "theorems": [
    "Verif.Api.C84_accepted",
    "Verif.Requests.C84_not_forgotten",
    "Verif.Requests.C84_skips_at_most_once",
    "Verif.Requests.C84_can_run",
    "Verif.Requests.C84_no_more_than_asked",
    "Verif.Requests.C84_coincidence"
   ],
   "note": "The exception is real (C84_coincidence). A job that is stopped while it queues for a slot does not make the backup."
  },
  {
   "property": "C85",
   "status": "proved",
   "theorems": [
    "Verif.Timeline.C85_sla_held",
    "Verif.Timeline.runBackup_backs",
    "Verif.Timeline.C85_sla_held_with_peers",
    "Verif.Timeline.pull_sameLocal",
    "Verif.Timeline.push_sameLocal"
   ],
   "note": "runBackup_backs: the successful backups of Model/Backup leave the directory as assumed here. The second theorem is for jobs that exchange metadata with other servers; pull_sameLocal and push_sameLocal: the pulls and pushes of Model/Sync are such exchanges."
  },
  {
   "property": "C86",
   "status": "proved",
   "theorems": [
    "Verif.Timeline.C86_tags_recur",
    "Verif.Timeline.runBackup_backs"
   ],
   "note": "As C85. Without an exchange of metadata with other servers: a tag is not caught up as long as a revision of another server carries it."
  },
  {
   "property": "C87",
   "status": "proved",
   "theorems": [
    "Verif.Timeline.C87_tag_bounded",
    "Verif.Timeline.C87_bounded",
    "Verif.Timeline.runBackup_backs",
    "Verif.Timeline.C87_tag_bounded_with_peers",
    "Verif.Timeline.C87_bounded_with_peers"
   ],
   "note": "As C85. Revisions the user tags manually are kept in addition."
  },
  {
   "property": "C88",
   "status": "proved",
   "theorems": [
    "Verif.Mapping.C88_given_back",
    "Verif.Mapping.C88_right_device",
    "Verif.Mapping.C88_no_trace",
    "Verif.Mapping.C88_success",
    "Verif.Mapping.C88_works",
    "Verif.Mapping.C88_newer_release",
    "Verif.Mapping.C88_in_backup"
   ],
   "note": "The values of the JSON mapping list are strings. C88_in_backup: the flags mapFails and unmapFails of Model/Backup cover all of this."
  },
  {
   "property": "C89",
   "status": "proved",
   "theorems": [
    "Verif.Backend.C89_choice",
    "Verif.Backend.C89_exact",
    "Verif.Backend.C89_failure",
    "Verif.Backend.C89_unreadable",
    "Verif.Backend.C89_passed_on"
   ],
   "note": "backy-extract itself is a parameter."
  },
  {
   "property": "C90",
   "status": "proved",
   "theorems": [
    "Verif.Backup.C90_failed_restore",
    "Verif.Backup.C90_failed_stdout"
   ],
   "note": ""
  },
  {
   "property": "C91",
   "status": "proved",
   "theorems": [
    "Verif.Background.C91_requests",
    "Verif.Background.C91_nothing_selected",
    "Verif.Background.C91_tags_ignored"
   ],
   "note": "Job names that are special in URLs are left out. What an accepted request leads to: C84."
  },
  {
   "property": "C92",
   "status": "proved",
   "theorems": [
    "Verif.ApiServer.C92_in_force",
    "Verif.ApiServer.C92_tokens_at_once",
    "Verif.ApiServer.C92_takes_effect",
    "Verif.ApiServer.C92_uninterrupted",
    "Verif.ApiServer.C92_reload_request",
    "Verif.ApiServer.C92_reload_lost",
    "Verif.ApiServer.C92_failed_address"
   ],
   "note": "The provisos are needed: C92_reload_lost and C92_failed_address."
  },
  {
   "property": "C93",
   "status": "partial",
   "theorems": [
    "Verif.Callback.C93_own_backup_partial",
    "Verif.Callback.C93_skipped_partial",
    "Verif.Callback.C93_false_skipped",
    "Verif.Queried.C93_any_order_partial",
    "Verif.Queried.C93_queried_partial",
    "Verif.Queried.C93_skipped_queried_partial",
    "Verif.Queried.C93_false_status_request"
   ],
   "note": "False of the code for runs that leave the backup to a peer: the metadata just pulled is not told (C93_false_skipped). Proved for runs with their own backup. C93_false_status_request: if the daemon serves a status request while the push waits for a peer, the callback is also told revisions of the peer that have just been removed; C93_queried_partial: this, and outdated orig_tags, is all that can be wrong after a run with a backup of its own."
  },
  {
   "property": "C94",
   "status": "proved",
   "theorems": [
    "Verif.SourceArgs.C94_nothing_else",
    "Verif.SourceArgs.C94_rbd",
    "Verif.SourceArgs.C94_file",
    "Verif.SourceArgs.C94_file_absolute",
    "Verif.SourceArgs.C94_wrong_type",
    "Verif.SourceArgs.C94_not_understood",
    "Verif.SourceArgs.C94_help_is_success",
    "Verif.SourceArgs.C94_slashes",
    "Verif.SourceArgs.C94_s3_never"
   ],
   "note": "argparse is modelled as far as these command lines go."
  },
  {
   "property": "C95",
   "status": "proved",
   "theorems": [
    "Verif.Commands.C95_gc",
    "Verif.Commands.C95_unknown",
    "Verif.Commands.C95_restore",
    "Verif.Commands.C95_verify"
   ],
   "note": "backup: C16, C17."
  },
  {
   "property": "C96",
   "status": "proved",
   "theorems": [
    "Verif.TimeOut.C96_ends",
    "Verif.TimeOut.C96_listings",
    "Verif.TimeOut.C96_outcome",
    "Verif.TimeOut.C96_bounded",
    "Verif.TimeOut.C96_seen"
   ],
   "note": "The clock of the server is not set back or forward while waiting (time.time() is used)."
  },
  {
   "property": "C97",
   "status": "proved",
   "theorems": [
    "Verif.Show.C97_rows",
    "Verif.Show.C97_fails_iff",
    "Verif.Show.C97_needs_jobs",
    "Verif.Show.C97_changing",
    "Verif.Show.C97_summary",
    "Verif.Show.C97_daemon_fails"
   ],
   "note": "Every job has a directory of its name. That a query value of None is a TypeError is a property of aiohttp and yarl."
  },
  {
   "property": "C98",
   "status": "proved",
   "theorems": [
    "Verif.Life.C98_single",
    "Verif.Life.C98_refused",
    "Verif.Life.C98_restart",
    "Verif.Life.C98_moved"
   ],
   "note": "Base directories are absolute and given in the same way (no symbolic links). The proviso is needed: C98_moved."
  },
  {
   "property": "C99",
   "status": "proved",
   "theorems": [
    "Verif.Outage.C99_recovers_soon",
    "Verif.Outage.C99_catches_up",
    "Verif.Outage.C99_sla_held_again",
    "Verif.Outage.C99_back_to_schedule"
   ],
   "note": "Provided that connecting and planning do not fail (C62), and that the run makes the backup itself."
  },
  {
   "property": "C100",
   "status": "proved",
   "theorems": [
    "Verif.Backup.C100_lasts"
   ],
   "note": "Spec/Lasting lists the events; the store is undamaged and the hash is free of collisions on the chunks written (CollFree), as in C13."
  },
  {
   "property": "C101",
   "status": "proved",
   "theorems": [
    "Verif.RbdCmd.C101_only_own_snapshots",
    "Verif.RbdCmd.C101_removed_snapshots",
    "Verif.RbdCmd.C101_reads_after_snapshot",
    "Verif.RbdCmd.C101_delete_agrees",
    "Verif.RbdCmd.C101_parent_agrees",
    "Verif.RbdCmd.C101_asks_first",
    "Verif.RbdCmd.C101_own_snapshot_last_resort"
   ],
   "note": "Model/RbdCmd gives the command lines as an interactive program; Spec/RbdCmd says what a command line may do to a cluster. The last two theorems connect the command lines with the direct description in Model/Backup."
  },
  {
   "property": "C102",
   "status": "proved",
   "theorems": [
    "Verif.Fs.C102_never_half_written",
    "Verif.Fs.C102_done",
    "Verif.Fs.C102_visible_at_once"
   ],
   "note": "The model of the file system is the one of C47-C49 (Spec/Crash). NamedTemporaryFile never uses an existing name; file names are divided into metadata, temporary files of SafeFile and the rest. `done` is a ghost, C102_done says how it grows."
  },
  {
   "property": "C103",
   "status": "proved",
   "theorems": [
    "Verif.Moved.C103_other_servers",
    "Verif.Moved.exchange_own"
   ],
   "note": "Pull, expiry and push in one run, with any number of peers (Model/Moved.lean composes the models of Job.pull_metadata, Schedule.expire, Job.push_metadata and the API of C47-C53); keptTags is the specification of C27. exchange_own ties it to the model of a run in C79/C88."
  },
  {
   "property": "C104",
   "status": "proved",
   "theorems": [
    "Verif.Config.C104_accepted",
    "Verif.Config.C104_settings",
    "Verif.Config.C104_repository",
    "Verif.Config.C104_peers",
    "Verif.Config.C104_peer_token"
   ],
   "note": "Trusted: yaml.safe_load of what yaml.safe_dump wrote is the same value; keys are texts. Whether a changed schedule reaches the config file is C63."
  },
  {
   "property": "C105",
   "status": "partial",
   "theorems": [
    "Verif.Config.C105_cli_partial",
    "Verif.Config.C105_false_default_address",
    "Verif.Config.C105_false_base_dir",
    "Verif.Config.C105_given_url_partial"
   ],
   "note": "False of the code: the default first address ::1 is put into the URL without brackets, so that the URL is not valid, and base-dir has no default. C105_cli_partial: it works with a base directory and a first address without colons. C105_given_url_partial: with an IPv6 address it works if the URL is configured with brackets."
  },
  {
   "property": "C106",
   "status": "proved",
   "theorems": [
    "Verif.Commands.C106_success",
    "Verif.Commands.C106_restores",
    "Verif.Commands.C106_works",
    "Verif.Commands.C106_refused"
   ],
   "note": "C106_restores assumes that what Ceph delivers is right (Faithful) and no hash collision among the chunks written, as in C13."
  },
  {
   "property": "C107",
   "status": "partial",
   "theorems": [
    "Verif.Commands.C107_complete_partial",
    "Verif.Commands.C107_false_mixture"
   ],
   "note": "False of the code: the default revision is the newest one even if its backup failed; after an incremental backup that broke off, restore exits with 0 and writes a mixture of two states. C107_complete_partial: if the selected revision is a complete one of this server, the result is its snapshot."
  },
  {
   "property": "C108",
   "status": "proved",
   "theorems": [
    "Verif.Commands.C108_newest_complete"
   ],
   "note": "After any history of Spec/History; no hash collision among the chunks written (CollFree); no revision has this text as its id."
  },
  {
   "property": "C109",
   "status": "proved",
   "theorems": [
    "Verif.Commands.C109_distrust",
    "Verif.Commands.C109_verify",
    "Verif.Commands.C109_verify_heals",
    "Verif.Commands.C109_rm",
    "Verif.Commands.C109_tags"
   ],
   "note": "Nobody holds the purge lock during verify. C109_verify_heals is about the histories of Spec/History."
  },
  {
   "property": "C110",
   "status": "partial",
   "theorems": [
    "Verif.PurgeJob.C110_kept_partial",
    "Verif.PurgeJob.C110_false_slow_schedule"
   ],
   "note": "False of the code: purge_old_files does not look at the configured jobs, and a schedule whose shortest interval is more than 93 days loses all backups between two runs. C110_kept_partial: with a shorter interval the repository of a job that makes its backups in time is never touched."
  },
  {
   "property": "C111",
   "status": "partial",
   "theorems": [
    "Verif.Life.C111_start_partial",
    "Verif.Life.C111_false_reload"
   ],
   "note": "False of the code for a reload: terminate() stops the loop and main returns normally. Proved for everything that goes wrong before the daemon has started completely."
  },
  {
   "property": "C112",
   "status": "partial",
   "theorems": [
    "Verif.Daemon.C112_goes_on_partial",
    "Verif.Daemon.C112_false_hanging_peer",
    "Verif.Daemon.pull_fails_iff",
    "Verif.Daemon.C112_false_hanging_push",
    "Verif.Daemon.push_ends",
    "Verif.Sync.C112_push_raises"
   ],
   "note": "False of the code for a peer that does not answer within 30 seconds (the time-out is not a ClientError): every run then makes a backup and fails before the expiry, or, if it happens in the push, before the garbage collection. Proved for all other failures of peers."
  },
  {
   "property": "C113",
   "status": "proved",
   "theorems": [
    "Verif.Chunked.C113_bounded_memory",
    "Verif.Chunked.C113_small_chunks",
    "Verif.Chunked.C113_hot"
   ],
   "note": "Chunks are added only by File._current_chunk, so the bound after every operation is the bound at all times. Buffers of the caller (4 MiB in backup and restore) are not counted."
  },
  {
   "property": "C114",
   "status": "proved",
   "theorems": [
    "Verif.Backup.C114_full_backup",
    "Verif.Backup.C114_first_backup",
    "Verif.Backup.C114_nothing_new",
    "Verif.Backup.C114_once",
    "Verif.Backup.C114_without_base"
   ],
   "note": "For incremental backups intermediate states of a chunk may be stored as well (the cache is flushed while a chunk is being written)."
  },
  {
   "property": "C115",
   "status": "proved",
   "theorems": [
    "Verif.Repo.C115_shared",
    "Verif.Repo.C115_no_extra_backups"
   ],
   "note": ""
  },
  {
   "property": "C116",
   "status": "proved",
   "theorems": [
    "Verif.Backup.C116_shares_chunks"
   ],
   "note": ""
  },
  {
   "property": "C117",
   "status": "proved",
   "theorems": [
    "Verif.Logging.C117_file_complete",
    "Verif.Logging.C117_console",
    "Verif.Logging.C117_console_level",
    "Verif.Logging.C117_output_kept",
    "Verif.Logging.C117_traceback_kept",
    "Verif.Logging.C117_never_raises",
    "Verif.Logging.C117_write_error_escapes"
   ],
   "note": "Names, ids and printed values must be free of line breaks and escape characters (repr escapes them). The formatting of _fmt_msg is not modelled."
  },
  {
   "property": "C118",
   "status": "partial",
   "theorems": [
    "Verif.CallbackRun.C118_exit_code_ignored_partial",
    "Verif.CallbackRun.C118_logged_partial",
    "Verif.CallbackRun.C118_false_counts_as_failed",
    "Verif.CallbackRun.C118_false_backup_repeated"
   ],
   "note": "False of the code if the callback cannot be started or prints something that is no UTF-8: the exception makes the run count as failed, and the backup is repeated after two minutes. Proved for exit codes and printed text."
  },
  {
   "property": "C119",
   "status": "proved",
   "theorems": [
    "Verif.Spread.C119_same_everywhere",
    "Verif.Spread.C119_longest_decides",
    "Verif.Spread.C119_in_range"
   ],
   "note": "MD5 and the random generator are parameters (functions of their arguments). As in C24, the times of planning must not be within 28 microseconds before a slot, unless they are whole seconds."
  },
  {
   "property": "C120",
   "status": "proved",
   "theorems": [
    "Verif.Backup.C120_left",
    "Verif.Backup.C120_at_most_one",
    "Verif.RbdCmd.C120_asked"
   ],
   "note": ""
  },
  {
   "property": "C121",
   "status": "partial",
   "theorems": [
    "Verif.Listing.C121_files",
    "Verif.Listing.C121_ids",
    "Verif.Listing.C121_json",
    "Verif.Listing.C121_table",
    "Verif.Listing.C121_jobs",
    "Verif.Listing.C121_all",
    "Verif.Said.C121_output_partial",
    "Verif.Said.C121_false_debug_output"
   ],
   "note": "Ids as shortuuid makes them (letters and digits, not a number or keyword) for the specifier; layout and markup of the table are left out. False of the code: index_by_date prints a debugging line, so that with a date in a range rev-parse prints a line that names no revision, and the output of log --json cannot be parsed. C121_output_partial: without dates in a range the whole output is what the other theorems say; those describe what rev-parse and log themselves print in every case."
  },
  {
   "property": "C122",
   "status": "proved",
   "theorems": [
    "Verif.Beside.C122_same",
    "Verif.Beside.C122_image",
    "Verif.Beside.C122_works",
    "Verif.Beside.C122_verification",
    "Verif.Beside.C122_verifications"
   ],
   "note": "The garbage collection of the other verifications is excluded: with it the claim is false (C41_false_running_gc). Writing a chunk file or the mapping file is one access."
  },
  {
   "property": "C123",
   "status": "proved",
   "theorems": [
    "Verif.Pool.C123_choice",
    "Verif.Pool.C123_after_backup",
    "Verif.Slots.C53_no_slot_lost"
   ],
   "note": "Durations are whole seconds in the model. The newest complete revision may be one of another server."
  },
  {
   "property": "C124",
   "status": "partial",
   "theorems": [
    "Verif.Accepted.C124_sound_partial",
    "Verif.Accepted.C124_goes_on_partial",
    "Verif.Accepted.C124_false_accepted",
    "Verif.Accepted.C124_false_never_runs",
    "Verif.Accepted.C124_false_never_expires",
    "Verif.PeersConf.C124_peers_partial",
    "Verif.PeersConf.C124_false_peers",
    "Verif.PeersConf.C124_false_peers_accepted",
    "Verif.Accepted.C124_false_other_revisions"
   ],
   "note": "False of the code: the configuration is not checked. Schedules without tags, intervals of zero and tags without keep or with a name that is not read as a name (such as 'weekly (sunday') are accepted; with the first two a job never runs, with the others every run fails in the expiry after the backup. Proved: definitions with at least one tag, positive intervals, whole numbers to keep and plain tag names are accepted, can always be planned and expired, and the job goes on forever whatever else fails. The same for peers: entries without URL or token are accepted, and then every run fails after its backup."
  },
  {
   "property": "C125",
   "status": "proved",
   "theorems": [
    "Verif.Queried.C125_push",
    "Verif.Queried.C125_ends",
    "Verif.Queried.C125_pull"
   ],
   "note": "C125_pull assumes unique ids as C48 does. What the callback is told can differ: see C93. Time-outs that end a push: see C50_interrupted."
  },
  {
   "property": "C126",
   "status": "partial",
   "theorems": [
    "Verif.Said.C126_exact_partial",
    "Verif.Said.C126_image_first_partial",
    "Verif.Said.C126_false_debug_line"
   ],
   "note": "False of the code: looking up a date in a range prints a line on standard output. Proved: without dates in a range the output is exactly the image; with dates and a pipe or file it is the image followed by the lines of the lookup."
  },
  {
   "property": "C127",
   "status": "partial",
   "theorems": [
    "C127_false_until_configured",
    "C127_false_deleted",
    "C127_starts_over_partial"
   ],
   "note": "False of the code: the directory is created again by the next pass, but the config file that backy-rbd reads is only written when the daemon configures the job; until the daemon is started again or finds another configuration of the job, no run succeeds (C127_false_until_configured, for every history; C127_false_deleted, a concrete one). Proved: if the job was configured since the last deletion, the next run succeeds and restores to the image, whatever snapshots the earlier repository left (C127_starts_over_partial)."
  },
  {
   "property": "C128",
   "status": "partial",
   "theorems": [
    "Verif.Rotate.C128_kept_partial",
    "Verif.Rotate.C128_new_partial",
    "Verif.Rotate.C128_false_not_reopened",
    "Verif.Rotate.C128_false_daemon"
   ],
   "note": "False of the code: the log file is opened once, so after a rotation a process goes on writing to the renamed file and the file of the configured name has only entries of processes that were started later (C128_false_not_reopened for all histories, C128_false_daemon a run). Proved: nothing is lost when files are renamed to unused names (C128_kept_partial), and a process writes to the file of the configured name as long as that is not renamed (C128_new_partial)."
  },
  {
   "property": "C129",
   "status": "partial",
   "theorems": [
    "Verif.TaskId.C129_daemon_partial",
    "Verif.TaskId.C129_peers_partial",
    "Verif.TaskId.C129_false_program",
    "Verif.TaskId.C129_false_command"
   ],
   "note": "False of the code for the program that a run or a command starts, and for the daemon asked by a command: the id is looked up under a key that is never bound, so another one is generated. Proved: the entries of the daemon and of its peers carry the id of the run."
  },
  {
   "property": "C130",
   "status": "proved",
   "theorems": [
    "Verif.Timeline.C130_apart",
    "Verif.Timeline.C130_tag_window",
    "Verif.Timeline.C130_window",
    "Verif.Timeline.C130_apart_with_peers",
    "Verif.Timeline.C130_tag_window_with_peers",
    "Verif.Timeline.C130_window_with_peers"
   ],
   "note": "As C85: runs with their own successful backups, with or without metadata of other servers."
  },
  {
   "property": "C131",
   "status": "proved",
   "theorems": [
    "Verif.Recovery.C131_recovery_point",
    "Verif.Recovery.C131_one_moment",
    "Verif.Recovery.C131_not_older"
   ],
   "note": "Histories with times (Spec/Recovery: Timed): every backup carries the time of its revision, of its snapshot and of its end, everything else is any event of Spec/History that adds no local revision. `img` gives the content of the image at every time. The passes before and after are those of Spec/TimelinePeers; the directory of the state is any that can be seen between them (VisibleWith)."
  },
  {
   "property": "C132",
   "status": "proved",
   "theorems": [
    "Verif.Daemon.C132_retry_rate",
    "Verif.Daemon.C132_attempts"
   ],
   "note": "Runs (Spec/Retries): what run_forever does, with the time at which the waiting of each run was over."
  },
  {
   "property": "C133",
   "status": "partial",
   "theorems": [
    "Verif.Daemon.C133_waits_partial",
    "Verif.Daemon.C133_false_repeated"
   ],
   "note": "False of the code: any failure after the backup (for example a completion callback that cannot be started, or a failing garbage collection) makes the job retry the whole run: another backup is made 2, 4, 8, ... minutes later, and it gets the tags of the next slot ahead of time. Proved when the run before succeeded; C132 bounds the number of repetitions."
  },
  {
   "property": "C134",
   "status": "proved",
   "theorems": [
    "Verif.Timeline.C134_go_back",
    "Verif.Timeline.C134_restore"
   ],
   "note": "Passes of Spec/Timeline (no other servers), states of Spec/Recovery. D is the bound of C86 for the gap between two carriers of a tag; it includes runs that catch up."
  },
  {
   "property": "C135",
   "status": "proved",
   "theorems": [
    "Verif.Bounded.C135_chunks_bounded",
    "Verif.Bounded.C135_storage_bounded"
   ],
   "note": "Sizes are those of the data in the chunk files before compression. The start has no local revisions; the passes are those of Spec/TimelinePeers. Collision-free hashes as elsewhere."
  },
  {
   "property": "C136",
   "status": "proved",
   "theorems": [
    "Verif.Commands.C136_intact_left",
    "Verif.Commands.C136_exit_code",
    "Verif.Commands.C136_heals",
    "Verif.Commands.C136_next_backup"
   ],
   "note": "Damage as in C74; nobody holds a lock during the two commands. Without any revision of this server verify checks nothing and damaged chunk files stay (a later backup would rely on them, see C15)."
  },
  {
   "property": "C137",
   "status": "proved",
   "theorems": [
    "Verif.FullDisk.C137_leaves",
    "Verif.FullDisk.C137_room",
    "Verif.FullDisk.C137_zero",
    "Verif.FullDisk.C137_complete",
    "Verif.FullDisk.C137_others",
    "Verif.FullDisk.C137_next"
   ],
   "note": "Model/FullDisk is the backup of Model/Backup with a drive whose n-th write succeeds, fails, or fails after everything was written; C137_room: without failing writes they agree. After a failure the file is closed and its buffers are written again, as Python does. What is left equals what a killed backup leaves (Killed), so all theorems about Steps hold afterwards. The exit code can be 1 although the new revision is complete (when marking it as verified fails). Reading and unlinking do not fail; hashes are collision-free on the data seen."
  },
  {
   "property": "C138",
   "status": "proved",
   "theorems": [
    "Verif.Device.C138_success",
    "Verif.Device.C138_failure",
    "Verif.Device.C138_stdout",
    "Verif.Device.C138_working"
   ],
   "note": "For every pattern of failing writes and every buffer size, if fsync reports no error (C139). C138_working: with a target that works this is the restore of the other properties. The target may fail while it is written, not be truncated, and recover before it is closed."
  },
  {
   "property": "C139",
   "status": "partial",
   "theorems": [
    "Verif.Device.C139_synced_partial",
    "Verif.Device.C139_false_fsync"
   ],
   "note": "False of the code: every error of fsync is ignored, so a restore succeeds although the data has not reached the disk. Proved: fsync is called after exactly the image was written, and what it stores is the image. Standard output is not synced by the code."
  },
  {
   "property": "C140",
   "status": "proved",
   "theorems": [
    "Verif.Failing.C140_nothing_expires",
    "Verif.Failing.C140_only_after_success",
    "Verif.Failing.C140_resumes"
   ],
   "note": "Spec/Failing gives each action of a pass of Model/Daemon its effect on the system of Model/Backup; a full disk as in C137; pulling and pushing change metadata of other servers only (C49). Distrust from backend errors (C17) may change the trust. Tag changes by users and through the API are not among the events."
  },
  {
   "property": "C141",
   "status": "proved",
   "theorems": [
    "Verif.FullDisk.C141_expire",
    "Verif.FullDisk.C141_expire_again",
    "Verif.FullDisk.C141_expire_keeps",
    "Verif.FullDisk.C141_rm"
   ],
   "note": "Model/FullOps is the expiry of Model/Schedule with a drive; C141_expire: it agrees with that expiry or stores what that expiry goes through. Schedules as in C27 (positive keep, names without separators), no two revisions with the same time for the repetition (C29). Temporary files left behind by failing writes are not modelled."
  },
  {
   "property": "C142",
   "status": "partial",
   "theorems": [
    "Verif.FullDisk.C142_rm_partial",
    "Verif.FullDisk.C142_false_full"
   ],
   "note": "False of the code for expiry: a tag is removed by writing the metadata before any revision is removed, so on a full disk an expiry with anything to do fails at once and frees nothing; together with C140 a job on a full disk never recovers by itself. Proved: backy rm of revisions of this server and garbage collection work."
  },
  {
   "property": "C143",
   "status": "proved",
   "theorems": [
    "Verif.Repo.C143_behind",
    "Verif.Repo.C143_corrected",
    "Verif.Repo.C143_ahead",
    "Verif.Repo.C143_planned"
   ],
   "note": "Schedules as in C27 (positive keep, names without separators). C143_corrected: revisions with different times, the same as in C29. C143_planned has the hypotheses of C24 and C25 (whole seconds, the clock past one interval after the epoch, at most five minutes between the readings) and its float tolerance."
  },
  {
   "property": "C144",
   "status": "proved",
   "theorems": [
    "Verif.FullDisk.C144_tags",
    "Verif.FullDisk.C144_again"
   ],
   "note": "Model/FullOps: tags with a drive; that the commands agree with C35 on a disk with room is part of C144_tags. With --expect a repetition is refused once one revision has its new tags; a selection by tags may select less the second time, which the hypothesis of C144_again excludes. Temporary files left by failing writes are not modelled."
  },
  {
   "property": "C145",
   "status": "proved",
   "theorems": [
    "Verif.Repo.C145_relaxed",
    "Verif.Repo.C145_independent",
    "Verif.Repo.C145_dropped"
   ],
   "note": "Schedules as in C27 (positive keep, names without separators). The effect on planning is C63."
  }
 ]
}