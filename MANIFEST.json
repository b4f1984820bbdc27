{"claims": [
{"property": "C01", "status": "proved", "theorems": ["NextPlaid.Props.C01_codec_widths", "NextPlaid.Props.C01_codec_round_trip", "NextPlaid.Props.C01_unaligned_panics"], "note": "Widths 1,2,4,8; a dimension that does not fill whole bytes panics in decompression (C01_unaligned_panics)."},
{"property": "C02", "status": "proved", "theorems": ["NextPlaid.Props.C02_bucket_interval", "NextPlaid.Props.C02_bucket_monotone"], "note": ""},
{"property": "C03", "status": "proved", "theorems": ["NextPlaid.Props.C03_pack_unpack", "NextPlaid.Props.C03_pack_bytes"], "note": ""},
{"property": "C04", "status": "proved", "theorems": ["NextPlaid.Props.C04_codes_are_argmax", "NextPlaid.Props.C04_batch_independent", "NextPlaid.Props.C04_kmeans_assignment"], "note": ""},
{"property": "C05", "status": "proved", "theorems": ["NextPlaid.Props.C05_crash_anywhere", "NextPlaid.Props.C05_old_or_new", "NextPlaid.Props.C05_other_files", "NextPlaid.Props.C05_success", "NextPlaid.Props.C05_failure", "NextPlaid.Props.C05_durable", "NextPlaid.Props.C05_histories"], "note": "The file system is a model with lost directory updates and arbitrary contents of unsynchronised inodes at a crash; its assumptions are listed in Model/Atomic.lean."},
{"property": "C06", "status": "proved", "theorems": ["NextPlaid.Props.C06_create_stores", "NextPlaid.Props.C06_create_succeeds", "NextPlaid.Props.C06_create_empty_refused"], "note": ""},
{"property": "C07", "status": "proved", "theorems": ["NextPlaid.Props.C07_ivf_exact", "NextPlaid.Props.C07_ivf_exact_histories"], "note": "Histories with non-negative delete ids and non-empty batches; outside them see C08/C09 refutations."},
{"property": "C08", "status": "proved", "theorems": ["NextPlaid.Props.C08_append", "NextPlaid.Props.C08_empty_append_loses_documents"], "note": "For an empty batch the code loses documents (C08_empty_append_loses_documents)."},
{"property": "C09", "status": "partial", "theorems": ["NextPlaid.Props.C09_delete_partial", "NextPlaid.Props.C09_negative_ids_corrupt", "NextPlaid.Props.C09_delete_all_unloadable"], "note": "Proved for non-negative ids. False of the code for negative ids (C09_negative_ids_corrupt)."},
{"property": "C10", "status": "proved", "theorems": ["NextPlaid.Props.C10_history"], "note": "Empty append batches and negative delete ids excluded from histories; see C08, C09."},
{"property": "C100", "status": "proved", "theorems": ["NextPlaid.Props.C100_pad", "NextPlaid.Props.C100_none", "NextPlaid.Props.C100_mask", "NextPlaid.Props.C100_round_trip", "NextPlaid.Props.C100_negative", "NextPlaid.Props.C100_narrow", "NextPlaid.Props.C100_wide", "NextPlaid.Props.C100_normalize"], "note": "Disagreements: a negative length marks its whole row (C100_negative); a narrower sequence panics (C100_narrow) and a wider one silently loses columns (C100_wide). Real numbers stand for f32."},
{"property": "C101", "status": "partial", "theorems": ["NextPlaid.Props.C101_restored", "NextPlaid.Props.C101_propagates", "NextPlaid.Props.C101_message_partial", "NextPlaid.Props.C101_not_suppressed", "NextPlaid.Props.C101_silent", "NextPlaid.Props.C101_nested", "NextPlaid.Props.C101_wrong_message", "NextPlaid.Props.C101_two_threads", "NextPlaid.Props.C101_two_threads_nested", "NextPlaid.Props.C101_other_thread"], "note": "Proved in full for one thread and parts that are not nested. False of the code otherwise: the message of a panic in a nested part is lost (C101_nested) or replaced (C101_wrong_message); two overlapping calls leave standard error at /dev/null (C101_two_threads); the panic of another thread is lost (C101_other_thread)."},
{"property": "C102", "status": "partial", "theorems": ["NextPlaid.Props.C102_history_partial", "NextPlaid.Props.C102_count", "NextPlaid.Props.C102_reset", "NextPlaid.Props.C102_counted", "NextPlaid.Props.C102_other_format", "NextPlaid.Props.C102_format_lost", "NextPlaid.Props.C102_outdated_for_good", "NextPlaid.Props.C102_race_duplicates", "NextPlaid.Props.C102_race_unrepaired"], "note": "Proved for searches and resets between runs, under what C49 assumes of the files. False of the code otherwise: a counted search marks an index of another format as current (C102_format_lost, C102_outdated_for_good); a search counted during a run undoes what the run recorded (C102_race_duplicates, C102_race_unrepaired)."},
{"property": "C103", "status": "partial", "theorems": ["NextPlaid.Props.C103_uninstalled_partial", "NextPlaid.Props.C103_nothing_else", "NextPlaid.Props.C103_left_behind", "NextPlaid.Props.C103_failure", "NextPlaid.Props.C103_cleared", "NextPlaid.Props.C103_clear_inside", "NextPlaid.Props.C103_not_only_indexes", "NextPlaid.Props.C103_in_use"], "note": "Proved without COLGREP_DATA_DIR. With it, uninstalling leaves every index and the configuration (C103_left_behind), and clear --all removes directories that are no indexes (C103_not_only_indexes)."},
{"property": "C104", "status": "partial", "theorems": ["NextPlaid.Props.C104_indexed_partial", "NextPlaid.Props.C104_trusted", "NextPlaid.Props.C104_others", "NextPlaid.Props.C104_counts", "NextPlaid.Props.C104_no_code_left", "NextPlaid.Props.C104_twice", "NextPlaid.Props.C104_interrupted", "NextPlaid.Props.C104_restored", "NextPlaid.Props.C104_skipped_for_good"], "note": "The documents of other files are proved untouched at every moment of every call. The given files are proved up to date for calls that are not interrupted, over an index that can be trusted, with files that are given once, are text, were not skipped before and have code if they are recorded with another content; the index can be trusted again afterwards, and can be trusted at the start and after every calm sequence of indexing runs. Counterexamples without each of these."},
{"property": "C105", "status": "partial", "theorems": ["NextPlaid.Props.C105_version", "NextPlaid.Props.C105_unknown", "NextPlaid.Props.C105_current", "NextPlaid.Props.C105_said_current", "NextPlaid.Props.C105_honest_partial", "NextPlaid.Props.C105_failure", "NextPlaid.Props.C105_offline", "NextPlaid.Props.C105_older", "NextPlaid.Props.C105_space"], "note": "Proved: what is said is true if the answer names the latest version, the installer arrives as a whole and ends with status 0 only if it has installed it. Refuted in general: without a network colgrep says that it has been updated, since the status of the download is lost in a pipeline. Windows is not modelled."},
{"property": "C106", "status": "partial", "theorems": ["NextPlaid.Props.C106_one_route", "NextPlaid.Props.C106_reached", "NextPlaid.Props.C106_exempt", "NextPlaid.Props.C106_own_bucket", "NextPlaid.Props.C106_rate", "NextPlaid.Props.C106_never_refused", "NextPlaid.Props.C106_sustained_refuted", "NextPlaid.Props.C106_starts", "NextPlaid.Props.C106_defaults", "NextPlaid.Props.C106_concurrency_partial", "NextPlaid.Props.C106_concurrency_refuted", "NextPlaid.Props.C106_waits", "NextPlaid.Props.C106_zero", "NextPlaid.Props.C106_answered_partial", "NextPlaid.Props.C106_answered_refuted", "NextPlaid.Props.C106_id_partial", "NextPlaid.Props.C106_id_refuted", "NextPlaid.Props.C106_body"], "note": "Routing, exemptions, separate counting and the bound on the rate are proved for the limiter as configured. RATE_LIMIT_PER_SECOND is the interval between requests, not the rate (refuted); the concurrency limit holds per semaphore, not overall (refuted); time spent waiting for a permit is outside the time limit (refuted); answers 408 and 429 carry no request id (refuted). The behaviour of the library layers is taken from their documentation."},
{"property": "C107", "status": "partial", "theorems": ["NextPlaid.Props.C107_answered", "NextPlaid.Props.C107_first_partial", "NextPlaid.Props.C107_loss_bounded", "NextPlaid.Props.C107_quiet", "NextPlaid.Props.C107_lost_refuted", "NextPlaid.Props.C107_for_good"], "note": "Every HTTP request is answered; of what was answered 202 a prefix of whole requests is carried out and at most the queue and one batch are lost. That everything accepted is carried out is refuted: the workers are not waited for."},
{"property": "C108", "status": "partial", "theorems": ["NextPlaid.Props.C108_path_partial", "NextPlaid.Props.C108_path_refuted", "NextPlaid.Props.C108_installed", "NextPlaid.Props.C108_succeeds", "NextPlaid.Props.C108_again", "NextPlaid.Props.C108_failed_install_refuted", "NextPlaid.Props.C108_uninstalled_partial", "NextPlaid.Props.C108_there_and_back", "NextPlaid.Props.C108_uninstalled_refuted", "NextPlaid.Props.C108_hooks"], "note": "Proved: reported success means installed, repeated installation changes nothing, removal with working commands leaves nothing, the rule of the hooks. Refuted: paths with characters special in double quotes are read differently by the shell (and commands in them are run), a failed installation removes a working plugin, the removal reports success although its commands failed. The commands of Claude Code and the reading of double quotes are modelled from their documentation."},
{"property": "C109", "status": "partial", "theorems": ["NextPlaid.Props.C109_exact", "NextPlaid.Props.C109_fails_iff", "NextPlaid.Props.C109_names", "NextPlaid.Props.C109_ids", "NextPlaid.Props.C109_no_store", "NextPlaid.Props.C109_mixed_refuted"], "note": "Exact over all histories of the store model when the call succeeds, with the exact condition under which it fails. Partial because the documentation promises the string values and an error for every invalid name: a single number in the column makes the call fail (C109_mixed_refuted) and without a store an invalid name is accepted (C109_no_store)."},
{"property": "C11", "status": "proved", "theorems": ["NextPlaid.Props.C11_buffered_history", "NextPlaid.Props.C11_history_succeeds", "NextPlaid.Props.C11_append_with_buffer_corrupts", "NextPlaid.Props.C11_stale_handle_wrong_ids", "NextPlaid.Props.C11_empty_update_loses_documents"], "note": "Histories of update_or_create and delete on a freshly opened index. The other theorems are counterexamples outside that domain."},
{"property": "C110", "status": "partial", "theorems": ["NextPlaid.Props.C110_never_worse", "NextPlaid.Props.C110_remembered", "NextPlaid.Props.C110_forced", "NextPlaid.Props.C110_again", "NextPlaid.Props.C110_context_once", "NextPlaid.Props.C110_number_partial", "NextPlaid.Props.C110_number_refuted", "NextPlaid.Props.C110_metal_refuted", "NextPlaid.Props.C110_documents_partial", "NextPlaid.Props.C110_width_refuted", "NextPlaid.Props.C110_hook_partial", "NextPlaid.Props.C110_hook_refuted", "NextPlaid.Props.C110_hook_for_good"], "note": "Fallback and its memory are proved for all histories with CUDA. Partial because the code disagrees with parts of the statement: settings override the number asked for, Metal has no fallback, one-column documents are broadcast, and two overlapping guarded calls can leave panics silent for good."},
{"property": "C111", "status": "partial", "theorems": ["NextPlaid.Props.C111_directory", "NextPlaid.Props.C111_complete_partial", "NextPlaid.Props.C111_found", "NextPlaid.Props.C111_quantised", "NextPlaid.Props.C111_no_substitute", "NextPlaid.Props.C111_offline", "NextPlaid.Props.C111_warm", "NextPlaid.Props.C111_kept", "NextPlaid.Props.C111_moving_refuted", "NextPlaid.Props.C111_offline_refuted", "NextPlaid.Props.C111_unquantised_refuted", "NextPlaid.Props.C111_token", "NextPlaid.Props.C111_token_refuted"], "note": "The cache of hf-hub is modelled as that library documents it. Partial because a repository that moves between requests gives an incomplete directory (C111_moving_refuted) and can make a complete model unavailable offline (C111_offline_refuted); the unquantised network may be missing; an empty HF_TOKEN hides the other sources."},
{"property": "C112", "status": "partial", "theorems": ["NextPlaid.Props.C112_off", "NextPlaid.Props.C112_records", "NextPlaid.Props.C112_meaning_partial", "NextPlaid.Props.C112_faithful", "NextPlaid.Props.C112_string", "NextPlaid.Props.C112_not_finite_refuted"], "note": "Proved for all queries, file names and sequences of stages when the scores shown are finite; false for NaN and infinite scores, which are printed as NaN and inf (C112_not_finite_refuted). The line structure (C112_records) holds without that condition."},
{"property": "C113", "status": "proved", "theorems": ["NextPlaid.Props.C113_complete", "NextPlaid.Props.C113_killed", "NextPlaid.Props.C113_again", "NextPlaid.Props.C113_attempts", "NextPlaid.Props.C113_failed", "NextPlaid.Props.C113_links_refuted"], "note": "For a source that does not change during the copy; a source that changes is C72. C113_links_refuted is about a comment in the code, not about the property."},
{"property": "C114", "status": "partial", "theorems": ["NextPlaid.Props.C114_closest", "NextPlaid.Props.C114_lines", "NextPlaid.Props.C114_note_partial", "NextPlaid.Props.C114_absolute", "NextPlaid.Props.C114_relative_refuted", "NextPlaid.Props.C114_file_refuted", "NextPlaid.Props.C114_thirty_refuted", "NextPlaid.Props.C114_order_refuted"], "note": "Which directory and what is listed are proved in full; the note is right except for exactly thirty entries (C114_thirty_refuted); help is always given for absolute paths without a file in the way, and is missing for relative paths without an existing first component and below a file (C114_relative_refuted, C114_file_refuted)."},
{"property": "C115", "status": "partial", "theorems": ["NextPlaid.Props.C115_one_each_partial", "NextPlaid.Props.C115_settings", "NextPlaid.Props.C115_zero_refuted"], "note": "Proved for all sequences of requests when BATCH_CHANNEL_SIZE is not zero and no setting exceeds 2^61-1; false otherwise: one request panics with the registry locked and all later ones panic (C115_zero_refuted)."},
{"property": "C116", "status": "partial", "theorems": ["NextPlaid.Props.C116_limit", "NextPlaid.Props.C116_accepted_exactly", "NextPlaid.Props.C116_none_lost", "NextPlaid.Props.C116_other_indexes", "NextPlaid.Props.C116_drains", "NextPlaid.Props.C116_lock_in_order", "NextPlaid.Props.C116_order_refuted"], "note": "Proved but for the order: the tasks come to the lock in the order the runtime runs them, so two additions accepted one after the other can be done the other way round (C116_order_refuted); from the lock on they keep their order (C116_lock_in_order)."},
{"property": "C12", "status": "proved", "theorems": ["NextPlaid.Props.C12_raw_in_step", "NextPlaid.Props.C12_delete_keeps_raw"], "note": ""},
{"property": "C13", "status": "proved", "theorems": ["NextPlaid.Props.C13_well_formed", "NextPlaid.Props.C13_search_answers", "NextPlaid.Props.C13_zero_probe_panics"], "note": "With n_ivf_probe = 0 the standard path panics (C13_zero_probe_panics)."},
{"property": "C14", "status": "proved", "theorems": ["NextPlaid.Props.C14_subset"], "note": ""},
{"property": "C15", "status": "proved", "theorems": ["NextPlaid.Props.C15_exhaustive", "NextPlaid.Props.C15_exhaustive_numbers", "NextPlaid.Props.C15_budget", "NextPlaid.Props.C15_small_budget_misses"], "note": "Queries with at least one token; a query without tokens returns nothing."},
{"property": "C16", "status": "proved", "theorems": ["NextPlaid.Props.C16_threshold_sound", "NextPlaid.Props.C16_threshold_exact"], "note": "Finite threshold; C16_threshold_exact also assumes finite query-centroid scores."},
{"property": "C17", "status": "proved", "theorems": ["NextPlaid.Props.C17_same_cells", "NextPlaid.Props.C17_same_answer", "NextPlaid.Props.C17_ties_may_differ", "NextPlaid.Props.C17_threshold_differs"], "note": "The last two are counterexamples outside the stated domain."},
{"property": "C18", "status": "proved", "theorems": ["NextPlaid.Props.C18_batch", "NextPlaid.Props.C18_modes_agree", "NextPlaid.Props.C18_batch_answers"], "note": ""},
{"property": "C19", "status": "proved", "theorems": ["NextPlaid.Props.C19_simd_max_eq_scalar", "NextPlaid.Props.C19_simd_max_is_max", "NextPlaid.Props.C19_paths_agree", "NextPlaid.Props.C19_score_is_sum_of_maxima", "NextPlaid.Props.C19_empty_document"], "note": ""},
{"property": "C20", "status": "proved", "theorems": ["NextPlaid.Props.C20_bad_id_refused", "NextPlaid.Props.C20_reconstruct", "NextPlaid.Props.C20_batch", "NextPlaid.Props.C20_codec_rows", "NextPlaid.Props.C20_codes"], "note": "C20_batch needs that decompression works token by token, which C20_codec_rows shows of the codec's model."},
{"property": "C21", "status": "proved", "theorems": ["NextPlaid.Props.C21_header_1d", "NextPlaid.Props.C21_header_2d", "NextPlaid.Props.C21_values", "NextPlaid.Props.C21_rows", "NextPlaid.Props.C21_truncated_refused", "NextPlaid.Props.C21_data_never_aligned"], "note": "Byte-level model of the header writer, the header parser and the two memory-mapped readers. C21_data_never_aligned records a finding: the data offset is 1 modulo 64, so the f32 reader is handed a misaligned slice."},
{"property": "C22", "status": "partial", "theorems": ["NextPlaid.Props.C22_from_scratch", "NextPlaid.Props.C22_nothing_refused", "NextPlaid.Props.C22_library_histories", "NextPlaid.Props.C22_incremental_partial", "NextPlaid.Props.C22_codes_read_back", "NextPlaid.Props.C22_residuals_read_back", "NextPlaid.Props.C22_fast_path_stale", "NextPlaid.Props.C22_interrupted_stale"], "note": "Proved in full for the histories the library itself makes (chunks changed, merged files cleared, merged) and byte for byte. For arbitrary edits behind the cache's back the statement is false as written (C22_fast_path_stale): the fast path trusts the time stamp of metadata.json. C22_incremental_partial is the statement with that hypothesis added."},
{"property": "C23", "status": "proved", "theorems": ["NextPlaid.Props.C23_store_is_list", "NextPlaid.Props.C23_delete", "NextPlaid.Props.C23_delete_any_table", "NextPlaid.Props.C23_missing_id_shifts"], "note": "SQLite is modelled as tables. For caller-chosen sparse ids, listed ids that do not exist still shift the rows above them (C23_missing_id_shifts)."},
{"property": "C24", "status": "proved", "theorems": ["NextPlaid.Props.C24_rows_belong_together", "NextPlaid.Props.C24_returned_ids", "NextPlaid.Props.C24_deleted_count", "NextPlaid.Props.C24_refused_metadata_misaligns"], "note": "Histories of successful calls. A call that fails in its metadata step leaves the index changed and later rows misaligned (C24_refused_metadata_misaligns)."},
{"property": "C25", "status": "proved", "theorems": ["NextPlaid.Props.C25_accepted_well_formed", "NextPlaid.Props.C25_accepted_safe", "NextPlaid.Props.C25_one_reading", "NextPlaid.Props.C25_numbers_accepted"], "note": "For all texts, column sets and character tables satisfying the stated laws. SQLite's own reading of the accepted text is outside the model."},
{"property": "C26", "status": "proved", "theorems": ["NextPlaid.Props.C26_grammar_check", "NextPlaid.Props.C26_condition_accepted", "NextPlaid.Props.C26_reserved_column_refused"], "note": "The grammar check accepts exactly the grammar. The whole check also accepts it for ASCII texts unless a column is named like one of thirteen reserved words; the refusal in that case is proved with a witness. Unbounded stack assumed."},
{"property": "C27", "status": "proved", "theorems": ["NextPlaid.Props.C27_only_phrases", "NextPlaid.Props.C27_empty", "NextPlaid.Props.C27_or_only_phrases", "NextPlaid.Props.C27_nul_is_a_syntax_error"], "note": "Queries without a NUL character; a NUL inside a word gives an FTS5 syntax error (C27_nul_is_a_syntax_error). Unicode character tables are parameters."},
{"property": "C28", "status": "proved", "theorems": ["NextPlaid.Props.C28_rrf", "NextPlaid.Props.C28_ids", "NextPlaid.Props.C28_exact_share", "NextPlaid.Props.C28_better_rank", "NextPlaid.Props.C28_extremes"], "note": "Arithmetic is exact arithmetic in any ordered field followed by any order-preserving rounding that fixes 0 and 1; overflow to infinity is outside the model. Hash-map order is an arbitrary permutation."},
{"property": "C29", "status": "proved", "theorems": ["NextPlaid.Props.C29_relative", "NextPlaid.Props.C29_ids", "NextPlaid.Props.C29_relative_scores", "NextPlaid.Props.C29_extremes"], "note": "Finite scores; same arithmetic as C28."},
{"property": "C30", "status": "proved", "theorems": ["NextPlaid.Props.C30_chunked", "NextPlaid.Props.C30_same_as_one_filter", "NextPlaid.Props.C30_repeated_id_returned_twice"], "note": "SQLite's answer to one restricted query is any best-k list; conversion of scores to f32 is any monotone map. Repeated ids break the claim (C30_repeated_id_returned_twice)."},
{"property": "C31", "status": "proved", "theorems": ["NextPlaid.Props.C31_batches", "NextPlaid.Props.C31_documents_in_order", "NextPlaid.Props.C31_drained", "NextPlaid.Props.C31_ends_empty", "NextPlaid.Props.C31_bounded"], "note": "Handing a batch to process_batch is the processing; the clock is replaced by a timeout that may fire at any moment. A worker whose process_batch panics is not modelled."},
{"property": "C32", "status": "proved", "theorems": ["NextPlaid.Props.C32_newest_kept", "NextPlaid.Props.C32_count"], "note": "After every successful batch of any history (including histories with kills, refused batches and deletions), the stores hold the newest max pairs in order. Covers the batch path; one change of the index files is one step."},
{"property": "C33", "status": "partial", "theorems": ["NextPlaid.Props.C33_repair_partial", "NextPlaid.Props.C33_repair_again", "NextPlaid.Props.C33_first_batch_misaligned", "NextPlaid.Props.C33_eviction_misaligned", "NextPlaid.Props.C33_refused_first_batch_unusable", "NextPlaid.Props.C33_keywords_not_repaired"], "note": "The full statement is false of the code: a kill in the first batch, or during a deletion that is not of the last documents, leaves documents beside foreign metadata after the repair (witnesses proved). Proved: for kills in batches on a populated index and in deletions of the last documents, at every step, the repair restores count and pairing."},
{"property": "C34", "status": "partial", "theorems": ["NextPlaid.Props.C34_batches_exclusive_partial", "NextPlaid.Props.C34_requests_exclusive_partial", "NextPlaid.Props.C34_no_deadlock", "NextPlaid.Props.C34_add_and_batch", "NextPlaid.Props.C34_remove_and_create", "NextPlaid.Props.C34_metadata_and_batch", "NextPlaid.Props.C34_two_names"], "note": "False of the code over all requests: direct requests lock the name, batches the path, delete-index removes the directory after releasing its lock, metadata updates take no lock (all proved, for every name). Proved among batches and among direct requests, with freedom from deadlock."},
{"property": "C35", "status": "partial", "theorems": ["NextPlaid.Props.C35_snapshot_kept", "NextPlaid.Props.C35_published", "NextPlaid.Props.C35_one_loader", "NextPlaid.Props.C35_never_back_partial", "NextPlaid.Props.C35_fresh_partial", "NextPlaid.Props.C35_cold_read_goes_back", "NextPlaid.Props.C35_two_writers_go_back"], "note": "The order of reads is refuted: a cold load can overwrite a newer published snapshot. Order and freshness are proved when publications do not overlap and the index is not unloaded; the other parts hold for every schedule."},
{"property": "C36", "status": "partial", "theorems": ["NextPlaid.Props.C36_active_shown", "NextPlaid.Props.C36_queued_counted_partial", "NextPlaid.Props.C36_finished_shown", "NextPlaid.Props.C36_finished_gone", "NextPlaid.Props.C36_listed", "NextPlaid.Props.C36_elapsed_frozen", "NextPlaid.Props.C36_processing_shown_partial", "NextPlaid.Props.C36_idle_not_running", "NextPlaid.Props.C36_stale_queued", "NextPlaid.Props.C36_queued_update_hidden", "NextPlaid.Props.C36_failure_of_another_request", "NextPlaid.Props.C36_counter_not_reset"], "note": "In terms of what was recorded, the report has the property for every history and every clock (the number of queued documents only until a first update ends). In terms of the updates themselves it is false: one entry per index cannot describe a queue (witnesses proved). Proved for the batch being processed when no other request fails to be encoded."},
{"property": "C37", "status": "proved", "theorems": ["NextPlaid.Props.C37_epoch", "NextPlaid.Props.C37_successor", "NextPlaid.Props.C37_one_to_one", "NextPlaid.Props.C37_text", "NextPlaid.Props.C37_before_epoch"], "note": "i64 overflow is not modelled."},
{"property": "C38", "status": "proved", "theorems": ["NextPlaid.Props.C38_blocked_search", "NextPlaid.Props.C38_tile_sizes_irrelevant", "NextPlaid.Props.C38_exactly_the_far_tokens", "NextPlaid.Props.C38_existing_centroids_kept", "NextPlaid.Props.C38_stored_codes_same_vectors"], "note": "The blocked search equals the unblocked decision for any arithmetic; in exact arithmetic the decision is exactly 'squared distance to every centroid exceeds the squared threshold'. Rounding of f32/f64 is a parameter of the model. The clustering that turns far tokens into new centroids is a parameter; that it only appends is proved."},
{"property": "C39", "status": "partial", "theorems": ["NextPlaid.Props.C39_idempotent", "NextPlaid.Props.C39_report", "NextPlaid.Props.C39_untouched", "NextPlaid.Props.C39_converted", "NextPlaid.Props.C39_float_values_partial", "NextPlaid.Props.C39_length_values_partial", "NextPlaid.Props.C39_residual_values", "NextPlaid.Props.C39_fortran_order_lost", "NextPlaid.Props.C39_unsupported_shape_destroyed", "NextPlaid.Props.C39_length_overflow"], "note": "Idempotence, the report and the untouched files are proved for all directories. Value preservation is proved byte for byte for C-ordered float files, list lengths that fit 32 bits and all residual files; it is false for Fortran-ordered floats and for lengths of 2^31 and above (witnesses)."},
{"property": "C40", "status": "proved", "theorems": ["NextPlaid.Props.C40_lookup", "NextPlaid.Props.C40_lookup_ids", "NextPlaid.Props.C40_both_refused", "NextPlaid.Props.C40_condition"], "note": "SQLite row order inside a chunk is an arbitrary permutation."},
{"property": "C41", "status": "proved", "theorems": ["NextPlaid.Props.C41_update_where", "NextPlaid.Props.C41_bad_column_refused"], "note": "Column names matched exactly; other spellings differing in ASCII case are not modelled."},
{"property": "C42", "status": "partial", "theorems": ["NextPlaid.Props.C42_keywords_follow_partial", "NextPlaid.Props.C42_word_search_partial", "NextPlaid.Props.C42_identifier_ghosts", "NextPlaid.Props.C42_identifier_rebuild_loses", "NextPlaid.Props.C42_reread_changes_words", "NextPlaid.Props.C42_tokenizer_change_drops"], "note": "Proved for the unicode61 and trigram tokenizers, one tokenizer per index, and values whose text survives a round trip through the database. The other four theorems show that the claim is false of the code without each of these conditions."},
{"property": "C43", "status": "proved", "theorems": ["NextPlaid.Props.C43_identifiers", "NextPlaid.Props.C43_nothing_lost", "NextPlaid.Props.C43_tokens_plain", "NextPlaid.Props.C43_no_identifier"], "note": "Text without ASCII letters or underscores has no tokens (C43_no_identifier)."},
{"property": "C44", "status": "proved", "theorems": ["NextPlaid.Props.C44_batches", "NextPlaid.Props.C44_drained", "NextPlaid.Props.C44_bounded"], "note": ""},
{"property": "C45", "status": "proved", "theorems": ["NextPlaid.Props.C45_delete_batch", "NextPlaid.Props.C45_any_order"], "note": "For every history and every list of conditions."},
{"property": "C46", "status": "partial", "theorems": ["NextPlaid.Props.C46_confined_partial", "NextPlaid.Props.C46_separate_partial", "NextPlaid.Props.C46_parent", "NextPlaid.Props.C46_absolute"], "note": "Names are not checked: '..' and absolute paths leave the index directory (proved for every index directory). Proved for plain names. Symbolic links are not modelled."},
{"property": "C47", "status": "partial", "theorems": ["NextPlaid.Props.C47_value_exact", "NextPlaid.Props.C47_values_partial", "NextPlaid.Props.C47_null_first", "NextPlaid.Props.C47_bool_and_tree", "NextPlaid.Props.C47_mixed"], "note": "False in general: booleans, arrays, objects, integers beyond 64 bits and values of another type than the column's are converted, and an explicit NULL in the first row declares the column as text (witnesses proved). C47_value_exact says for one value and one column type exactly when it comes back; C47_values_partial covers every history with one kind of value per column."},
{"property": "C48", "status": "partial", "theorems": ["NextPlaid.Props.C48_append_accepted", "NextPlaid.Props.C48_create_accepted_partial", "NextPlaid.Props.C48_bad_name_refused", "NextPlaid.Props.C48_lengths", "NextPlaid.Props.C48_row_order"], "note": "Refusals are proved in full, and acceptance by update. Acceptance by create is false for one order of rows (witness proved): a batch whose first row is an object with all the keys is refused when a later row is not an object."},
{"property": "C49", "status": "partial", "theorems": ["NextPlaid.Props.C49_up_to_date_partial", "NextPlaid.Props.C49_forced_run", "NextPlaid.Props.C49_emptied_file_stale", "NextPlaid.Props.C49_first_code_not_indexed", "NextPlaid.Props.C49_once_skipped_never_indexed", "NextPlaid.Props.C49_same_stat_not_seen", "NextPlaid.Props.C49_lost_record_stale"], "note": "Proved for every sequence of finished runs over changing files if contents have distinct hashes, time and size identify the content, no file loses all its code or gains its first code; and for every forced run without these conditions. Refuted without them: an emptied file keeps its old units for ever, the first code of an empty project is never indexed, a file that was not text once is never indexed, an edit that keeps time and size is not seen, a lost state file hides changes."},
{"property": "C50", "status": "partial", "theorems": ["NextPlaid.Props.C50_resumed_partial", "NextPlaid.Props.C50_interrupted_update_duplicates", "NextPlaid.Props.C50_killed_deletion_misaligned", "NextPlaid.Props.C50_killed_first_build_stuck", "NextPlaid.Props.C50_killed_rebuild_lost", "NextPlaid.Props.C50_changed_during_build"], "note": "Proved for any number of interruptions, at any moments, of the first build over unchanged files. Refuted for interrupted updates (units of new files stored twice), for a kill between the two deletions of a file (rows and documents no longer correspond), for a kill in the first build (every later run fails), for a kill between the two renames of a forced rebuild (no index is made again) and for files changed during a resumed build (old until the next run)."},
{"property": "C51", "status": "partial", "theorems": ["NextPlaid.Props.C51_exclude_partial", "NextPlaid.Props.C51_exclude_hides", "NextPlaid.Props.C51_exclude_dir_partial", "NextPlaid.Props.C51_exclude_dir_hides", "NextPlaid.Props.C51_double_star_hides_more", "NextPlaid.Props.C51_question_mark_crosses", "NextPlaid.Props.C51_root_pattern_wrong", "NextPlaid.Props.C51_dir_slash_ignored"], "note": "Exact for file patterns without `?` and without a leading `**/` or `/`, and for directory patterns without `?`, a trailing `/` or a literal leading `/`; nothing described is shown also with `?` and leading `**/`. The rest is refuted: `**/foo.rs` hides xfoo.rs, `?` crosses `/`, `/src/a.rs` hides other files, `vendor/` and `/vendor` exclude nothing. The regular-expression engine is modelled by its documented meaning, checked against a relational specification."},
{"property": "C52", "status": "partial", "theorems": ["NextPlaid.Props.C52_braces", "NextPlaid.Props.C52_include_partial", "NextPlaid.Props.C52_include_shows", "NextPlaid.Props.C52_star_crosses", "NextPlaid.Props.C52_nested_braces_lose", "NextPlaid.Props.C52_root_pattern_empty", "NextPlaid.Props.C52_exclude_without_braces"], "note": "Brace expansion of every well-formed pattern gives exactly the alternatives; the units kept are exactly those selected, for patterns and paths in the usual form. Missing: `*` crosses a slash, nested braces lose an alternative, a rooted pattern selects nothing, and --exclude does not know braces (all four shown as theorems). globset itself is modelled from its documented semantics."},
{"property": "C53", "status": "partial", "theorems": ["NextPlaid.Props.C53_filters_partial", "NextPlaid.Props.C53_always_hold", "NextPlaid.Props.C53_subdir_complete", "NextPlaid.Props.C53_subdir_too_wide", "NextPlaid.Props.C53_pattern_escapes"], "note": "The combined filters let through exactly the units that meet every restriction, for the patterns of C51/C52 and directories no other path begins like; the text, file and exclusions always hold, and no unit of the directory is lost. Missing: a directory is matched by SQL LIKE on the first characters of the path (src also searches src2, SRC), and `**/name` lifts the directory restriction (both shown as theorems). The text filter itself (-e) is a parameter."},
{"property": "C54", "status": "partial", "theorems": ["NextPlaid.Props.C54_hybrid", "NextPlaid.Props.C54_candidates", "NextPlaid.Props.C54_shown", "NextPlaid.Props.C54_merged", "NextPlaid.Props.C54_paths", "NextPlaid.Props.C54_deterministic_partial", "NextPlaid.Props.C54_fewer_than_k", "NextPlaid.Props.C54_code_only_empty", "NextPlaid.Props.C54_overlapping_paths", "NextPlaid.Props.C54_ties_differ", "NextPlaid.Props.C54_missing_row_shifts_scores"], "note": "False in full: fewer than k files may be shown (candidates are cut before files are put together; --code-only filters after the cut), overlapping paths repeat files, and equal fused scores make the list depend on a hash order. Proved: best files among the candidates, for every order; determinism without equal fused scores."},
{"property": "C55", "status": "proved", "theorems": ["NextPlaid.Props.C55_units", "NextPlaid.Props.C55_order", "NextPlaid.Props.C55_penalty_compounds", "NextPlaid.Props.C55_penalty_range", "NextPlaid.Props.C55_penalised", "NextPlaid.Props.C55_never_lower", "NextPlaid.Props.C55_stem", "NextPlaid.Props.C55_stem_of_name", "NextPlaid.Props.C55_definition", "NextPlaid.Props.C55_coherence", "NextPlaid.Props.C55_plural_ies", "NextPlaid.Props.C55_negative_raised", "NextPlaid.Props.C55_negative_lowered"], "note": "For scores that are not negative. The documented example of plurals in -ies does not hold, and negative scores turn the effects round."},
{"property": "C56", "status": "proved", "theorems": ["NextPlaid.Props.C56_order", "NextPlaid.Props.C56_succeeds", "NextPlaid.Props.C56_batches", "NextPlaid.Props.C56_fits", "NextPlaid.Props.C56_fixed", "NextPlaid.Props.C56_simple", "NextPlaid.Props.C56_stream", "NextPlaid.Props.C56_stream_progress", "NextPlaid.Props.C56_zero_batch"], "note": "The forward pass is a parameter: any function that returns one result per row, in order. C56_zero_batch refutes the claim for a batch size of zero on one session, where the call panics."},
{"property": "C57", "status": "partial", "theorems": ["NextPlaid.Props.C57_units", "NextPlaid.Props.C57_sample", "NextPlaid.Props.C57_in_step", "NextPlaid.Props.C57_succeeds", "NextPlaid.Props.C57_ends", "NextPlaid.Props.C57_deduplicated", "NextPlaid.Props.C57_fallback_duplicates", "NextPlaid.Props.C57_create_rows_without_documents", "NextPlaid.Props.C57_rollback_too_early"], "note": "Proved for every schedule, interruption, failing forward pass and failing append to an existing index. The property fails, with proofs: when the database fails while a new index is built (C57_rollback_too_early), when a new index cannot be written (C57_create_rows_without_documents), and over the automatic second run on the CPU after a failed one (C57_fallback_duplicates)."},
{"property": "C58", "status": "proved", "theorems": ["NextPlaid.Props.C58_documents", "NextPlaid.Props.C58_texts", "NextPlaid.Props.C58_expanded", "NextPlaid.Props.C58_same_batch", "NextPlaid.Props.C58_read", "NextPlaid.Props.C58_succeeds", "NextPlaid.Props.C58_batch_invariant", "NextPlaid.Props.C58_short_panics", "NextPlaid.Props.C58_left_padding", "NextPlaid.Props.C58_no_token_panics"], "note": "The forward pass is a parameter: what is assumed of it is Spec.Attentive. Lengths of 1 and 2 panic (C58_short_panics), a tokenizer that pads on the left loses texts (C58_left_padding), and a text without tokens panics (C58_no_token_panics)."},
{"property": "C59", "status": "partial", "theorems": ["NextPlaid.Props.C59_tree", "NextPlaid.Props.C59_flat", "NextPlaid.Props.C59_flat_ends", "NextPlaid.Props.C59_flat_distance", "NextPlaid.Props.C59_pooled", "NextPlaid.Props.C59_means", "NextPlaid.Props.C59_unpooled", "NextPlaid.Props.C59_ward", "NextPlaid.Props.C59_succeeds", "NextPlaid.Props.C59_cut_not_by_distance", "NextPlaid.Props.C59_not_finite_panics", "NextPlaid.Props.C59_never_ends"], "note": "Tree and partition laws, number, first row, width in any arithmetic; means with exact sums; Ward optimality of each merge and termination in exact arithmetic. False of the code, refuted with witnesses: with IEEE doubles the nearest-neighbour chain may run for ever; merges are not sorted by distance before the cut, so the clusters need not be those of the smallest distances; a row with a NaN panics."},
{"property": "C60", "status": "proved", "theorems": ["NextPlaid.Props.C60_own", "NextPlaid.Props.C60_failed", "NextPlaid.Props.C60_once", "NextPlaid.Props.C60_ends", "NextPlaid.Props.C60_no_request_dropped", "NextPlaid.Props.C60_bounded", "NextPlaid.Props.C60_pool_lost", "NextPlaid.Props.C60_not_isolated"], "note": "The model of a worker is a parameter: what is assumed is that it gives one embedding per text, in order (proved of the encoder in C56 and C58). C60_pool_lost: requests on which the models panic (C58 has such texts) end the workers one by one, for good. C60_not_isolated: a text that cannot be encoded fails the requests of other clients in its batch."},
{"property": "C61", "status": "proved", "theorems": ["NextPlaid.Props.C61_arithmetic", "NextPlaid.Props.C61_each_once", "NextPlaid.Props.C61_best_first", "NextPlaid.Props.C61_scores", "NextPlaid.Props.C61_refused", "NextPlaid.Props.C61_close", "NextPlaid.Props.C61_exact_order", "NextPlaid.Props.C61_base64", "NextPlaid.Props.C61_base64_unique", "NextPlaid.Props.C61_written", "NextPlaid.Props.C61_formats", "NextPlaid.Props.C61_formats_differ_elsewhere"], "note": "Binary32 with subnormals, overflow and signed zeros is modelled over the rationals; JSON parsing is not modelled: a number in a request is its 32 bits. C61_formats_differ_elsewhere: the search and document endpoints check the two formats differently."},
{"property": "C62", "status": "partial", "theorems": ["NextPlaid.Props.C62_every_line_partial", "NextPlaid.Props.C62_text", "NextPlaid.Props.C62_definitions", "NextPlaid.Props.C62_only_definitions", "NextPlaid.Props.C62_raw", "NextPlaid.Props.C62_vue_template", "NextPlaid.Props.C62_vue_script", "NextPlaid.Props.C62_page_scripts", "NextPlaid.Props.C62_html_outside", "NextPlaid.Props.C62_svelte_outside", "NextPlaid.Props.C62_deep_file_refuted", "NextPlaid.Props.C62_vue_refuted", "NextPlaid.Props.C62_one_line_script_refuted", "NextPlaid.Props.C62_svelte_refuted"], "note": "Proved for every language of the generic extractor and for text files, any source and any tree within the depth limit. False for deeper files (skipped), and for Vue, Svelte and HTML files, with witnesses; for those the covered regions are proved. QML is C90; the tree-sitter parser is a parameter."},
{"property": "C63", "status": "partial", "theorems": ["NextPlaid.Props.C63_code", "NextPlaid.Props.C63_vue", "NextPlaid.Props.C63_scripts", "NextPlaid.Props.C63_structure_partial", "NextPlaid.Props.C63_structure_range_refuted"], "note": "Proved for the generic extractor, text files (C62_text), Vue and scripts. The structure unit of an HTML page or Svelte component has a wrong last line when a line was left out: refuted with a witness; first line and content proved."},
{"property": "C64", "status": "partial", "theorems": ["NextPlaid.Props.C64_called_by", "NextPlaid.Props.C64_parts_partial", "NextPlaid.Props.C64_incremental_refuted"], "note": "Exact for the units of one run. False across incremental updates, which run the call graph over new units only: refuted with a witness."},
{"property": "C65", "status": "partial", "theorems": ["NextPlaid.Props.C65_reason", "NextPlaid.Props.C65_answered", "NextPlaid.Props.C65_shape", "NextPlaid.Props.C65_allowed", "NextPlaid.Props.C65_ranked", "NextPlaid.Props.C65_semantic", "NextPlaid.Props.C65_keyword", "NextPlaid.Props.C65_hybrid", "NextPlaid.Props.C65_metadata", "NextPlaid.Props.C65_own_metadata_partial", "NextPlaid.Props.C65_filtered", "NextPlaid.Props.C65_encoded", "NextPlaid.Props.C65_race_refuted", "NextPlaid.Props.C65_subset_and_filter_refuted", "NextPlaid.Props.C65_unknown_index_refuted"], "note": "Proved for all requests and all changes of the shared state between the reads, except that metadata is a document's own only if no deletion comes between the search and the reading (refuted otherwise), that a filter replaces the subset, and that a text search of a missing index is answered with nothing. Keyword statements are assumed to return the best matches (the full-text engine is not modelled); scores to be fused are finite."},
{"property": "C66", "status": "partial", "theorems": ["NextPlaid.Props.C66_excerpt", "NextPlaid.Props.C66_pattern", "NextPlaid.Props.C66_pattern_elsewhere_partial", "NextPlaid.Props.C66_query", "NextPlaid.Props.C66_query_elsewhere", "NextPlaid.Props.C66_no_crash_partial", "NextPlaid.Props.C66_content_crash_refuted", "NextPlaid.Props.C66_merged_refuted", "NextPlaid.Props.C66_dots_refuted", "NextPlaid.Props.C66_files", "NextPlaid.Props.C66_compact", "NextPlaid.Props.C66_verbose"], "note": "Proved for all results, files, flags and highlighters: printed lines are an excerpt; which lines are shown; compact, files-only and verbose output. The claim is false in three respects, shown by concrete witnesses: -c with a pattern that matches no single line of a unit crashes (the limit overflows), results of one file shown as one lose their matching lines, and ... is printed where nothing is left out. Scores of representative lines are a parameter."},
{"property": "C67", "status": "partial", "theorems": ["NextPlaid.Props.C67_pattern", "NextPlaid.Props.C67_word_partial", "NextPlaid.Props.C67_word_refuted", "NextPlaid.Props.C67_parentheses_refuted", "NextPlaid.Props.C67_fixed", "NextPlaid.Props.C67_fixed_case_refuted", "NextPlaid.Props.C67_literal", "NextPlaid.Props.C67_verbatim", "NextPlaid.Props.C67_unreadable", "NextPlaid.Props.C67_line", "NextPlaid.Props.C67_shown", "NextPlaid.Props.C67_shown_word_partial", "NextPlaid.Props.C67_shown_fixed"], "note": "Proved for all patterns of a grammar with both spellings, all rows and flags.  Refuted: -w with a top-level alternative, escaped parentheses that stand for themselves in pairs, case with -F.  Outside the grammar: ranges in sets, look-around, lazy quantifiers."},
{"property": "C68", "status": "partial", "theorems": ["NextPlaid.Props.C68_history", "NextPlaid.Props.C68_kept", "NextPlaid.Props.C68_restores", "NextPlaid.Props.C68_restores_absent", "NextPlaid.Props.C68_opening_refuted", "NextPlaid.Props.C68_order_refuted", "NextPlaid.Props.C68_indent_refuted", "NextPlaid.Props.C68_again_refuted", "NextPlaid.Props.C68_title_refuted", "NextPlaid.Props.C68_sandbox_add", "NextPlaid.Props.C68_sandbox_again", "NextPlaid.Props.C68_sandbox_remove", "NextPlaid.Props.C68_sandbox_restores", "NextPlaid.Props.C68_sandbox_comments_refuted", "NextPlaid.Props.C68_sandbox_own_refuted", "NextPlaid.Props.C68_hooks", "NextPlaid.Props.C68_no_hooks", "NextPlaid.Props.C68_hooks_gone", "NextPlaid.Props.C68_hooks_mixed_refuted"], "note": "Proved for every history in which nobody but colgrep writes one of its two marker lines, up to blank space; for every config.toml (parsed) without duplicate names; for every settings.json (parsed). False, with witnesses: an opening marker without a closing one loses the user's text, reversed markers double it, leading indentation is lost, each reinstallation adds an empty line, a file with only the title or only comments is deleted, a directory the user listed themselves is taken out, a user's hook in the same matcher as colgrep's is removed. Not modelled: parsing and printing of TOML and JSON, failures of the file system, the claude command line."},
{"property": "C69", "status": "partial", "theorems": ["NextPlaid.Props.C69_history", "NextPlaid.Props.C69_search", "NextPlaid.Props.C69_isolated", "NextPlaid.Props.C69_cleared", "NextPlaid.Props.C69_clash_refuted", "NextPlaid.Props.C69_init_refuted", "NextPlaid.Props.C69_upwards_refuted"], "note": "Proved for every history, where no other project's index directory has the same name. False, with witnesses: for every hash function there are projects that share a directory and then one is answered from the other's index; init may update another index than searches there read; a search upwards of the current directory builds a new index. Not modelled: seeding from a sibling worktree, rebuilding after damage."},
{"property": "C70", "status": "partial", "theorems": ["NextPlaid.Props.C70_kmeans", "NextPlaid.Props.C70_estimate_partial", "NextPlaid.Props.C70_estimate_refuted", "NextPlaid.Props.C70_heldout", "NextPlaid.Props.C70_error", "NextPlaid.Props.C70_quantiser", "NextPlaid.Props.C70_order", "NextPlaid.Props.C70_order_refuted", "NextPlaid.Props.C70_shares_partial", "NextPlaid.Props.C70_few_tokens"], "note": "Error bound and order up to rounding are proved for any rounding with a relative and an absolute error; exact order fails in single precision, equal shares are proved for exact arithmetic, the estimate of the number of centroids is right only if the mean times the count gives the count back. k-means itself (another crate) is a parameter. Fewer than 20 tokens train nothing."},
{"property": "C71", "status": "partial", "theorems": ["NextPlaid.Props.C71_check_splits", "NextPlaid.Props.C71_check", "NextPlaid.Props.C71_get_condition", "NextPlaid.Props.C71_get_ids", "NextPlaid.Props.C71_count", "NextPlaid.Props.C71_update", "NextPlaid.Props.C71_no_index", "NextPlaid.Props.C71_no_metadata", "NextPlaid.Props.C71_bad_requests_partial", "NextPlaid.Props.C71_get_bad_condition_refuted", "NextPlaid.Props.C71_vanished"], "note": "Built on C23, C40, C41. A condition that is not valid is answered by get with 500 instead of the documented 400; a database removed during the request gives an empty answer."},
{"property": "C72", "status": "partial", "theorems": ["NextPlaid.Props.C72_seeded", "NextPlaid.Props.C72_seeded_partial", "NextPlaid.Props.C72_not_seeded", "NextPlaid.Props.C72_siblings", "NextPlaid.Props.C72_differing_stale", "NextPlaid.Props.C72_killed_stale", "NextPlaid.Props.C72_copied_during_update_misaligned", "NextPlaid.Props.C72_skipped_in_sibling"], "note": "The intended property fails: seeding gives every recorded file its present time and size but keeps the hash of the sibling's content, so that files that differ between the worktrees are taken as unchanged and stay old for ever. C72_seeded says exactly what the index holds; C72_seeded_partial is the property for worktrees whose recorded files agree."},
{"property": "C73", "status": "partial", "theorems": ["NextPlaid.Props.C73_any_value", "NextPlaid.Props.C73_distinct", "NextPlaid.Props.C73_torn", "NextPlaid.Props.C73_metadata", "NextPlaid.Props.C73_metadata_legacy", "NextPlaid.Props.C73_doclens", "NextPlaid.Props.C73_state", "NextPlaid.Props.C73_state_torn", "NextPlaid.Props.C73_project", "NextPlaid.Props.C73_config", "NextPlaid.Props.C73_config_killed", "NextPlaid.Props.C73_config_lost", "NextPlaid.Props.C73_members"], "note": "The printing of floating point numbers is a parameter with its round-trip law. A kill while the server saves a configuration leaves neither the old nor the new one (C73_config_lost: refutation; C73_config_killed says exactly when); all other parts of the statement are proved."},
{"property": "C74", "status": "partial", "theorems": ["NextPlaid.Props.C74_numbers", "NextPlaid.Props.C74_switches", "NextPlaid.Props.C74_texts", "NextPlaid.Props.C74_alpha", "NextPlaid.Props.C74_patterns", "NextPlaid.Props.C74_always_relative", "NextPlaid.Props.C74_shown", "NextPlaid.Props.C74_killed", "NextPlaid.Props.C74_alpha_zero", "NextPlaid.Props.C74_race"], "note": "Proved for every setting but relative paths, which cannot be switched off (C74_always_relative). Refuted as well: the defaults shown for the number of results and lines (C74_shown), a balance of 0 (C74_alpha_zero), a kill during a save (C74_killed) and two commands at a time (C74_race)."},
{"property": "C75", "status": "partial", "theorems": ["NextPlaid.Props.C75_words", "NextPlaid.Props.C75_literal_text", "NextPlaid.Props.C75_merge", "NextPlaid.Props.C75_once", "NextPlaid.Props.C75_none", "NextPlaid.Props.C75_group_options_refuted", "NextPlaid.Props.C75_fixed_strings_refuted", "NextPlaid.Props.C75_basic_syntax_refuted", "NextPlaid.Props.C75_repeated_refuted", "NextPlaid.Props.C75_unclosed_refuted"], "note": "The literal text is proved for every pattern of the extended syntax without group options; group options, fixed strings and basic-syntax operators are read wrongly (refutations). Merging is proved for all queries and patterns."},
{"property": "C76", "status": "partial", "theorems": ["NextPlaid.Props.C76_reads_partial", "NextPlaid.Props.C76_deleted_index_stale", "NextPlaid.Props.C76_rebuilt_stale", "NextPlaid.Props.C76_race_stale", "NextPlaid.Props.C76_create_refreshes", "NextPlaid.Props.C76_repair_live", "NextPlaid.Props.C76_repair_loses", "NextPlaid.Props.C76_repair_refuses"], "note": "Proved for histories that create a database only while nobody reads it and neither remove nor rename the directory of a database that was read. False otherwise: the connection that is kept goes on reading the removed file, for ever; the server's repair then deletes documents or refuses every batch. Assumed: an open SQLite connection reads the file it was opened on."},
{"property": "C77", "status": "partial", "theorems": ["NextPlaid.Props.C77_scan", "NextPlaid.Props.C77_once", "NextPlaid.Props.C77_skipped", "NextPlaid.Props.C77_inside", "NextPlaid.Props.C77_default", "NextPlaid.Props.C77_force_name", "NextPlaid.Props.C77_force_directory", "NextPlaid.Props.C77_language", "NextPlaid.Props.C77_dotdot_inside", "NextPlaid.Props.C77_specific_inside_partial", "NextPlaid.Props.C77_specific_same_partial", "NextPlaid.Props.C77_force_path_dead", "NextPlaid.Props.C77_vendor_internal", "NextPlaid.Props.C77_absolute_outside", "NextPlaid.Props.C77_outside"], "note": "The scan is characterised exactly, for every tree and every set of patterns. False: a force-include pattern for a path below an ignored directory (the documented vendor/internal) includes nothing, because the walk does not enter the directory; index_specific_files reads files outside the project by absolute paths and through links. What git excludes and lower case are parameters."},
{"property": "C78", "status": "proved", "theorems": ["NextPlaid.Props.C78_store_is_list", "NextPlaid.Props.C78_counts", "NextPlaid.Props.C78_lookup", "NextPlaid.Props.C78_condition", "NextPlaid.Props.C78_move", "NextPlaid.Props.C78_null_row_refused"], "note": "SQLite tables as lists; storing a stored value again in a column of the same type is assumed to leave it (`Settled`). C78_null_row_refused: the layouts differ in that an old database refuses rows that are not objects unless the batch brings a new column."},
{"property": "C79", "status": "partial", "theorems": ["NextPlaid.Props.C79_limit", "NextPlaid.Props.C79_text", "NextPlaid.Props.C79_code_only", "NextPlaid.Props.C79_head_kept_partial", "NextPlaid.Props.C79_path_lost", "NextPlaid.Props.C79_directories_lost"], "note": "The form of the text, its limit and the words of the path are proved for all units. That the path always survives the cut is false: a description (or other field) of 8192 characters pushes it out (C79_path_lost); C79_head_kept_partial has the case where the lines before the code fit. The extension is cut at the last dot of the path, so a dot in a directory name drops the directories below it (C79_directories_lost)."},
{"property": "C80", "status": "proved", "theorems": ["NextPlaid.Props.C80_tree", "NextPlaid.Props.C80_squareform", "NextPlaid.Props.C80_closest", "NextPlaid.Props.C80_monotone", "NextPlaid.Props.C80_flat", "NextPlaid.Props.C80_components", "NextPlaid.Props.C80_compact", "NextPlaid.Props.C80_not_finite"], "note": "average and weighted linkage: distances and heights for exact numbers; the tree in any arithmetic. No overflow, no negative infinity."},
{"property": "C81", "status": "partial", "theorems": ["NextPlaid.Props.C81_bounded", "NextPlaid.Props.C81_exclusive_partial", "NextPlaid.Props.C81_rebuild_waits", "NextPlaid.Props.C81_refused", "NextPlaid.Props.C81_timeout", "NextPlaid.Props.C81_freed", "NextPlaid.Props.C81_two_writers_clear", "NextPlaid.Props.C81_two_writers_rebuild", "NextPlaid.Props.C81_cleared_while_written"], "note": "proved for histories in which the index directory is not removed; refuted otherwise."},
{"property": "C82", "status": "partial", "theorems": ["NextPlaid.Props.C82_raw_rows", "NextPlaid.Props.C82_raw_values", "NextPlaid.Props.C82_reads_partial", "NextPlaid.Props.C82_get_partial", "NextPlaid.Props.C82_npy_shape", "NextPlaid.Props.C82_npy_length", "NextPlaid.Props.C82_inside", "NextPlaid.Props.C82_wraps", "NextPlaid.Props.C82_wraps_npy"], "note": "Sixty-four-bit sizes wrap around in a release build (the profile has no overflow checks), so a header whose size passes 2^64 is accepted: C82_wraps, C82_wraps_npy. C82_reads_partial is the statement for headers whose size does not pass isize::MAX. Alignment is C21_data_never_aligned."},
{"property": "C83", "status": "partial", "theorems": ["NextPlaid.Props.C83_as_files", "NextPlaid.Props.C83_config_kept", "NextPlaid.Props.C83_deleted_gone", "NextPlaid.Props.C83_delete_absent", "NextPlaid.Props.C83_declared_not_found", "NextPlaid.Props.C83_accepts_anything", "NextPlaid.Props.C83_without_config", "NextPlaid.Props.C83_declared_once", "NextPlaid.Props.C83_fields_kept", "NextPlaid.Props.C83_change_written", "NextPlaid.Props.C83_remembers_partial", "NextPlaid.Props.C83_stale_config", "NextPlaid.Props.C83_deleted_remembered", "NextPlaid.Props.C83_declared_removed", "NextPlaid.Props.C83_torn"], "note": "One after another everything holds. With overlap: the cache agrees with the files only if no reader without the lock looks while a change or a removal is under way (refuted otherwise: stale limit, configuration of a deleted index); a declaration can be lost to a deletion; a crash can leave config.json empty. Deleting what does not exist is answered as deleted, and any number of bits is accepted."},
{"property": "C84", "status": "partial", "theorems": ["NextPlaid.Props.C84_history", "NextPlaid.Props.C84_stores", "NextPlaid.Props.C84_batch", "NextPlaid.Props.C84_checked", "NextPlaid.Props.C84_refused_partial", "NextPlaid.Props.C84_unchanged_partial", "NextPlaid.Props.C84_poisons", "NextPlaid.Props.C84_poisoned_blocks", "NextPlaid.Props.C84_poisoned_eats", "NextPlaid.Props.C84_refused_loses", "NextPlaid.Props.C84_width_one", "NextPlaid.Props.C84_interrupted_partial", "NextPlaid.Props.C84_interrupted_loses", "NextPlaid.Props.C84_interrupted_replaces", "NextPlaid.Props.C84_interrupted_revives"], "note": "Histories of well-formed updates and deletions are stored exactly. The claims on refused and interrupted updates hold except when buffered documents are being indexed again; the theorems C84_poisons to C84_interrupted_revives show what the code does otherwise."},
{"property": "C85", "status": "partial", "theorems": ["NextPlaid.Props.C85_stored_partial", "NextPlaid.Props.C85_all_stored_partial", "NextPlaid.Props.C85_only_accepted", "NextPlaid.Props.C85_undeclared", "NextPlaid.Props.C85_accepting", "NextPlaid.Props.C85_neighbour", "NextPlaid.Props.C85_old_documents", "NextPlaid.Props.C85_old_documents_later", "NextPlaid.Props.C85_old_dropped"], "note": "Proved for every schedule in which requests bring documents of one width and the index is removed only when its updates are through. Without the first, C85_neighbour: a request that is in order is lost with another client's in the same batch. Without the second, C85_old_documents and C85_old_documents_later: documents accepted for a removed index are stored in its successor; C85_old_dropped: or lost."},
{"property": "C86", "status": "partial", "theorems": ["NextPlaid.Props.C86_hybrid_partial", "NextPlaid.Props.C86_semantic_partial", "NextPlaid.Props.C86_same", "NextPlaid.Props.C86_storable", "NextPlaid.Props.C86_array_never_shown", "NextPlaid.Props.C86_scores_shift"], "note": "Which units are shown is characterised exactly, for all histories. False: a unit of which some text is an array in JSON (a .json file with a list, a return type []) is read back as an array and dropped (C86_array_never_shown); --semantic-only pairs rows with scores by position, so that a document without metadata shifts the scores of those behind it (C86_scores_shift). Deserialisation of a unit is modelled field by field; path penalty and boosts are C53."},
{"property": "C87", "status": "partial", "theorems": ["NextPlaid.Props.C87_right", "NextPlaid.Props.C87_complete_partial", "NextPlaid.Props.C87_accounts", "NextPlaid.Props.C87_silent", "NextPlaid.Props.C87_poisoned", "NextPlaid.Props.C87_after_panic", "NextPlaid.Props.C87_drop_encodes_all", "NextPlaid.Props.C87_ends", "NextPlaid.Props.C87_goes", "NextPlaid.Props.C87_pooled_right", "NextPlaid.Props.C87_pooled_complete_partial", "NextPlaid.Props.C87_pool_silent", "NextPlaid.Props.C87_pooled_drop_encodes_all", "NextPlaid.Props.C87_pooled_ends", "NextPlaid.Props.C87_pooled_goes"], "note": "Completeness is proved for streams in which nothing panics; what is given is right, and streams end, whatever panics. Refuted: after a panic documents are missing without a failure, a poisoned session gives nothing for ever, and an early drop waits for all the work."},
{"property": "C88", "status": "partial", "theorems": ["NextPlaid.Props.C88_plain", "NextPlaid.Props.C88_regexp_partial", "NextPlaid.Props.C88_other_patterns", "NextPlaid.Props.C88_first_parameter", "NextPlaid.Props.C88_pattern_stays", "NextPlaid.Props.C88_unregistered", "NextPlaid.Props.C88_no_text", "NextPlaid.Props.C88_count", "NextPlaid.Props.C88_refused", "NextPlaid.Props.C88_case_twins"], "note": "Proved for conditions without REGEXP when column names differ by more than case, and with REGEXP when every pattern is the first parameter and the column is text in every row. Refuted otherwise: other patterns are ignored, the first parameter is the pattern even when it belongs to another test, the pattern stays on the shared connection and answers later plain queries, and a row without text fails the query. SQLite is taken to read the text as the documented grammar does; the idiom of two numbers is left out."},
{"property": "C89", "status": "partial", "theorems": ["NextPlaid.Props.C89_merged", "NextPlaid.Props.C89_merged_totals", "NextPlaid.Props.C89_first_line", "NextPlaid.Props.C89_last_line_partial", "NextPlaid.Props.C89_last_line_short", "NextPlaid.Props.C89_small", "NextPlaid.Props.C89_parse", "NextPlaid.Props.C89_detected", "NextPlaid.Props.C89_listed", "NextPlaid.Props.C89_not_listed"], "note": "Merging, totals, first line and the language tables are proved for every list of units. The end of the merged range is only right when units that start later never end earlier (C89_last_line_partial); a class followed by its method gives a range that ends with the method (C89_last_line_short). supported_languages leaves out languages that are detected and accepted (C89_not_listed); one unit alone keeps its own name and type (C89_small)."},
{"property": "C90", "status": "partial", "theorems": ["NextPlaid.Props.C90_definitions", "NextPlaid.Props.C90_only", "NextPlaid.Props.C90_located", "NextPlaid.Props.C90_imports", "NextPlaid.Props.C90_import_inside", "NextPlaid.Props.C90_value_lost", "NextPlaid.Props.C90_outside_lost"], "note": "Proved for every tree. False: definitions in objects that are values of bindings (delegate: Text { ... }) have no unit of their own (C90_value_lost), lines outside of objects, such as imports, are in no unit at all (C90_outside_lost), and an import is said to be used when its name is the end of another one (C90_import_inside). The tree-sitter parser is a parameter; extraction of the import lines is not modelled."},
{"property": "C91", "status": "partial", "theorems": ["NextPlaid.Props.C91_joined", "NextPlaid.Props.C91_added", "NextPlaid.Props.C91_reread", "NextPlaid.Props.C91_nothing_lost", "NextPlaid.Props.C91_steady", "NextPlaid.Props.C91_bool", "NextPlaid.Props.C91_line_break", "NextPlaid.Props.C91_key", "NextPlaid.Props.C91_digits", "NextPlaid.Props.C91_history_partial", "NextPlaid.Props.C91_extended_not_found"], "note": "Added values: proved for all JSON values. Filling the index from the tables again: proved to give exactly the same words for null, integers of 53 bits, floating point numbers with a fraction, texts that are not numbers and arrays without objects, nulls and control characters, in a column of any type; for all arrays and objects without control characters no word is lost and the gained ones are the keys and null. Booleans (true becomes 1), texts with line breaks inside arrays, keys of objects, whole floating point numbers and numeric texts in integer columns refute the full property, and documents added by update_with_metadata are proved not to be found at all. Printing and reading of floating point numbers are parameters; the tokenizer is unicode61 with the characters outside ASCII as a parameter."},
{"property": "C92", "status": "partial", "theorems": ["NextPlaid.Props.C92_walk", "NextPlaid.Props.C92_first", "NextPlaid.Props.C92_tables", "NextPlaid.Props.C92_calls", "NextPlaid.Props.C92_call_listed", "NextPlaid.Props.C92_call_sound", "NextPlaid.Props.C92_call_text", "NextPlaid.Props.C92_call_underscore", "NextPlaid.Props.C92_flow", "NextPlaid.Props.C92_flow_partial", "NextPlaid.Props.C92_flow_twice", "NextPlaid.Props.C92_variables", "NextPlaid.Props.C92_variables_c", "NextPlaid.Props.C92_variables_c_sound", "NextPlaid.Props.C92_variable_keyword", "NextPlaid.Props.C92_params_plain", "NextPlaid.Props.C92_params_go", "NextPlaid.Props.C92_params_sound", "NextPlaid.Props.C92_params_pointer", "NextPlaid.Props.C92_params_default", "NextPlaid.Props.C92_returns", "NextPlaid.Props.C92_parent_sound", "NextPlaid.Props.C92_parent_clause", "NextPlaid.Props.C92_parent_field", "NextPlaid.Props.C92_parent_js", "NextPlaid.Props.C92_parent_py", "NextPlaid.Props.C92_parent_python"], "note": "Proved for every tree and language: every node is looked at once; calls by plain names are listed, and only pieces of the text of callees; the flags; variables, parameters, return type, parent class. False in general: names cut out of strings (C92_call_text), names with a leading underscore (C92_call_underscore), keywords counted as branches (C92_flow_twice; without such keywords C92_flow_partial), the keyword const as a variable, parameters of C functions that return pointers, JavaScript default parameters, Python base classes with a qualifier."},
{"property": "C93", "status": "partial", "theorems": ["NextPlaid.Props.C93_tables", "NextPlaid.Props.C93_imports", "NextPlaid.Props.C93_go", "NextPlaid.Props.C93_ocaml", "NextPlaid.Props.C93_ruby_sound", "NextPlaid.Props.C93_ruby", "NextPlaid.Props.C93_lua", "NextPlaid.Props.C93_module_first", "NextPlaid.Props.C93_module_last", "NextPlaid.Props.C93_module_keyword", "NextPlaid.Props.C93_include", "NextPlaid.Props.C93_braces", "NextPlaid.Props.C93_module_words", "NextPlaid.Props.C93_not_imports", "NextPlaid.Props.C93_used", "NextPlaid.Props.C93_rust_path", "NextPlaid.Props.C93_unit", "NextPlaid.Props.C93_unit_substring"], "note": "Proved for every tree: the imports of a file are exactly the modules of its reachable import nodes; the module of a statement \"keyword path\" is the first (Java, Kotlin, Scala, C#: last) component; a unit has the imports of its file that it uses, in order. False: modules whose names begin like a keyword, #include, imports in braces, words before the path, calls in Lua and Elixir taken for imports, paths in Rust, and the comparison by substrings (C93_unit_substring)."},
{"property": "C94", "status": "partial", "theorems": ["NextPlaid.Props.C94_lines", "NextPlaid.Props.C94_lines_covers", "NextPlaid.Props.C94_detached", "NextPlaid.Props.C94_c_lines", "NextPlaid.Props.C94_c_block", "NextPlaid.Props.C94_block_partial", "NextPlaid.Props.C94_block_slash", "NextPlaid.Props.C94_block_sound", "NextPlaid.Props.C94_code", "NextPlaid.Props.C94_ocaml", "NextPlaid.Props.C94_haskell", "NextPlaid.Props.C94_haskell_lost", "NextPlaid.Props.C94_lua", "NextPlaid.Props.C94_dashes_covers", "NextPlaid.Props.C94_elixir", "NextPlaid.Props.C94_elixir_none", "NextPlaid.Props.C94_elixir_false", "NextPlaid.Props.C94_python_some", "NextPlaid.Props.C94_python_quotes", "NextPlaid.Props.C94_other"], "note": "Comments with a mark on each line (Rust, Swift, Go, Ruby, C, C++, Lua): characterised completely, for all files. Comments between marks: right for comments closed on a line with text (C94_block_partial) and for OCaml. False: a slash is left of a closing mark on a line of its own, code is taken in after a comment at the end of a line, comments are joined across blank lines, Haskell comments in several lines are lost, Elixir @doc false and heredocs, and Python docstrings keep their opening quotes."},
{"property": "C95", "status": "partial", "theorems": ["NextPlaid.Props.C95_gpu", "NextPlaid.Props.C95_gpu_codes", "NextPlaid.Props.C95_cpu", "NextPlaid.Props.C95_chunk", "NextPlaid.Props.C95_compress", "NextPlaid.Props.C95_forced", "NextPlaid.Props.C95_same", "NextPlaid.Props.C95_memory", "NextPlaid.Props.C95_memory_codes", "NextPlaid.Props.C95_ties", "NextPlaid.Props.C95_nan", "NextPlaid.Props.C95_wrong_width", "NextPlaid.Props.C95_width_one", "NextPlaid.Props.C95_narrow_on_gpu", "NextPlaid.Props.C95_one_context", "NextPlaid.Props.C95_broken", "NextPlaid.Props.C95_second_attempt", "NextPlaid.Props.C95_hook", "NextPlaid.Props.C95_hook_lost"], "note": "Proved for the kernels, batches, fallbacks and chunks, with cuBLAS and floating point as parameters. Refuted parts: on ties GPU and CPU choose differently (C95_ties); NaN for the first centroid decides on the GPU (C95_nan); documents of width one are accepted (C95_width_one); embeddings narrower than the centroids are silently misread on the GPU (C95_narrow_on_gpu); overlapping calls initialise CUDA twice (C95_second_attempt) and can lose the panic hook (C95_hook_lost). Writes of a kernel are taken as atomic."},
{"property": "C96", "status": "partial", "theorems": ["NextPlaid.Props.C96_env", "NextPlaid.Props.C96_first", "NextPlaid.Props.C96_cache_first", "NextPlaid.Props.C96_where", "NextPlaid.Props.C96_no_network", "NextPlaid.Props.C96_download", "NextPlaid.Props.C96_loadable_partial", "NextPlaid.Props.C96_broken_cache", "NextPlaid.Props.C96_torn", "NextPlaid.Props.C96_once", "NextPlaid.Props.C96_arm_downloads_again", "NextPlaid.Props.C96_ld", "NextPlaid.Props.C96_ld_part_of_name", "NextPlaid.Props.C96_reexec", "NextPlaid.Props.C96_cudnn_in_path"], "note": "Proved: choice by environment and search order, no needless download, exact outcome of the download, one download for every build but one, search path of the linker, at most one restart. Loadability is proved if a cached library can be loaded, and refuted otherwise (C96_torn: a crash during extraction leaves a library that every later run reports as good). One download is refuted for CUDA on ARM (C96_arm_downloads_again). The prepending is by substring, so a directory whose name is part of another is not added (C96_ld_part_of_name)."},
{"property": "C97", "status": "partial", "theorems": ["NextPlaid.Props.C97_settled", "NextPlaid.Props.C97_complete", "NextPlaid.Props.C97_in_order", "NextPlaid.Props.C97_no_error", "NextPlaid.Props.C97_prompt", "NextPlaid.Props.C97_sections", "NextPlaid.Props.C97_reported", "NextPlaid.Props.C97_no_deadlock", "NextPlaid.Props.C97_ends", "NextPlaid.Props.C97_again", "NextPlaid.Props.C97_interrupt_is_an_error", "NextPlaid.Props.C97_torn"], "note": "All of it but the last sentence, which is refuted: C97_torn has a schedule with one Ctrl+C and no failure in which the process ends while the index is being written, because the encoder that stops makes the tokenizer fail (C97_interrupt_is_an_error) and the main thread returns that error without waiting for the index thread."},
{"property": "C98", "status": "partial", "theorems": ["NextPlaid.Props.C98_variables", "NextPlaid.Props.C98_round_trip", "NextPlaid.Props.C98_flags", "NextPlaid.Props.C98_conflict", "NextPlaid.Props.C98_force_cpu", "NextPlaid.Props.C98_force_gpu", "NextPlaid.Props.C98_auto", "NextPlaid.Props.C98_fallback", "NextPlaid.Props.C98_sticky", "NextPlaid.Props.C98_search_auto", "NextPlaid.Props.C98_search_one_thread", "NextPlaid.Props.C98_force_gpu_on_cpu", "NextPlaid.Props.C98_library", "NextPlaid.Props.C98_library_ignored", "NextPlaid.Props.C98_auto_other", "NextPlaid.Props.C98_no_memory"], "note": "Proved but for three sentences that are refuted: a flag does not settle a conflict of variables (C98_conflict); in automatic mode a search, a small run or a fallback puts the process into CPU mode for good (C98_sticky); without CUDA --force-gpu indexes on the CPU and reports success (C98_force_gpu_on_cpu). The library used by itself ignores its own variable for TensorRT, CoreML and DirectML (C98_library_ignored)."},
{"property": "C99", "status": "partial", "theorems": ["NextPlaid.Props.C99_again", "NextPlaid.Props.C99_clean_partial", "NextPlaid.Props.C99_twice", "NextPlaid.Props.C99_duplicates", "NextPlaid.Props.C99_overlap"], "note": "Holds if the first attempt has written nothing (C99_clean_partial). Otherwise refuted: what it has written is there twice after the second (C99_twice in general, C99_duplicates a run), and the second can begin while the first still writes (C99_overlap)."}
]}
