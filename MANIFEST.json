{"claims": [
 {"property": "C01", "status": "proved", "theorems": ["Zdb.C01_replies_are_those_of_a_map", "Zdb.C01_get_returns_last_acknowledged_set", "Zdb.C01_get_on_the_node", "Zdb.exLife_life"], "note": "every execution of a user-key namespace (commands of any clients, restarts, activity of other namespaces), index writes succeeding, data writes allowed to fail, file limit at most 2 GiB"},
 {"property": "C02", "status": "partial", "theorems": ["Zdb.C02_reload_succeeds", "Zdb.C02_restarts_are_invisible", "Zdb.C02_restarts_of_the_node", "Zdb.C02_cursors_partial", "Zdb.C02_cursors_of_the_node", "Zdb.C02_same_index_files", "Zdb.C02_kscan_same_keys", "Zdb.C02_refuted", "Zdb.C02_dirty_refuted", "Zdb.C02_kscan_refuted", "Zdb.C02_history_partial", "Zdb.C02_history_refuted", "Zdb.C02_history_example"], "note": "proved for all commands but KSCAN, DATA RAW, INDEX DIRTY and HISTORY of keys created after the first file; KSCAN gives the same keys. The order of KSCAN, the previous field of DATA RAW, INDEX DIRTY and HISTORY of a key created in a later file are shown to change with a restart"},
 {"property": "C03", "status": "partial", "theorems": ["Zdb.C03_replies_are_those_of_numbered_slots_partial", "Zdb.C03_get_returns_last_acknowledged_set_partial", "Zdb.C03_set_of_unknown_id_refused_partial", "Zdb.C03_get_on_the_node_partial", "Zdb.C03_refuted"], "note": "executions in which no index file is left without items and keys are ids given out or below (2^32-29)/42; outside the claim is false (C03_refuted, C46_refuted, C05_refuted, C43_refuted)"},
 {"property": "C04", "status": "partial", "theorems": ["Zdb.C04_ids_strictly_grow_partial", "Zdb.C04_id_is_number_of_sets_partial", "Zdb.C04_refuted"], "note": "same executions as C03; false with ids never given out (C04_refuted)"},
 {"property": "C05", "status": "partial", "theorems": ["Zdb.C05_reload_succeeds_partial", "Zdb.C05_restarts_are_invisible_partial", "Zdb.C05_refuted", "Zdb.C05_restarts_of_the_node_partial"], "note": "false as stated: a SET after NSJUMP and restart is acknowledged but not found; proved when the last index file has items"},
 {"property": "C06", "status": "proved", "theorems": ["Zdb.C06_replies_depend_on_own_events", "Zdb.C06_new_namespace_is_like_any_new_one", "Zdb.C06_command_elsewhere", "Zdb.C06_example"], "note": "every execution of the node during which the namespace exists and keeps its mode; the replies of all dataset commands are a function of the commands and reloads of that namespace alone"},
 {"property": "C07", "status": "partial", "theorems": ["Zdb.C07_counters_are_exact", "Zdb.C07_seq_counters_are_exact", "Zdb.C07_dbsize_on_the_node", "Zdb.C07_seq_refuted"], "note": "both modes (sequential: executions as in C03; false outside, C07_seq_refuted)"},
 {"property": "C08", "status": "partial", "theorems": ["Zdb.C08_set_refused_iff_over_quota", "Zdb.C08_total_within_quota", "Zdb.C08_seq_set_refused_iff_over_quota", "Zdb.C08_seq_total_within_quota", "Zdb.C08_seq_refuted"], "note": "both modes (sequential: executions as in C03; a SET of an id never given out can pass the limit, C08_seq_refuted)"},
 {"property": "C09", "status": "partial", "theorems": ["Zdb.C09_last_write_is_kept", "Zdb.C09_get_is_stable", "Zdb.C09_get_on_the_node", "Zdb.C09_worm_mode_is_kept", "Zdb.C09_seq_last_write_is_kept_partial", "Zdb.C09_seq_get_on_the_node_partial", "Zdb.C09_example", "Zdb.C09_seq_refuted"], "note": "User-key mode: complete. Sequential mode: under the conditions of SeqRun (keys near, no jump over an empty file); false with empty index files (C09_seq_refuted)."},
 {"property": "C10", "status": "proved", "theorems": ["Zdb.C10_locked_namespace_unchanged"], "note": "every reachable node, any client and arguments; files, tables and settings of all namespaces are unchanged, so are all later replies"},
 {"property": "C11", "status": "partial", "theorems": ["Zdb.C11_frozen_partial", "Zdb.C11_refuted"], "note": "holds for all listed commands but KSCAN; refuted for KSCAN, which lists the keys of a frozen namespace"},
 {"property": "C12", "status": "partial", "theorems": ["Zdb.C12_write_refused", "Zdb.C12_readonly_requests", "Zdb.C12_contents_are_those_of_the_writers", "Zdb.C12_seq_contents_are_those_of_the_writers_partial", "Zdb.C12_write_access_only_by_select", "Zdb.C12_protect_mode", "Zdb.C12_seq_refuted"], "note": "SET and DEL are refused in any mode; what GET returns depends on clients with write access only (sequential mode: under the conditions of SeqRun; outside of them a FLUSH by a read-only client changes what GET returns, C12_seq_refuted); administrators can still delete or reconfigure the namespace"},
 {"property": "C13", "status": "partial", "theorems": ["Zdb.C13_admin_requests_refused", "Zdb.C13_admin_needs_auth", "Zdb.C13_refuted"], "note": "all listed requests; reloads are refuted: FLUSH loads the namespace again and needs no right"},
 {"property": "C14", "status": "partial", "theorems": ["Zdb.C14_admin_only_with_secret_partial", "Zdb.C14_failed_attempt_changes_nothing", "Zdb.C14_right_password_accepted", "Zdb.C14_right_digest_accepted", "Zdb.C14_refuted"], "note": "In every execution a client becomes administrator only by an acknowledged AUTH that shows the configured password or the digest of the challenge it was last sent, both compared as C strings. False as stated: what follows a NUL in the password is not compared, so a wrong argument is accepted (C14_refuted). A failed attempt leaves rights, namespace and data unchanged; the right secret is accepted."},
 {"property": "C15", "status": "partial", "theorems": ["Zdb.C15_select_partial", "Zdb.C15_refuted"], "note": "What SELECT does for every namespace and argument list (read-write, read-only, or refused and nothing changes), with the arguments compared as C strings. False as stated: what follows a NUL in a password or a name is ignored and the word SECURE may be abbreviated (C15_refuted)."},
 {"property": "C16", "status": "partial", "theorems": ["Zdb.C16_auth_consumes_partial", "Zdb.C16_no_replay_partial", "Zdb.C16_refuted", "Zdb.C16_length_refuted"], "note": "An AUTH SECURE attempt of the right length consumes the challenge; without a challenge no secure attempt is accepted until a new one is asked for. False as stated: SELECT .. SECURE does not consume the challenge, so its answer can be replayed (C16_refuted), and an AUTH SECURE answer of the wrong length does not consume it (C16_length_refuted)."},
 {"property": "C17", "status": "proved", "theorems": ["Zdb.C17_data_files_append_only", "Zdb.C17_seq_data_files_append_only", "Zdb.C17_on_the_node", "Zdb.C17_removed_only_by_nsdel"], "note": "every execution of the process from a first start, any mode, any client, index writes may fail; fewer than 2^32 events (file numbers are 32 bits). A namespace goes away only by NSDEL or a restart refusing its descriptor."},
 {"property": "C18", "status": "partial", "theorems": ["Zdb.C18_history_lists_versions_partial", "Zdb.C18_refuted"], "note": "HISTORY gives the versions, newest first; the oldest one only for keys created while the namespace had its first file. Refuted for the oldest version of a key created in a later file (data id is not stored on insert). User-key mode."},
 {"property": "C19", "status": "partial", "theorems": ["Zdb.C19_scan_lists_all_keys_partial", "Zdb.C19_scan_ends", "Zdb.C19_seq_scan_lists_all_ids_partial", "Zdb.C19_seq_scan_ends", "Zdb.C19_refuted", "Zdb.C19_time_refuted"], "note": "Both modes, every reachable state. Needs that each call shows at least one row (C19_refuted: a call whose time slice is over at once ends the iteration) and the times are shown as 32-bit signed (C19_time_refuted)."},
 {"property": "C20", "status": "partial", "theorems": ["Zdb.C20_rscan_lists_all_keys_partial", "Zdb.C20_rscan_ends_partial", "Zdb.C20_seq_rscan_lists_all_ids_partial", "Zdb.C20_seq_rscan_ends_partial", "Zdb.C20_refuted", "Zdb.C20_middle_refuted"], "note": "Both modes, when the index files walked have items; refuted after a jump: RSCAN answers Internal Error on an empty current file, and stops at an empty file in the middle."},
 {"property": "C21", "status": "partial", "theorems": ["Zdb.C21_untouched_key_shown_once", "Zdb.C21_untouched_key_shown_once'", "Zdb.C21_seq_refuted"], "note": "User-key mode proved. Refuted for sequential mode: overwriting the value the cursor points at makes the cursor invalid."},
 {"property": "C22", "status": "partial", "theorems": ["Zdb.C22_keycur_then_scan", "Zdb.C22_cursor_stays_valid", "Zdb.C22_other_cursor_refused", "Zdb.C22_refuted", "Zdb.C21_seq_refuted"], "note": "User-key mode; refuted for a crafted cursor with a short id length, which makes the server read beyond the buffer, and in sequential mode."},
 {"property": "C23", "status": "proved", "theorems": ["Zdb.C23_files_in_step", "Zdb.C23_payload_in_current_file", "Zdb.C23_seq_files_in_step", "Zdb.C23_seq_payload_in_current_file", "Zdb.C23_on_the_node", "Zdb.C23_payload_on_the_node"], "note": "every execution of the process from a first start, any mode, index writes may fail; fewer than 2^32 events (file numbers are 32 bits)."},
 {"property": "C24", "status": "proved", "theorems": ["Zdb.C24_search_returns_file_in_charge", "Zdb.C24_file_in_charge_unique", "Zdb.C24_search_terminates", "Zdb.C24_repeated_first_id_finds_wrong_file", "Zdb.C24_reachable_map_finds_the_item", "Zdb.C24_search_finds_the_file"], "note": "proved for every strictly increasing map and every id (a file in charge exists, is unique and is returned); additionally for reachable namespaces in which no file is left empty. Maps with repeated first ids, which the quantifier excludes and which empty files produce, are answered wrongly (C24_repeated_first_id_finds_wrong_file)"},
 {"property": "C25", "status": "partial", "theorems": ["Zdb.C25_software_is_castagnoli", "Zdb.C25_sse42_eq_software", "Zdb.C25_burst_detected", "Zdb.C25_single_byte_detected", "Zdb.C25_check_detects_burst", "Zdb.C25_check_accepts_stored", "Zdb.C25_seq_check_detects_burst", "Zdb.C25_seq_check_accepts_stored", "Zdb.C25_seq_refuted"], "note": "checksum for all buffers; CHECK in both modes (sequential: executions as in C03). False after a file change in an empty sequential namespace and a reload: CHECK finds no key just after SET (C25_seq_refuted)"},
 {"property": "C26", "status": "partial", "theorems": ["Zdb.C26_set_skipped_only_if_identical", "Zdb.C26_seq_set_skipped_only_if_identical", "Zdb.C26_api_partial", "Zdb.C26_api_refuted"], "note": "Daemon, both modes: proved. Library call: it compares checksums only; C26_api_partial proves that a skipped call means equal checksums, C26_api_refuted that the payloads may differ."},
 {"property": "C27", "status": "partial", "theorems": ["Zdb.Resp.C27_requests_partial", "Zdb.Resp.C27_all_partial", "Zdb.Resp.C27_cuts_partial", "Zdb.Resp.C27_bytewise", "Zdb.Resp.C27_event_partial", "Zdb.Resp.C27_refuted", "Zdb.Resp.C27_refuted_example", "Zdb.Resp.C27_example"], "note": "Proved for every list of well-formed requests and every way recv may cut the bytes: the requests handed over are exactly those complete in the bytes received. Missing: that the server reads everything. C27_refuted shows that it stops reading after a read which fills the buffer exactly with requests that succeed. Statuses returned by commands are success or abnormal (no STOP, no detached client)."},
 {"property": "C28", "status": "partial", "theorems": ["Zdb.Resp.C28_handled_partial", "Zdb.Resp.C28_refused", "Zdb.Resp.C28_negative_refuted", "Zdb.Resp.C28_kept_refuted", "Zdb.Resp.C28_overread_refuted", "Zdb.Resp.C28_example"], "note": "Proved for every byte stream and every cut: a request handed over has 1 to 1024 arguments of at most 8 MiB, all received. False as stated, with witnesses: lengths -1 and -2 are accepted, some refused requests keep the client connected (nothing it sends later is executed: C28_refused), a blank number line is read past the buffer. Requests handed over earlier in the same read as such an overread are not covered."},
 {"property": "C29", "status": "partial", "theorems": ["Zdb.Out.C29_order_partial", "Zdb.Out.C29_drained", "Zdb.Out.C29_immediate", "Zdb.Out.C29_example", "Zdb.Out.C29_refuted"], "note": "Proved for every sequence of replies and every pattern of partial and blocked writes. Missing: errors of send other than EAGAIN; C29_refuted shows that they cut a reply while the connection stays up. Memory allocation succeeds."},
 {"property": "C30", "status": "partial", "theorems": ["Zdb.C30_name_runs_command", "Zdb.C30_unknown_refused_partial", "Zdb.C30_refuted"], "note": "Each command name in any letter case runs its command. A word that is not the beginning of a command name is refused and changes nothing. False as stated: a proper prefix of a command name runs the first command with this prefix (C30_refuted)."},
 {"property": "C31", "status": "proved", "theorems": ["Zdb.C31_default_exists", "Zdb.C31_names_distinct", "Zdb.C31_nslist", "Zdb.C31_nsnew_existing_refused", "Zdb.C31_nsdel_default_or_missing_refused", "Zdb.C31_nsnew_adds", "Zdb.C31_nsdel_removes"], "note": "every reachable node; a namespace created with an empty name (first byte NUL) is outside the model"},
 {"property": "C32", "status": "partial", "theorems": ["Zdb.C32_nsdel_detaches", "Zdb.C32_detached_client_refused", "Zdb.C32_detached_for_ever", "Zdb.C32_new_namespace_has_no_client", "Zdb.Server.C32_closed_partial", "Zdb.Server.C32_closed_refuted", "Zdb.Server.C32_mirror_refuted", "Zdb.Server.C32_closed_example"], "note": "Node: every reachable node and every execution; the address of a new namespace differs from those in use. Over the network: the connection is closed when a read ends with a complete request. As stated the property is false: the client stays connected if the read contains the first byte of a further request, and a refused request of a master ends the process if there is a mirror."},
 {"property": "C33", "status": "partial", "theorems": ["Zdb.C33_settings_survive_partial", "Zdb.C33_names_survive", "Zdb.C33_refuted", "Zdb.C33_example"], "note": "All settings survive, except an empty password, which NSSET can set with a value beginning with NUL: refuted for it."},
 {"property": "C34", "status": "partial", "theorems": ["Zdb.C34_refuted", "Zdb.C34_flush_keeps_everything", "Zdb.C34_nothing_removed", "Zdb.C34_index_files", "Zdb.C34_data_files", "Zdb.C34_descriptor", "Zdb.C34_files_example", "Zdb.C34_short_path_refuted"], "note": "The code does not do this: FLUSH loads the namespace again. Refuted on a trace, and for user-key namespaces proved that nothing changes in any state. The callback that unlinks files is modelled on paths: exactly which index and data files it removes (C34_index_files, C34_data_files), none in a directory without the old words in its path (C34_nothing_removed); for a path of less than 15 bytes it reads before the path (C34_short_path_refuted)."},
 {"property": "C35", "status": "partial", "theorems": ["Zdb.C35_partial", "Zdb.C35_refuted", "Zdb.C35_restart_refuted", "Zdb.C35_seq_partial", "Zdb.C35_seq_refuted"], "note": "Both modes, every reachable state (previous deaths included) and every point of death that leaves no partial index record: the restart succeeds, other keys are unchanged; in user-key mode the key reads old, new or nothing, in sequential mode old or new (conditions of DiedSeqOK). The claim itself is false: an overwriting SET can lose the key in user-key mode, a torn index append breaks the restart, and a torn overwrite of an item in sequential mode gives a payload never written (refutations)."},
 {"property": "C36", "status": "partial", "theorems": ["Zdb.C36_user", "Zdb.C36_seq", "Zdb.C36_refuted", "Zdb.C36_user_example", "Zdb.C36_seq_example"], "note": "Both modes, all points of death of the DEL, from every state reachable in executions with deaths at points that leave no partial index record (after others it is false, C36_refuted); sequential mode under the conditions of SeqLifeRun."},
 {"property": "C37", "status": "partial", "theorems": ["Zdb.C37_one_event_partial", "Zdb.C37_woken_once_partial", "Zdb.C37_wait_starts", "Zdb.C37_timeout", "Zdb.C37_refuted", "Zdb.C37_mirror_refuted", "Zdb.C37_example", "Zdb.Server.C37_removed_refuted"], "note": "Exact description of when a waiting client is woken up, in any execution, and what it is sent. As stated the property is false: commands that fail wake it up too; a mirror is never woken up; when the namespace was removed, a refused request wakes it up."},
 {"property": "C38", "status": "partial", "theorems": ["Zdb.C38_user_partial", "Zdb.C38_seq_partial", "Zdb.C38_fits_user_partial", "Zdb.C38_fits_seq_partial", "Zdb.C38_reload_refuted", "Zdb.C38_fault_refuted", "Zdb.C38_reply_overflow"], "note": "Proved for all executions of a namespace (sequential mode: those of SeqRun) in which index writes succeed: the list is exactly the files changed in place since the last reset or loading, the bitmap is never accessed out of bounds, the list fits its array, the text fits its buffer below ten million files. Refuted: loading again (RELOAD, restart) forgets the list without a reset, and a rewrite that fails after reaching the flag is not listed. The reset made by a hook at a jump is treated in C74; that a namespace with 80 million files exists (buffer overflow) is not proved."},
 {"property": "C39", "status": "partial", "theorems": ["Zdb.C39_refines_partial", "Zdb.C39_running_partial", "Zdb.C39_status_partial", "Zdb.C39_status_refuted", "Zdb.C39_null_refuted"], "note": "Proved for every order of starts, terminations and cleanups in which the process of each hook that the server waits for can be created (a plain start may fail). Refuted when it cannot: the status of another hook is recorded on it, and the counter of children becomes wrong, after which an empty slot is dereferenced. Not modelled: hooks started by the signal handlers, waitpid interrupted by a signal."},
 {"property": "C40", "status": "partial", "theorems": ["Zdb.C40_index_entry", "Zdb.C40_index_entry_injective", "Zdb.C40_index_entries_prefix_free", "Zdb.C40_data_header", "Zdb.C40_data_header_injective", "Zdb.C40_data_records_prefix_free", "Zdb.C40_index_file_header", "Zdb.C40_data_file_header", "Zdb.C40_scan_cursor", "Zdb.C40_scan_cursor_injective", "Zdb.C40_history_cursor", "Zdb.C40_history_cursor_injective", "Zdb.C40_sequential_id", "Zdb.C40_descriptor_partial", "Zdb.C40_descriptor_injective_partial", "Zdb.C40_descriptor_refuted"], "note": "Complete, except that the descriptor does not tell an empty password from none (refuted for it)."},
 {"property": "C41", "status": "partial", "theorems": ["Zdb.C41_partial", "Zdb.C41_example", "Zdb.C41_seq_partial", "Zdb.C41_seq_example", "Zdb.C41_torn_refuted", "Zdb.C41_twice_refuted"], "note": "Both modes, all executions with restarts in which the writes to the data files are complete: the tool ends normally, the namespace loads with the rebuilt index, every read command on every key answers as before, and later executions follow the same map (sequential mode: with the conditions of SeqRun, and for later executions if the current index file has items or is the only one). False after a failed payload write (C41_torn_refuted) and after a process killed during DEL (C41_twice_refuted)."},
 {"property": "C42", "status": "partial", "theorems": ["Zdb.C42_partial", "Zdb.C42_error_partial", "Zdb.C42_overwrite_refuted", "Zdb.C42_delete_refuted", "Zdb.C42_stuck_refuted", "Zdb.C42_restart_refuted", "Zdb.C42_seq_refuted", "Zdb.C42_quota_refuted", "Zdb.C42_seq_error_partial", "Zdb.C42_seq_example"], "note": "User-key mode, any write of any command failing after any number of bytes, executions of any length up to 2^32-2 events without restart: keys whose overwrite or deletion was never answered with an index write error read their last acknowledged payload (GET, EXISTS, LENGTH, CHECK); a command answered with an error changes no such key. False, with witnesses, for failed overwrites and deletions (key lost, then stuck until a restart), after a restart (part of an index item), and in sequential mode. Sequential mode (C42_seq_error_partial): after one command answered with an error, any of its writes failing after any number of bytes, every id given out before reads its last acknowledged payload; only the id of a DEL answered with the index error may be gone. Missing: executions that go on after such an error in sequential mode (false for ids given out later), restarts. Sequential mode with a quota: two overwrites whose item is not written make the size wrap, and the quota refuses everything."},
 {"property": "C43", "status": "partial", "theorems": ["Zdb.C43_never_issued_never_found_partial", "Zdb.C43_refuted"], "note": "false for all 2^64 ids (32-bit position); proved for ids whose position fits 32 bits"},
 {"property": "C44", "status": "partial", "theorems": ["Zdb.C44_partial", "Zdb.C44_calls_partial", "Zdb.C44_checksum_refuted", "Zdb.C44_key_refuted", "Zdb.C44_worm_refuted", "Zdb.C44_mixed_refuted", "Zdb.exApi_calls", "Zdb.C44_lock_refuted", "Zdb.C44_empty_key", "Zdb.C44_check_partial", "Zdb.C44_check_refuted"], "note": "Proved in every state reached in a user-key namespace of a server in user-key mode, and for every sequence of calls: the same table, the same files and the same answer as the command. Conditions: the new payload does not collide with the stored one on its checksum, keys of 1 to 255 bytes, namespace neither locked, frozen nor in worm mode. Each of these is refuted when left out, except the empty key, which both refuse. The call crashes in mixed mode (C44_mixed_refuted). CHECK: the call returns true also when the payload cannot be read (the command answers -1)."},
 {"property": "C45", "status": "partial", "theorems": ["Zdb.C45_fresh_means_unused", "Zdb.C45_switch_on_the_node", "Zdb.C45_mode_on_disk", "Zdb.C45_seq_fresh_means_unused_partial", "Zdb.C45_seq_switch_on_the_node_partial", "Zdb.C45_seq_mode_on_disk_partial", "Zdb.C45_example", "Zdb.C45_seq_refuted"], "note": "User-key mode: complete. Sequential mode: under the conditions of SeqRun; false outside (C45_seq_refuted)."},
 {"property": "C46", "status": "partial", "theorems": ["Zdb.C46_jumps_are_invisible", "Zdb.C46_seq_jumps_are_invisible_partial", "Zdb.C46_refuted", "Zdb.C46_scan_shows_the_same_rows"], "note": "user mode proved (SCAN excepted); false in sequential mode for two jumps in a row, proved otherwise"},
 {"property": "C47", "status": "proved", "theorems": ["Zdb.C47_mget_is_a_list_of_gets"], "note": "any state, any mode; keys of 1 to 255 bytes, namespace not frozen"},
 {"property": "C48", "status": "partial", "theorems": ["Zdb.C48_offsets_exact_partial", "Zdb.C48_seq_offsets_exact_partial", "Zdb.C48_refuted"], "note": "stored offsets and lengths are exact in both modes (limit up to 2 GiB); that no file passes 4 GiB is false: DEL adds to the current data file without checking its size (C48_refuted, an execution of 32 million commands treated by induction)"},
 {"property": "C49", "status": "proved", "theorems": ["Zdb.C49_reads_change_nothing", "Zdb.C49_only_writes_matter", "Zdb.C49_seq_only_writes_matter", "Zdb.C49_node_reads_change_nothing"], "note": "dataset commands in both modes, and NSINFO, NSLIST, PING, TIME on the whole node; that later replies of SCAN-like commands do not change follows from the state being equal"},
 {"property": "C50", "status": "partial", "theorems": ["Zdb.C50_partial", "Zdb.C50_kept", "Zdb.C50_seq_partial", "Zdb.C50_refuted"], "note": "Executions in which the process dies any number of times at points that leave no partial index record, both modes (sequential: conditions of SeqLifeRun). False in general: an empty index file left by a death makes later acknowledged SETs unreadable (refutation)."},
 {"property": "C51", "status": "proved", "theorems": ["Zdb.C51_kscan_lists_the_prefix"], "note": ""},
 {"property": "C52", "status": "partial", "theorems": ["Zdb.C52_accepted_names", "Zdb.C52_names_stay_in_the_directory", "Zdb.C52_partial", "Zdb.C52_index_and_data_differ", "Zdb.C52_compare_exact", "Zdb.C52_namespace_directory", "Zdb.C52_servers_example", "Zdb.C52_namespace_example", "Zdb.C52_long_path_refuted", "Zdb.C52_flock_error_refuted", "Zdb.C52_realpath_refuted", "Zdb.C52_empty_path_refuted", "Zdb.C52_empty_name_refuted", "Zdb.C52_hook_keeps_lock"], "note": "Names: for every NSNEW and every reachable node. Directories: in every interleaving of processes starting, dying and running hooks, running servers have two different directories and share none, for paths of at most 501 bytes and no other flock errors; refuted beyond that, for paths that cannot be created, for the empty path, and for a name that starts with NUL (its directory is the whole instance). The tree only grows in the model."},
 {"property": "C53", "status": "partial", "theorems": ["Zdb.C53_walks_end", "Zdb.C53_seq_walks_end", "Zdb.C53_scan_ends_on_any_files", "Zdb.C53_refuted", "Zdb.C53_seq_refuted"], "note": "Proved for every reachable state of user-key mode, for sequential mode under the conditions of SeqRun, and for SCAN on any files; RSCAN loops after a SET of an id never given out (C53_seq_refuted) and on a crafted index file (C53_refuted)."},
 {"property": "C54", "status": "partial", "theorems": ["Zdb.C54_count_partial", "Zdb.C54_fits_partial", "Zdb.C54_refuted", "Zdb.C54_read_partial"], "note": "The announced count is exact under the condition of C39; the answer fits if each hook takes at most 1024 bytes, and a witness shows it does not fit in general. A client reads the answer as the list of the hooks."},
 {"property": "C55", "status": "partial", "theorems": ["Zdb.C55_partial", "Zdb.C55_example", "Zdb.C55_seq_partial", "Zdb.C55_seq_example", "Zdb.C55_torn_refuted"], "note": "Both modes, complete writes to the data files (sequential mode: the executions of SeqRun). False after a failed payload write (C55_torn_refuted)."},
 {"property": "C56", "status": "partial", "theorems": ["Zdb.C56_partial", "Zdb.C56_seq_partial", "Zdb.C56_example", "Zdb.C56_del_refuted", "Zdb.C56_empty_refuted"], "note": "Proved for records of SETs of at least one byte and for EOF, both modes, complete writes. False for deletions and empty payloads."},
 {"property": "C57", "status": "proved", "theorems": ["Zdb.C57_zdb_sha1_is_sha1", "Zdb.C57_pieces", "Zdb.C57_password", "Zdb.C57_digest_accepted", "Zdb.C57_digest_needed", "Zdb.C57_challenge", "Zdb.C57_abc", "Zdb.C57_example"], "note": "All texts and all ways to cut them. The digests of the node are those of the code (RealHash, met by exSha). A digest argument is compared up to its first NUL."},
 {"property": "C58", "status": "partial", "theorems": ["Zdb.C58_partial", "Zdb.C58_cut", "Zdb.C58_clean_user", "Zdb.C58_clean_seq", "Zdb.C58_example", "Zdb.C58_damage", "Zdb.C58_damage_example", "Zdb.C58_names_refuted", "Zdb.C58_status_refuted"], "note": "The tool counts exactly the records with a wrong checksum, reports a cut file, has no false alarm on files that the server wrote with complete writes, and finds every burst of up to 32 bits. It refuses the names that the server gives to its files (C58_names_refuted), so this is shown for a call with the old name, and the status is the count modulo 256 (C58_status_refuted)."},
 {"property": "C59", "status": "partial", "theorems": ["Zdb.C59_partial", "Zdb.C59_hyps", "Zdb.C59_example", "Zdb.C59_seq_partial", "Zdb.C59_seq_hyps", "Zdb.C59_seq_example", "Zdb.C59_order_refuted", "Zdb.C59_null_refuted", "Zdb.C59_seq_refuted"], "note": "Both modes, executions whose writes to the data files are complete, and in which every time before the moment is at most T and every time after it is greater. False when times go backwards: C59_order_refuted (an acknowledged write up to T is lost), C59_null_refuted (NULL dereference). In sequential mode what is written after going back past a jump cannot be read (C59_seq_refuted)."},
 {"property": "C60", "status": "partial", "theorems": ["Zdb.C60_user_keys_partial", "Zdb.C60_seq_keys_partial", "Zdb.C60_refuted", "Zdb.C60_cursor_refuted", "Zdb.C60_refused_partial", "Zdb.C60_refused_example", "Zdb.C60_edge_refuted", "Zdb.C60_history_cursor", "Zdb.C60_user_history_partial", "Zdb.C60_user_history_example", "Zdb.C60_seq_history_partial", "Zdb.C60_history_refuted"], "note": "False as stated: a sequential SET or GET of a crafted id overruns 8-byte buffers, and so does a crafted cursor. Proved for keys in user-key mode, and in sequential mode for ids given out or below (2^32-29)/42. HISTORY: cursors in any mode and any state (C60_history_cursor), keys in user-key mode in every state of the life of a namespace (C60_user_history_partial), in sequential mode with the same conditions as other keys (C60_seq_history_partial; false outside, C60_history_refuted). Requests refused because the namespace is frozen or locked or the client may not write never leave the buffers, in any state (C60_refused_partial). The copy is wrong from the first byte beyond 8 on (C60_edge_refuted)."},
 {"property": "C61", "status": "partial", "theorems": ["Zdb.Server.C61_served_partial", "Zdb.Server.C61_framed", "Zdb.Server.C61_messages", "Zdb.Server.C61_example"], "note": "Proved for the whole process: any clients, any cutting of packets in both directions, restarts. Left out: sockets that fail without closing (C29_refuted), bytes that stay unread in the buffer of the kernel (C27_refuted)."},
 {"property": "C62", "status": "partial", "theorems": ["Zdb.Server.C62_partial", "Zdb.Server.C62_at_most", "Zdb.Server.C62_served_partial", "Zdb.Server.C62_example", "Zdb.Server.C62_served_example", "Zdb.Server.C62_wait_refuted", "Zdb.Server.C62_order_refuted", "Zdb.Server.C62_owner_refuted", "Zdb.Server.C62_mirror_refuted", "Zdb.Server.C62_master", "Zdb.Server.C62_master_example"], "note": "Proved for clients that send none of WAIT, MIRROR, MASTER, on the node and over the network; refuted for the others: the first of two WAITs is never answered, requests after WAIT are answered before it, a master's request with a long owner is dropped without an answer, mirrors are sent more. For masters, C62_master tells exactly which requests are dropped and that the others are executed without their last argument."},
 {"property": "C63", "status": "partial", "theorems": ["Zdb.C63_partial", "Zdb.C63_set_partial", "Zdb.C63_refuted", "Zdb.C63_seq_refuted", "Zdb.C63_scan_refuted", "Zdb.C63_torn_refuted", "Zdb.C63_mid_partial", "Zdb.C63_mid_example", "Zdb.C63_lost_refuted", "Zdb.C63_seq_partial", "Zdb.C63_seq_get_partial", "Zdb.C63_seq_example", "Zdb.C63_jump_refuted"], "note": "User-key mode, from a new namespace, restarts before the loss allowed: after a power loss with any part of the writes not yet synced on the disk, the files load and each key has the payload of its last SET unless it was deleted since; then it reads nothing or its old payload. False for deletions (C63_refuted), for overwrites and deletions in sequential mode (C63_seq_refuted), and SCAN may list a key twice afterwards (C63_scan_refuted): index_entry_delete_disk and index_seq_overwrite never sync. In the middle of a command (C63_mid_partial) the same holds for every key that is not the one of the command; that one has its value before or after the command, or, for a SET, none. It may thus lose an acknowledged payload (C63_lost_refuted), and a loss between the write of the index item and its fsync may make the namespace impossible to load (C63_torn_refuted). A loss while a change of files creates the new index file may leave it empty; the server then starts, acknowledges SETs, and does not start again (C63_jump_refuted). Missing: other losses in a command that starts new files, failing writes before it, restarts after it. In sequential mode, executions that only add ids lose nothing: any execution goes on as after a clean restart (C63_seq_partial, C63_seq_get_partial)."},
 {"property": "C64", "status": "partial", "theorems": ["Zdb.C64_partial", "Zdb.C64_jump_refuted", "Zdb.C64_del_refuted", "Zdb.C64_torn_refuted", "Zdb.C64_secure_partial", "Zdb.C64_secure_example", "Zdb.C64_empty_refuted", "Zdb.C64_reload_refuted", "Zdb.C64_seq_partial", "Zdb.C64_seq_example", "Zdb.C64_seq_refuted", "Zdb.C64_restart_partial", "Zdb.C64_restart_example", "Zdb.C64_seq_restart_partial", "Zdb.C64_seq_restart_example"], "note": "User-key mode, SETs and reading commands in the first files, only what was synced survives: the lost SETs are within T seconds of each other and everything before is read back. False with several files (the file left is not synced without --secure), for deletions (DEL never syncs) and when a pending index write reaches the disk in part (the namespace no longer loads). With --secure the same holds for any number of files, files never synced being gone (C64_secure_partial); if a new index file is found empty instead, the server writes to it without a header and does not start again (C64_empty_refuted). False too after a RELOAD with several files: the time of the last sync restarts and is noted again by the header write of the first file only, so that SETs acknowledged long before the loss are lost (C64_reload_refuted). In sequential mode with --secure, or in the first files without it, the same holds for executions that only add ids, if the last index file found has items or is the only one (C64_seq_partial; an id that was lost is given again); false for overwrites, whose item in a file left is never synced (C64_seq_refuted). After a RELOAD or a kill and a restart with one pair of files, everything before it, deletions included, is kept, and the same holds for what follows (C64_restart_partial, C64_seq_restart_partial). Missing: with --secure in user-key mode, several files after such a restart."},
 {"property": "C65", "status": "partial", "theorems": ["Zdb.Server.C65_get_partial", "Zdb.Server.C65_served_partial", "Zdb.Server.C65_two_clients_partial", "Zdb.Server.C65_example"], "note": "User-key processes from their first start, any clients and namespaces, any cutting of the byte streams, restarts and reloads: the ith value received is what an observer of all requests and replies knows to be stored at one moment, after the earlier requests of the client; what one client was told is stored, another reads later. Missing: executions with masters, failing index writes (C41 refutes them), sequential namespaces (C03), clients that use WAIT or MIRROR (C62)."},
 {"property": "C66", "status": "partial", "theorems": ["Zdb.Editor.C66_partial", "Zdb.Editor.C66_failure", "Zdb.Editor.exEdit_says", "Zdb.Editor.C66_example", "Zdb.Editor.C66_refuted", "Zdb.Editor.C66_words_partial", "Zdb.Editor.C66_nodir", "Zdb.Editor.C66_words_example", "Zdb.Editor.C66_swallow_refuted", "Zdb.Editor.C66_flags_refused", "Zdb.Editor.C66_name_refused", "Zdb.Editor.C66_size_suffix", "Zdb.Editor.C66_unit_refuted", "Zdb.Editor.C66_negative"], "note": "Proved for every reachable state of the node model, any options with a password of at most 255 bytes and a size below 2^63. Refuted for a password of 256 bytes: its length is stored in one byte, the namespace is left without a password. Other values: flags that are neither yes nor no, and a missing name, are refused and change nothing (C66_flags_refused, C66_name_refused); what follows the digits of a size is ignored (C66_size_suffix), so a size with a unit sets a tiny limit and is reported as a success (C66_unit_refuted); a negative one is stored as 2^64 - k (C66_negative). From the words of the command line in every spelling: C66_words_partial; an option lacking its value takes the next one (C66_swallow_refuted)."},
 {"property": "C67", "status": "partial", "theorems": ["Zdb.C67_files", "Zdb.C67_cut", "Zdb.C67_partial", "Zdb.C67_seq", "Zdb.exDump_run", "Zdb.C67_example", "Zdb.C67_seq_example", "Zdb.C67_fileid_refuted"], "note": "Listing of arbitrary files, cut files, and every state of user-key and sequential namespaces. Refuted: in user-key mode the data file number printed is 0 for a key created after a jump; proved instead that the payload is in the data file with the number of the index file. Missing: user-key executions with torn index writes (C42)."},
 {"property": "C68", "status": "partial", "theorems": ["Zdb.Table.C68_progress", "Zdb.Table.C68", "Zdb.Table.C68_branches", "Zdb.Table.C68_stop_partial", "Zdb.Table.ran_any", "Zdb.Table.C68_refuted"], "note": "Linked lists with explicit memory refine a list of entries and the branches used by the other theorems. Refuted for the stop of a process without a fixed mode whose default namespace is sequential (null pointer). Missing: the statistics counters, and the other allocations freed by a stop."},
 {"property": "C69", "status": "partial", "theorems": ["Zdb.C69_partial", "Zdb.C69_index_partial", "Zdb.C69_place_partial", "Zdb.C69_cut_partial", "Zdb.C69_set_partial", "Zdb.exLoss_run", "Zdb.C69_current_refuted", "Zdb.C69_seq_start_partial", "Zdb.C69_seq_index_partial", "Zdb.C69_seq_place_partial", "Zdb.C69_seq_example", "Zdb.C69_cut_empty_partial", "Zdb.C69_cut_empty_example", "Zdb.C69_seq_empty_partial", "Zdb.C69_empty_refuted", "Zdb.C69_seq_run_partial", "Zdb.C69_seq_run_index_partial", "Zdb.C69_seq_run_place_partial", "Zdb.C69_seq_told_partial", "Zdb.exDam_run", "Zdb.C69_seq_run_example"], "note": "User-key mode at any moment of an execution; sequential mode after an execution (C69_seq_*: reads by the running process or after a restart) and at any moment of one (C69_seq_run_*, with commands and restarts after the damage); files other than the one being written. Refuted for the current data file: after its loss and a restart a key reads the value of another one and CHECK answers 1. Missing in sequential mode: executions in which a SET is skipped or not skipped because of the damage (AsTold); no such SET is possible for an id whose value GET still answers (C69_seq_told_partial). Empty values: read whatever is cut off, CHECK needs the header (C69_cut_empty_partial, C69_seq_empty_partial); if the header of the record is changed, GET answers as many bytes as it says, and a SET of the empty value stores nothing (C69_empty_refuted)."},
 {"property": "C70", "status": "partial", "theorems": ["Zdb.Fds.C70_partial", "Zdb.Fds.C70_lost_partial", "Zdb.Fds.C70_count_partial", "Zdb.Fds.C70_close_partial", "Zdb.Fds.exFds_run", "Zdb.Fds.exFds_library", "Zdb.Fds.C70_leak_refuted", "Zdb.Fds.C70_stop_refuted", "Zdb.Fds.C70_flock_refuted", "Zdb.Fds.exFds_restart"], "note": "Runs in which no descriptor is forgotten have exactly the descriptors of their variables; in all runs nothing is used or closed that is not open on what it is taken for, until the end of the server. Refuted: NSNEW on a descriptor of another version leaves it open every time; STOP closes the listening sockets twice; without file locks zdb_close closes the standard output. Background mode is C81. Missing: the tools."},
 {"property": "C71", "status": "partial", "theorems": ["Zdb.Heap.C71_partial", "Zdb.Heap.C71_clean_partial", "Zdb.Heap.C71_stop_partial", "Zdb.Heap.C71_count_partial", "Zdb.Heap.exHeap_run", "Zdb.Heap.exHeap_life", "Zdb.Heap.exHeap_quiet", "Zdb.Heap.C71_set_leak_refuted", "Zdb.Heap.C71_reply_leak_refuted", "Zdb.Heap.C71_password_leak_refuted", "Zdb.Heap.C71_history_leak_refuted", "Zdb.Heap.C71_nsnew_leak_refuted", "Zdb.Heap.C71_history_refuted", "Zdb.Heap.C71_owner_refuted", "Zdb.Heap.C71_mirror_refuted", "Zdb.Heap.C71_hooks_partial", "Zdb.Heap.C71_hooks_stop_partial", "Zdb.Heap.exHooks_run", "Zdb.Heap.exHooks_life", "Zdb.Heap.C71_hooks_refuted", "Zdb.Heap.C71_hooks_growth_refuted", "Zdb.Heap.C71_hooks_growth_real", "Zdb.Heap.exHooks_busy"], "note": "All runs that avoid three places (HISTORY on an unreadable index file, a one word request of a master, mirroring a client whose namespace was deleted) follow no bad pointer, free nothing twice, and hold each block that is not forgotten by exactly one variable; without forgotten blocks all memory is held, bounded by clients and namespaces, and freed at the end. Refuted: five places forget blocks, the three places follow bad pointers. The hooks: the same, with one more such place (C71_hooks_partial, C71_hooks_stop_partial, C71_hooks_refuted); and every hook ever run is kept while the program of one of them runs (C71_hooks_growth_refuted). Missing: sizes of blocks, failing allocations, the table of keys (C68)."},
 {"property": "C72", "status": "proved", "theorems": ["Zdb.C72", "Zdb.C72_any", "Zdb.C72_example"], "note": "For every store, whatever its files hold: an array is answered exactly if a whole record that can be shown lies at the place asked for, and it is this record; all other answers are errors. C72_any: requests of any form."},
 {"property": "C73", "status": "partial", "theorems": ["Zdb.Text.C73_bulk", "Zdb.Text.C73_scan", "Zdb.Text.C73_rscan", "Zdb.Text.C73_kscan", "Zdb.Text.C73_keycur", "Zdb.Text.C73_history", "Zdb.Text.C73_data_raw", "Zdb.Text.C73_mirror", "Zdb.Text.C73_number", "Zdb.Text.C73_time", "Zdb.Text.C73_head", "Zdb.Text.C73_nslist", "Zdb.Text.C73_challenge", "Zdb.Text.C73_hook_dirty", "Zdb.Text.C73_info", "Zdb.Text.C73_nsinfo_partial", "Zdb.Text.C73_names_partial", "Zdb.Text.C73_name_refuted", "Zdb.Text.C73_arguments_partial", "Zdb.Text.C73_argument_refuted", "Zdb.Text.C73_example_scan", "Zdb.Text.C73_example_mirror", "Zdb.Text.C73_example_history", "Zdb.Text.C73_example_argument"], "note": "Each builder is shown to stay within its buffer and to give the text of the reply. False for names of files when the directory of the index is longer than 239 bytes (legacy[256] in index_internal_load; NSNEW reaches it with an index path of 111 bytes) and for subcommands of exactly 256 bytes. NSINFO is shown for paths that do not fill its block. The text of INDEX DIRTY is treated in C38, that of HOOKS in C54."},
 {"property": "C74", "status": "partial", "theorems": ["Zdb.Backup.C74_user_partial", "Zdb.Backup.C74_seq_partial", "Zdb.Backup.C74_nsjump_user_partial", "Zdb.Backup.C74_nsjump_seq_partial", "Zdb.Backup.C74_restore_user_partial", "Zdb.Backup.C74_restore_seq_partial", "Zdb.Backup.C74_failed_refuted", "Zdb.Backup.C74_killed_refuted", "Zdb.Backup.C74_reset_refuted", "Zdb.Backup.C74_reload_refuted", "Zdb.Backup.exCopies_run", "Zdb.Backup.C74_seq_example"], "note": "Proved for all executions of a new namespace (sequential mode: those of SeqRun) in which index writes succeed, nobody empties the list by hand and the script ends by itself: each closed index file is equal to its copy, is in the list to be given next, or was closed while the script failed. Restoring the copies of a stopped server gives the same keys and payloads. False: a file closed while the script failed is never named again; a killed script counts as successful; a file modified between asking for the list and INDEX DIRTY RESET is lost; RELOAD and a server that dies forget the list."},
 {"property": "C75", "status": "partial", "theorems": ["Zdb.Missing.C75_user_partial", "Zdb.Missing.C75_seq_partial", "Zdb.Missing.C75_read_user_partial", "Zdb.Missing.C75_read_seq_partial", "Zdb.Missing.C75_set_refuted", "Zdb.Missing.C75_halfway_refuted", "Zdb.Missing.C75_current_refuted", "Zdb.Missing.exActs_run", "Zdb.Missing.oneMore_fails", "Zdb.Missing.C75_seq_example"], "note": "Proved for all executions of a new namespace (sequential mode: those of SeqRun) in which index writes succeed and the script behaves as in C74: any execution in which closed files are taken away is, reply by reply and state by state, one in which nothing is taken away, and the replies are those of a dictionary. With a script that may fail, reads answer the right reply or their error, and MGET is right about the other keys. False: SET of the value that is there is written again when the file cannot be had; a file brought halfway is never asked for again; the current file is made anew at the start without asking."},
 {"property": "C76", "status": "partial", "theorems": ["Zdb.Options.C76_obeyed_partial", "Zdb.Options.C76_places_partial", "Zdb.Options.C76_refused", "Zdb.Options.C76_version", "Zdb.Options.C76_any", "Zdb.Options.C76_protect", "Zdb.Options.C76_says_example", "Zdb.Options.C76_example", "Zdb.Options.C76_wrong_example", "Zdb.Options.wholes_reads", "Zdb.Options.C76_word_refuted", "Zdb.Options.C76_swallow_refuted", "Zdb.Options.C76_maxsize_refuted", "Zdb.Options.C76_datasize_refuted", "Zdb.Options.C76_unit_refuted", "Zdb.Options.C76_status_refuted", "Zdb.Options.C76_fraction", "Zdb.Options.C76_fraction_example"], "note": "Proved for every list of options in every spelling, with the numbers read by the C library as decimal numbers (strtold is a parameter); getopt_long_only is modelled after glibc. For any words at all: the size of data files is within its bounds, protection has a password, and there is a place to listen. False: words that are no options are passed over; an option lacking its value takes the next option; --maxsize does not know the units of --datasize and takes anything; nan and 1e30 are converted to an integer although that is undefined; what follows a unit is passed over; a ready hook that fails ends the server with the status of success."},
 {"property": "C77", "status": "partial", "theorems": ["Zdb.C77_partial", "Zdb.C77_set_partial", "Zdb.C77_one_partial", "Zdb.C77_example", "Zdb.C77_one_example", "Zdb.C77_leave_refuted", "Zdb.C77_default_refuted", "Zdb.C77_del_refuted", "Zdb.C77_seq_partial", "Zdb.C77_seq_example", "Zdb.C77_seq_refuted"], "note": "Proved with --secure in user-key mode for every execution (SETs kept, a deleted key reads nothing or its last payload), and in any mode with any options and failing writes while the first files have not been left. False without --secure once files have changed: the files left are not synced by a stop (C77_leave_refuted, C77_default_refuted); a deletion in a file that was left is lost even with --secure (C77_del_refuted). In sequential mode with --secure nothing is lost if ids are only added (C77_seq_partial); overwrites and deletions of ids in files that were left are lost (C77_seq_refuted). Not covered: a signal in the middle of a command."},
 {"property": "C78", "status": "partial", "theorems": ["Zdb.NsDump.C78_partial", "Zdb.NsDump.C78_example", "Zdb.NsDump.C78_unknown_refuted", "Zdb.NsDump.C78_password_refuted", "Zdb.NsDump.C78_line_refuted"], "note": "Proved for every reachable state and every namespace whose name and password have no end of line. False for an unknown name (null dereference, C78_unknown_refuted), for the password \"<no password set>\" (C78_password_refuted) and for a password with an end of line (C78_line_refuted). How printf writes megabytes is a parameter."},
 {"property": "C79", "status": "partial", "theorems": ["Zdb.Compact.C79_files_partial", "Zdb.Compact.C79_kept_partial", "Zdb.Compact.C79_size_partial", "Zdb.Compact.C79_one_file_partial", "Zdb.Compact.C79_example", "Zdb.Compact.C79_names_refuted", "Zdb.Compact.C79_offset_refuted", "Zdb.Compact.C79_second_refuted", "Zdb.Compact.C79_seq_files_partial", "Zdb.Compact.C79_seq_kept_partial", "Zdb.Compact.C79_seq_size_partial", "Zdb.Compact.C79_seq_one_file_partial", "Zdb.Compact.C79_seq_example", "Zdb.Compact.C79_seq_names_refuted", "Zdb.Compact.C79_seq_offset_refuted", "Zdb.Compact.C79_seq_over_refuted"], "note": "Both modes (sequential: executions of SeqRun). Proved for every execution: what exactly is written and when the tool exits instead (C79_files_partial), that the record of every key is kept with its payload, checksum and time (C79_kept_partial), that dead payloads are left out (C79_size_partial), that one file is always enough for the tool to end (C79_one_file_partial). The claim is false: a server refuses to start on the files (C79_names_refuted, for every execution), renamed files serve wrong payloads (C79_offset_refuted), and a key first written after the first file makes the tool exit (C79_second_refuted). In sequential mode the same holds (C79_seq_*); there an overwrite of an id of an earlier file makes the tool exit (C79_seq_over_refuted)."},
 {"property": "C80", "status": "proved", "theorems": ["Zdb.Heap.C80_owned", "Zdb.Heap.C80_forgets_nothing", "Zdb.Heap.C80_all_back", "Zdb.Heap.exLib_run", "Zdb.Heap.exLib_life"], "note": "All executions over memory, for any placement of blocks. Blocks have no size and allocations do not fail (trusted base, as for C71); the caller releases only replies it has."},
 {"property": "C81", "status": "partial", "theorems": ["Zdb.Daemon.C81_partial", "Zdb.Daemon.C81_locks_partial", "Zdb.Daemon.C81_left_refuted", "Zdb.Daemon.C81_example", "Zdb.Daemon.C81_lock_refuted", "Zdb.Daemon.C81_status_refuted", "Zdb.Daemon.C81_status_example", "Zdb.Daemon.C81_log_refuted", "Zdb.Daemon.C81_overwrite_refuted", "Zdb.Daemon.C81_log_partial", "Zdb.Daemon.C81_log_example"], "note": "Descriptors: exact, for every process started with its three standard descriptors and every answer of the kernel. False: one descriptor (three without a log) stays open on /dev/null for nothing; without standard input the index lock is lost; the first process reports success although the second one may end at once. Log: exact for a server that writes nothing to standard error; false as soon as both streams have been written, since each has a position of its own."},
 {"property": "C82", "status": "partial", "theorems": ["Zdb.C82_step", "Zdb.C82_restart", "Zdb.C82_run_partial", "Zdb.C82_example", "Zdb.C82_thaw_refuted", "Zdb.C82_restart_refuted", "Zdb.C82_value_refuted"], "note": "Every change of a setting in any execution is found at one acknowledged NSSET of an administrator on this namespace and this setting, with the value it says; the locked and frozen state also at a restart. Left out: the default namespace, whose settings at a restart come from the command line. Refuted: locking and freezing share one variable, so NSSET lock thaws a frozen namespace and NSSET freeze 0 unlocks a locked one; a restart unlocks. Also acknowledged: NSSET lock true, which unlocks, and NSSET maxsize 1K, which sets one byte (C82_value_refuted); what such values set for maxsize is left open in the positive theorems."},
 {"property": "C83", "status": "partial", "theorems": ["Zdb.C83_step", "Zdb.C83_run_partial", "Zdb.C83_example", "Zdb.C83_refuted", "Zdb.C83_set", "Zdb.C83_set_run_partial", "Zdb.C83_set_example"], "note": "Two servers that differ in the password of a namespace take the same steps, send the same and still differ in nothing else, restarts included, up to the event at which a client gives one of the two passwords (in clear or as a digest) or a master asks NSINFO, and without end once the password is set anew or the namespace is deleted. Both servers are assumed reachable: C83_set gets two from every NSSET of a password (C83_set_run_partial goes on from there), and C83_example shows two, through a restart, a new password and NSDEL. False for a password that begins with a NUL byte, which a restart drops (C83_refuted). Missing: restarts for the default namespace (whose password nobody can set) after its settings were changed. The text of INFO and the timing of the comparison are not in the model."},
 {"property": "C84", "status": "partial", "theorems": ["Zdb.C84_start", "Zdb.C84_step", "Zdb.C84_run_partial", "Zdb.C84_protect_run_partial", "Zdb.C84_example", "Zdb.C84_protect_example", "Zdb.C84_kept_refuted", "Zdb.Server.C84_wire_run_partial", "Zdb.Server.C84_wire_example", "Zdb.Server.C84_wire_given"], "note": "Without --protect: every start, event and execution, restarts included, is the same with another password until a client gives one of the two to AUTH (in clear or as a digest); without --protect also for the server with its connections, to the byte (C84_wire_run_partial). With --protect the two servers differ in the password of the default namespace and in nothing else, for executions in which nobody gives either password to AUTH or SELECT and no master asks NSINFO. With --protect the settings file does depend on it (C84_kept_refuted). Missing: restarts with --protect after an administrator changed the settings of the default namespace, executions that go on after a password was given rightly. The text of INFO and the timing of the comparison are not in the model."}
]}
