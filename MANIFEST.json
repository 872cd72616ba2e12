{
 "claims": [
  {
   "property": "C01",
   "status": "proved",
   "theorems": [
    "Current.Persist.log_is_acknowledged_and_ordered"
   ],
   "note": "Memory persister, every call history. The file persister inherits it through C08."
  },
  {
   "property": "C02",
   "status": "proved",
   "theorems": [
    "Current.Persist.published_entry_is_immutable",
    "Current.Persist.acknowledged_is_readable",
    "Current.Persist.failed_call_changes_nothing"
   ],
   "note": "Memory persister; the file persister through C08."
  },
  {
   "property": "C03",
   "status": "proved",
   "theorems": [
    "Current.Persist.publish_decision",
    "Current.Persist.updateHead_decision",
    "Current.Persist.publish_on_fresh",
    "Current.Persist.last_published_agrees"
   ],
   "note": "All states and timestamps."
  },
  {
   "property": "C04",
   "status": "proved",
   "theorems": [
    "Current.Persist.iterate_exact"
   ],
   "note": "All begin/end. The behaviour of the code for begin == end > size is as stated in the theorem."
  },
  {
   "property": "C05",
   "status": "proved",
   "theorems": [
    "Current.Persist.iterate_time_exact"
   ],
   "note": "No concurrent publisher; see C06 for the race."
  },
  {
   "property": "C06",
   "status": "partial",
   "theorems": [
    "Current.Persist.iterate_time_racing_partial",
    "Current.Persist.time_range_race_violates_window"
   ],
   "note": "The property is false of the code: witness proved. Proved instead: what every schedule still guarantees."
  },
  {
   "property": "C07",
   "status": "proved",
   "theorems": [
    "Current.Persist.reopen_restores_everything",
    "Current.Persist.acknowledged_survives_reopen"
   ],
   "note": "Every history with reopenings anywhere; payload serialization is a parameter with round-trip laws (Codec.Lawful), raw lines restricted to well-formed ones."
  },
  {
   "property": "C08",
   "status": "proved",
   "theorems": [
    "Current.Persist.file_persister_refines_memory"
   ],
   "note": "Simulation over every session."
  },
  {
   "property": "C09",
   "status": "proved",
   "theorems": [
    "Current.Persist.updateHead_keeps_entries",
    "Current.Persist.head_updates_do_not_grow_file"
   ],
   "note": ""
  },
  {
   "property": "C10",
   "status": "partial",
   "theorems": [
    "Current.Persist.crash_in_publish_partial",
    "Current.Persist.publication_after_torn_line_is_lost",
    "Current.Persist.crash_in_updateHead_append",
    "Current.Persist.crash_in_head_rewrite_partial",
    "Current.Persist.torn_head_rewrite_may_overshoot",
    "Current.Persist.torn_head_line_then_rewrite_hides_entry"
   ],
   "note": "Every crash point of every kind of write. \"Entries published after such a reopen survive\" is false of the code: proved for every torn line after the tab that the next acknowledged publication is lost."
  },
  {
   "property": "C11",
   "status": "proved",
   "theorems": [
    "Current.Persist.open_accepts_only_consistent_files"
   ],
   "note": "Every byte string."
  },
  {
   "property": "C12",
   "status": "partial",
   "theorems": [
    "Current.Persist.memory_publishUnsafe_decision",
    "Current.Persist.file_publishUnsafe_decision",
    "Current.Persist.raw_lines_are_verbatim_partial",
    "Current.Persist.raw_line_with_newline_breaks_the_file",
    "Current.Persist.raw_line_with_bad_body_is_acknowledged"
   ],
   "note": "Acceptance rule exact; \"readable afterwards\" needs a body that parses and has no line break: witnesses proved."
  },
  {
   "property": "C13",
   "status": "proved",
   "theorems": [
    "Current.MMQ.delivery_is_fifo_exactly_once",
    "Current.MMQ.publish_accounting"
   ],
   "note": "Every interleaving of any number of publishers and the consumer."
  },
  {
   "property": "C14",
   "status": "proved",
   "theorems": [
    "Current.MMQ.capacity",
    "Current.MMQ.drop_rule",
    "Current.MMQ.blocking_never_drops",
    "Current.MMQ.publish_accounting"
   ],
   "note": ""
  },
  {
   "property": "C15",
   "status": "partial",
   "theorems": [
    "Current.MMQ.drop_mode_timestamps_increase",
    "Current.MMQ.blocking_mode_timestamps_increase_partial",
    "Current.MMQ.blocking_mode_timestamps_can_decrease"
   ],
   "note": "Exact for drop mode. In blocking mode the property is false of the code (witness): the timestamp is taken before the wait. The partial theorem needs that no publisher waited."
  },
  {
   "property": "C16",
   "status": "partial",
   "theorems": [
    "Current.MMQ.destruction_delivers_at_most_one",
    "Current.MMQ.destruction_loses_accepted_messages"
   ],
   "note": "The full property is false of the code: witness proved; what does hold is proved."
  },
  {
   "property": "C45",
   "status": "partial",
   "theorems": [
    "Current.MMQ.publish_return_partial",
    "Current.MMQ.publish_can_return_anothers_index"
   ],
   "note": "False of the code: the slot is read after the commit, outside the lock (witness). Partial: holds when the slot was not reused in between."
  },
  {
   "property": "C46",
   "status": "proved",
   "theorems": [
    "Current.MMQ.internal_steps_are_bounded",
    "Current.MMQ.stuck_means_done",
    "Current.MMQ.stuck_in_destruction_means_terminated"
   ],
   "note": ""
  },
  {
   "property": "C47",
   "status": "proved",
   "theorems": [
    "Current.MMQ.per_thread_order"
   ],
   "note": ""
  },
  {
   "property": "C17",
   "status": "partial",
   "theorems": [
    "Current.MMPQ.delivery_is_due_and_unique",
    "Current.MMPQ.delivery_order_partial",
    "Current.MMPQ.delivery_order_if_published_ahead",
    "Current.MMPQ.late_publication_breaks_order",
    "Current.MMPQ.publish_returns_own_index",
    "Current.MMPQ.destruction_delivers_nothing"
   ],
   "note": "Due, at most once: proved. The order within a head period is false of the code for messages published at or below the head (witness); exact statement and the unconditional order for users who publish ahead of the head are proved."
  },
  {
   "property": "C18",
   "status": "partial",
   "theorems": [
    "Current.MMPQ.waiting_means_delivered_partial",
    "Current.MMPQ.consumer_catches_up",
    "Current.MMPQ.equal_timestamp_is_never_delivered",
    "Current.MMPQ.destruction_loses_due_messages"
   ],
   "note": "False of the code for equal timestamps: proved for every history that such a message is never delivered; proved that everything else due is delivered."
  },
  {
   "property": "C19",
   "status": "proved",
   "theorems": [
    "Current.Stream.subscriber_gets_every_entry_once_in_order",
    "Current.Stream.subscriber_gets_matching_entries_in_order",
    "Current.Stream.last_is_current"
   ],
   "note": "Every interleaving; completeness is C21."
  },
  {
   "property": "C20",
   "status": "proved",
   "theorems": [
    "Current.Stream.heads_and_entries_are_ordered",
    "Current.Stream.head_is_final"
   ],
   "note": ""
  },
  {
   "property": "C21",
   "status": "partial",
   "theorems": [
    "Current.Stream.subscriber_catches_up_partial",
    "Current.Stream.spins_until_from_us",
    "Current.Stream.head_update_not_noticed",
    "Current.Stream.spins_after_wait"
   ],
   "note": "False of the code in three situations, each proved for all states of that kind (busy loop while from_us is above the head; head updates before the first entry unnoticed; busy loop after Terminate() answered Wait). Otherwise proved."
  },
  {
   "property": "C22",
   "status": "partial",
   "theorems": [
    "Current.Stream.from_us_delays_partial",
    "Current.Stream.from_us_does_not_filter"
   ],
   "note": "False of the code (witness); proved what from_us does guarantee."
  },
  {
   "property": "C23",
   "status": "proved",
   "theorems": [
    "Current.Stream.subscriber_gets_matching_entries_in_order",
    "Current.Stream.asked_only_at_the_end",
    "Current.Stream.asked_at_the_end"
   ],
   "note": ""
  },
  {
   "property": "C48",
   "status": "proved",
   "theorems": [
    "Current.Stream.nothing_after_done",
    "Current.Stream.terminate_at_most_once",
    "Current.Stream.termination_is_prompt"
   ],
   "note": ""
  },
  {
   "property": "C24",
   "status": "partial",
   "theorems": [
    "Current.Own.Flip.publications_use_the_current_publisher",
    "Current.Own.Flip.no_old_publisher_after_flip",
    "Current.Own.Flip.following_refuses",
    "Current.Own.Flip.master_gives",
    "Current.Own.Flip.flip_completes_when_released",
    "Current.Own.Flip.flip_deadlocks_with_concurrent_publish",
    "Current.Own.Flip.publisher_reference_can_dangle"
   ],
   "note": "Proved for publishing through Borrowed publishers. False of the code for the reference returned by Publisher(): it can dangle (witness); and a flip that starts while a thread is inside Publish deadlocks (proved for every such state)."
  },
  {
   "property": "C49",
   "status": "partial",
   "theorems": [
    "Current.Own.alive_while_borrowed",
    "Current.Own.no_access_after_destruction_partial",
    "Current.Own.late_notify_touches_destroyed_instance",
    "Current.Own.valid_iff"
   ],
   "note": "All but one access are safe; the late notify_one after unlock is a use after free (witness)."
  },
  {
   "property": "C50",
   "status": "partial",
   "theorems": [
    "Current.Own.destructor_finishes_partial",
    "Current.Own.sleeping_means_borrowed",
    "Current.Own.leak_comes_from_move",
    "Current.Own.leak_hangs_forever",
    "Current.Own.move_assignment_hangs_owner"
   ],
   "note": "Proved unless a registration leaked; proved that exactly move-assignment over a registered borrower and moving out of the Owned leak, and that a leak hangs the owner forever."
  },
  {
   "property": "C51",
   "status": "partial",
   "theorems": [
    "Current.Own.callbacks_of_registered_borrowers",
    "Current.Own.callback_after_release",
    "Current.Own.late_borrower_is_not_called"
   ],
   "note": "Exactly once: proved. \"Only while the borrower exists\" is false of the code (witness)."
  },
  {
   "property": "C25",
   "status": "partial",
   "theorems": [
    "Current.Http.response_is_what_was_asked_partial",
    "Current.Http.serves_from_first_qualifying",
    "Current.Http.tail_zero_serves_new_entries",
    "Current.Http.begins_at_i",
    "Current.Http.no_content_iff",
    "Current.Http.recent_overrides_since",
    "Current.Http.tail_zero_overrides_i",
    "Current.Http.head_update_defeats_i"
   ],
   "note": "Proved for all parameter combinations but recent with since, and tail=0 with others, where the code does something else (proved). A head update defeats i (witness)."
  },
  {
   "property": "C26",
   "status": "proved",
   "theorems": [
    "Current.Http.limits_are_respected",
    "Current.Http.ends_only_for_a_reason",
    "Current.Http.goes_on_below_limits",
    "Current.Http.nowait_ends_at_last",
    "Current.Http.exactly_n",
    "Current.Http.exactly_period"
   ],
   "note": ""
  },
  {
   "property": "C27",
   "status": "partial",
   "theorems": [
    "Current.Http.array_is_well_formed_partial",
    "Current.Http.terminated_array",
    "Current.Http.terminated_empty_array",
    "Current.Http.head_leaves_array_open",
    "Current.Http.raw_text_same",
    "Current.Http.plain_body"
   ],
   "note": "Proved for every response that ends with an entry or with Terminate() after an entry. False of the code when a head update ends it (proved: the array stays open) and when terminated before the first entry (proved)."
  },
  {
   "property": "C28",
   "status": "proved",
   "theorems": [
    "Current.Replicate.lines_do_not_depend_on_chunks",
    "Current.Replicate.same_text_same_lines",
    "Current.Replicate.lines_of_prefix"
   ],
   "note": ""
  },
  {
   "property": "C29",
   "status": "proved",
   "theorems": [
    "Current.Replicate.replica_is_prefix",
    "Current.Replicate.session_applies",
    "Current.Replicate.catches_up",
    "Current.Replicate.always_ready",
    "Current.Replicate.response_continues",
    "Current.Replicate.follow_end_to_end",
    "Current.Replicate.following_grows"
   ],
   "note": "JSON parsing is abstracted by Wire.Lawful, which is shown to be satisfiable by natWire_lawful."
  },
  {
   "property": "C30",
   "status": "partial",
   "theorems": [
    "Current.Replicate.flip_transfers_the_log",
    "Current.Replicate.refused_flip_changes_nothing",
    "Current.Replicate.wrong_key_never_flips",
    "Current.Replicate.blocked_refuses",
    "Current.Replicate.guessing_takes_exponential_time",
    "Current.Replicate.restrictions_respected",
    "Current.Replicate.empty_follower_escapes_index_restriction",
    "Current.Replicate.at_most_one_master",
    "Current.Replicate.lost_reply_leaves_no_master",
    "Current.Replicate.chain_flip_transfers_the_log",
    "Current.Replicate.refused_chain_keeps_one_master",
    "Current.Replicate.chain_masters",
    "Current.Replicate.refused_chain_changes_nothing",
    "Current.Replicate.refused_chain_changes_roles",
    "Current.Replicate.key_of_the_node_asked_is_not_checked"
   ],
   "note": "Transfer, refusal and back-off proved in full for a single hop and for chains of any length (a node that itself follows another). Partial because one clause is false of the code for chains: when a node in the middle of the chain has restrictions on the diff, a refused flip has already made it the master (refused_chain_changes_roles); proved: exactly one master with the complete log remains, and without such restrictions nothing changes. Findings: the key of the node asked is not checked when it follows another one; a lost reply leaves no master; the index restriction is not applied to a follower without entries."
  },
  {
   "property": "C43",
   "status": "proved",
   "theorems": [
    "Current.Strings.split_is_fields",
    "Current.Strings.join_is_joined",
    "Current.Strings.join_split",
    "Current.Strings.split_join_keep",
    "Current.Strings.split_join_skip",
    "Current.Strings.split_loses_only_separators",
    "Current.Strings.split_in_place",
    "Current.Strings.key_value_pairs_roundtrip",
    "Current.Strings.literal_splits_at_zero",
    "Current.Strings.leading_separator_ignored"
   ],
   "note": ""
  },
  {
   "property": "C31",
   "status": "proved",
   "theorems": [
    "Current.Storage.dictionary_is_a_map"
   ],
   "note": "Patches that change keys are excluded by hypothesis; patched_key_breaks_replay shows what goes wrong with them."
  },
  {
   "property": "C32",
   "status": "proved",
   "theorems": [
    "Current.Storage.one_to_one",
    "Current.Storage.matrix_last_modified"
   ],
   "note": ""
  },
  {
   "property": "C33",
   "status": "proved",
   "theorems": [
    "Current.Storage.one_to_many",
    "Current.Storage.matrix_last_modified"
   ],
   "note": ""
  },
  {
   "property": "C34",
   "status": "proved",
   "theorems": [
    "Current.Storage.many_to_many",
    "Current.Storage.matrix_last_modified"
   ],
   "note": ""
  },
  {
   "property": "C35",
   "status": "proved",
   "theorems": [
    "Current.Storage.rollback_restores",
    "Current.Storage.rollback_restores_void",
    "Current.Storage.same_view_same_observations"
   ],
   "note": "For every history (including restarts and hand-overs), body and outcome; \"as it was\" means every observer of every container gives the same."
  },
  {
   "property": "C36",
   "status": "proved",
   "theorems": [
    "Current.Storage.replay_rebuilds",
    "Current.Storage.following_storage",
    "Current.Storage.follower_catches_up",
    "Current.Storage.patched_key_breaks_replay",
    "Current.Storage.failed_flip_stops_following"
   ],
   "note": "For patches that keep keys (otherwise false, witness). Also following storages: they show a state the master had, and take over with the master's state."
  },
  {
   "property": "C37",
   "status": "proved",
   "theorems": [
    "Current.Storage.transaction_commits",
    "Current.Storage.transaction_commits_void",
    "Current.Storage.rollback_restores",
    "Current.Storage.rollback_restores_void",
    "Current.Storage.refused_transactions",
    "Current.Storage.published_ahead_ends_process"
   ],
   "note": ""
  },
  {
   "property": "C38",
   "status": "partial",
   "theorems": [
    "Current.Storage.two_step_partial",
    "Current.Storage.two_step_misreports",
    "Current.Storage.two_step_calls_twice"
   ],
   "note": "False of the code: a rollback thrown by the second step is reported as rolled back although the first step was persisted (witness). Proved for second steps that return and for first steps that roll back."
  },
  {
   "property": "C39",
   "status": "proved",
   "theorems": [
    "Current.Base64.encode_is_rfc3548",
    "Current.Base64.encoding_shape",
    "Current.Base64.decode_encode",
    "Current.Base64.encode_injective",
    "Current.Base64.decode_debug",
    "Current.Base64.decode_release",
    "Current.Base64.release_reads_out_of_bounds",
    "Current.Base64.not_only_encodings",
    "Current.Base64.release_accepts_garbage"
   ],
   "note": "Both alphabets, debug and release builds, with the 16-bit buffer; also exactly which texts are refused, and that a release build reads out of bounds exactly on bytes above 127."
  },
  {
   "property": "C40",
   "status": "partial",
   "theorems": [
    "Current.Url.decode_encode_partial",
    "Current.Url.decode_encode_iff",
    "Current.Url.decode_encode_bytes",
    "Current.Url.encoding_alphabet",
    "Current.Url.encoding_has_no_delimiters",
    "Current.Url.non_ascii_is_corrupted",
    "Current.Url.malformed_escape_is_kept",
    "Current.Url.decode_form_partial"
   ],
   "note": "False of the code for bytes from 128 on (proved: the round trip holds exactly for ASCII strings, and what comes back otherwise). The alphabet is proved for all strings."
  },
  {
   "property": "C41",
   "status": "proved",
   "theorems": [
    "Current.Url.base_roundtrip",
    "Current.Url.composed_text",
    "Current.Url.relative_url",
    "Current.Url.empty_refused",
    "Current.Url.defaults_set",
    "Current.Url.defaults_same_text",
    "Current.Url.redirect_absolute",
    "Current.Url.redirect_relative",
    "Current.Url.redirect_protocol_relative",
    "Current.Url.url_in_path_is_misparsed",
    "Current.Url.empty_host_is_unstable",
    "Current.Url.large_ports"
   ],
   "note": "With user and password. Findings: paths containing \"://\", empty hosts and large ports."
  },
  {
   "property": "C42",
   "status": "partial",
   "theorems": [
    "Current.Url.query_roundtrip_partial",
    "Current.Url.url_roundtrip_partial",
    "Current.Url.query_bytes",
    "Current.Url.parse_query_string_partial",
    "Current.Url.first_value"
   ],
   "note": "Proved for ASCII keys and values; false of the code for other bytes (query_bytes says what comes back)."
  },
  {
   "property": "C44",
   "status": "proved",
   "theorems": [
    "Current.OT.script_applies",
    "Current.OT.accepted_script_fits",
    "Current.OT.edit_deterministic",
    "Current.OT.edit_length",
    "Current.OT.edit_keeps_order",
    "Current.OT.ot_feeds_processor",
    "Current.OT.ot_is_last_snapshot",
    "Current.OT.refused",
    "Current.OT.erase_past_end",
    "Current.OT.insert_past_end",
    "Current.OT.order_is_textual"
   ],
   "note": "On the parsed JSON document. Findings: edits past the end are undefined behaviour; timestamps do not matter."
  },
  {
   "property": "C52",
   "status": "proved",
   "theorems": [
    "Current.Time.now_values_distinct",
    "Current.Time.now_strictly_increases",
    "Current.Time.now_increases_in_thread",
    "Current.Time.now_retry_means_progress",
    "Current.Time.now_undisturbed",
    "Current.Time.now_le",
    "Current.Time.mock_never_goes_back",
    "Current.Time.mock_set_now",
    "Current.Time.mock_counts_up_to_max",
    "Current.Time.mock_default_is_constant"
   ],
   "note": "On mathematical integers; now_le bounds how far the values run ahead of the clock. Finding: the mock clock with the default max_us repeats its value."
  },
  {
   "property": "C53",
   "status": "proved",
   "theorems": [
    "Current.Sync.access_is_atomic",
    "Current.Sync.one_accessor_at_a_time",
    "Current.Sync.wait_tells_the_truth",
    "Current.Sync.no_lost_wakeup",
    "Current.Sync.wait_can_return",
    "Current.Sync.every_wait_returns",
    "Current.Sync.mislabelled_modification_loses_wakeup"
   ],
   "note": "Proviso of the wake-up theorems: nobody marks an accessor as unmodified after modifying the data through it (the witness shows it is needed). Moving accessors is not modelled (it only adds notifications)."
  },
  {
   "property": "C54",
   "status": "partial",
   "theorems": [
    "Current.Sync.destructor_waits_for_clients",
    "Current.Sync.no_client_once_destructing",
    "Current.Sync.destructor_is_woken",
    "Current.Sync.no_lost_wakeup",
    "Current.Sync.every_wait_returns",
    "Current.Sync.client_may_notify_destroyed_object",
    "Current.Sync.waitFor_ignores_destruction"
   ],
   "note": "Proved: references, waits, no lost notification. Not true of the code: the last client may still call notify_one() on the object after its destructor has returned (witness), and WaitFor does not react to destruction (witness)."
  },
  {
   "property": "C55",
   "status": "partial",
   "theorems": [
    "Current.Net.parser_is_stream_parser",
    "Current.Net.pieces_do_not_matter",
    "Current.Net.accepted_iff",
    "Current.Net.truncated",
    "Current.Net.no_length",
    "Current.Net.too_large",
    "Current.Net.zero_byte_never_ends",
    "Current.Net.headerNameEquals_iff",
    "Current.Net.parse_length",
    "Current.Net.parse_encoding",
    "Current.Net.parse_override",
    "Current.Net.negative_chunk_size_overruns",
    "Current.Net.negative_chunk_size_throws",
    "Current.Net.huge_chunk_size_throws"
   ],
   "note": "Everything but memory safety for a negative chunk size, where the code is wrong: the witness negative_chunk_size_overruns makes recv write past the buffer. atoi of a number that does not fit an int is an outcome of its own. Each recv returns some bytes, or FillFullBuffer all of them; EAGAIN and short MSG_WAITALL reads are not modelled."
  },
  {
   "property": "C56",
   "status": "proved",
   "theorems": [
    "Current.Net.request_round_trip",
    "Current.Net.request_delivered"
   ],
   "note": "For words without white space in the first line and header values without line ends, zeros and blanks at their ends (header_injection shows what happens otherwise), names other than the three the parser interprets."
  },
  {
   "property": "C57",
   "status": "proved",
   "theorems": [
    "Current.Net.response_round_trip",
    "Current.Net.response_delivered",
    "Current.Net.chunked_round_trip",
    "Current.Net.closed_wire",
    "Current.Net.cache_never_overflows",
    "Current.Net.flushed",
    "Current.Net.chunked_response_delivered",
    "Current.Net.chunked_response_arrives",
    "Current.Net.broken_response"
   ],
   "note": "Chunks below 2^31 bytes, bodies up to the payload limit. Writes that fail are covered as a wire cut off at any byte."
  },
  {
   "property": "C58",
   "status": "partial",
   "theorems": [
    "Current.Net.sameKey_iff",
    "Current.Net.set_spec",
    "Current.Net.assign_spec",
    "Current.Net.get_spec",
    "Current.Net.remove_spec",
    "Current.Net.copy_spec",
    "Current.Net.copy_constructor",
    "Current.Net.ops_spec",
    "Current.Net.cookies_round_trip",
    "Current.Net.headers_delivered",
    "Current.Net.remove_other_spelling_dangles",
    "Current.Net.assignment_dangles",
    "Current.Net.cookies_lost"
   ],
   "note": "Proved for sequences in which Remove uses the first spelling and copies go into new containers. Not true of the code otherwise: both Remove under another spelling and assignment over a container with a common header leave a dangling pointer (proved for all such states)."
  },
  {
   "property": "C59",
   "status": "proved",
   "theorems": [
    "Current.Routes.register_ok",
    "Current.Routes.register_view",
    "Current.Routes.unregister_ok",
    "Current.Routes.unregister_view",
    "Current.Routes.unregister_throws",
    "Current.Routes.scopes_own_routes",
    "Current.Routes.register_release",
    "Current.Routes.count_is",
    "Current.Routes.unregister_then_release_terminates"
   ],
   "note": "Calls are sequences since each runs under the mutex. Not modelled: the wait for requests in progress when a handler is removed (C49-C51 cover Owned/Borrowed). Findings: UnRegister is not all-or-nothing when it throws; a route unregistered by hand makes the destructor of its scope terminate the program."
  },
  {
   "property": "C60",
   "status": "proved",
   "theorems": [
    "Current.Routes.find_some",
    "Current.Routes.find_none",
    "Current.Routes.request_path",
    "Current.Routes.args_get",
    "Current.Routes.compose_eq",
    "Current.Routes.compose_found",
    "Current.Routes.at_most_15"
   ],
   "note": "The path is what the URL parser of C41 gives."
  },
  {
   "property": "C61",
   "status": "proved",
   "theorems": [
    "Current.Routes.static_all_or_nothing",
    "Current.Routes.static_serves",
    "Current.Routes.static_requests",
    "Current.Routes.static_no_assertion",
    "Current.Routes.two_index_files_throw",
    "Current.Routes.hidden_unknown_type_throws",
    "Current.Routes.find_exact",
    "Current.Routes.fileRoute_eq",
    "Current.Routes.dirRoute_eq",
    "Current.Routes.slashUrl_eq"
   ],
   "note": "The file system is the list of files ScanDir reports, in any order. Findings: two index files throw although the options promise a priority order; a file of unknown type in a hidden directory throws although hidden directories are to be ignored."
  },
  {
   "property": "C62",
   "status": "partial",
   "theorems": [
    "Current.Json.parse_of_json",
    "Current.Json.json_injective",
    "Current.Json.parse_of_json_string",
    "Current.Json.json_string_injective",
    "Current.Json.realCodec_lawful",
    "Current.Json.realWire_lawful",
    "Current.Json.realWire_is_real",
    "Current.Json.nested_optional_lost",
    "Current.Json.fsharp_inherited_fields_lost",
    "Current.Json.uninitialized_variant_unreadable"
   ],
   "note": "On documents and, with the text layer (RapidJSON reader and writer), on strings; realCodec_lawful and realWire_lawful discharge for this JSON the assumptions of the theorems on log files and replication. Conditions: no Optional directly inside an Optional, initialized Variants, F# cases with fields of their own (the witnesses show that each is needed); doubles that the reader, which is not asked for full precision, reads back exactly (floating point is not modelled)."
  },
  {
   "property": "C63",
   "status": "proved",
   "theorems": [
    "Current.Json.parse_overwrites",
    "Current.Json.parse_keeps_variant"
   ],
   "note": "On documents: parsing the text does not look at the destination. In the Minimalistic and JavaScript formats a Variant that is null or left out keeps what it held (parse_keeps_variant)."
  },
  {
   "property": "C64",
   "status": "partial",
   "theorems": [
    "Current.Json.patch_leaves_unmentioned",
    "Current.Json.patch_sets_mentioned",
    "Current.Json.patch_with_whole",
    "Current.Json.patch_empty",
    "Current.Json.patch_clears_absent_set",
    "Current.Json.patch_fails_on_absent_map",
    "Current.Json.patch_fails_on_absent_variant",
    "Current.Json.patch_struct_with_map_fails",
    "Current.Json.patch_optional_restarts",
    "Current.Json.patch_map_leaks"
   ],
   "note": "Not true of the code for fields that are sets (emptied when absent), maps and, in the Current format, Variants (the patch throws when absent): witnesses. Proved for all others."
  },
  {
   "property": "C65",
   "status": "proved",
   "theorems": [
    "Current.Json.parseText_iff",
    "Current.Json.isText_unique",
    "Current.Json.parse_error_iff",
    "Current.Json.parse_ignores_outer_space",
    "Current.Json.parseNumber_complete",
    "Current.Json.parseNumber_sound",
    "Current.Json.parseString_complete",
    "Current.Json.parseString_sound"
   ],
   "note": "The grammar is a separate specification (Grammar.lean). The conversion of a non-integral number token to a double is a parameter. The call stack is unbounded in the model: in C++ deep nesting overflows it."
  },
  {
   "property": "C66",
   "status": "proved",
   "theorems": [
    "Current.Json.json_is_text",
    "Current.Json.json_is_one_line",
    "Current.Json.toJSON_is_text",
    "Current.Json.prettify_spec",
    "Current.Json.dtoa_length",
    "Current.Json.nan_unreadable",
    "Current.Json.resultingJSON_eq"
   ],
   "note": "Grisu2 is a parameter, assumed to give 1 to 17 digits not starting with zero and an exponent in range (GrisuOk)."
  },
  {
   "property": "C67",
   "status": "proved",
   "theorems": [
    "Current.Strings.slow_is_distance",
    "Current.Strings.fast_is_band_distance",
    "Current.Strings.fast_is_distance",
    "Current.Strings.distance_le_fast",
    "Current.Strings.fast_huge_offset",
    "Current.Strings.fast_max_offset_throws"
   ],
   "note": "Minimality over all edit sequences and all matchings; memo tables and size_t arithmetic included. max_offset from 2^59 on: see the last two theorems."
  },
  {
   "property": "C68",
   "status": "partial",
   "theorems": [
    "Current.Strings.fromString_toString",
    "Current.Strings.fromString_around",
    "Current.Strings.fromString_fits",
    "Current.Strings.fromString_zero",
    "Current.Strings.fromString_too_large",
    "Current.Strings.fromStringByte_toString",
    "Current.Strings.fromStringByte_uninitialized",
    "Current.Strings.fromStringByte_too_large",
    "Current.Strings.fromString_negative_unsigned",
    "Current.Strings.fromStringBool_toString",
    "Current.Strings.fromStringBool_false_iff",
    "Current.Strings.byteEnum_not_read",
    "Current.Strings.char_read_iff"
   ],
   "note": "Proved for integers and booleans. Not true of the code for one byte types (an empty text gives an uninitialized value, numbers that do not fit are truncated) and enums stored in a byte: witnesses. Floating point is not modelled."
  },
  {
   "property": "C69",
   "status": "proved",
   "theorems": [
    "Current.Strings.pack_length",
    "Current.Strings.unpack_pack",
    "Current.Strings.pack_lt_iff"
   ],
   "note": "All values and pairs of values of the three types."
  },
  {
   "property": "C70",
   "status": "proved",
   "theorems": [
    "Current.Strings.trim_spec",
    "Current.Strings.trimmed_unique",
    "Current.Strings.toLower_spec",
    "Current.Strings.toUpper_spec",
    "Current.Strings.toLower_toUpper",
    "Current.Strings.utf8_length",
    "Current.Strings.escapeForCPlusPlus_spec",
    "Current.Strings.escapeForCPlusPlus_not_injective",
    "Current.Strings.escapeForMarkdown_spec"
   ],
   "note": "Text is UTF-8 without zeros for UTF8StringLength."
  },
  {
   "property": "C71",
   "status": "proved",
   "theorems": [
    "Current.Strings.lines_any_chunking",
    "Current.Strings.lines_with_exceptions",
    "Current.Strings.lines_unique",
    "Current.Strings.after_done",
    "Current.Strings.done_is_done",
    "Current.Strings.forgotten_done",
    "Current.Strings.feed_loses_after_zero"
   ],
   "note": "For texts without zero bytes; what is after a zero byte of a piece is lost (last theorem)."
  },
  {
   "property": "C72",
   "status": "partial",
   "theorems": [
    "Current.Strings.hasPrefix_iff",
    "Current.Strings.expungePrefix_spec",
    "Current.Strings.expungePrefix_aborts",
    "Current.Strings.compare_spec",
    "Current.Strings.compare_total",
    "Current.Strings.interned",
    "Current.Strings.unique_eq_partial",
    "Current.Strings.find_spec",
    "Current.Strings.unique_chunks_confused"
   ],
   "note": "\"Comparing UniqueChunks compares texts\" is false of the code for chunks that start at the same address (witness); everything else is proved."
  },
  {
   "property": "C73",
   "status": "partial",
   "theorems": [
    "Current.Fncas.evaluation_is_the_expression",
    "Current.Fncas.evaluation_reusing_the_cache",
    "Current.Fncas.recording_an_operation",
    "Current.Fncas.recording_a_function",
    "Current.Fncas.recording_a_constant",
    "Current.Fncas.recording_a_negation",
    "Current.Fncas.the_variables",
    "Current.Fncas.recorded_function_is_the_function",
    "Current.Fncas.default_term_is_x0",
    "Current.Fncas.signed_zero_rewrites_an_earlier_expression"
   ],
   "note": "Proved for all number systems whose equality does not identify different numbers. For IEEE doubles \"recording does not change what is recorded\" is false of the code when both 0.0 and -0.0 are recorded (last theorem)."
  },
  {
   "property": "C74",
   "status": "proved",
   "theorems": [
    "Current.Fncas.derivative_is_the_derivative",
    "Current.Fncas.unit_step_is_not_differentiable",
    "Current.Fncas.gradient_is_the_gradient",
    "Current.Fncas.Approx.gradient_is_the_derivatives",
    "Current.Fncas.Approx.derivative_exact_for_quadratics",
    "Current.Fncas.Approx.derivative_converges"
   ],
   "note": "Over the real numbers; rounding of doubles is not modelled. The JIT backends are not modelled."
  },
  {
   "property": "C75",
   "status": "partial",
   "theorems": [
    "Current.Fncas.differentiation_cost_is_the_tree_size",
    "Current.Fncas.differentiation_is_exponential",
    "Current.Fncas.evaluation_is_the_expression"
   ],
   "note": "Linear evaluation is proved; linear differentiation is false of the code (exact cost: the size of the expression as a tree; exponential for y = y * y repeated)."
  },
  {
   "property": "C76",
   "status": "partial",
   "theorems": [
    "Current.Fncas.Optimize.gradient_descent_never_worse",
    "Current.Fncas.Optimize.optimizers_report_the_value_at_the_point",
    "Current.Fncas.Optimize.gradient_descent_stuck_at_nan",
    "Current.Fncas.Optimize.btLoop_armijo",
    "Current.Fncas.Optimize.backtracking_first_step",
    "Current.Fncas.Optimize.backtracking_improves",
    "Current.Fncas.Optimize.backtracking_optimizers_may_end_up_worse"
   ],
   "note": "\"Not worse than the start\" is proved for GradientDescentOptimizer and false of the code for the other two (witness with the default parameters)."
  },
  {
   "property": "C77",
   "status": "partial",
   "theorems": [
    "Current.Rest.page_content",
    "Current.Rest.page_exists",
    "Current.Rest.walk_pages",
    "Current.Rest.walk_shows_all",
    "Current.Rest.walk_back",
    "Current.Rest.walk_back_shows_all",
    "Current.Rest.link_text",
    "Current.Rest.default_page",
    "Current.Rest.row_preview",
    "Current.Rest.last_page_overlaps",
    "Current.Rest.empty_page_loops",
    "Current.Rest.huge_page_fails",
    "Current.Rest.walk_example"
   ],
   "note": "Everything but \"each record once\": the last page repeats records of the one before (false of the code), and page size 0 never ends."
  },
  {
   "property": "C78",
   "status": "proved",
   "theorems": [
    "Current.Rest.put_behaviour",
    "Current.Rest.post_behaviour",
    "Current.Rest.patch_behaviour",
    "Current.Rest.delete_behaviour",
    "Current.Rest.get_behaviour",
    "Current.Rest.serve_total",
    "Current.Rest.serve_shutdown",
    "Current.Rest.serve_follower",
    "Current.Rest.serve_bad",
    "Current.Rest.key_from_url",
    "Current.Rest.put_get",
    "Current.Rest.delete_get",
    "Current.Rest.unsent_response",
    "Current.Rest.demo_dictionary"
   ],
   "note": "Parsing of JSON, keys and dates is a parameter. Assumes the clock moves on (Clock.Ok, cf. C07): otherwise publishing ends the process."
  },
  {
   "property": "C79",
   "status": "partial",
   "theorems": [
    "Current.Rest.no_lost_update",
    "Current.Rest.header_time",
    "Current.Rest.header_bad",
    "Current.Rest.header_none",
    "Current.Rest.demo_conditional",
    "Current.Rest.put_after_delete",
    "Current.Rest.put_erases_others"
   ],
   "note": "Proved: a 200 for PUT or PATCH, or a DELETE that deleted, met exactly the entry that was seen. False of the code in two respects: a PUT after somebody deleted the entry creates it again (201), and entries in the way in one-to-one and one-to-many containers are erased unseen."
  },
  {
   "property": "C80",
   "status": "proved",
   "theorems": [
    "Current.Rest.export_shards",
    "Current.Rest.export_master",
    "Current.Rest.export_request",
    "Current.Rest.demo_export"
   ],
   "note": "JSON of an entry and the hash function are parameters."
  },
  {
   "property": "C81",
   "status": "proved",
   "theorems": [
    "Current.HttpDate.imf_round_trip",
    "Current.HttpDate.rfc850_round_trip",
    "Current.HttpDate.default_round_trip",
    "Current.HttpDate.format_text",
    "Current.HttpDate.parse_imf",
    "Current.HttpDate.parse_850",
    "Current.HttpDate.unmodified_iff",
    "Current.HttpDate.parse_bad",
    "Current.HttpDate.isDay_unique",
    "Current.HttpDate.civil_isDay",
    "Current.HttpDate.gmtime_moment",
    "Current.HttpDate.moment_timegm",
    "Current.HttpDate.moment_exists",
    "Current.HttpDate.moment_unique",
    "Current.Rest.header_date",
    "Current.Rest.header_no_date",
    "Current.Rest.no_lost_update_date"
   ],
   "note": "The C library functions are modelled by their documented (glibc, \"C\" locale) behaviour and are part of the trusted base. rfc850 for 1970 to 2068, what two digits can mean."
  },
  {
   "property": "C82",
   "status": "proved",
   "theorems": [
    "Current.Tsv.unpack_pack",
    "Current.Tsv.pack_total",
    "Current.Tsv.pack_table",
    "Current.Tsv.pack_prefix",
    "Current.Tsv.unpack_reads_outside"
   ],
   "note": "All tables. Unpacking of malformed input is not covered: it is undefined behaviour."
  },
  {
   "property": "C83",
   "status": "partial",
   "theorems": [
    "Current.Infer.inferred_type_parses",
    "Current.Infer.header_compiles",
    "Current.Infer.inference_sound",
    "Current.Infer.blind_all",
    "Current.Infer.blind_ignoreList",
    "Current.Infer.emptyArraysAgree_of_none",
    "Current.Infer.empty_array_not_parsed",
    "Current.Infer.nulls_only_do_not_compile",
    "Current.Infer.names_collide",
    "Current.Infer.duplicate_keys_do_not_compile",
    "Current.Infer.keyword_accepted",
    "Current.Infer.ignored_by_index_not_parsed"
   ],
   "note": "False of the code in the cases of the witnesses; proved for documents without them: distinct keys, empty arrays only where all values are arrays, no underscores in keys, an element other than null wherever there are arrays. C++ keywords are not part of the model of the compiler."
  },
  {
   "property": "C84",
   "status": "proved",
   "theorems": [
    "Current.Infer.inference_succeeds_iff",
    "Current.Infer.file_describes",
    "Current.Infer.order_irrelevant",
    "Current.Infer.valid_iff",
    "Current.Infer.empty_file"
   ],
   "note": "Objects without duplicate keys; ignored paths not depending on array indexes. Counters are unbounded, floating point sums left out."
  },
  {
   "property": "C85",
   "status": "partial",
   "theorems": [
    "Current.Infer.table_right",
    "Current.Infer.unset_depends_on_order"
   ],
   "note": "False of the code for the number of unset values (unset_depends_on_order); proved that it is zero exactly if there are none, and everything else. Means and standard deviations are not modelled."
  },
  {
   "property": "C86",
   "status": "partial",
   "theorems": [
    "Current.Flags.parse_iff",
    "Current.Flags.help_iff",
    "Current.Flags.reading_unique",
    "Current.Flags.number_flag",
    "Current.Flags.int_flag_fits",
    "Current.Flags.byte_flag_wrong",
    "Current.Flags.number_flag_lenient",
    "Current.Flags.takes_next",
    "Current.Flags.example_ok"
   ],
   "note": "False of the code for flags of one byte (byte_flag_wrong); everything else proved, floating point flags left out."
  },
  {
   "property": "C87",
   "status": "partial",
   "theorems": [
    "Current.Csv.csv_read",
    "Current.Csv.csv_shape",
    "Current.Csv.cells_spec",
    "Current.Csv.example_read",
    "Current.Csv.empty_cell_shifts",
    "Current.Csv.empty_cell_refused",
    "Current.Csv.no_quoting",
    "Current.Csv.not_a_number"
   ],
   "note": "False of the code for empty cells (empty_cell_shifts, empty_cell_refused); proved for all files without them."
  },
  {
   "property": "C88",
   "status": "partial",
   "theorems": [
    "Current.Config.update_done",
    "Current.Config.history",
    "Current.Config.restart",
    "Current.Config.update_first_fails",
    "Current.Config.update_killed",
    "Current.Config.historical_inj",
    "Current.Config.historical_ne",
    "Current.Config.killed_unreadable",
    "Current.Config.full_disk_unnoticed",
    "Current.Config.failed_update_kept",
    "Current.Config.same_second"
   ],
   "note": "False of the code in the cases witnessed: a crash during the second write (killed_unreadable), a full disk (full_disk_unnoticed), a failed second write (failed_update_kept), two updates in a second (same_second). Proved: everything else, and that a crash never loses the old config."
  },
  {
   "property": "C89",
   "status": "proved",
   "theorems": [
    "Current.Rip.stages_receive_in_order",
    "Current.Rip.join_means_all_received",
    "Current.Rip.no_timestamp_errors",
    "Current.Rip.idle_means_settled",
    "Current.Rip.demo_proper",
    "Current.Rip.demo_inputs",
    "Current.Rip.demo_joins",
    "Current.Rip.demoPost_proper",
    "Current.Rip.demoPost_inputs"
   ],
   "note": "For flows of user classes (and sums of them); schedule and head are left to C90, user threads to C91."
  },
  {
   "property": "C90",
   "status": "partial",
   "theorems": [
    "Current.Rip.never_stuck",
    "Current.Rip.every_run_ends",
    "Current.Rip.join_means_all_received",
    "Current.Rip.demo_step_count",
    "Current.Rip.equal_schedules_hang_join",
    "Current.Rip.far_schedule_hangs_join"
   ],
   "note": "False of the code with schedule (equal_schedules_hang_join, far_schedule_hangs_join); proved for flows that emit or post."
  },
  {
   "property": "C91",
   "status": "partial",
   "theorems": [
    "Current.Rip.delivered_or_reported_partial",
    "Current.Rip.concurrent_emit_is_lost",
    "Current.Rip.concurrent_emits_swap"
   ],
   "note": "False of the code (the two witnesses); proved: each message is delivered once or reported, never neither or both."
  },
  {
   "property": "C92",
   "status": "proved",
   "theorems": [
    "Current.Rip.par_sides",
    "Current.Rip.par_sends_both",
    "Current.Rip.par_assoc",
    "Current.Rip.pass_sends",
    "Current.Rip.drop_sends",
    "Current.Rip.seq_assoc",
    "Current.Rip.seq_assoc_demo"
   ],
   "note": "Sums of user classes; a sum of pipelines is the subject of C91."
  },
  {
   "property": "C93",
   "status": "proved",
   "theorems": [
    "Current.Schema.ids_do_not_depend_on_history",
    "Current.Schema.fresh_is_structural",
    "Current.Schema.typeId_is_structural",
    "Current.Schema.typeId_ends",
    "Current.Schema.HasId.unique",
    "Current.Schema.hasId_iff",
    "Current.Schema.testTypes_sound",
    "Current.Schema.testTypes_closed"
   ],
   "note": "The ids of recursive types do not depend on the history either, but may depend on the compiler: C94."
  },
  {
   "property": "C94",
   "status": "partial",
   "theorems": [
    "Current.Schema.id_tells_the_kind",
    "Current.Schema.renamed_enum",
    "Current.Schema.renamed_struct",
    "Current.Schema.fields_64_apart",
    "Current.Schema.enum_underlying_type_does_not_count",
    "Current.Schema.array_id_of_another_kind",
    "Current.Schema.recursive_id_depends_on_the_compiler"
   ],
   "note": "False of the code as stated (the last four are witnesses)."
  },
  {
   "property": "C95",
   "status": "partial",
   "theorems": [
    "Current.Schema.schema_is_complete_and_sorted",
    "Current.Schema.testTypes_plain",
    "Current.Schema.arrays_break_the_schema",
    "Current.Schema.arrays_break_the_schema'",
    "Current.Schema.template_argument_not_in_the_schema"
   ],
   "note": "Proved for programs without std::array and without colliding ids, template arguments not counting as used; false otherwise (the witnesses)."
  },
  {
   "property": "C96",
   "status": "proved",
   "theorems": [
    "Current.Schema.crcStep_spec",
    "Current.Schema.crc32_is_crc32",
    "Current.Schema.crc32_continues",
    "Current.Schema.crc32_notices_a_byte"
   ],
   "note": ""
  },
  {
   "property": "C97",
   "status": "proved",
   "theorems": [
    "Current.Jit.compiled_function",
    "Current.Jit.compiled_is_interpreted",
    "Current.Jit.demo_provided",
    "Current.Jit.displacement_right",
    "Current.Jit.call_index_right",
    "Current.Jit.displacement_wraps",
    "Current.Jit.call_index_limit"
   ],
   "note": "Under 2^28 - 16 nodes; beyond that false (displacement_wraps), the check in the code being switched off."
  },
  {
   "property": "C98",
   "status": "proved",
   "theorems": [
    "Current.Jit.compiled_gradient",
    "Current.Jit.genGs_ok"
   ],
   "note": "Under the same bound on the number of nodes."
  },
  {
   "property": "C99",
   "status": "partial",
   "theorems": [
    "Current.Net.redirect_is_3xx_with_location",
    "Current.Net.redirects_followed",
    "Current.Net.redirects_end",
    "Current.Net.same_text_same_request",
    "Current.Net.bad_url_sends_nothing",
    "Current.Net.endless_redirects",
    "Current.Net.lower_case_location_is_ignored",
    "Current.Net.relative_location_is_a_host",
    "Current.Net.redirect_sends_everything_elsewhere"
   ],
   "note": "Proved: what is returned is true, loops are reported truly, and the call ends if the redirects lead to finitely many URLs. False of the code: that it always ends and that every Location is followed (the witnesses)."
  },
  {
   "property": "C100",
   "status": "partial",
   "theorems": [
    "Current.Karl.keepalive_activates",
    "Current.Karl.delete_deregisters",
    "Current.Karl.active_is_watched",
    "Current.Karl.timed_out_was_silent",
    "Current.Karl.disconnected_was_told",
    "Current.Karl.deregistered_stays_partial",
    "Current.Karl.seen_is_recording",
    "Current.Karl.demo_life",
    "Current.Karl.deregistered_overwritten",
    "Current.Karl.accepted_then_disconnected"
   ],
   "note": "Proved for all interleavings, except that a service stays deregistered: false of the code if the state update thread had picked it before (witnesses)."
  },
  {
   "property": "C101",
   "status": "partial",
   "theorems": [
    "Current.Karl.silent_is_dropped_partial",
    "Current.Karl.bound_is_tight",
    "Current.Karl.destructor_returns",
    "Current.Karl.restart_never_drops",
    "Current.Karl.restart_keepalive_no_wake"
   ],
   "note": "Proved: the bound 2*timeout+1 for a Karl started with no active services, and that it is tight; the destructor. False of the code after a restart (witnesses)."
  },
  {
   "property": "C102",
   "status": "partial",
   "theorems": [
    "Current.Karl.Snapshot.refused_iff_never_seen",
    "Current.Karl.Snapshot.snapshot_exact",
    "Current.Karl.Snapshot.snapshot_is_last_partial",
    "Current.Karl.Snapshot.snapshot_of_another_service",
    "Current.Karl.Snapshot.snapshot_is_stale"
   ],
   "note": "Proved: the exact answer for every history. It is the last keepalive only if Karl was restarted since; otherwise false of the code (witnesses)."
  },
  {
   "property": "C103",
   "status": "partial",
   "theorems": [
    "Current.Karl.Report.report_exact",
    "Current.Karl.Report.report_service_partial",
    "Current.Karl.Report.report_refused",
    "Current.Karl.Report.demo_report",
    "Current.Karl.Report.report_old_service"
   ],
   "note": "Proved: the report exactly. The service name is that of the last keepalive only if it did not change in the window (witness)."
  },
  {
   "property": "C104",
   "status": "partial",
   "theorems": [
    "Current.Claire.keepalive_not_late",
    "Current.Claire.keepalive_not_often",
    "Current.Claire.asked_for",
    "Current.Claire.wait_is_truthful",
    "Current.Claire.call_mark",
    "Current.Claire.mark_stays",
    "Current.Claire.force_not_lost",
    "Current.Claire.forced_sends",
    "Current.Claire.asked_once",
    "Current.Claire.destructor_returns",
    "Current.Claire.register_ok_partial",
    "Current.Claire.demo_two",
    "Current.Claire.demo_force",
    "Current.Claire.register_after_force_exits",
    "Current.Claire.wait_in_destruction_stuck"
   ],
   "note": "Proved for all interleavings except: Register after ForceSendKeepalive ends the program, and a waiting call during destruction is stuck (witnesses)."
  },
  {
   "property": "C105",
   "status": "partial",
   "theorems": [
    "Current.Net.Once.one_response",
    "Current.Net.Once.second_answer_throws",
    "Current.Net.Once.first_answer_is_sent",
    "Current.Net.Once.no_dangling",
    "Current.Net.Once.all_answered_partial",
    "Current.Net.Once.demo_once",
    "Current.Net.Once.part_then_500",
    "Current.Net.Once.sender_outlives_request",
    "Current.Net.Once.silent_client_blocks",
    "Current.Net.Once.foreign_exception_ends"
   ],
   "note": "Proved: exactly one response for every handler while the socket works; every client is answered unless one of those before it was silent or let a foreign exception out. Without these provisos false of the code (witnesses)."
  },
  {
   "property": "C106",
   "status": "partial",
   "theorems": [
    "Current.Net.Tcp.written",
    "Current.Net.Tcp.read_in_order",
    "Current.Net.Tcp.read_subsequence",
    "Current.Net.Tcp.read_length",
    "Current.Net.Tcp.end_to_end",
    "Current.Net.Tcp.full_read_partial",
    "Current.Net.Tcp.asap_read",
    "Current.Net.Tcp.empty_read",
    "Current.Net.Tcp.write_reported",
    "Current.Net.Tcp.demo_tcp",
    "Current.Net.Tcp.full_does_not_read_on",
    "Current.Net.Tcp.again_is_not_retried",
    "Current.Net.Tcp.eof_reported_as_reset",
    "Current.Net.Tcp.two_gib_write"
   ],
   "note": "Proved for all sequences of calls and answers of the kernel: order, no gap, lengths, what exceptions mean. False of the code: that FillFullBuffer reads on after a short recv, that EAGAIN is retried, that an end of stream is told from a reset, that writes of 2 GiB and more are reported correctly (witnesses)."
  },
  {
   "property": "C107",
   "status": "partial",
   "theorems": [
    "Current.Net.Ports.terminates",
    "Current.Net.Ports.outcome",
    "Current.Net.Ports.hint_first",
    "Current.Net.Ports.port_in_range",
    "Current.Net.Ports.gives_up_partial",
    "Current.Net.Ports.first_call_succeeds",
    "Current.Net.Ports.demo_ports",
    "Current.Net.Ports.gives_up_too_early"
   ],
   "note": "Proved: termination, what the outcome says, the hint; giving up only after all ports were tried for searches that start at the beginning of the order. False of later calls (witness)."
  },
  {
   "property": "C108",
   "status": "partial",
   "theorems": [
    "Current.Net.Handles.never_closed_twice",
    "Current.Net.Handles.one_owner",
    "Current.Net.Handles.all_closed_partial",
    "Current.Net.Handles.moved_away",
    "Current.Net.Handles.demo_handles",
    "Current.Net.Handles.assign_leaks",
    "Current.Net.Handles.self_assign_leaks",
    "Current.Net.Handles.failed_constructor_leaks",
    "Current.Net.Handles.descriptor_zero"
   ],
   "note": "Proved for all programs: never closed twice, one owner, moved-from objects. All closed in the end unless a socket object that has a socket is assigned to, or a constructor fails halfway (witnesses that these leak)."
  },
  {
   "property": "C109",
   "status": "partial",
   "theorems": [
    "Current.Evolve.evolution_is_structural",
    "Current.Evolve.natural_identity_partial",
    "Current.Evolve.natural_changes_nothing",
    "Current.Evolve.destination_overwritten",
    "Current.Evolve.empty_variant_throws",
    "Current.Evolve.demo_evolution",
    "Current.Evolve.demo_natural",
    "Current.Evolve.map_merges",
    "Current.Evolve.default_map_merges",
    "Current.Evolve.drop_keeps_old",
    "Current.Evolve.keys_collide"
   ],
   "note": "Proved for all types, evolvers and values when the maps in the destination and in default-constructed objects are empty, keys keep their order and no case is dropped. Without these false of the code (witnesses)."
  },
  {
   "property": "C110",
   "status": "partial",
   "theorems": [
    "Current.Value.optional_is_a_value",
    "Current.Value.optional_owns",
    "Current.Value.optional_no_leak",
    "Current.Value.optional_no_dangling",
    "Current.Value.optional_copy_is_deep",
    "Current.Value.optional_order",
    "Current.Value.optional_order_mixed",
    "Current.Value.optional_pod_is_a_value",
    "Current.Value.demoOptional_runs",
    "Current.Value.demoBare_runs",
    "Current.Value.optional_move_of_bare_loses",
    "Current.Value.optional_self_move_empties",
    "Current.Value.optional_bare_dangles",
    "Current.Value.immutable_moved_from_still_exists"
   ],
   "note": "Proved for all programs without bare pointers; ownership and deep copies also with them. With bare pointers a move loses the value, and ImmutableOptional is not empty after a move (witnesses)."
  },
  {
   "property": "C111",
   "status": "partial",
   "theorems": [
    "Current.Variant.variant_is_a_value",
    "Current.Variant.variant_owns",
    "Current.Variant.variant_throw_changes_nothing",
    "Current.Variant.variant_listed",
    "Current.Variant.variant_call",
    "Current.Variant.variant_exists_one",
    "Current.Variant.variant_convert_back",
    "Current.Variant.demoVariant_runs",
    "Current.Variant.variant_exists_base",
    "Current.Variant.variant_unchecked",
    "Current.Variant.const_nested_variant_throws"
   ],
   "note": "Proved for all programs of checked operations (refinement, ownership and atomicity of throwing operations also with unchecked ones). False of the code for const arguments of a listed variant type, which are converted instead of nested (witness)."
  },
  {
   "property": "C112",
   "status": "proved",
   "theorems": [
    "Current.Cqs.first_registration_stands",
    "Current.Cqs.queries_only_read",
    "Current.Cqs.cqs_on_followers",
    "Current.Cqs.refused_commands",
    "Current.Cqs.failed_commands",
    "Current.Cqs.committed_commands",
    "Current.Cqs.storage_history",
    "Current.Cqs.demo_cqs",
    "Current.Cqs.demo_cqs_runs"
   ],
   "note": "Proved for all histories, handlers and requests."
  },
  {
   "property": "C113",
   "status": "proved",
   "theorems": [
    "Current.Rest.rows_served",
    "Current.Rest.cols_served",
    "Current.Rest.row_page",
    "Current.Rest.demo_rows"
   ],
   "note": "Proved for all good storages (every history leads to one: `good_calls`), matrices of all kinds, requests and both flavours."
  },
  {
   "property": "C114",
   "status": "partial",
   "theorems": [
    "Current.RestLife.routes_of_the_living",
    "Current.RestLife.constructor_all_or_nothing",
    "Current.RestLife.alias_serves_target",
    "Current.RestLife.switch_turns_off_partial",
    "Current.RestLife.destructor_unregisters",
    "Current.RestLife.storages_are_isolated_partial",
    "Current.RestLife.demo_config",
    "Current.RestLife.demo_run",
    "Current.RestLife.demo_switch",
    "Current.RestLife.demo_destroy",
    "Current.RestLife.demo_second",
    "Current.RestLife.failed_alias_takes_a_foreign_route_down",
    "Current.RestLife.failed_alias_breaks_the_switch",
    "Current.RestLife.alias_after_switch_is_live",
    "Current.RestLife.empty_target_is_cqs"
   ],
   "note": "Proved for all histories, except that switching off and isolation need that no RegisterAlias ran into a route taken: otherwise they are false of the code (witnessed)."
  },
  {
   "property": "C115",
   "status": "partial",
   "theorems": [
    "Current.Remote.remote_lawful",
    "Current.Remote.nothing_after_destruction",
    "Current.Remote.done_callback_once",
    "Current.Remote.no_new_chunk",
    "Current.Remote.ends_soon",
    "Current.Remote.not_stuck",
    "Current.Remote.none_left_waiting",
    "Current.Remote.announced_is_terminated",
    "Current.Remote.wait_never_ends",
    "Current.Remote.alive_not_bad",
    "Current.Remote.owner_first_is_safe",
    "Current.Remote.callback_of_a_destroyed_scope",
    "Current.Remote.demo_history",
    "Current.Remote.demo_requested",
    "Current.Remote.demo_owner_first",
    "Current.Remote.demo_wait",
    "Current.Remote.foreign_exception_crashes"
   ],
   "note": "Everything is proved for subscribers that agree to terminate. False of the code for a subscriber that answers Wait (proved for every such state), and when the remote stream and the scope are destroyed at the same time (witnessed)."
  },
  {
   "property": "C116",
   "status": "partial",
   "theorems": [
    "Current.Ctl.roles_history",
    "Current.Ctl.one_holder_at_rest",
    "Current.Ctl.one_holder_always",
    "Current.Ctl.never_stuck",
    "Current.Ctl.steps_left",
    "Current.Ctl.two_follows_hang",
    "Current.Ctl.two_follows_hang_for_ever",
    "Current.Ctl.flip_during_request_crashes",
    "Current.Ctl.flip_during_follow_hangs",
    "Current.Ctl.discipline_is_needed"
   ],
   "note": "Everything is proved for calls that keep to the stated discipline. False of the code without it: concurrent FollowRemoteStream calls deadlock, FlipToMaster concurrent with a flip request uses a null pointer, FlipToMaster concurrent with FollowRemoteStream hangs (all witnessed)."
  },
  {
   "property": "C117",
   "status": "partial",
   "theorems": [
    "Current.Xterm.single_line_shows",
    "Current.Xterm.single_line_leaves_nothing",
    "Current.Xterm.each_line_shows",
    "Current.Xterm.twoLines_disciplined",
    "Current.Xterm.race_writes_elsewhere",
    "Current.Xterm.race_writes_elsewhere'"
   ],
   "note": "Proved for one line, and for several when no line is created while another one is updated or created. False of the code otherwise (witnessed)."
  },
  {
   "property": "C118",
   "status": "partial",
   "theorems": [
    "Current.Rounding.round_near",
    "Current.Rounding.round_tidy",
    "Current.Rounding.round_sign",
    "Current.Rounding.digits_denote",
    "Current.Rounding.lt_pow_dimOf",
    "Current.Rounding.pow_dimOf_le",
    "Current.Rounding.dimOf_leading_zero",
    "Current.Rounding.leading_zero"
   ],
   "note": "Doubles are modelled as exact numbers. The distance is proved for all values; the format for all values that are not just below a power of ten, where it is false of the code (witnessed)."
  },
  {
   "property": "C119",
   "status": "proved",
   "theorems": [
    "Current.Html.html_balanced",
    "Current.Html.exec_keeps",
    "Current.Html.scope_restored",
    "Current.Html.answered_once",
    "Current.Html.writes_page",
    "Current.Html.scope_writes_page",
    "Current.Html.misuse_throws",
    "Current.Html.demo_clean",
    "Current.Html.attributes_not_escaped"
   ],
   "note": "For texts without tags and attribute values without quotes, as the property says; without that it is false (witnessed)."
  },
  {
   "property": "C120",
   "status": "partial",
   "theorems": [
    "Current.Profiler.report_exact_partial",
    "Current.Profiler.report_exact_no_reset",
    "Current.Profiler.children_time",
    "Current.Profiler.root_children_time_partial",
    "Current.Profiler.scope_assertions",
    "Current.Profiler.report_assertions_partial",
    "Current.Profiler.overheads_exact",
    "Current.Profiler.example1_reported",
    "Current.Profiler.root_children_exceed",
    "Current.Profiler.entries_wrong_after_reset"
   ],
   "note": "False of the code: after a reset scopes not being visited have one entry too many, and the first scope of a thread has more time than the thread (both witnessed); everything else is proved."
  },
  {
   "property": "C121",
   "status": "proved",
   "theorems": [
    "Current.Nginx.print_read",
    "Current.Nginx.full_read",
    "Current.Nginx.build_read",
    "Current.Nginx.one_server_per_port",
    "Current.Nginx.createServer_throws",
    "Current.Nginx.means_proxyPass",
    "Current.Nginx.demo_text",
    "Current.Nginx.demo_means",
    "Current.Nginx.add_not_checked",
    "Current.Nginx.parameters_not_checked"
   ],
   "note": "Backslashes in parameters are not covered; servers added with Add instead of CreateServer are outside of the claim (witnessed)."
  },
  {
   "property": "C122",
   "status": "proved",
   "theorems": [
    "Current.Nginx.written_read",
    "Current.Nginx.returned_live",
    "Current.Nginx.outcome_exact",
    "Current.Nginx.read_infix",
    "Current.Nginx.demo_update",
    "Current.Nginx.failed_reload_keeps_file",
    "Current.Nginx.lvalue_changed"
   ],
   "note": "Assumes that nginx answers from the configuration it runs, runs what it has read from the file, and that the secret answer (SHA256 of a random number) occurs in no earlier text of the file."
  },
  {
   "property": "C123",
   "status": "partial",
   "theorems": [
    "Current.NLP.matchIntoVector_is_results_partial",
    "Current.NLP.vector_is_matches_partial",
    "Current.NLP.justMatch_is_first_partial",
    "Current.NLP.justMatch_agrees_partial",
    "Current.NLP.unit_block_once_partial",
    "Current.NLP.eval_any_callback",
    "Current.NLP.mem_results",
    "Current.NLP.matches_local",
    "Current.NLP.formula_proper",
    "Current.NLP.formula_coherent",
    "Current.NLP.formula_query",
    "Current.NLP.second_filter_ignored",
    "Current.NLP.map_to_unit_repeats",
    "Current.NLP.or_eq",
    "Current.NLP.tupleCat_eq",
    "Current.NLP.ty_real",
    "Current.NLP.matches_typed",
    "Current.NLP.types_of_tests",
    "Current.NLP.formula_typed"
   ],
   "note": "Missing: false of the code for programs with two Maps or Filters of the same implementation type and different functions (second_filter_ignored) and for Maps to Unit (map_to_unit_repeats); proved for all others."
  },
  {
   "property": "C124",
   "status": "proved",
   "theorems": [
    "Current.NLP.annotation",
    "Current.NLP.keyword_upper_never"
   ],
   "note": "Without a custom annotator (arbitrary user code)."
  },
  {
   "property": "C125",
   "status": "proved",
   "theorems": [
    "Current.Flow.flow_is_file_system",
    "Current.Flow.flow_well_formed",
    "Current.Flow.flow_no_500",
    "Current.Flow.demo_fresh",
    "Current.Flow.demo_responses",
    "Current.Flow.colliding_key_loses_a_file",
    "Current.Flow.colliding_blob_shared"
   ],
   "note": "Under the stated assumption that the random keys are fresh, which the code does not check."
  },
  {
   "property": "C126",
   "status": "partial",
   "theorems": [
    "Current.EventStore.get_is_log",
    "Current.EventStore.created_is_kept",
    "Current.EventStore.created_once",
    "Current.EventStore.stored_was_announced",
    "Current.EventStore.announced_at_least",
    "Current.EventStore.announced_exactly_partial",
    "Current.EventStore.subscribe_is_prefix",
    "Current.EventStore.subscribe_catches_up",
    "Current.EventStore.demo_responses",
    "Current.EventStore.demo_no_orphan",
    "Current.EventStore.crash_announces_twice"
   ],
   "note": "Missing: \"announced exactly once\" is false of the code if the process dies between the announcement and the transaction (crash_announces_twice); proved for all other histories. The rest is proved for all histories."
  },
  {
   "property": "C127",
   "status": "partial",
   "theorems": [
    "Current.Collector.logged_once",
    "Current.Collector.ticks_apart",
    "Current.Collector.tick_after_silence",
    "Current.Collector.no_ticks_after_stop",
    "Current.Collector.sorted_partial",
    "Current.Collector.demo_run",
    "Current.Collector.demo_undisturbed",
    "Current.Collector.log_goes_back"
   ],
   "note": "Missing: the timestamps of the log increase; false of the code if a tick is written while a request waits for the mutex (log_goes_back). The rest is proved for all interleavings."
  },
  {
   "property": "C128",
   "status": "proved",
   "theorems": [
    "Current.Pipeline.workers_see_the_sequential_stream",
    "Current.Pipeline.workers_do_not_race",
    "Current.Pipeline.source_does_not_race",
    "Current.Pipeline.never_stuck",
    "Current.Pipeline.canGo_goes",
    "Current.Pipeline.total_is_reached_by_all",
    "Current.Pipeline.total_only_grows",
    "Current.Pipeline.buffer_size",
    "Current.Pipeline.demo_ok",
    "Current.Pipeline.parallel_writers_depend_on_the_schedule"
   ],
   "note": "For workers which keep the size of a blob and, in parallel groups, do not change it (Cfg.Ok; without it the result depends on the schedule, parallel_writers_depend_on_the_schedule)."
  },
  {
   "property": "C129",
   "status": "proved",
   "theorems": [
    "Current.TypeLists.contains_iff",
    "Current.TypeLists.cat_eq",
    "Current.TypeLists.union_eq",
    "Current.TypeLists.firsts_spec",
    "Current.TypeLists.union_of_one_keeps_duplicates",
    "Current.TypeLists.removeVoids_eq",
    "Current.TypeLists.flatten_eq",
    "Current.TypeLists.slow_eq",
    "Current.TypeLists.slow_nested",
    "Current.TypeLists.evensOnly_get",
    "Current.TypeLists.element_eq",
    "Current.TypeLists.filter_eq",
    "Current.TypeLists.reduce_eq",
    "Current.TypeLists.generateIndexes_eq"
   ],
   "note": "For all lists; the union and concatenation statements are for two or more lists, those of a single list return it unchecked."
  },
  {
   "property": "C130",
   "status": "partial",
   "theorems": [
    "Current.EmbeddedDb.answers_are_prefix_reads",
    "Current.EmbeddedDb.ready_means_replayed_partial",
    "Current.EmbeddedDb.ready_one_early",
    "Current.EmbeddedDb.gets_ready",
    "Current.EmbeddedDb.quiet_replay_is_ready",
    "Current.EmbeddedDb.never_ready",
    "Current.EmbeddedDb.stays_ready"
   ],
   "note": "Missing: \"the whole log\" is false of the code, the last entry may be missing (ready_one_early); \"gets ready\" holds for logs of two or more entries without concurrent publications, and is false in general (never_ready)."
  },
  {
   "property": "C131",
   "status": "proved",
   "theorems": [
    "Current.Gbt.nested_partitions_see_the_right_sets",
    "Current.Gbt.stable_ok"
   ],
   "note": "For any std::partition; callbacks which throw are not modelled."
  },
  {
   "property": "C132",
   "status": "partial",
   "theorems": [
    "Current.Gbt.ensemble_is_right",
    "Current.Gbt.apply_gives_a_mean",
    "Current.Gbt.best_feature_is_chosen_partial",
    "Current.Gbt.worst_feature_is_chosen",
    "Current.Gbt.positive_goals_choose_the_worst",
    "Current.Gbt.useless_feature",
    "Current.Gbt.useful_feature",
    "Current.Gbt.no_split",
    "Current.Gbt.good_choice"
   ],
   "note": "Missing: \"by the feature which minimises the spread\" holds where the denominator is positive only, and is false of the code elsewhere (worst_feature_is_chosen, no_split). Exact arithmetic in place of int64_t and double; weights one."
  },
  {
   "property": "C133",
   "status": "partial",
   "theorems": [
    "Current.Gbt.derived_number_is_zero",
    "Current.Gbt.derived_number_should_be",
    "Current.Gbt.transposed_matrix_is_right",
    "Current.Gbt.evaluation_agrees_partial",
    "Current.Gbt.scores_differ",
    "Current.Gbt.every_example_is_used",
    "Current.Gbt.fraction_is_of_the_training_set",
    "Current.Gbt.area_is_a_fraction",
    "Current.Gbt.perfect_scores"
   ],
   "note": "Missing: the number of features is zero if not given (derived_number_is_zero), the scores agree for leaves with integer values only (scores_differ): both are false of the code. Exact arithmetic."
  },
  {
   "property": "C134",
   "status": "partial",
   "theorems": [
    "Current.KarlTest.isPrime_eq",
    "Current.KarlTest.int_max_overflows",
    "Current.KarlTest.streams_are_right",
    "Current.KarlTest.quiet_means_complete",
    "Current.KarlTest.subscriber_terminates_partial",
    "Current.KarlTest.subscriber_may_lose_its_id",
    "Current.KarlTest.demo_run"
   ],
   "note": "Missing: \"right for every int\" is false of the code for primes from 2147395600 on (isPrime_eq says exactly which), \"can be destroyed\" is false for some schedules (subscriber_may_lose_its_id)."
  },
  {
   "property": "C135",
   "status": "proved",
   "theorems": [
    "Current.Workers.indexer_numbers",
    "Current.Workers.processor_sends",
    "Current.Workers.processor_exits",
    "Current.Workers.saver_files",
    "Current.Workers.drive_eq",
    "Current.Workers.restart_loses",
    "Current.Workers.gap_misfiled"
   ],
   "note": "Failing system calls and buffering of the last file are not modelled."
  },
  {
   "property": "C136",
   "status": "partial",
   "theorems": [
    "Current.Syscalls.nothing_is_lost",
    "Current.Syscalls.last_is_empty",
    "Current.Syscalls.lines_are_read",
    "Current.Syscalls.full_buffer_gives_an_empty_line",
    "Current.Syscalls.nul_hides",
    "Current.Syscalls.tiny_buffer_hangs",
    "Current.Syscalls.systemCall_returns",
    "Current.Syscalls.wrong_exception",
    "Current.Syscalls.no_shell_iff",
    "Current.Syscalls.what_is_left",
    "Current.Syscalls.jit_ok",
    "Current.Syscalls.jit_ok_iff",
    "Current.Syscalls.nul_hides_errors",
    "Current.Syscalls.jit_demo"
   ],
   "note": "Missing, since false of the code: that nothing is left behind (what_is_left says exactly what is), that the reason in the exception of SystemCall is right (no_shell_iff), that the success of the compiler decides (jit_ok_iff: its output does)."
  },
  {
   "property": "C137",
   "status": "partial",
   "theorems": [
    "Current.CodeService.only_posted_code_runs",
    "Current.CodeService.accepted_code_runs",
    "Current.CodeService.compiled_once",
    "Current.CodeService.reply_says",
    "Current.CodeService.runs_what_is_there",
    "Current.CodeService.not_taken_over",
    "Current.CodeService.posted_code_runs_partial",
    "Current.CodeService.other_code_runs",
    "Current.CodeService.form_compiles_again",
    "Current.CodeService.accept_defined",
    "Current.CodeService.accept_crash",
    "Current.CodeService.request_too_early",
    "Current.CodeService.request_too_late",
    "Current.CodeService.requests_in_between"
   ],
   "note": "Missing, since false of the code: in the taxi service an id may run other code than that posted (other_code_runs), requests with a strange Accept header or during construction are undefined (accept_crash, request_too_early)."
  },
  {
   "property": "C138",
   "status": "partial",
   "theorems": [
    "Current.TsvToJson.excel_right",
    "Current.TsvToJson.excel_injective",
    "Current.TsvToJson.identifier_valid",
    "Current.TsvToJson.identifier_keeps",
    "Current.TsvToJson.identifier_collides",
    "Current.TsvToJson.headerNames_get",
    "Current.TsvToJson.headerNames_distinct_partial",
    "Current.TsvToJson.header_collides",
    "Current.TsvToJson.values_right_partial",
    "Current.TsvToJson.main_right_partial",
    "Current.TsvToJson.missing_value_is_undefined",
    "Current.TsvToJson.numbers_shift",
    "Current.TsvToJson.sparse_is_undefined",
    "Current.TsvToJson.dense_exits"
   ],
   "note": "Missing, since false of the code: columns of numbers with missing values (missing_value_is_undefined), rows of different lengths (sparse_is_undefined), different names for all headers (header_collides)."
  },
  {
   "property": "C139",
   "status": "partial",
   "theorems": [
    "Current.Dot.text_is_read_as_the_graph",
    "Current.Dot.label_is_shown",
    "Current.Dot.value_without_backslashes",
    "Current.Dot.backslash_is_doubled",
    "Current.Dot.names_are_distinct",
    "Current.Dot.keys_are_left",
    "Current.Dot.stranger_is_taken_for_another",
    "Current.Dot.stranger_from_an_earlier_graph",
    "Current.Dot.stranger_is_node_zero",
    "Current.Dot.added_twice_is_undefined",
    "Current.Dot.sample_ok",
    "Current.Dot.sample_text",
    "Current.Dot.unbalanced_html_is_not_read",
    "Current.Dot.backslash_in_title",
    "Current.Dot.stranger_example"
   ],
   "note": "Proved for graphs of distinct nodes whose edges and groups are among them. Missing, since false of the code: nodes added twice (added_twice_is_undefined), edges to nodes not added (stranger_is_taken_for_another), backslashes in titles and attributes other than labels (backslash_is_doubled)."
  },
  {
   "property": "C140",
   "status": "partial",
   "theorems": [
    "Current.Gnuplot.script_is_read",
    "Current.Gnuplot.title_is_read",
    "Current.Gnuplot.backslash_at_the_end",
    "Current.Gnuplot.metadata_is_closed",
    "Current.Gnuplot.width_makes_lines",
    "Current.Gnuplot.sample_ok",
    "Current.Gnuplot.sample_script",
    "Current.Gnuplot.data_cut_short",
    "Current.Gnuplot.points_then_width"
   ],
   "note": "Missing, since false of the code: titles with backslashes (backslash_at_the_end), points which begin with e (data_cut_short)."
  },
  {
   "property": "C141",
   "status": "partial",
   "theorems": [
    "Current.NamedRegex.names_are_right_partial",
    "Current.NamedRegex.transformed_has_no_names",
    "Current.NamedRegex.at_gives_the_group",
    "Current.NamedRegex.at_unknown",
    "Current.NamedRegex.at_no_match",
    "Current.NamedRegex.named_group_partial",
    "Current.NamedRegex.sample_understood",
    "Current.NamedRegex.sample_data",
    "Current.NamedRegex.class_is_counted",
    "Current.NamedRegex.class_loses_the_group",
    "Current.NamedRegex.negative_is_counted",
    "Current.NamedRegex.negative_shifts",
    "Current.NamedRegex.escaped_backslash_hides",
    "Current.NamedRegex.text_is_changed",
    "Current.NamedRegex.same_name"
   ],
   "note": "Proved for the expressions which the code understands (Assumed). Missing, since false of the code: parentheses in character classes (class_is_counted), negative look-aheads (negative_shifts), groups after an escaped backslash (escaped_backslash_hides), an escaped parenthesis before what looks like a name (text_is_changed)."
  },
  {
   "property": "C142",
   "status": "partial",
   "theorems": [
    "Current.TypeName.cpp_names_are_different",
    "Current.TypeName.ident_is_an_identifier",
    "Current.TypeName.identifiers_collide",
    "Current.TypeName.identifier_of_a_struct",
    "Current.TypeName.instances_have_one_name",
    "Current.TypeName.case_is_read_iff",
    "Current.TypeName.instance_is_mistaken",
    "Current.TypeName.sample_ok",
    "Current.TypeName.sample_names"
   ],
   "note": "Proved in full for names in C++. Missing, since false of the code: that identifiers differ (identifiers_collide), that names of cases differ (instances_have_one_name; case_is_read_iff says when reading is right)."
  },
  {
   "property": "C143",
   "status": "partial",
   "theorems": [
    "Current.Future.exits_iff_left_hanging",
    "Current.Future.only_destruction_exits",
    "Current.Future.go_gives",
    "Current.Future.wait_gives",
    "Current.Future.result_given_once",
    "Current.Future.result_is_held",
    "Current.Future.nothing_left_hanging",
    "Current.Future.sample_run",
    "Current.Future.sample_exit",
    "Current.Future.void_swallows_the_exception",
    "Current.Future.waited_then_moved_exits",
    "Current.Future.forgiving_hides",
    "Current.Future.sample_ok"
   ],
   "note": "Proved in full, except that Go() gives the exception of the task if the type is void, which is false of the code (void_swallows_the_exception)."
  },
  {
   "property": "C144",
   "status": "proved",
   "theorems": [
    "Current.Latency.add_shows",
    "Current.Latency.state_reports",
    "Current.Latency.each_request_measured_once",
    "Current.Latency.nothing_waits",
    "Current.Latency.latency_pos",
    "Current.Latency.trackers_show_the_window",
    "Current.Latency.stuck_for_ever",
    "Current.Latency.negative_width",
    "Current.Latency.negative_average",
    "Current.Latency.sort_is_nth",
    "Current.Latency.sample_run",
    "Current.Latency.sample_stuck",
    "Current.Latency.sample_state"
   ],
   "note": ""
  },
  {
   "property": "C145",
   "status": "partial",
   "theorems": [
    "Current.Fleet.text_is_read_as_the_fleet",
    "Current.Fleet.body_balanced",
    "Current.Fleet.render_ok",
    "Current.Fleet.describe_eq",
    "Current.Fleet.sample_ok",
    "Current.Fleet.sample_edges",
    "Current.Fleet.bracket_in_a_name_breaks_the_picture"
   ],
   "note": "Proved for texts without angle brackets. Missing, since false of the code: texts with angle brackets (bracket_in_a_name_breaks_the_picture)."
  },
  {
   "property": "C146",
   "status": "proved",
   "theorems": [
    "Current.PadHistory.at_minute_prints_one_text",
    "Current.PadHistory.interval_prints_what_is_due",
    "Current.PadHistory.due_unique",
    "Current.PadHistory.endsLine_iff",
    "Current.PadHistory.nothing_to_print",
    "Current.PadHistory.sample_history",
    "Current.PadHistory.sample_sorted",
    "Current.PadHistory.zero_timestamp_starts_twice"
   ],
   "note": "Timestamps are positive and below 2^63 microseconds; the documents of the condition are those of which every script is an edit (C44)."
  },
  {
   "property": "C147",
   "status": "proved",
   "theorems": [
    "Current.Timestamp.timestamp_of_the_object",
    "Current.Timestamp.set_changes_only_the_timestamp",
    "Current.Timestamp.set_then_get",
    "Current.Timestamp.get_then_set",
    "Current.Timestamp.set_then_set"
   ],
   "note": ""
  },
  {
   "property": "C148",
   "status": "partial",
   "theorems": [
    "Current.FakeStream.sent_is_a_beginning",
    "Current.FakeStream.thread_ends",
    "Current.FakeStream.all_is_sent",
    "Current.FakeStream.client_gets_the_lines",
    "Current.FakeStream.entries_have_the_length",
    "Current.FakeStream.entries_are_plain",
    "Current.FakeStream.sample_layout",
    "Current.FakeStream.zero_chunk_never_ends",
    "Current.FakeStream.cut_directive_never_ends"
   ],
   "note": "Proved for chunks of at least one byte and files of which each directive line has its newline. Missing, since false of the code: chunks of zero bytes and a cut directive (zero_chunk_never_ends, cut_directive_never_ends)."
  },
  {
   "property": "C149",
   "status": "partial",
   "theorems": [
    "Current.Integrations.push_posts_what_was_asked",
    "Current.Integrations.push_result",
    "Current.Integrations.push_reports_success_iff",
    "Current.Integrations.push_never_throws",
    "Current.Integrations.constructed_iff",
    "Current.Integrations.terrible_errors_are_swallowed",
    "Current.Integrations.negative_recipients"
   ],
   "note": "Proved: the requests, and when success is reported, for services which do not answer with negative numbers. Missing, since false of the code: that fatal errors throw (terrible_errors_are_swallowed), and negative numbers of recipients (negative_recipients)."
  },
  {
   "property": "C150",
   "status": "partial",
   "theorems": [
    "Current.Integrations.event_is_sent",
    "Current.Integrations.identifier_adds_a_parameter"
   ],
   "note": "Proved for parameters without reserved characters. Missing, since false of the code: other texts (identifier_adds_a_parameter)."
  },
  {
   "property": "C151",
   "status": "partial",
   "theorems": [
    "Current.Json.error_iff_blame",
    "Current.Json.path_leads_there_partial",
    "Current.Json.path_leaves_out_steps",
    "Current.Json.value_is_not_as_expected_partial",
    "Current.Json.path_text_unambiguous",
    "Current.Json.key_left_out",
    "Current.Json.wrong_value_pointed_at",
    "Current.Json.enum_messages_swapped"
   ],
   "note": "Proved for all types without maps and pairs (paths), and all messages but the two about enums (what was expected). Missing, since false of the code: paths under maps and pairs (key_left_out, wrong_value_pointed_at), and the messages about enums (enum_messages_swapped)."
  },
  {
   "property": "C152",
   "status": "proved",
   "theorems": [
    "Current.Sha256.sha256_is_fips",
    "Current.Sha256.sha256_streaming",
    "Current.Sha256.constants_are_cube_roots",
    "Current.Sha256.initial_hash_is_square_roots",
    "Current.Sha256.processBlock_eq",
    "Current.Sha256.getHash_keeps",
    "Current.Sha256.sha256_of_abc",
    "Current.Sha256.sha256_of_empty",
    "Current.Sha256.sha256_of_two_pieces"
   ],
   "note": "For all byte strings and all sequences of operations. FIPS leaves out messages of 2^64 bits and more: there both have the length modulo 2^64."
  },
  {
   "property": "C153",
   "status": "proved",
   "theorems": [
    "Current.Json.Itoa.u32toa_exact",
    "Current.Json.Itoa.u64toa_exact",
    "Current.Json.Itoa.i32toa_exact",
    "Current.Json.Itoa.i64toa_exact",
    "Current.Json.Itoa.buffers_suffice",
    "Current.Json.Itoa.ofInt64_is",
    "Current.Json.Itoa.ofUint64_is",
    "Current.Json.Itoa.ofInt_is",
    "Current.Json.Itoa.ofUint_is",
    "Current.Json.Itoa.write_exact",
    "Current.Json.Itoa.integer_round_trip",
    "Current.Json.Itoa.write_injective",
    "Current.Json.Itoa.examples_of_numbers",
    "Current.Json.Itoa.examples_of_values"
   ],
   "note": "For all integers of 32 and 64 bits."
  },
  {
   "property": "C154",
   "status": "proved",
   "theorems": [
    "Current.Json.Grisu.grisu_nearest",
    "Current.Json.Grisu.double_text_nearest",
    "Current.Json.Grisu.denotes_unique",
    "Current.Json.Grisu.double_text_injective",
    "Current.Json.Grisu.real_dblOk",
    "Current.Json.Grisu.not_always_shortest",
    "Current.Json.Grisu.nearest53_rounding",
    "Current.Json.Grisu.digitGen_spec",
    "Current.Json.Grisu.exactPower_spec",
    "Current.Json.Grisu.ieee_strictMono"
   ],
   "note": "For all finite doubles and all roundings. Reading a double is not modelled (RapidJSON does not round correctly with the flags ParseJSON uses)."
  },
  {
   "property": "C155",
   "status": "proved",
   "theorems": [
    "Current.Json.Strtod.short_round_trip",
    "Current.Json.Strtod.parse_short",
    "Current.Json.Strtod.short_dblOk",
    "Current.Json.Strtod.pow10_in_bounds",
    "Current.Json.Strtod.not_round_trip",
    "Current.Json.Strtod.not_round_trip_read",
    "Current.Json.Strtod.exists_correct",
    "Current.Json.Strtod.exists_nearest",
    "Current.Json.Strtod.Correct.unique",
    "Current.Json.Strtod.Correct.exact",
    "Current.Json.Strtod.read_eq",
    "Current.Json.Strtod.dtoa_parts"
   ],
   "note": "For all texts and doubles within the stated bounds; that longer ones fail is proved, too."
  },
  {
   "property": "C156",
   "status": "proved",
   "theorems": [
    "Current.Json.Strtod.read_accuracy",
    "Current.Json.Strtod.read_accuracy_17",
    "Current.Json.Strtod.read_accepts",
    "Current.Json.Strtod.printed_read",
    "Current.Json.Strtod.Correct.within",
    "Current.Json.Strtod.parse_split",
    "Current.Json.Strtod.within_abs",
    "Current.Json.Strtod.printed_within",
    "Current.Json.Strtod.exists_correct",
    "Current.Json.Strtod.read_any",
    "Current.Json.Strtod.read_any_17"
   ],
   "note": "For all texts whose fraction is shorter than 10^8 digits; subnormal and zero results for up to 190 digits and exponents between -10^8 and 308."
  },
  {
   "property": "C157",
   "status": "proved",
   "theorems": [
    "Current.Strings.HumanTime.interval_spec",
    "Current.Strings.HumanTime.interval_eq_iff",
    "Current.Strings.HumanTime.interval_any",
    "Current.Strings.HumanTime.difference_spec",
    "Current.Strings.HumanTime.seconds_exact",
    "Current.Strings.HumanTime.seconds_near",
    "Current.Strings.HumanTime.seconds_not_exact",
    "Current.Strings.HumanTime.units_normal",
    "Current.Strings.HumanTime.readBack_units"
   ],
   "note": ""
  },
  {
   "property": "C158",
   "status": "proved",
   "theorems": [
    "Current.Sync.TerminateSignal.returns_true",
    "Current.Sync.TerminateSignal.returns_false",
    "Current.Sync.TerminateSignal.stays_true",
    "Current.Sync.TerminateSignal.ends_when_signalled",
    "Current.Sync.TerminateSignal.signalled_true",
    "Current.Sync.TerminateSignal.ends_when_true",
    "Current.Sync.TerminateSignal.never_stuck",
    "Current.Sync.TerminateSignal.mutex_held",
    "Current.Sync.TerminateSignal.lost_wakeup",
    "Current.Sync.TerminateSignal.active_iff",
    "Current.Sync.TerminateSignal.active_nodup",
    "Current.Sync.TerminateSignal.untouched",
    "Current.Sync.TerminateSignal.second_scope_forgotten"
   ],
   "note": ""
  },
  {
   "property": "C159",
   "status": "proved",
   "theorems": [
    "Current.Strings.Printf.printf_spec",
    "Current.Strings.Printf.printf_whole",
    "Current.Strings.Printf.printf_cut",
    "Current.Strings.Printf.calls_spec"
   ],
   "note": ""
  },
  {
   "property": "C160",
   "status": "proved",
   "theorems": [
    "Current.Util.Random.values_spec",
    "Current.Util.Random.reproducible",
    "Current.Util.Random.late_seed_ignored",
    "Current.Util.Random.same_time_same_values",
    "Current.Util.Random.fixed_seed",
    "Current.Util.Random.each_value",
    "Current.Util.Random.run_alone"
   ],
   "note": "The standard generator and distributions are parameters."
  },
  {
   "property": "C161",
   "status": "proved",
   "theorems": [
    "Current.Util.Hash.combine_inj",
    "Current.Util.Hash.combine_surj",
    "Current.Util.Hash.pair_inj_second",
    "Current.Util.Hash.pair_not_symmetric",
    "Current.Util.Hash.pair_any_first",
    "Current.Util.Hash.duration_eq",
    "Current.Util.Hash.duration_coarse",
    "Current.Util.Hash.enum_inj",
    "Current.Util.Hash.less_strict",
    "Current.Util.Hash.row_collisions"
   ],
   "note": "std::hash is a parameter; durations without overflow of int64."
  },
  {
   "property": "C162",
   "status": "proved",
   "theorems": [
    "Current.Util.Singleton.same_iff",
    "Current.Util.Singleton.made_once",
    "Current.Util.Singleton.threads_apart",
    "Current.Util.Singleton.deps_made",
    "Current.Util.Singleton.singleton_same"
   ],
   "note": ""
  },
  {
   "property": "C163",
   "status": "proved",
   "theorems": [
    "Current.Util.Lazy.args_kept",
    "Current.Util.Lazy.run_made",
    "Current.Util.Lazy.ref_read_late",
    "Current.Util.Lazy.shared_once",
    "Current.Util.Lazy.shared_once_new",
    "Current.Util.Lazy.make_new"
   ],
   "note": ""
  }
 ]
}