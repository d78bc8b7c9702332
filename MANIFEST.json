{
 "claims": [
  {
   "property": "C01",
   "status": "proved",
   "theorems": [
    "Sis.C01_ssize_roundtrip",
    "Sis.C01_ssize_length"
   ],
   "note": ""
  },
  {
   "property": "C02",
   "status": "proved",
   "theorems": [
    "Sis.C02_try_iff_complete",
    "Sis.C02_try_iff_read_in_bounds",
    "Sis.C02_try_on_prefix",
    "Sis.C02_prefix_free"
   ],
   "note": ""
  },
  {
   "property": "C03",
   "status": "proved",
   "theorems": [
    "Sis.Mem.C03_memory_is_queue",
    "Sis.Mem.C03_size_is_queue_length"
   ],
   "note": "operations on the memory buffer as one sequential history"
  },
  {
   "property": "C04",
   "status": "proved",
   "theorems": [
    "Sis.BitS.C04_put_get",
    "Sis.BitS.C04_fits"
   ],
   "note": ""
  },
  {
   "property": "C05",
   "status": "proved",
   "theorems": [
    "Sis.BitS.C05_mixed_roundtrip",
    "Sis.BitS.C05_sint",
    "Sis.BitS.C05_short",
    "Sis.BitS.C05_uint"
   ],
   "note": ""
  },
  {
   "property": "C06",
   "status": "partial",
   "theorems": [
    "Sis.BitS.C06_int_partial",
    "Sis.BitS.C06_incr_partial",
    "Sis.BitS.C06_int_min_violated",
    "Sis.BitS.C06_incr_violated"
   ],
   "note": "the code loses INT64_MIN (read back as 0); everything else is proved lossless"
  },
  {
   "property": "C07",
   "status": "partial",
   "theorems": [
    "Sis.BitS.C07_incr_chars_partial",
    "Sis.BitS.C07_cleared_field_violated"
   ],
   "note": "the code loses the change from a non-empty to an empty string; everything else is proved lossless"
  },
  {
   "property": "C11",
   "status": "proved",
   "theorems": [
    "Sis.Fmap.C11_where_returns_exactly_the_matches",
    "Sis.Fmap.C11_no_match_iff",
    "Sis.Fmap.C11_where_with_offset"
   ],
   "note": "for every sorted series in memory and every search hint"
  },
  {
   "property": "C12",
   "status": "proved",
   "theorems": [
    "Sis.Fmap.C12_range_returns_exactly_the_range",
    "Sis.Fmap.C12_range_of_timestamps"
   ],
   "note": "for every sorted series in memory; with ifprev for ranges whose start is not behind the end"
  },
  {
   "property": "C13",
   "status": "partial",
   "theorems": [
    "Sis.Fmap.C13_update_keeps_sorted_and_loses_nothing_partial",
    "Sis.Fmap.C13_first_batch_partial",
    "Sis.Fmap.C13_violated_first_batch",
    "Sis.Fmap.C13_history_partial",
    "Sis.Fmap.C13_query_after_history_partial"
   ],
   "note": "the code stores the first batch of a series as it comes, unsorted (violation proved); all histories whose first batch is in order are proved"
  },
  {
   "property": "C14",
   "status": "partial",
   "theorems": [
    "Sis.Fmap.C14_arrival_order_partial",
    "Sis.Fmap.C14_in_order_arrival_partial",
    "Sis.Fmap.C14_violated"
   ],
   "note": "a record inserted among records of the same time is put before the last of them (violation proved); arrivals in time order are proved"
  },
  {
   "property": "C15",
   "status": "partial",
   "theorems": [
    "Sis.Fmap.C15_unique_upsert_partial",
    "Sis.Fmap.C15_unique_upsert_batch_partial",
    "Sis.Fmap.C15_violated",
    "Sis.Fmap.C15_unique_keeps_sorted"
   ],
   "note": "an upsert whose time differs from the stored record duplicates the key (violation proved); the rest is proved"
  },
  {
   "property": "C16",
   "status": "proved",
   "theorems": [
    "Sis.Fmap.C16_delete_where",
    "Sis.Fmap.C16_delete_range",
    "Sis.Fmap.C16_delete_removes_what_read_returns"
   ],
   "note": ""
  },
  {
   "property": "C17",
   "status": "partial",
   "theorems": [
    "Sis.Fmap.C17_delete_in_one_period_partial",
    "Sis.Fmap.C17_delete_where_partial",
    "Sis.Fmap.C17_delete_to_end_partial",
    "Sis.Fmap.C17_violated"
   ],
   "note": "a delete across several periods leaves a wrong index (violation proved); deletes within one period and to the end are proved"
  },
  {
   "property": "C18",
   "status": "partial",
   "theorems": [
    "Sis.Fmap.C18_window_from_first_partial",
    "Sis.Fmap.C18_never_too_many_partial",
    "Sis.Fmap.C18_violated",
    "Sis.Fmap.C18_delete_from_first_partial",
    "Sis.Fmap.C18_violated_delete",
    "Sis.Fmap.C18_list_update"
   ],
   "note": "windows not starting at the first element are wrong in the code (violations proved)"
  },
  {
   "property": "C56",
   "status": "partial",
   "theorems": [
    "Sis.Fmap.C56_update_keeps_index_partial",
    "Sis.Fmap.C56_violated_first_batch",
    "Sis.Fmap.C56_violated_unsorted_batch"
   ],
   "note": "violated for the first batch and for a batch out of order; proved for the rest"
  },
  {
   "property": "C57",
   "status": "partial",
   "theorems": [
    "Sis.Fmap.C57_save_after_update_partial",
    "Sis.Fmap.C57_violated_first_batch",
    "Sis.Fmap.C57_violated_after_delete",
    "Sis.Fmap.C57_save_one_partial",
    "Sis.Fmap.C57_violated_one",
    "Sis.Fmap.C57_save_non_partial"
   ],
   "note": "violated for a first batch, after a delete, and for unread single values; proved for the rest"
  },
  {
   "property": "C58",
   "status": "partial",
   "theorems": [
    "Sis.Fmap.C58_lazy_range_partial",
    "Sis.Fmap.C58_violated_where",
    "Sis.Fmap.C58_violated_last"
   ],
   "note": "violated for exact-match queries and for the default query with blocks per day; proved for all sequences of range queries between positive timestamps"
  },
  {
   "property": "C59",
   "status": "proved",
   "theorems": [
    "Sis.Fmap.C59_upsert_without_time"
   ],
   "note": ""
  },
  {
   "property": "C60",
   "status": "partial",
   "theorems": [
    "Sis.Fmap.C60_read_your_write_partial",
    "Sis.Fmap.C60_violated_one",
    "Sis.Fmap.C60_history_partial",
    "Sis.Fmap.C60_history_read_partial",
    "Sis.Fmap.C60_violated_non"
   ],
   "note": "a write before the first read of a stored key is lost on that read (violation proved); proved otherwise"
  },
  {
   "property": "C61",
   "status": "partial",
   "theorems": [
    "Sis.Fmap.C61_deleted_stays_deleted_partial",
    "Sis.Fmap.C61_violated"
   ],
   "note": "a delete before the first read is undone by it (violation proved); proved otherwise"
  },
  {
   "property": "C19",
   "status": "partial",
   "theorems": [
    "Sis.Disk.C19_reopen_keeps_complete_records_partial",
    "Sis.Disk.C19_short_messages_partial",
    "Sis.Disk.C19_violated_torn_size"
   ],
   "note": "a crash inside a multi-byte size field makes the reopening scan read out of bounds (violation proved); every other crash byte is proved"
  },
  {
   "property": "C20",
   "status": "partial",
   "theorems": [
    "Sis.Disk.C20_replay_partial",
    "Sis.Disk.C20_replay_all_partial",
    "Sis.Disk.C20_violated_short_last_message"
   ],
   "note": "a last message of fewer than two bytes is not replayed (violation proved); the rest is proved"
  },
  {
   "property": "C21",
   "status": "partial",
   "theorems": [
    "Sis.Disk.C21_replay_any_buffer_partial",
    "Sis.Disk.C21_violated",
    "Sis.Disk.C19_short_messages_partial"
   ],
   "note": "a size field split by the end of the read buffer is misread (violation proved with the real buffer size); messages of 4 to 65785 bytes are proved for every buffer size"
  },
  {
   "property": "C22",
   "status": "partial",
   "theorems": [
    "Sis.Server.C22_crash_keeps_flushed_requests_partial",
    "Sis.Server.C22_flushed_means_kept_partial",
    "Sis.Server.C22_crash_keeps_a_prefix",
    "Sis.Server.C22_every_history_is_covered",
    "Sis.Server.C22_violated_buffer",
    "Sis.Server.C22_violated_save",
    "Sis.Server.C22_violated_next_day"
   ],
   "note": "three ways to lose an acknowledged request are proved (stdio buffer, crash inside save, restart on a later day); for all other histories the server's data is proved to be the result of a prefix of the acknowledged requests containing all saved and flushed ones"
  },
  {
   "property": "C28",
   "status": "partial",
   "theorems": [
    "Sis.Ws.C28_pack_unpack_partial",
    "Sis.Ws.C28_any_peer_partial",
    "Sis.Ws.C28_empty_text_violated",
    "Sis.Ws.C28_large_violated"
   ],
   "note": "proved for every message and every conforming peer while less than 2^28 bytes wait in the receive buffer; an empty text message is never sent and larger input makes unpacking read outside the buffer (violations proved)"
  },
  {
   "property": "C29",
   "status": "partial",
   "theorems": [
    "Sis.Ws.C29_pieces_partial",
    "Sis.Ws.C29_prefix_partial",
    "Sis.Ws.C29_stream_partial"
   ],
   "note": "any division into pieces, for streams shorter than 2^28 bytes"
  },
  {
   "property": "C30",
   "status": "partial",
   "theorems": [
    "Sis.Ws.C30_in_bounds_partial",
    "Sis.Ws.C30_answers_partial",
    "Sis.Ws.C30_empty_binary_violated"
   ],
   "note": "below 2^28 bytes the only access outside the input is for a complete binary message without payload, which two bytes from a peer trigger (violation proved)"
  },
  {
   "property": "C40",
   "status": "partial",
   "theorems": [
    "Sis.SL.C40_struct_list_is_list",
    "Sis.SL.C40_clone_partial",
    "Sis.SL.C40_clone_empty_violated"
   ],
   "note": "all calls but copying are proved; copying an empty array leaves the old contents of the target (violation proved)"
  },
  {
   "property": "C42",
   "status": "partial",
   "theorems": [
    "Sis.Sort.C42_sort_list",
    "Sis.Sort.C42_clone_violated"
   ],
   "note": "proved for every history of sets and deletions; a copy does not take over the order flag and then misses keys (violation proved)"
  },
  {
   "property": "C43",
   "status": "proved",
   "theorems": [
    "Sis.Fsort.C43_ranked_list",
    "Sis.Fsort.C43_nan_excluded"
   ],
   "note": "scores range over any strict weak order, which `<` is on doubles other than NaN; C43_nan_excluded shows why NaN is excluded"
  },
  {
   "property": "C44",
   "status": "partial",
   "theorems": [
    "Sis.NL.C44_paged_list_partial",
    "Sis.NL.C44_get_violated",
    "Sis.NL.C44_pop_empty_violated"
   ],
   "note": "order, size and positions up to twice the rest of the first page are proved; further positions and taking from an empty list are wrong in the code (violations proved)"
  },
  {
   "property": "C45",
   "status": "partial",
   "theorems": [
    "Sis.PL.C45_int_list_get_partial",
    "Sis.PL.C45_truncation_violated"
   ],
   "note": "numbers outside the 32-bit range are truncated (violation proved)"
  },
  {
   "property": "C62",
   "status": "partial",
   "theorems": [
    "Sis.PL.C62_pointer_list_is_list_partial",
    "Sis.PL.C62_freed_exactly_once_partial",
    "Sis.PL.C62_set_violated"
   ],
   "note": "setting a pointer that is already present frees it and keeps it (violation proved); all other histories are proved"
  },
  {
   "property": "C41",
   "status": "proved",
   "theorems": [
    "Sis.ML.C41_named_list",
    "Sis.ML.C41_named_list_names",
    "Sis.ML.C41_position_stable"
   ],
   "note": "histories short enough for the array's int size, as hypothesis"
  },
  {
   "property": "C63",
   "status": "proved",
   "theorems": [
    "Sis.Dict.C63_finite_map",
    "Sis.Dict.C63_names",
    "Sis.Dict.C63_int_keys"
   ],
   "note": "for every hash function that respects the key comparison, instantiated with the real case-folded siphash; histories below 2^61 entries"
  },
  {
   "property": "C64",
   "status": "proved",
   "theorems": [
    "Sis.Dict.C64_each_once",
    "Sis.Dict.C64_current",
    "Sis.Dict.C64_delete_ahead_violated"
   ],
   "note": "the walk is proved; deleting the entry the walk has already read ahead is use after free (C64_delete_ahead_violated), which is why the property excludes it"
  },
  {
   "property": "C65",
   "status": "partial",
   "theorems": [
    "Sis.Dict.C65_freed_or_held",
    "Sis.Dict.C65_no_early_free_partial",
    "Sis.Dict.C65_destroyed_all_freed",
    "Sis.Dict.C65_set_same_pointer_violated"
   ],
   "note": "setting the pointer already stored frees it and keeps it (violation proved); all other histories are proved"
  },
  {
   "property": "C46",
   "status": "partial",
   "theorems": [
    "Sis.Access.C46_only_auth_partial",
    "Sis.Access.C46_denied_partial",
    "Sis.Access.C46_runtime_user_violated"
   ],
   "note": "proved for users configured before the start; users added at run time are not enforced until a restart (violation proved)"
  },
  {
   "property": "C47",
   "status": "partial",
   "theorems": [
    "Sis.Access.C47_internal",
    "Sis.Access.C47_reader",
    "Sis.Access.C47_reader_sisdb",
    "Sis.Access.C47_writer_violated",
    "Sis.Access.C47_writer_unrestricted_violated",
    "Sis.Access.C47_escalation_violated"
   ],
   "note": "internal commands and read-only users are proved; a user with write access is refused nothing and can make itself administrator (violations proved)"
  },
  {
   "property": "C48",
   "status": "partial",
   "theorems": [
    "Sis.Access.C48_password_partial",
    "Sis.Access.C48_right_password",
    "Sis.Access.C48_case_violated"
   ],
   "note": "proved up to case; the case of the password is ignored (violation proved)"
  },
  {
   "property": "C49",
   "status": "partial",
   "theorems": [
    "Sis.Access.C49_authority_partial",
    "Sis.Access.C49_queued_login_violated",
    "Sis.Sub.C49_subscriptions_violated",
    "Sis.Sub.C49_close_ignored_violated",
    "Sis.Sub.C49_after_unsub_partial"
   ],
   "note": "authority is gone unless a login is still queued (violation proved); subscriptions survive the close (violation proved), they are gone if the client cancels first"
  },
  {
   "property": "C66",
   "status": "partial",
   "theorems": [
    "Sis.Access.C66_crash_exactly_partial",
    "Sis.Access.C66_unknown_user_violated",
    "Sis.Sub.C66_empty_half_violated"
   ],
   "note": "the crashing requests are characterised exactly; unknown user names and subjects with an empty half crash (violations proved)"
  },
  {
   "property": "C67",
   "status": "partial",
   "theorems": [
    "Sis.Access.C67_saved_users_partial",
    "Sis.Access.C67_levels",
    "Sis.Access.C67_crash_violated"
   ],
   "note": "the users survive a completed save; a crash during a save loses them and opens the server (violation proved)"
  },
  {
   "property": "C50",
   "status": "partial",
   "theorems": [
    "Sis.Sub.C50_exactly_once_partial",
    "Sis.Sub.C50_only_subscribers_partial",
    "Sis.Sub.C50_at_least_once",
    "Sis.Sub.C50_short_keys_safe",
    "Sis.Sub.C50_twice_violated"
   ],
   "note": "a client that also has a matching pattern is notified twice (violation proved)"
  },
  {
   "property": "C51",
   "status": "partial",
   "theorems": [
    "Sis.Sub.C51_patterns_partial",
    "Sis.Sub.C51_one_table_violated",
    "Sis.Sub.C51_first_decides_violated",
    "Sis.Sub.C51_long_key_violated"
   ],
   "note": "proved for *, *.*, lists and heads used one way; one star with a single name, mixed use and long keys fail (violations proved)"
  },
  {
   "property": "C68",
   "status": "partial",
   "theorems": [
    "Sis.Json.C68_roundtrip_partial",
    "Sis.Json.C68_violated"
   ],
   "note": "proved for texts without backslashes and control characters, names without quotes, and no truth value or empty member in a last place; outside of that the document changes (violations proved)"
  },
  {
   "property": "C69",
   "status": "partial",
   "theorems": [
    "Sis.Json.C69_writer_stays_in_buffer_partial"
   ],
   "note": "lengths are natural numbers in the model; the code counts a string in an int, so a string that needs 2^31 bytes is not covered"
  },
  {
   "property": "C70",
   "status": "partial",
   "theorems": [
    "Sis.Json.C70_every_text_is_read_partial",
    "Sis.Json.C70_violated"
   ],
   "note": "reading always ends; malformed texts are accepted (violation proved)"
  },
  {
   "property": "C71",
   "status": "partial",
   "theorems": [
    "Sis.Json.C71_set_int_partial",
    "Sis.Json.C71_set_string_partial",
    "Sis.Json.C71_violated"
   ],
   "note": "proved for names without a point; such a name is not found, and a value set over an object is not written (violations proved)"
  },
  {
   "property": "C72",
   "status": "partial",
   "theorems": [
    "Sis.Json.C72_second_wins_partial",
    "Sis.Json.C72_first_kept_partial",
    "Sis.Json.C72_violated"
   ],
   "note": "proved for documents in which no object has a name twice; an object merged over a plain value is not written (violation proved)"
  },
  {
   "property": "C31",
   "status": "partial",
   "theorems": [
    "Sis.Msg.C31_binary_partial",
    "Sis.Msg.C31_binary_list_partial",
    "Sis.Msg.C31_text_partial",
    "Sis.Msg.C31_violated"
   ],
   "note": "proved for both formats within stated limits; 64-bit numbers in binary messages, lists, names with colons, control characters in texts and empty texts are lost or changed (violations proved)"
  },
  {
   "property": "C32",
   "status": "partial",
   "theorems": [
    "Sis.Msg.C32_relay_partial",
    "Sis.Msg.C32_violated"
   ],
   "note": "proved end to end for messages without a list; a list is dropped (violation proved)"
  },
  {
   "property": "C73",
   "status": "partial",
   "theorems": [
    "Sis.Msg.C73_text_partial",
    "Sis.Msg.C73_violated"
   ],
   "note": "proved for all but binary messages, which are read past their end (violation proved)"
  },
  {
   "property": "C33",
   "status": "partial",
   "theorems": [
    "Sis.Nq.C33_packets_never_fault_partial",
    "Sis.Nq.C33_packets_fifo_partial",
    "Sis.Nq.C33_packets_conserved_partial",
    "Sis.Nq.C33_size_partial",
    "Sis.Nq.C33_read_reports_partial",
    "Sis.Nq.C33_drain_partial",
    "Sis.Nq.C33_bytes_never_fault_partial",
    "Sis.Nq.C33_bytes_fifo_partial",
    "Sis.Nq.C33_bytes_conserved_partial",
    "Sis.Nq.C33_send_round_partial",
    "Sis.Nq.C33_bytes_size_partial",
    "Sis.Nq.C33_objects_partial",
    "Sis.Nq.C33_violated_large_piece",
    "Sis.Nq.C33_violated_large_packet",
    "Sis.Nq.C33_violated_read_midway"
   ],
   "note": "proved for packets and pieces up to 16 MB and for readers that finish one round before the next; a larger one after a first one is written past the node, and reading midway through a round reports nothing although a packet is left (violations proved)"
  },
  {
   "property": "C34",
   "status": "partial",
   "theorems": [
    "Sis.Sess.C34_lookup_partial",
    "Sis.Sess.C34_new_number_partial",
    "Sis.Sess.C34_new_defined_partial",
    "Sis.Sess.C34_stop_partial",
    "Sis.Sess.C34_clear_partial",
    "Sis.Sess.C34_uses_partial",
    "Sis.Sess.C34_first_partial",
    "Sis.Sess.C34_next_partial",
    "Sis.Sess.C34_violated",
    "Sis.Sess.C34_violated_waiting"
   ],
   "note": "proved for up to 1024 numbers live or waiting; the 1025th is written outside of the arrays (violations proved); two threads calling at once are not modelled"
  },
  {
   "property": "C35",
   "status": "proved",
   "theorems": [
    "Sis.Lk.C35_lock_never_faults",
    "Sis.Lk.C35_lock_fifo",
    "Sis.Lk.C35_lock_null_not_an_object",
    "Sis.Fq.C35_fast_never_faults",
    "Sis.Fq.C35_fast_fifo",
    "Sis.Fq.C35_fast_who",
    "Sis.Fq.C35_fast_drains"
   ],
   "note": "the lock queue with its calls as steps (each holds the lock throughout), the fast queue with every access to shared memory as a step"
  },
  {
   "property": "C36",
   "status": "partial",
   "theorems": [
    "Sis.Wq.C36_defined_partial",
    "Sis.Wq.C36_one_at_a_time_partial",
    "Sis.Wq.C36_order_partial",
    "Sis.Wq.C36_direct_partial",
    "Sis.Wq.C36_next_partial",
    "Sis.Wq.C36_handler_violated",
    "Sis.Wq.C36_null_violated"
   ],
   "note": "proved for handlers that do not call the queue themselves and jobs that are not null; otherwise the queue blocks (violations proved)"
  },
  {
   "property": "C37",
   "status": "partial",
   "theorems": [
    "Sis.Ll.C37_all_defined_partial",
    "Sis.Ll.C37_all_order_partial",
    "Sis.Ll.C37_all_complete_partial",
    "Sis.Ll.C37_size_partial",
    "Sis.Ll.C37_open_violated",
    "Sis.Ll.C37_clear_violated"
   ],
   "note": "proved from the moment the reader's thread first looks at the list; a message put in after the opening returned but before that is missed, and clearing the list under a reader is use after free (violations proved)"
  },
  {
   "property": "C38",
   "status": "partial",
   "theorems": [
    "Sis.Ll.C38_defined_partial",
    "Sis.Ll.C38_kept_partial",
    "Sis.Ll.C38_complete_partial",
    "Sis.Ll.C38_head_violated",
    "Sis.Ll.C38_server_list_violated",
    "Sis.Ll.C38_tail_violated",
    "Sis.Ll.C38_unregistered_violated",
    "Sis.Ll.C38_lost_violated"
   ],
   "note": "proved for readers of new messages that are opened, registered and positioned without interruption after the watcher took its first place; readers from the head, on an empty list or not yet registered lose messages or use freed memory (violations proved)"
  },
  {
   "property": "C74",
   "status": "partial",
   "theorems": [
    "Sis.Ll.C74_limit_partial",
    "Sis.Ll.C74_violated"
   ],
   "note": "proved for messages of one size, the same schedules as C38 and limits raised to at least 1024; with messages of different sizes the list keeps more (violation proved)"
  },
  {
   "property": "C54",
   "status": "partial",
   "theorems": [
    "Sis.Time.C54_monotone_partial",
    "Sis.Time.C54_date_partial",
    "Sis.Time.C54_seconds",
    "Sis.Time.C54_back_partial",
    "Sis.Time.C54_last_partial",
    "Sis.Time.C54_date_back_partial",
    "Sis.Time.C54_zero_violated",
    "Sis.Time.C54_wsec_violated",
    "Sis.Time.C54_overflow_violated"
   ],
   "note": "proved from the first to the 2^42th second in time zones without summer time; the time 0 is taken for now, microseconds are not converted, and milliseconds can overflow (violations proved)"
  },
  {
   "property": "C55",
   "status": "partial",
   "theorems": [
    "Sis.Time.C55_week",
    "Sis.Time.C55_later_partial",
    "Sis.Time.C55_work_day_partial",
    "Sis.Time.C55_violated"
   ],
   "note": "proved for Sunday to Thursday; on every Friday and Saturday the next work day is said to be on the weekend (violation proved for all of them)"
  },
  {
   "property": "C77",
   "status": "partial",
   "theorems": [
    "Sis.Time.C77_partial",
    "Sis.Time.C77_violated"
   ],
   "note": "proved for dates from 1970 on in time zones without summer time, unless the date begins at time 0, which is taken for now (violation proved)"
  },
  {
   "property": "C78",
   "status": "partial",
   "theorems": [
    "Sis.Time.C78_partial",
    "Sis.Time.C78_order",
    "Sis.Time.C78_violated"
   ],
   "note": "proved for all but the time 0, which is taken for now (violation proved); time zones without summer time"
  },
  {
   "property": "C39",
   "status": "partial",
   "theorems": [
    "Sis.Refs.C39_never_used_after_free_partial",
    "Sis.Refs.C39_freed_exactly_once_partial",
    "Sis.Refs.C39_granted_partial",
    "Sis.Refs.C39_null_violated",
    "Sis.Refs.C39_overflow_violated"
   ],
   "note": "every access to the counter is a step; proved while fewer than 2^32 references exist and for objects with a pointer; an object without one is never freed and the counter can go round (violations proved)"
  },
  {
   "property": "C75",
   "status": "partial",
   "theorems": [
    "Sis.Rw.C75_exclusive",
    "Sis.Rw.C75_writer_gets",
    "Sis.Rw.C75_reader_gets_partial",
    "Sis.Rw.C75_try_violated"
   ],
   "note": "exclusion and the writer's progress are proved in full; after a failed attempt to write that is not repeated no reader gets the free lock (violation proved)"
  },
  {
   "property": "C76",
   "status": "partial",
   "theorems": [
    "Sis.Pool.C76_distinct_partial",
    "Sis.Pool.C76_refused_partial",
    "Sis.Pool.C76_race_violated"
   ],
   "note": "proved for calls one at a time; two threads at once get the same handle (violation proved)"
  },
  {
   "property": "C52",
   "status": "partial",
   "theorems": [
    "Sis.Dyn.C52_partial",
    "Sis.Dyn.C52_live_partial",
    "Sis.Dyn.C52_size",
    "Sis.Dyn.C52_fields_partial",
    "Sis.Dyn.C52_absent_partial",
    "Sis.Dyn.C52_violated",
    "Sis.Dyn.C52_overflow_violated"
   ],
   "note": "proved for records of at most 65536 bytes; above that fields overlap, and large definitions overflow an int (violations proved)"
  },
  {
   "property": "C53",
   "status": "partial",
   "theorems": [
    "Sis.Dyn.C53_partial",
    "Sis.Dyn.C53_copy",
    "Sis.Dyn.C53_defined_partial",
    "Sis.Dyn.C53_order_violated",
    "Sis.Dyn.C53_new_violated",
    "Sis.Dyn.C53_name_violated"
   ],
   "note": "proved for tables that differ in size, number of fields or the shape of a common field and names of at most 31 bytes; floating point arithmetic is not modelled; reordered, renamed and long-named fields fail (violations proved)"
  },
  {
   "property": "C79",
   "status": "partial",
   "theorems": [
    "Sis.Dyn.C79_partial",
    "Sis.Dyn.C79_untimed",
    "Sis.Dyn.C79_index_partial",
    "Sis.Dyn.C79_index_time",
    "Sis.Dyn.C79_violated"
   ],
   "note": "proved unless a later definition repeats the name of the field; then a freed field is used (violation proved)"
  },
  {
   "property": "C08",
   "status": "partial",
   "theorems": [
    "Sis.Zip.C08_partial",
    "Sis.Zip.C08_defined_partial",
    "Sis.Zip.C08_empty_violated",
    "Sis.Zip.C08_stale_violated",
    "Sis.Zip.C08_jump_violated",
    "Sis.Zip.C08_overflow_violated"
   ],
   "note": "proved for tables of numbers and texts (no floating point), any number of records; texts that become empty, numbers that change by 2^63 and wide records that do not fit fail (violations proved)"
  },
  {
   "property": "C10",
   "status": "partial",
   "theorems": [
    "Sis.Zip.C10_partial",
    "Sis.Zip.C10_kept",
    "Sis.Zip.C10_violated"
   ],
   "note": "proved for counts up to 2^31-1; from 2^31 on the block is refused (violation proved)"
  },
  {
   "property": "C09",
   "status": "partial",
   "theorems": [
    "Sis.Zip.C09_partial",
    "Sis.Zip.C09_defined_partial",
    "Sis.Zip.C09_ends",
    "Sis.Zip.C09_first_violated",
    "Sis.Zip.C09_key_violated",
    "Sis.Zip.C09_reuse_violated",
    "Sis.Zip.C09_overflow_violated"
   ],
   "note": "proved for every history of bags, block ends and new keys over tables of numbers and texts, if the first bag of a key and table has at most one record, no text becomes empty, no number changes by 2^63 and no bag takes more than the size given to start; the other cases fail (violations proved here and under C08)"
  },
  {
   "property": "C25",
   "status": "partial",
   "theorems": [
    "Sis.Sdb.C25_index_back_partial",
    "Sis.Sdb.C25_violated_trace",
    "Sis.Sdb.C25_violated_long_names",
    "Sis.Sdb.C25_violated_unknown_key"
   ],
   "note": "proved with the trace lines left out, for names of at most 254 bytes, keys and tables that are in the dictionaries and index files under 2 GB read without cutting a size field; with the trace lines of the source a value without table stops the program, and longer names are cut (violations proved)"
  },
  {
   "property": "C23",
   "status": "partial",
   "theorems": [
    "Sis.Sdb.C23_one_partial",
    "Sis.Sdb.C23_list_partial",
    "Sis.Sdb.C23_latest_partial",
    "Sis.Sdb.C23_latest_list_partial",
    "Sis.Sdb.C23_others_partial",
    "Sis.Sdb.C23_violated_empty",
    "Sis.Sdb.C23_violated_comma",
    "Sis.Sdb.C23_violated_dot",
    "Sis.Sdb.C23_violated_blank",
    "Sis.Sdb.C23_violated_trace"
   ],
   "note": "proved for every history of sessions with usual key names, values below 2 GB and files of limited size, the compression and the text of tables given by what they do; empty values, commas, dots and blanks in keys fail (violations proved)"
  },
  {
   "property": "C24",
   "status": "partial",
   "theorems": [
    "Sis.Sdb.C24_rows_partial",
    "Sis.Sdb.C24_replace_partial",
    "Sis.Sdb.C24_outside_partial",
    "Sis.Sdb.C24_others_partial",
    "Sis.Sdb.C24_violated_overlap",
    "Sis.Sdb.C24_violated_twice",
    "Sis.Sdb.C24_violated_touch"
   ],
   "note": "proved for older blocks that are apart from the new one or lie in it; a block that is only partly in the time of the new one is lost with all its records (violation proved)"
  },
  {
   "property": "C26",
   "status": "partial",
   "theorems": [
    "Sis.Sdb.C26_present_partial",
    "Sis.Sdb.C26_violated_removed",
    "Sis.Sdb.C26_violated_value",
    "Sis.Sdb.C26_violated_again"
   ],
   "note": "proved for every history of sessions that write; removals are written in a form that reads as something else (violations proved)"
  },
  {
   "property": "C27",
   "status": "partial",
   "theorems": [
    "Sis.Sdb.C27_split_partial",
    "Sis.Sdb.C27_elsewhere_partial",
    "Sis.Sdb.C27_written_partial",
    "Sis.Sdb.C27_place_partial",
    "Sis.Sdb.C27_violated_msec"
   ],
   "note": "proved for every history of sessions and blocks whose times fit 31 bits or that are of one period; milliseconds over several days go to wrong files (violation proved)"
  },
  {
   "property": "C80",
   "status": "partial",
   "theorems": [
    "Sis.Sdb.C80_readable_partial",
    "Sis.Sdb.C80_violated_undeclared"
   ],
   "note": "proved when keys are declared before records are written for them; otherwise the file cannot be read (violation proved)"
  },
  {
   "property": "C81",
   "status": "partial",
   "theorems": [
    "Sis.Sdb.C81_files_partial",
    "Sis.Sdb.C81_found_partial",
    "Sis.Sdb.C81_violated_redefined",
    "Sis.Sdb.C81_violated_whole"
   ],
   "note": "proved that exactly the records of the days or years of the range come out, for tables with one definition; whole days come out, and records of a table that was defined anew do not (violations proved)"
  },
  {
   "property": "C82",
   "status": "partial",
   "theorems": [
    "Sis.Sdb.C82_text_partial",
    "Sis.Sdb.C82_database_partial",
    "Sis.Sdb.C82_violated_long",
    "Sis.Sdb.C82_violated_quote",
    "Sis.Sdb.C82_violated_digits"
   ],
   "note": "proved for names of fields of at most 31 bytes and names without quotes, backslashes and control characters; with it the theorems on databases hold for the text the program itself makes; negations for other names and for 256 digits"
  },
  {
   "property": "C83",
   "status": "partial",
   "theorems": [
    "Sis.Sno.C83_all_partial",
    "Sis.Sno.C83_violated_size",
    "Sis.Sno.C83_violated_restart",
    "Sis.Sno.C83_violated_unstopped",
    "Sis.Sno.C83_violated_dots",
    "Sis.Sno.C83_violated_empty"
   ],
   "note": "proved for every history of sessions with usual names, writing stopped before the file is closed, tables that keep the size of their records, and files read in pieces of 16 MB without cutting a size field; a second start, a close without stop, a table with records of a new size, dots in keys and writes of no bytes fail (violations proved)"
  },
  {
   "property": "C84",
   "status": "partial",
   "theorems": [
    "Sis.Sno.C84_some_partial",
    "Sis.Sno.C84_violated_pages"
   ],
   "note": "proved as C83, with no condition on the pieces, when the blocks of records are listed in one block of the index; with several the records of later pages are not heard (violation of the decoder proved)"
  },
  {
   "property": "C85",
   "status": "partial",
   "theorems": [
    "Sis.Sno.C85_object_partial",
    "Sis.Sno.C83_violated_size"
   ],
   "note": "proved as C84; a table with records of a new size fails (violation proved)"
  },
  {
   "property": "C86",
   "status": "partial",
   "theorems": [
    "Sis.Rec.C86_text_partial",
    "Sis.Rec.C86_empty_partial",
    "Sis.Rec.C86_violated_value",
    "Sis.Rec.C86_violated_min"
   ],
   "note": "proved for every table and any number of records, floating point numbers given by what the C library makes of them; week times, numbers of odd lengths and the smallest 64-bit number fail (violations proved)"
  },
  {
   "property": "C87",
   "status": "partial",
   "theorems": [
    "Sis.Rec.C87_rows_partial",
    "Sis.Rec.C87_row_partial",
    "Sis.Rec.C87_violated_short",
    "Sis.Rec.C87_violated_count"
   ],
   "note": "proved for tables whose fields have one element each and rows that fit; rows of other lengths are not refused, and fields of several elements fail (violations proved)"
  },
  {
   "property": "C88",
   "status": "partial",
   "theorems": [
    "Sis.Rec.C88_roundtrip_partial",
    "Sis.Rec.C88_violated",
    "Sis.Rec.C88_violated_count"
   ],
   "note": "proved for tables whose fields have one element each and values whose text says all of them; other values and fields of several elements fail (violations proved)"
  },
  {
   "property": "C89",
   "status": "partial",
   "theorems": [
    "Sis.Rec.C89_object_partial",
    "Sis.Rec.C89_violated"
   ],
   "note": "proved for names of fields without points; a point in a name and a name that is another name and a number fail (violations proved)"
  },
  {
   "property": "C90",
   "status": "partial",
   "theorems": [
    "Sis.Rec.C90_select_partial",
    "Sis.Rec.C90_violated"
   ],
   "note": "proved for names of fields and of elements that are there; elements that are not there are read outside of the field or the records (violations proved)"
  },
  {
   "property": "C91",
   "status": "partial",
   "theorems": [
    "Sis.Rec.C91_array_partial",
    "Sis.Rec.C91_object_partial",
    "Sis.Rec.C91_violated_unknown",
    "Sis.Rec.C91_violated_column"
   ],
   "note": "proved as an array for all names, as an object for names of fields of one element; an unknown name uses a null pointer and columns behind a field of several elements are wrong (violations proved)"
  },
  {
   "property": "C92",
   "status": "partial",
   "theorems": [
    "Sis.Csv.C92_text_partial",
    "Sis.Csv.C92_names_partial",
    "Sis.Csv.C92_fields_partial",
    "Sis.Csv.C92_violated_columns",
    "Sis.Csv.C92_violated_long",
    "Sis.Csv.C92_violated_unknown"
   ],
   "note": "proved for every table and any number of records whose first column is not empty, texts without line ends and with zeros behind them, and floating point numbers of at most 14 bytes; an empty first column, a text that is ended before its field, week times, long numbers and unknown fields fail (violations proved)"
  },
  {
   "property": "C93",
   "status": "partial",
   "theorems": [
    "Sis.Csv.C93_open_partial",
    "Sis.Csv.C93_violated_tail",
    "Sis.Csv.C93_violated_quotes"
   ],
   "note": "proved for all files of lines with ends and columns without zeros and outer blanks, and all cuts; a last line without an end is lost and quotes are not understood (violations proved)"
  },
  {
   "property": "C94",
   "status": "partial",
   "theorems": [
    "Sis.Csv.C94_columns_partial",
    "Sis.Csv.C94_number_partial",
    "Sis.Csv.C94_violated_long"
   ],
   "note": "proved for all files and all cuts; the last column has the end of the line, what has no end is lost, and a column of 64 bytes is written outside of a buffer when it is read as a number (violation proved)"
  },
  {
   "property": "C95",
   "status": "partial",
   "theorems": [
    "Sis.Csv.C95_roundtrip_partial",
    "Sis.Csv.C95_number_partial",
    "Sis.Csv.C95_violated"
   ],
   "note": "proved for values as in C92 and C93 and distinct names; commas and blanks in texts and equal names fail (violations proved)"
  },
  {
   "property": "C96",
   "status": "partial",
   "theorems": [
    "Sis.Io.C96_series_partial",
    "Sis.Io.C96_unsorted_violated",
    "Sis.Io.C96_timeless_violated",
    "Sis.Io.C96_single_violated"
   ],
   "note": "proved for every table with a time, every history of rows sent as text and deletes that starts with an ordered batch, with any other commands between them, and every query by time; a first batch out of order, tables without times and keys without a table fail (violations proved)"
  },
  {
   "property": "C97",
   "status": "partial",
   "theorems": [
    "Sis.Io.C97_formats_partial",
    "Sis.Io.C97_fields_partial",
    "Sis.Io.C97_empty_violated",
    "Sis.Io.C97_unknown_violated"
   ],
   "note": "proved for histories as in C96 and queries that find something, CSV for values as in C92 and columns that are there; an empty first column and unknown columns fail (violations proved)"
  },
  {
   "property": "C98",
   "status": "proved",
   "theorems": [
    "Sis.Io.C98_alone",
    "Sis.Io.C98_unchanged"
   ],
   "note": "for all sequences of create, set, bset, get and del on a database without files"
  },
  {
   "property": "C99",
   "status": "partial",
   "theorems": [
    "Sis.Io.C99_refused_partial",
    "Sis.Io.C99_refused_violated"
   ],
   "note": "proved but for queries of the key of the command that were answered with nothing before; a refused record of a new series leaves an empty series behind, which is seen as an empty CSV text (violation proved)"
  },
  {
   "property": "C100",
   "status": "partial",
   "theorems": [
    "Sis.Io.C100_defined_partial",
    "Sis.Io.C100_odd",
    "Sis.Io.C100_crash_violated"
   ],
   "note": "proved for commands that fit the table, after histories as in C96; keys of unknown tables, empty records and commands without content stop the server (violations proved)"
  },
  {
   "property": "C101",
   "status": "partial",
   "theorems": [
    "Sis.Sic.C101_read_partial",
    "Sis.Sic.C101_violated_table",
    "Sis.Sic.C101_violated_key",
    "Sis.Sic.C101_violated_none",
    "Sis.Sic.C101_violated_unstopped",
    "Sis.Sic.C101_violated_restart",
    "Sis.Sic.C101_violated_redefined",
    "Sis.Sic.C101_violated_text",
    "Sis.Sic.C101_violated_long",
    "Sis.Sic.C101_violated_undefined"
   ],
   "note": "proved for every history of sessions in which keys and tables are given before the start and every start has a stop, for files read in pieces of 16 MB without cutting a size field and any subscription; what is left out fails (violations proved)"
  },
  {
   "property": "C102",
   "status": "partial",
   "theorems": [
    "Sis.Sic.C102_end_partial",
    "Sis.Sic.C102_violated_after"
   ],
   "note": "proved that it hears less than 131072 records more and is told that it broke off exactly if it ended the subscription; the rest of the block is still heard (violation proved)"
  },
  {
   "property": "C103",
   "status": "partial",
   "theorems": [
    "Sis.Sdb.C103_merge_partial",
    "Sis.Sdb.C103_blocks_partial",
    "Sis.Sdb.C103_rows_partial",
    "Sis.Sdb.C103_values_partial",
    "Sis.Sdb.C103_violated_keys",
    "Sis.Sdb.C103_violated_rewrite",
    "Sis.Sdb.C103_violated_twice"
   ],
   "note": "reading after a merge proved for every history of sessions and merges when the file has one block of keys and one of tables, which is so when all are declared before the first records of the year; otherwise the file is lost (violation proved), and what later writes replace changes (violations proved)"
  },
  {
   "property": "C104",
   "status": "partial",
   "theorems": [
    "Sis.Sdb.C104_writer_partial",
    "Sis.Sdb.C104_session_partial",
    "Sis.Sdb.C104_violated_empty",
    "Sis.Sdb.C104_violated_twice"
   ],
   "note": "proved for every history of sessions and merges and every sequence of calls in which records are whole ones with times of usual days; a block without records and a field that is defined twice fail (violations proved)"
  },
  {
   "property": "C105",
   "status": "partial",
   "theorems": [
    "Sis.Io.C105_back_partial",
    "Sis.Io.C105_once_partial",
    "Sis.Io.C105_violated_once",
    "Sis.Io.C105_violated_where",
    "Sis.Io.C105_violated_latest",
    "Sis.Io.C105_violated_index",
    "Sis.Io.C105_violated_again"
   ],
   "note": "for every history of definitions, rows sent and queries, ranges of keys written more than once are answered after save and start as before (back), and keys written exactly once are lost (once); queries of a time and of the latest rows, tables whose index is no time and a second save fail (violations proved); deletes before the save are not covered"
  },
  {
   "property": "C106",
   "status": "partial",
   "theorems": [
    "Sis.Conf.C106_open_partial",
    "Sis.Conf.C106_load_partial",
    "Sis.Conf.C106_quoted_violated",
    "Sis.Conf.C106_digit_violated",
    "Sis.Conf.C106_name_violated",
    "Sis.Conf.C106_empty_violated",
    "Sis.Conf.C106_nested_violated",
    "Sis.Conf.C106_cut_violated"
   ],
   "note": "proved for all documents, layouts with comments, and included files whose own members are named values; texts in quotes with a blank, words that begin with a digit, names in quotes, empty texts, includes in included files and files that are cut off fail (violations proved)"
  },
  {
   "property": "C107",
   "status": "partial",
   "theorems": [
    "Sis.Conf.C107_open_partial",
    "Sis.Conf.C107_load_partial",
    "Sis.Conf.C107_end_violated",
    "Sis.Conf.C107_loop_violated"
   ],
   "note": "proved for all files whose includes come to an end and for all texts that end with a control character; a text that ends within a name and a file that includes itself fail (violations proved)"
  },
  {
   "property": "C108",
   "status": "partial",
   "theorems": [
    "Sis.Conf.C108_pieces",
    "Sis.Conf.C108_script_partial",
    "Sis.Conf.C108_quoted_violated",
    "Sis.Conf.C108_end_violated"
   ],
   "note": "that the pieces do not matter is proved for every file, the calls for all scripts without brackets in words and names; a bracket in quotes and a name without a value fail (violations proved)"
  },
  {
   "property": "C109",
   "status": "partial",
   "theorems": [
    "Sis.Live.C109_sessions_partial",
    "Sis.Live.C109_sessions_served_partial",
    "Sis.Live.C109_data_partial",
    "Sis.Live.C109_stopped",
    "Sis.Live.C109_stop_all",
    "Sis.Live.C109_not_subscribed",
    "Sis.Live.C109_delivery",
    "Sis.Live.C109_accepted_partial",
    "Sis.Live.C109_day_text",
    "Sis.Live.C109_stop_violated"
   ],
   "note": "proved for every sequence of commands; that a stop ends a session only if no day is stopped before its subscribers were served, otherwise it fails (violation proved); when records are accepted for careful commands"
  },
  {
   "property": "C110",
   "status": "partial",
   "theorems": [
    "Sis.Live.C110_lists_partial",
    "Sis.Live.C110_heads_violated",
    "Sis.Live.C110_star_violated",
    "Sis.Live.C110_second_violated",
    "Sis.Live.C110_changed_violated"
   ],
   "note": "the lists told at the beginning of a session are proved for the first subject of a client, keys that are plain names and tables that are documents as in C68; that all records are of what was told fails for tables by heads, a star alone, second subjects and changed lists (violations proved)"
  },
  {
   "property": "C111",
   "status": "partial",
   "theorems": [
    "Sis.Live.C111_defined_partial",
    "Sis.Live.C111_refused_violated",
    "Sis.Live.C111_null_violated",
    "Sis.Live.C111_long_violated"
   ],
   "note": "proved for all sequences of careful commands; refused tables, missing texts and long subjects fail (violations proved)"
  },
  {
   "property": "C112",
   "status": "partial",
   "theorems": [
    "Sis.Flog.C112_history_partial",
    "Sis.Flog.C112_usual_histories_are_covered_partial",
    "Sis.Flog.C112_violated_head",
    "Sis.Flog.C112_violated_foreign",
    "Sis.Flog.C112_violated_torn_size",
    "Sis.Flog.C112_violated_remove",
    "Sis.Flog.C112_violated_no_open",
    "Sis.Flog.C112_violated_closed",
    "Sis.Flog.C112_violated_message"
   ],
   "note": "proved for every history of commands, crashes and restarts with messages that C31 covers and logs of up to one read portion or of short messages; a crash within the head of the file or a size field, removal with a configured directory, files that cannot be created, writing without opening, lists and strange names fail (violations proved)"
  },
  {
   "property": "C113",
   "status": "partial",
   "theorems": [
    "Sis.Memdb.C113_get_partial",
    "Sis.Memdb.C113_last_set_partial",
    "Sis.Memdb.C113_pub_partial",
    "Sis.Memdb.C113_pub_once_partial",
    "Sis.Memdb.C113_received_partial",
    "Sis.Memdb.C113_violated_zero",
    "Sis.Memdb.C113_violated_case",
    "Sis.Memdb.C113_violated_tag",
    "Sis.Memdb.C113_violated_access",
    "Sis.Memdb.C113_violated_init",
    "Sis.Memdb.C113_violated_crash"
   ],
   "note": "proved for every history of requests, with texts cut at their first zero and subjects compared without case; texts with zeros, subjects that differ in case only, requests with a tag, clients that may only read, and an init sent by a client fail (violations proved)"
  },
  {
   "property": "C114",
   "status": "partial",
   "theorems": [
    "Sis.Cli.C114_own_partial",
    "Sis.Cli.C114_answer_partial",
    "Sis.Cli.C114_back_partial",
    "Sis.Cli.C114_ask_partial",
    "Sis.Cli.C114_resubscribe_partial",
    "Sis.Cli.C114_works",
    "Sis.Cli.C114_login_partial",
    "Sis.Cli.C114_defined_partial",
    "Sis.Cli.C114_alone",
    "Sis.Cli.C114_violated_plain",
    "Sis.Cli.C114_violated_untagged",
    "Sis.Cli.C114_violated_anonymous",
    "Sis.Cli.C114_violated_lost",
    "Sis.Cli.C114_violated_stale",
    "Sis.Cli.C114_violated_long",
    "Sis.Cli.C114_violated_password",
    "Sis.Cli.C114_violated_race",
    "Sis.Cli.C114_violated_wrap",
    "Sis.Cli.C114_violated_memdb",
    "Sis.Cli.C114_violated_published"
   ],
   "note": "proved for every life of up to 16777215 questions with names and passwords of up to 31 bytes and commands of up to 127; threads that ask at the same moment, more questions, subscriptions without a service, without login or by a call that waits, open questions at a lost connection, and everything the data set in memory answers to a subscription or publishes fail (violations proved)"
  },
  {
   "property": "C115",
   "status": "partial",
   "theorems": [
    "Sis.Sha.C115_digest_partial",
    "Sis.Sha.C115_signs_partial",
    "Sis.Sha.C115_same",
    "Sis.Sha.C115_violated_long"
   ],
   "note": "proved for every text of less than 2^28 bytes; from there on the length in bits overflows an int (violation proved)"
  },
  {
   "property": "C116",
   "status": "partial",
   "theorems": [
    "Sis.Hand.C116_answer_partial",
    "Sis.Hand.C116_session_partial",
    "Sis.Hand.C116_pieces_partial",
    "Sis.Hand.C116_agree",
    "Sis.Hand.C116_refused_partial",
    "Sis.Hand.C116_violated_waits",
    "Sis.Hand.C116_violated_full",
    "Sis.Hand.C116_violated_stale",
    "Sis.Hand.C116_violated_silent",
    "Sis.Hand.C116_violated_case",
    "Sis.Hand.C116_violated_client",
    "Sis.Hand.C116_violated_nonce",
    "Sis.Hand.C116_violated_stack"
   ],
   "note": "proved for requests in one piece and any memory, with a zero among eight bytes of the stack, and for pieces in memory of zeros; stale memory, pieces that fill the buffer, small letters, refused requests, messages behind the request, and what the client sends and takes fail (violations proved)"
  },
  {
   "property": "C117",
   "status": "partial",
   "theorems": [
    "Sis.Snodb.C117_day_partial",
    "Sis.Snodb.C117_default_partial",
    "Sis.Snodb.C117_all_partial",
    "Sis.Snodb.C117_started_partial",
    "Sis.Snodb.C117_told_partial",
    "Sis.Snodb.C117_coded_partial",
    "Sis.Snodb.C117_violated_after_stop",
    "Sis.Snodb.C117_violated_slow",
    "Sis.Snodb.C117_violated_waiting",
    "Sis.Snodb.C117_violated_twice",
    "Sis.Snodb.C117_violated_history",
    "Sis.Snodb.C117_violated_midnight",
    "Sis.Snodb.C117_violated_format",
    "Sis.Snodb.C117_violated_names",
    "Sis.Snodb.C117_violated_crash",
    "Sis.Snodb.C117_violated_yesterday",
    "Sis.Snodb.C117_violated_keys",
    "Sis.Snodb.C117_violated_unknown",
    "Sis.Snodb.C117_violated_shed"
   ],
   "note": "proved for every history and interleaving of commands and threads: order, no gap and block starts within a day for a list that keeps all and, under conditions, for the default one, completeness for a list that keeps all, the start told with the last keys and tables; slow subscribers at the end of the day, second subscriptions, midnight, formats, undefined texts and a start without stop fail (violations proved); what a partial subscriber's own compressor makes of the data, lists with a size are not in this model; the log is C118"
  },
  {
   "property": "C118",
   "status": "partial",
   "theorems": [
    "Sis.Snodb.C118_day_partial",
    "Sis.Snodb.C118_kept_partial",
    "Sis.Snodb.C118_crash_partial",
    "Sis.Snodb.C118_boot_partial",
    "Sis.Snodb.C118_violated_reload",
    "Sis.Snodb.C118_violated_again",
    "Sis.Snodb.C118_violated_slow",
    "Sis.Snodb.C118_violated_last",
    "Sis.Snodb.C118_violated_first",
    "Sis.Snodb.C118_violated_nostop",
    "Sis.Snodb.C118_violated_late",
    "Sis.Snodb.C118_violated_midnight",
    "Sis.Snodb.C118_violated_crash"
   ],
   "note": "proved for every series of days each of which is started once, stopped, and leaves the log's thread time, and for a crash at any record of such a day; after a crash subscribers get nothing of the day so far, and a stop before the thread has read all, the last packets of the compressor, a second start, a missing stop, midnight and a late first block lose packets or whole files (violations proved); how the file is written from the records is not in this model, and the log itself is C112"
  },
  {
   "property": "C119",
   "status": "partial",
   "theorems": [
    "Sis.Wsno.C119_compressed_partial",
    "Sis.Wsno.C119_day_partial",
    "Sis.Wsno.C119_read_partial",
    "Sis.Wsno.C119_violated_keys",
    "Sis.Wsno.C119_violated_more",
    "Sis.Wsno.C119_violated_empty",
    "Sis.Wsno.C119_violated_open",
    "Sis.Wsno.C119_violated_nokeys",
    "Sis.Wsno.C119_violated_late"
   ],
   "note": "proved for every sequence of records and pauses of tables whose records a packet can hold, every point at which the process stopped and every number of times it ran on the day with the same keys and tables, and to the subscriber of the file under the conditions of C83; other keys behind a restart, a log without packets, a file that cannot be opened and records not yet in a packet at a crash fail (violations proved); floating point fields are not modelled"
  },
  {
   "property": "C120",
   "status": "partial",
   "theorems": [
    "Sis.Wt.C120_defined_partial",
    "Sis.Wt.C120_order_partial",
    "Sis.Wt.C120_wait_partial",
    "Sis.Wt.C120_drains_partial",
    "Sis.Wt.C120_destroy_partial",
    "Sis.Wt.C120_violated_wait",
    "Sis.Wt.C120_violated_walk",
    "Sis.Wt.C120_violated_lock",
    "Sis.Wt.C120_violated_busy",
    "Sis.Wt.C120_violated_create"
   ],
   "note": "proved for every history and interleaving from when the list is there until it is destroyed, the wait for compilers that read the counter of given tasks first, and the destruction of a list at rest; the other order of the two reads, destruction right after the last task or while the thread wakes, and a thread faster than its creation fail (violations proved)"
  },
  {
   "property": "C121",
   "status": "partial",
   "theorems": [
    "Sis.Mw.C121_defined_partial",
    "Sis.Mw.C121_order",
    "Sis.Mw.C121_wait_partial",
    "Sis.Mw.C121_accounts",
    "Sis.Mw.C121_kept_partial",
    "Sis.Mw.C121_drains_partial",
    "Sis.Mw.C121_violated_destroy",
    "Sis.Mw.C121_violated_start",
    "Sis.Mw.C121_violated_follow",
    "Sis.Mw.C121_violated_long"
   ],
   "note": "order, what a wait means for the tasks given before it, and the account of what ran and what was dropped proved for every number of threads and every interleaving; tasks still waiting at the destruction, threads that cannot be started, tasks given by running tasks during a wait, and names of 2^26 bytes fail (violations proved)"
  },
  {
   "property": "C122",
   "status": "partial",
   "theorems": [
    "Sis.Mrg.C122_all_partial",
    "Sis.Mrg.C122_names_partial",
    "Sis.Mrg.C122_order_partial",
    "Sis.Mrg.C122_same_partial",
    "Sis.Mrg.C122_violated_order",
    "Sis.Mrg.C122_violated_empty",
    "Sis.Mrg.C122_violated_late",
    "Sis.Mrg.C122_violated_year",
    "Sis.Mrg.C122_violated_minute",
    "Sis.Mrg.C122_violated_case",
    "Sis.Mrg.C122_violated_stop",
    "Sis.Mrg.C122_violated_long"
   ],
   "note": "proved for every number of keys, tables, records and later pieces that the playback ends and tells each record once and in the order of its key; the order over all keys for records that are all handed in before the start; pieces handed in later, as the reader of files does, tables made known late, years, an empty piece, names that differ in case, a stop before the start and long names fail (violations proved); stopping in the middle and the playback of raw records are not modelled"
  },
  {
   "property": "C123",
   "status": "partial",
   "theorems": [
    "Sis.Mrg.C123_same_partial",
    "Sis.Mrg.C123_none_partial",
    "Sis.Mrg.C123_violated_silent",
    "Sis.Mrg.C123_violated_dot",
    "Sis.Mrg.C123_violated_redefined"
   ],
   "note": "proved for every history of sessions, every key without a dot and every table with times that had one definition; subscriptions to many keys or tables at once are not modelled on disk, their merge is C122; false for a key with a dot, a table whose records got another size, and the start and end when there is no record"
  },
  {
   "property": "C124",
   "status": "proved",
   "theorems": [
    "Sis.Dict.C124_all_told",
    "Sis.Dict.C124_still_once"
   ],
   "note": "for fewer than 2^61 entries ever given, which memory cannot hold, and a client whose callback does not change the dictionary during the call; the hash and the comparison of the keys must agree, as for C63"
  },
  {
   "property": "C125",
   "status": "partial",
   "theorems": [
    "Sis.Link.C125_sequences_partial",
    "Sis.Link.C125_no_leak_partial",
    "Sis.Link.C125_violated_self",
    "Sis.Link.C125_violated_index"
   ],
   "note": "proved for every history of calls on any number of lists with fewer than 2^32 elements, with nodes of the list they are used with and free addresses; a list joined to itself loses its elements and their memory, and the smallest index is undefined behaviour"
  },
  {
   "property": "C126",
   "status": "partial",
   "theorems": [
    "Sis.Args.C126_round_trip_partial",
    "Sis.Args.C126_quoted",
    "Sis.Args.C126_repr_round_trip",
    "Sis.Args.C126_text",
    "Sis.Args.C126_refused",
    "Sis.Args.C126_refused_single",
    "Sis.Args.C126_ends",
    "Sis.Args.C126_violated_tab"
   ],
   "note": "proved for every list of byte strings and every mixture of the ways of writing (all escapes in double quotes), with spaces, tabs, line feeds and carriage returns between them (single quotes: not for a string that ends with a backslash, which cannot be written so); a vertical tab or form feed separates quoted arguments but not plain ones, which is shown"
  },
  {
   "property": "C127",
   "status": "partial",
   "theorems": [
    "Sis.Sds.C127_strings_partial",
    "Sis.Sds.C127_room",
    "Sis.Sds.C127_violated_self",
    "Sis.Sds.C127_violated_range",
    "Sis.Sds.C127_violated_trim"
   ],
   "note": "proved for every history of calls with fewer than 2^62 bytes at a time and bytes that are not those of the string itself; a string appended to itself is read after its memory was freed when it has to grow; a range that ends before the first byte keeps the first byte, one to the last position overflows; trimming takes zeros off that it was not asked to: all shown, and the theorem says what these calls do"
  },
  {
   "property": "C128",
   "status": "partial",
   "theorems": [
    "Sis.Sds.C128_format_partial",
    "Sis.Sds.C128_violated_end"
   ],
   "note": "proved for every history of the string, every format and arguments of the types it names that are not bytes of the string itself, with fewer than 2^62 bytes; a format that ends with a percent sign is read beyond its end, and the smallest 64-bit number overflows: both shown"
  },
  {
   "property": "C129",
   "status": "partial",
   "theorems": [
    "Sis.Split.C129_split_partial",
    "Sis.Split.C129_round_trip_partial",
    "Sis.Split.C129_byte_round_trip_partial",
    "Sis.Split.C129_none",
    "Sis.Split.C129_violated_empty"
   ],
   "note": "proved for every bytes shorter than 2^30 - 1 and every separator; one empty string joined is split into no string, which is shown; memory is always given"
  },
  {
   "property": "C130",
   "status": "partial",
   "theorems": [
    "Sis.Sds.C130_compare_partial",
    "Sis.Sds.C130_order",
    "Sis.Sds.C130_replace_partial",
    "Sis.Sds.C130_given"
   ],
   "note": "proved for every two histories of strings and every list of pairs, with fewer than 2^62 bytes; the order itself without a bound; letters are those of the C locale, in which bytes from 128 on stay as they are"
  }
 ]
}