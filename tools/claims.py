c("C01", "proved", "Sis.C01_ssize_roundtrip Sis.C01_ssize_length", "")
c("C02", "proved", "Sis.C02_try_iff_complete Sis.C02_try_iff_read_in_bounds Sis.C02_try_on_prefix Sis.C02_prefix_free", "")
c("C03", "proved", "Sis.Mem.C03_memory_is_queue Sis.Mem.C03_size_is_queue_length", "operations on the memory buffer as one sequential history")
c("C04", "proved", "Sis.BitS.C04_put_get Sis.BitS.C04_fits", "")
c("C05", "proved", "Sis.BitS.C05_mixed_roundtrip Sis.BitS.C05_sint Sis.BitS.C05_short Sis.BitS.C05_uint", "")
c("C06", "partial", "Sis.BitS.C06_int_partial Sis.BitS.C06_incr_partial Sis.BitS.C06_int_min_violated Sis.BitS.C06_incr_violated",
  "the code loses INT64_MIN (read back as 0); everything else is proved lossless")
c("C07", "partial", "Sis.BitS.C07_incr_chars_partial Sis.BitS.C07_cleared_field_violated",
  "the code loses the change from a non-empty to an empty string; everything else is proved lossless")
F = "Sis.Fmap."
def n(s): return " ".join(F + x for x in s.split())
c("C11", "proved", n("C11_where_returns_exactly_the_matches C11_no_match_iff C11_where_with_offset"), "for every sorted series in memory and every search hint")
c("C12", "proved", n("C12_range_returns_exactly_the_range C12_range_of_timestamps"), "for every sorted series in memory; with ifprev for ranges whose start is not behind the end")
c("C13", "partial", n("C13_update_keeps_sorted_and_loses_nothing_partial C13_first_batch_partial C13_violated_first_batch C13_history_partial C13_query_after_history_partial"),
  "the code stores the first batch of a series as it comes, unsorted (violation proved); all histories whose first batch is in order are proved")
c("C14", "partial", n("C14_arrival_order_partial C14_in_order_arrival_partial C14_violated"),
  "a record inserted among records of the same time is put before the last of them (violation proved); arrivals in time order are proved")
c("C15", "partial", n("C15_unique_upsert_partial C15_unique_upsert_batch_partial C15_violated C15_unique_keeps_sorted"),
  "an upsert whose time differs from the stored record duplicates the key (violation proved); the rest is proved")
c("C16", "proved", n("C16_delete_where C16_delete_range C16_delete_removes_what_read_returns"), "")
c("C17", "partial", n("C17_delete_in_one_period_partial C17_delete_where_partial C17_delete_to_end_partial C17_violated"),
  "a delete across several periods leaves a wrong index (violation proved); deletes within one period and to the end are proved")
c("C18", "partial", n("C18_window_from_first_partial C18_never_too_many_partial C18_violated C18_delete_from_first_partial C18_violated_delete C18_list_update"),
  "windows not starting at the first element are wrong in the code (violations proved)")
c("C56", "partial", n("C56_update_keeps_index_partial C56_violated_first_batch C56_violated_unsorted_batch"),
  "violated for the first batch and for a batch out of order; proved for the rest")
c("C57", "partial", n("C57_save_after_update_partial C57_violated_first_batch C57_violated_after_delete C57_save_one_partial C57_violated_one C57_save_non_partial"),
  "violated for a first batch, after a delete, and for unread single values; proved for the rest")
c("C58", "partial", n("C58_lazy_range_partial C58_violated_where C58_violated_last"),
  "violated for exact-match queries and for the default query with blocks per day; proved for all sequences of range queries between positive timestamps")
c("C59", "proved", n("C59_upsert_without_time"), "")
c("C60", "partial", n("C60_read_your_write_partial C60_violated_one C60_history_partial C60_history_read_partial C60_violated_non"),
  "a write before the first read of a stored key is lost on that read (violation proved); proved otherwise")
c("C61", "partial", n("C61_deleted_stays_deleted_partial C61_violated"), "a delete before the first read is undone by it (violation proved); proved otherwise")
F = "Sis.Disk."
c("C19", "partial", n("C19_reopen_keeps_complete_records_partial C19_short_messages_partial C19_violated_torn_size"),
  "a crash inside a multi-byte size field makes the reopening scan read out of bounds (violation proved); every other crash byte is proved")
c("C20", "partial", n("C20_replay_partial C20_replay_all_partial C20_violated_short_last_message"),
  "a last message of fewer than two bytes is not replayed (violation proved); the rest is proved")
c("C21", "partial", n("C21_replay_any_buffer_partial C21_violated C19_short_messages_partial"),
  "a size field split by the end of the read buffer is misread (violation proved with the real buffer size); messages of 4 to 65785 bytes are proved for every buffer size")
F = "Sis.Server."
c("C22", "partial", n("C22_crash_keeps_flushed_requests_partial C22_flushed_means_kept_partial C22_crash_keeps_a_prefix C22_every_history_is_covered C22_violated_buffer C22_violated_save C22_violated_next_day"),
  "three ways to lose an acknowledged request are proved (stdio buffer, crash inside save, restart on a later day); for all other histories the server's data is proved to be the result of a prefix of the acknowledged requests containing all saved and flushed ones")
F = "Sis.Ws."
c("C28", "partial", n("C28_pack_unpack_partial C28_any_peer_partial C28_empty_text_violated C28_large_violated"),
  "proved for every message and every conforming peer while less than 2^28 bytes wait in the receive buffer; an empty text message is never sent and larger input makes unpacking read outside the buffer (violations proved)")
c("C29", "partial", n("C29_pieces_partial C29_prefix_partial C29_stream_partial"), "any division into pieces, for streams shorter than 2^28 bytes")
c("C30", "partial", n("C30_in_bounds_partial C30_answers_partial C30_empty_binary_violated"),
  "below 2^28 bytes the only access outside the input is for a complete binary message without payload, which two bytes from a peer trigger (violation proved)")
F = "Sis.SL."
c("C40", "partial", n("C40_struct_list_is_list C40_clone_partial C40_clone_empty_violated"),
  "all calls but copying are proved; copying an empty array leaves the old contents of the target (violation proved)")
F = "Sis.Sort."
c("C42", "partial", n("C42_sort_list C42_clone_violated"),
  "proved for every history of sets and deletions; a copy does not take over the order flag and then misses keys (violation proved)")
F = "Sis.Fsort."
c("C43", "proved", n("C43_ranked_list C43_nan_excluded"), "scores range over any strict weak order, which `<` is on doubles other than NaN; C43_nan_excluded shows why NaN is excluded")
F = "Sis.NL."
c("C44", "partial", n("C44_paged_list_partial C44_get_violated C44_pop_empty_violated"),
  "order, size and positions up to twice the rest of the first page are proved; further positions and taking from an empty list are wrong in the code (violations proved)")
F = "Sis.PL."
c("C45", "partial", n("C45_int_list_get_partial C45_truncation_violated"), "numbers outside the 32-bit range are truncated (violation proved)")
c("C62", "partial", n("C62_pointer_list_is_list_partial C62_freed_exactly_once_partial C62_set_violated"),
  "setting a pointer that is already present frees it and keeps it (violation proved); all other histories are proved")
F = "Sis.ML."
c("C41", "proved", n("C41_named_list C41_named_list_names C41_position_stable"), "histories short enough for the array's int size, as hypothesis")
F = "Sis.Dict."
c("C63", "proved", n("C63_finite_map C63_names C63_int_keys"), "for every hash function that respects the key comparison, instantiated with the real case-folded siphash; histories below 2^61 entries")
c("C64", "proved", n("C64_each_once C64_current C64_delete_ahead_violated"), "the walk is proved; deleting the entry the walk has already read ahead is use after free (C64_delete_ahead_violated), which is why the property excludes it")
c("C65", "partial", n("C65_freed_or_held C65_no_early_free_partial C65_destroyed_all_freed C65_set_same_pointer_violated"), "setting the pointer already stored frees it and keeps it (violation proved); all other histories are proved")
F = "Sis.Access."
c("C46", "partial", n("C46_only_auth_partial C46_denied_partial C46_runtime_user_violated"), "proved for users configured before the start; users added at run time are not enforced until a restart (violation proved)")
c("C47", "partial", n("C47_internal C47_reader C47_reader_sisdb C47_writer_violated C47_writer_unrestricted_violated C47_escalation_violated"), "internal commands and read-only users are proved; a user with write access is refused nothing and can make itself administrator (violations proved)")
c("C48", "partial", n("C48_password_partial C48_right_password C48_case_violated"), "proved up to case; the case of the password is ignored (violation proved)")
c("C49", "partial", n("C49_authority_partial C49_queued_login_violated") + " Sis.Sub.C49_subscriptions_violated Sis.Sub.C49_close_ignored_violated Sis.Sub.C49_after_unsub_partial", "authority is gone unless a login is still queued (violation proved); subscriptions survive the close (violation proved), they are gone if the client cancels first")
c("C66", "partial", n("C66_crash_exactly_partial C66_unknown_user_violated") + " Sis.Sub.C66_empty_half_violated", "the crashing requests are characterised exactly; unknown user names and subjects with an empty half crash (violations proved)")
c("C67", "partial", n("C67_saved_users_partial C67_levels C67_crash_violated"), "the users survive a completed save; a crash during a save loses them and opens the server (violation proved)")
F = "Sis.Sub."
c("C50", "partial", n("C50_exactly_once_partial C50_only_subscribers_partial C50_at_least_once C50_short_keys_safe C50_twice_violated"), "a client that also has a matching pattern is notified twice (violation proved)")
c("C51", "partial", n("C51_patterns_partial C51_one_table_violated C51_first_decides_violated C51_long_key_violated"), "proved for *, *.*, lists and heads used one way; one star with a single name, mixed use and long keys fail (violations proved)")
F = "Sis.Json."
c("C68", "partial", n("C68_roundtrip_partial C68_violated"), "proved for texts without backslashes and control characters, names without quotes, and no truth value or empty member in a last place; outside of that the document changes (violations proved)")
c("C69", "partial", n("C69_writer_stays_in_buffer_partial"), "lengths are natural numbers in the model; the code counts a string in an int, so a string that needs 2^31 bytes is not covered")
c("C70", "partial", n("C70_every_text_is_read_partial C70_violated"), "reading always ends; malformed texts are accepted (violation proved)")
c("C71", "partial", n("C71_set_int_partial C71_set_string_partial C71_violated"), "proved for names without a point; such a name is not found, and a value set over an object is not written (violations proved)")
c("C72", "partial", n("C72_second_wins_partial C72_first_kept_partial C72_violated"), "proved for documents in which no object has a name twice; an object merged over a plain value is not written (violation proved)")
F = "Sis.Msg."
c("C31", "partial", n("C31_binary_partial C31_binary_list_partial C31_text_partial C31_violated"), "proved for both formats within stated limits; 64-bit numbers in binary messages, lists, names with colons, control characters in texts and empty texts are lost or changed (violations proved)")
c("C32", "partial", n("C32_relay_partial C32_violated"), "proved end to end for messages without a list; a list is dropped (violation proved)")
c("C73", "partial", n("C73_text_partial C73_violated"), "proved for all but binary messages, which are read past their end (violation proved)")
F = "Sis.Nq."
c("C33", "partial", n("C33_packets_never_fault_partial C33_packets_fifo_partial C33_packets_conserved_partial C33_size_partial C33_read_reports_partial C33_drain_partial C33_bytes_never_fault_partial C33_bytes_fifo_partial C33_bytes_conserved_partial C33_send_round_partial C33_bytes_size_partial C33_objects_partial C33_violated_large_piece C33_violated_large_packet C33_violated_read_midway"), "proved for packets and pieces up to 16 MB and for readers that finish one round before the next; a larger one after a first one is written past the node, and reading midway through a round reports nothing although a packet is left (violations proved)")
F = "Sis.Sess."
c("C34", "partial", n("C34_lookup_partial C34_new_number_partial C34_new_defined_partial C34_stop_partial C34_clear_partial C34_uses_partial C34_first_partial C34_next_partial C34_violated C34_violated_waiting"), "proved for up to 1024 numbers live or waiting; the 1025th is written outside of the arrays (violations proved); two threads calling at once are not modelled")
c("C35", "proved", "Sis.Lk.C35_lock_never_faults Sis.Lk.C35_lock_fifo Sis.Lk.C35_lock_null_not_an_object Sis.Fq.C35_fast_never_faults Sis.Fq.C35_fast_fifo Sis.Fq.C35_fast_who Sis.Fq.C35_fast_drains", "the lock queue with its calls as steps (each holds the lock throughout), the fast queue with every access to shared memory as a step")
F = "Sis.Wq."
c("C36", "partial", n("C36_defined_partial C36_one_at_a_time_partial C36_order_partial C36_direct_partial C36_next_partial C36_handler_violated C36_null_violated"), "proved for handlers that do not call the queue themselves and jobs that are not null; otherwise the queue blocks (violations proved)")
F = "Sis.Ll."
c("C37", "partial", n("C37_all_defined_partial C37_all_order_partial C37_all_complete_partial C37_size_partial C37_open_violated C37_clear_violated"), "proved from the moment the reader's thread first looks at the list; a message put in after the opening returned but before that is missed, and clearing the list under a reader is use after free (violations proved)")
c("C38", "partial", n("C38_defined_partial C38_kept_partial C38_complete_partial C38_head_violated C38_server_list_violated C38_tail_violated C38_unregistered_violated C38_lost_violated"), "proved for readers of new messages that are opened, registered and positioned without interruption after the watcher took its first place; readers from the head, on an empty list or not yet registered lose messages or use freed memory (violations proved)")
c("C74", "partial", n("C74_limit_partial C74_violated"), "proved for messages of one size, the same schedules as C38 and limits raised to at least 1024; with messages of different sizes the list keeps more (violation proved)")
F = "Sis.Time."
c("C54", "partial", n("C54_monotone_partial C54_date_partial C54_seconds C54_back_partial C54_last_partial C54_date_back_partial C54_zero_violated C54_wsec_violated C54_overflow_violated"), "proved from the first to the 2^42th second in time zones without summer time; the time 0 is taken for now, microseconds are not converted, and milliseconds can overflow (violations proved)")
c("C55", "partial", n("C55_week C55_later_partial C55_work_day_partial C55_violated"), "proved for Sunday to Thursday; on every Friday and Saturday the next work day is said to be on the weekend (violation proved for all of them)")
c("C77", "partial", n("C77_partial C77_violated"), "proved for dates from 1970 on in time zones without summer time, unless the date begins at time 0, which is taken for now (violation proved)")
c("C78", "partial", n("C78_partial C78_order C78_violated"), "proved for all but the time 0, which is taken for now (violation proved); time zones without summer time")
F = "Sis.Refs."
c("C39", "partial", n("C39_never_used_after_free_partial C39_freed_exactly_once_partial C39_granted_partial C39_null_violated C39_overflow_violated"), "every access to the counter is a step; proved while fewer than 2^32 references exist and for objects with a pointer; an object without one is never freed and the counter can go round (violations proved)")
F = "Sis.Rw."
c("C75", "partial", n("C75_exclusive C75_writer_gets C75_reader_gets_partial C75_try_violated"), "exclusion and the writer's progress are proved in full; after a failed attempt to write that is not repeated no reader gets the free lock (violation proved)")
F = "Sis.Pool."
c("C76", "partial", n("C76_distinct_partial C76_refused_partial C76_race_violated"), "proved for calls one at a time; two threads at once get the same handle (violation proved)")
F = "Sis.Dyn."
c("C52", "partial", n("C52_partial C52_live_partial C52_size C52_fields_partial C52_absent_partial C52_violated C52_overflow_violated"), "proved for records of at most 65536 bytes; above that fields overlap, and large definitions overflow an int (violations proved)")
c("C53", "partial", n("C53_partial C53_copy C53_defined_partial C53_order_violated C53_new_violated C53_name_violated"), "proved for tables that differ in size, number of fields or the shape of a common field and names of at most 31 bytes; floating point arithmetic is not modelled; reordered, renamed and long-named fields fail (violations proved)")
c("C79", "partial", n("C79_partial C79_untimed C79_index_partial C79_index_time C79_violated"), "proved unless a later definition repeats the name of the field; then a freed field is used (violation proved)")
F = "Sis.Zip."
c("C08", "partial", n("C08_partial C08_defined_partial C08_empty_violated C08_stale_violated C08_jump_violated C08_overflow_violated"), "proved for tables of numbers and texts (no floating point), any number of records; texts that become empty, numbers that change by 2^63 and wide records that do not fit fail (violations proved)")
c("C10", "partial", n("C10_partial C10_kept C10_violated"), "proved for counts up to 2^31-1; from 2^31 on the block is refused (violation proved)")
c("C09", "partial", n("C09_partial C09_defined_partial C09_ends C09_first_violated C09_key_violated C09_reuse_violated C09_overflow_violated"), "proved for every history of bags, block ends and new keys over tables of numbers and texts, if the first bag of a key and table has at most one record, no text becomes empty, no number changes by 2^63 and no bag takes more than the size given to start; the other cases fail (violations proved here and under C08)")
F = "Sis.Sdb."
c("C25", "partial", n("C25_index_back_partial C25_violated_trace C25_violated_long_names C25_violated_unknown_key"), "proved with the trace lines left out, for names of at most 254 bytes, keys and tables that are in the dictionaries and index files under 2 GB read without cutting a size field; with the trace lines of the source a value without table stops the program, and longer names are cut (violations proved)")
c("C23", "partial", n("C23_one_partial C23_list_partial C23_latest_partial C23_latest_list_partial C23_others_partial C23_violated_empty C23_violated_comma C23_violated_dot C23_violated_blank C23_violated_trace"), "proved for every history of sessions with usual key names, values below 2 GB and files of limited size, the compression and the text of tables given by what they do; empty values, commas, dots and blanks in keys fail (violations proved)")
c("C24", "partial", n("C24_rows_partial C24_replace_partial C24_outside_partial C24_others_partial C24_violated_overlap C24_violated_twice C24_violated_touch"), "proved for older blocks that are apart from the new one or lie in it; a block that is only partly in the time of the new one is lost with all its records (violation proved)")
c("C26", "partial", n("C26_present_partial C26_violated_removed C26_violated_value C26_violated_again"), "proved for every history of sessions that write; removals are written in a form that reads as something else (violations proved)")
c("C27", "partial", n("C27_split_partial C27_elsewhere_partial C27_written_partial C27_place_partial C27_violated_msec"), "proved for every history of sessions and blocks whose times fit 31 bits or that are of one period; milliseconds over several days go to wrong files (violation proved)")
c("C80", "partial", n("C80_readable_partial C80_violated_undeclared"), "proved when keys are declared before records are written for them; otherwise the file cannot be read (violation proved)")
c("C81", "partial", n("C81_files_partial C81_found_partial C81_violated_redefined C81_violated_whole"), "proved that exactly the records of the days or years of the range come out, for tables with one definition; whole days come out, and records of a table that was defined anew do not (violations proved)")
c("C82", "partial", n("C82_text_partial C82_database_partial C82_violated_long C82_violated_quote C82_violated_digits"), "proved for names of fields of at most 31 bytes and names without quotes, backslashes and control characters; with it the theorems on databases hold for the text the program itself makes; negations for other names and for 256 digits")
F = "Sis.Sno."
c("C83", "partial", n("C83_all_partial C83_violated_size C83_violated_restart C83_violated_unstopped C83_violated_dots C83_violated_empty"), "proved for every history of sessions with usual names, writing stopped before the file is closed, tables that keep the size of their records, and files read in pieces of 16 MB without cutting a size field; a second start, a close without stop, a table with records of a new size, dots in keys and writes of no bytes fail (violations proved)")
c("C84", "partial", n("C84_some_partial C84_violated_pages"), "proved as C83, with no condition on the pieces, when the blocks of records are listed in one block of the index; with several the records of later pages are not heard (violation of the decoder proved)")
c("C85", "partial", n("C85_object_partial C83_violated_size"), "proved as C84; a table with records of a new size fails (violation proved)")
F = "Sis.Rec."
c("C86", "partial", n("C86_text_partial C86_empty_partial C86_violated_value C86_violated_min"), "proved for every table and any number of records, floating point numbers given by what the C library makes of them; week times, numbers of odd lengths and the smallest 64-bit number fail (violations proved)")
c("C87", "partial", n("C87_rows_partial C87_row_partial C87_violated_short C87_violated_count"), "proved for tables whose fields have one element each and rows that fit; rows of other lengths are not refused, and fields of several elements fail (violations proved)")
c("C88", "partial", n("C88_roundtrip_partial C88_violated C88_violated_count"), "proved for tables whose fields have one element each and values whose text says all of them; other values and fields of several elements fail (violations proved)")
c("C89", "partial", n("C89_object_partial C89_violated"), "proved for names of fields without points; a point in a name and a name that is another name and a number fail (violations proved)")
c("C90", "partial", n("C90_select_partial C90_violated"), "proved for names of fields and of elements that are there; elements that are not there are read outside of the field or the records (violations proved)")
c("C91", "partial", n("C91_array_partial C91_object_partial C91_violated_unknown C91_violated_column"), "proved as an array for all names, as an object for names of fields of one element; an unknown name uses a null pointer and columns behind a field of several elements are wrong (violations proved)")
F = "Sis.Csv."
c("C92", "partial", n("C92_text_partial C92_names_partial C92_fields_partial C92_violated_columns C92_violated_long C92_violated_unknown"), "proved for every table and any number of records whose first column is not empty, texts without line ends and with zeros behind them, and floating point numbers of at most 14 bytes; an empty first column, a text that is ended before its field, week times, long numbers and unknown fields fail (violations proved)")
c("C93", "partial", n("C93_open_partial C93_violated_tail C93_violated_quotes"), "proved for all files of lines with ends and columns without zeros and outer blanks, and all cuts; a last line without an end is lost and quotes are not understood (violations proved)")
c("C94", "partial", n("C94_columns_partial C94_number_partial C94_violated_long"), "proved for all files and all cuts; the last column has the end of the line, what has no end is lost, and a column of 64 bytes is written outside of a buffer when it is read as a number (violation proved)")
c("C95", "partial", n("C95_roundtrip_partial C95_number_partial C95_violated"), "proved for values as in C92 and C93 and distinct names; commas and blanks in texts and equal names fail (violations proved)")
F = "Sis.Io."
c("C96", "partial", n("C96_series_partial C96_unsorted_violated C96_timeless_violated C96_single_violated"), "proved for every table with a time, every history of rows sent as text and deletes that starts with an ordered batch, with any other commands between them, and every query by time; a first batch out of order, tables without times and keys without a table fail (violations proved)")
c("C97", "partial", n("C97_formats_partial C97_fields_partial C97_empty_violated C97_unknown_violated"), "proved for histories as in C96 and queries that find something, CSV for values as in C92 and columns that are there; an empty first column and unknown columns fail (violations proved)")
c("C98", "proved", n("C98_alone C98_unchanged"), "for all sequences of create, set, bset, get and del on a database without files")
c("C99", "partial", n("C99_refused_partial C99_refused_violated"), "proved but for queries of the key of the command that were answered with nothing before; a refused record of a new series leaves an empty series behind, which is seen as an empty CSV text (violation proved)")
c("C100", "partial", n("C100_defined_partial C100_odd C100_crash_violated"), "proved for commands that fit the table, after histories as in C96; keys of unknown tables, empty records and commands without content stop the server (violations proved)")
F = "Sis.Sic."
c("C101", "partial", n("C101_read_partial C101_violated_table C101_violated_key C101_violated_none C101_violated_unstopped C101_violated_restart C101_violated_redefined C101_violated_text C101_violated_long C101_violated_undefined"), "proved for every history of sessions in which keys and tables are given before the start and every start has a stop, for files read in pieces of 16 MB without cutting a size field and any subscription; what is left out fails (violations proved)")
c("C102", "partial", n("C102_end_partial C102_violated_after"), "proved that it hears less than 131072 records more and is told that it broke off exactly if it ended the subscription; the rest of the block is still heard (violation proved)")
F = "Sis.Sdb."
c("C103", "partial", n("C103_merge_partial C103_blocks_partial C103_rows_partial C103_values_partial C103_violated_keys C103_violated_rewrite C103_violated_twice"), "reading after a merge proved for every history of sessions and merges when the file has one block of keys and one of tables, which is so when all are declared before the first records of the year; otherwise the file is lost (violation proved), and what later writes replace changes (violations proved)")
c("C104", "partial", n("C104_writer_partial C104_session_partial C104_violated_empty C104_violated_twice"), "proved for every history of sessions and merges and every sequence of calls in which records are whole ones with times of usual days; a block without records and a field that is defined twice fail (violations proved)")
F = "Sis.Io."
c("C105", "partial", n("C105_back_partial C105_once_partial C105_violated_once C105_violated_where C105_violated_latest C105_violated_index C105_violated_again"), "for every history of definitions, rows sent and queries, ranges of keys written more than once are answered after save and start as before (back), and keys written exactly once are lost (once); queries of a time and of the latest rows, tables whose index is no time and a second save fail (violations proved); deletes before the save are not covered")
F = "Sis.Conf."
c("C106", "partial", n("C106_open_partial C106_load_partial C106_quoted_violated C106_digit_violated C106_name_violated C106_empty_violated C106_nested_violated C106_cut_violated"), "proved for all documents, layouts with comments, and included files whose own members are named values; texts in quotes with a blank, words that begin with a digit, names in quotes, empty texts, includes in included files and files that are cut off fail (violations proved)")
c("C107", "partial", n("C107_open_partial C107_load_partial C107_end_violated C107_loop_violated"), "proved for all files whose includes come to an end and for all texts that end with a control character; a text that ends within a name and a file that includes itself fail (violations proved)")
c("C108", "partial", n("C108_pieces C108_script_partial C108_quoted_violated C108_end_violated"), "that the pieces do not matter is proved for every file, the calls for all scripts without brackets in words and names; a bracket in quotes and a name without a value fail (violations proved)")
F = "Sis.Live."
c("C109", "partial", n("C109_sessions_partial C109_sessions_served_partial C109_data_partial C109_stopped C109_stop_all C109_not_subscribed C109_delivery C109_accepted_partial C109_day_text C109_stop_violated"), "proved for every sequence of commands; that a stop ends a session only if no day is stopped before its subscribers were served, otherwise it fails (violation proved); when records are accepted for careful commands")
c("C110", "partial", n("C110_lists_partial C110_heads_violated C110_star_violated C110_second_violated C110_changed_violated"), "the lists told at the beginning of a session are proved for the first subject of a client, keys that are plain names and tables that are documents as in C68; that all records are of what was told fails for tables by heads, a star alone, second subjects and changed lists (violations proved)")
c("C111", "partial", n("C111_defined_partial C111_refused_violated C111_null_violated C111_long_violated"), "proved for all sequences of careful commands; refused tables, missing texts and long subjects fail (violations proved)")
F = "Sis.Flog."
c("C112", "partial", n("C112_history_partial C112_usual_histories_are_covered_partial C112_violated_head C112_violated_foreign C112_violated_torn_size C112_violated_remove C112_violated_no_open C112_violated_closed C112_violated_message"), "proved for every history of commands, crashes and restarts with messages that C31 covers and logs of up to one read portion or of short messages; a crash within the head of the file or a size field, removal with a configured directory, files that cannot be created, writing without opening, lists and strange names fail (violations proved)")
F = "Sis.Memdb."
c("C113", "partial", n("C113_get_partial C113_last_set_partial C113_pub_partial C113_pub_once_partial C113_received_partial C113_violated_zero C113_violated_case C113_violated_tag C113_violated_access C113_violated_init C113_violated_crash"), "proved for every history of requests, with texts cut at their first zero and subjects compared without case; texts with zeros, subjects that differ in case only, requests with a tag, clients that may only read, and an init sent by a client fail (violations proved)")
F = "Sis.Cli."
c("C114", "partial", n("C114_own_partial C114_answer_partial C114_back_partial C114_ask_partial C114_resubscribe_partial C114_works C114_login_partial C114_defined_partial C114_alone C114_violated_plain C114_violated_untagged C114_violated_anonymous C114_violated_lost C114_violated_stale C114_violated_long C114_violated_password C114_violated_race C114_violated_wrap C114_violated_memdb C114_violated_published"), "proved for every life of up to 16777215 questions with names and passwords of up to 31 bytes and commands of up to 127; threads that ask at the same moment, more questions, subscriptions without a service, without login or by a call that waits, open questions at a lost connection, and everything the data set in memory answers to a subscription or publishes fail (violations proved)")
F = "Sis.Sha."
c("C115", "partial", n("C115_digest_partial C115_signs_partial C115_same C115_violated_long"), "proved for every text of less than 2^28 bytes; from there on the length in bits overflows an int (violation proved)")
F = "Sis.Hand."
c("C116", "partial", n("C116_answer_partial C116_session_partial C116_pieces_partial C116_agree C116_refused_partial C116_violated_waits C116_violated_full C116_violated_stale C116_violated_silent C116_violated_case C116_violated_client C116_violated_nonce C116_violated_stack"), "proved for requests in one piece and any memory, with a zero among eight bytes of the stack, and for pieces in memory of zeros; stale memory, pieces that fill the buffer, small letters, refused requests, messages behind the request, and what the client sends and takes fail (violations proved)")
F = "Sis.Snodb."
c("C117", "partial", n("C117_day_partial C117_default_partial C117_all_partial C117_started_partial C117_told_partial C117_coded_partial C117_violated_after_stop C117_violated_slow C117_violated_waiting C117_violated_twice C117_violated_history C117_violated_midnight C117_violated_format C117_violated_names C117_violated_crash C117_violated_yesterday C117_violated_keys C117_violated_unknown C117_violated_shed"), "proved for every history and interleaving of commands and threads: order, no gap and block starts within a day for a list that keeps all and, under conditions, for the default one, completeness for a list that keeps all, the start told with the last keys and tables; slow subscribers at the end of the day, second subscriptions, midnight, formats, undefined texts and a start without stop fail (violations proved); what a partial subscriber's own compressor makes of the data, lists with a size are not in this model; the log is C118")
c("C118", "partial", n("C118_day_partial C118_kept_partial C118_crash_partial C118_boot_partial C118_violated_reload C118_violated_again C118_violated_slow C118_violated_last C118_violated_first C118_violated_nostop C118_violated_late C118_violated_midnight C118_violated_crash"), "proved for every series of days each of which is started once, stopped, and leaves the log's thread time, and for a crash at any record of such a day; after a crash subscribers get nothing of the day so far, and a stop before the thread has read all, the last packets of the compressor, a second start, a missing stop, midnight and a late first block lose packets or whole files (violations proved); how the file is written from the records is not in this model, and the log itself is C112")
F = "Sis.Wsno."
c("C119", "partial", n("C119_compressed_partial C119_day_partial C119_read_partial C119_violated_keys C119_violated_more C119_violated_empty C119_violated_open C119_violated_nokeys C119_violated_late"), "proved for every sequence of records and pauses of tables whose records a packet can hold, every point at which the process stopped and every number of times it ran on the day with the same keys and tables, and to the subscriber of the file under the conditions of C83; other keys behind a restart, a log without packets, a file that cannot be opened and records not yet in a packet at a crash fail (violations proved); floating point fields are not modelled")
F = "Sis.Wt."
c("C120", "partial", n("C120_defined_partial C120_order_partial C120_wait_partial C120_drains_partial C120_destroy_partial C120_violated_wait C120_violated_walk C120_violated_lock C120_violated_busy C120_violated_create"), "proved for every history and interleaving from when the list is there until it is destroyed, the wait for compilers that read the counter of given tasks first, and the destruction of a list at rest; the other order of the two reads, destruction right after the last task or while the thread wakes, and a thread faster than its creation fail (violations proved)")
F = "Sis.Mw."
c("C121", "partial", n("C121_defined_partial C121_order C121_wait_partial C121_accounts C121_kept_partial C121_drains_partial C121_violated_destroy C121_violated_start C121_violated_follow C121_violated_long"), "order, what a wait means for the tasks given before it, and the account of what ran and what was dropped proved for every number of threads and every interleaving; tasks still waiting at the destruction, threads that cannot be started, tasks given by running tasks during a wait, and names of 2^26 bytes fail (violations proved)")
F = "Sis.Mrg."
c("C122", "partial", n("C122_all_partial C122_names_partial C122_order_partial C122_same_partial C122_violated_order C122_violated_empty C122_violated_late C122_violated_year C122_violated_minute C122_violated_case C122_violated_stop C122_violated_long"), "proved for every number of keys, tables, records and later pieces that the playback ends and tells each record once and in the order of its key; the order over all keys for records that are all handed in before the start; pieces handed in later, as the reader of files does, tables made known late, years, an empty piece, names that differ in case, a stop before the start and long names fail (violations proved); stopping in the middle and the playback of raw records are not modelled")
c("C123", "partial", n("C123_same_partial C123_none_partial C123_violated_silent C123_violated_dot C123_violated_redefined"), "proved for every history of sessions, every key without a dot and every table with times that had one definition; subscriptions to many keys or tables at once are not modelled on disk, their merge is C122; false for a key with a dot, a table whose records got another size, and the start and end when there is no record")
F = "Sis.Dict."
c("C124", "proved", n("C124_all_told C124_still_once"), "for fewer than 2^61 entries ever given, which memory cannot hold, and a client whose callback does not change the dictionary during the call; the hash and the comparison of the keys must agree, as for C63")
F = "Sis.Link."
c("C125", "partial", n("C125_sequences_partial C125_no_leak_partial C125_violated_self C125_violated_index"), "proved for every history of calls on any number of lists with fewer than 2^32 elements, with nodes of the list they are used with and free addresses; a list joined to itself loses its elements and their memory, and the smallest index is undefined behaviour")
F = "Sis.Args."
c("C126", "partial", n("C126_round_trip_partial C126_quoted C126_repr_round_trip C126_text C126_refused C126_refused_single C126_ends C126_violated_tab"), "proved for every list of byte strings and every mixture of the ways of writing (all escapes in double quotes), with spaces, tabs, line feeds and carriage returns between them (single quotes: not for a string that ends with a backslash, which cannot be written so); a vertical tab or form feed separates quoted arguments but not plain ones, which is shown")
F = "Sis.Sds."
c("C127", "partial", n("C127_strings_partial C127_room C127_violated_self C127_violated_range C127_violated_trim"), "proved for every history of calls with fewer than 2^62 bytes at a time and bytes that are not those of the string itself; a string appended to itself is read after its memory was freed when it has to grow; a range that ends before the first byte keeps the first byte, one to the last position overflows; trimming takes zeros off that it was not asked to: all shown, and the theorem says what these calls do")
c("C128", "partial", n("C128_format_partial C128_violated_end"), "proved for every history of the string, every format and arguments of the types it names that are not bytes of the string itself, with fewer than 2^62 bytes; a format that ends with a percent sign is read beyond its end, and the smallest 64-bit number overflows: both shown")
F = "Sis.Split."
c("C129", "partial", n("C129_split_partial C129_round_trip_partial C129_byte_round_trip_partial C129_none C129_violated_empty"), "proved for every bytes shorter than 2^30 - 1 and every separator; one empty string joined is split into no string, which is shown; memory is always given")
F = "Sis.Sds."
c("C130", "partial", n("C130_compare_partial C130_order C130_replace_partial C130_given"), "proved for every two histories of strings and every list of pairs, with fewer than 2^62 bytes; the order itself without a bound; letters are those of the C locale, in which bytes from 128 on stay as they are")
