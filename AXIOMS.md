# Axioms

Generated by `tools/axioms.py`: what `#print axioms` says of each theorem of MANIFEST.json.

## Classical.choice, Quot.sound, propext (436 theorems)

`Sis.C01_ssize_roundtrip`, `Sis.C02_try_iff_read_in_bounds`, `Sis.C02_try_on_prefix`, `Sis.C02_prefix_free`, `Sis.Mem.C03_memory_is_queue`, `Sis.Mem.C03_size_is_queue_length`, `Sis.BitS.C04_put_get`, `Sis.BitS.C04_fits`, `Sis.BitS.C05_mixed_roundtrip`, `Sis.BitS.C05_sint`, `Sis.BitS.C05_short`, `Sis.BitS.C05_uint`, `Sis.BitS.C06_int_partial`, `Sis.BitS.C06_incr_partial`, `Sis.BitS.C06_int_min_violated`, `Sis.BitS.C07_incr_chars_partial`, `Sis.Fmap.C11_where_returns_exactly_the_matches`, `Sis.Fmap.C11_no_match_iff`, `Sis.Fmap.C11_where_with_offset`, `Sis.Fmap.C12_range_returns_exactly_the_range`, `Sis.Fmap.C12_range_of_timestamps`, `Sis.Fmap.C13_update_keeps_sorted_and_loses_nothing_partial`, `Sis.Fmap.C13_first_batch_partial`, `Sis.Fmap.C13_violated_first_batch`, `Sis.Fmap.C13_history_partial`, `Sis.Fmap.C13_query_after_history_partial`, `Sis.Fmap.C14_arrival_order_partial`, `Sis.Fmap.C14_in_order_arrival_partial`, `Sis.Fmap.C14_violated`, `Sis.Fmap.C15_unique_upsert_partial`, `Sis.Fmap.C15_unique_upsert_batch_partial`, `Sis.Fmap.C15_violated`, `Sis.Fmap.C15_unique_keeps_sorted`, `Sis.Fmap.C16_delete_where`, `Sis.Fmap.C16_delete_range`, `Sis.Fmap.C16_delete_removes_what_read_returns`, `Sis.Fmap.C17_delete_in_one_period_partial`, `Sis.Fmap.C17_delete_where_partial`, `Sis.Fmap.C17_delete_to_end_partial`, `Sis.Fmap.C17_violated`, `Sis.Fmap.C56_update_keeps_index_partial`, `Sis.Fmap.C56_violated_first_batch`, `Sis.Fmap.C56_violated_unsorted_batch`, `Sis.Fmap.C57_save_after_update_partial`, `Sis.Fmap.C57_violated_first_batch`, `Sis.Fmap.C57_violated_after_delete`, `Sis.Fmap.C58_lazy_range_partial`, `Sis.Fmap.C58_violated_where`, `Sis.Fmap.C58_violated_last`, `Sis.Fmap.C59_upsert_without_time`, `Sis.Disk.C19_reopen_keeps_complete_records_partial`, `Sis.Disk.C19_short_messages_partial`, `Sis.Disk.C19_violated_torn_size`, `Sis.Disk.C20_replay_partial`, `Sis.Disk.C20_replay_all_partial`, `Sis.Disk.C20_violated_short_last_message`, `Sis.Disk.C21_replay_any_buffer_partial`, `Sis.Disk.C21_violated`, `Sis.Server.C22_crash_keeps_flushed_requests_partial`, `Sis.Server.C22_every_history_is_covered`, `Sis.Server.C22_violated_buffer`, `Sis.Server.C22_violated_save`, `Sis.Server.C22_violated_next_day`, `Sis.Ws.C28_pack_unpack_partial`, `Sis.Ws.C28_any_peer_partial`, `Sis.Ws.C28_empty_text_violated`, `Sis.Ws.C28_large_violated`, `Sis.Ws.C29_pieces_partial`, `Sis.Ws.C29_prefix_partial`, `Sis.Ws.C29_stream_partial`, `Sis.Ws.C30_in_bounds_partial`, `Sis.Ws.C30_answers_partial`, `Sis.Ws.C30_empty_binary_violated`, `Sis.SL.C40_struct_list_is_list`, `Sis.SL.C40_clone_partial`, `Sis.Sort.C42_sort_list`, `Sis.Fsort.C43_ranked_list`, `Sis.NL.C44_paged_list_partial`, `Sis.PL.C45_int_list_get_partial`, `Sis.PL.C62_pointer_list_is_list_partial`, `Sis.PL.C62_freed_exactly_once_partial`, `Sis.ML.C41_named_list`, `Sis.ML.C41_named_list_names`, `Sis.ML.C41_position_stable`, `Sis.Dict.C63_finite_map`, `Sis.Dict.C63_names`, `Sis.Dict.C63_int_keys`, `Sis.Dict.C64_each_once`, `Sis.Dict.C64_current`, `Sis.Dict.C65_freed_or_held`, `Sis.Dict.C65_no_early_free_partial`, `Sis.Dict.C65_destroyed_all_freed`, `Sis.Access.C46_only_auth_partial`, `Sis.Access.C46_denied_partial`, `Sis.Access.C46_runtime_user_violated`, `Sis.Access.C47_internal`, `Sis.Access.C47_reader`, `Sis.Access.C47_reader_sisdb`, `Sis.Access.C47_writer_violated`, `Sis.Access.C47_escalation_violated`, `Sis.Access.C48_password_partial`, `Sis.Access.C48_right_password`, `Sis.Access.C48_case_violated`, `Sis.Access.C49_authority_partial`, `Sis.Access.C49_queued_login_violated`, `Sis.Sub.C49_subscriptions_violated`, `Sis.Sub.C49_close_ignored_violated`, `Sis.Sub.C49_after_unsub_partial`, `Sis.Access.C66_crash_exactly_partial`, `Sis.Access.C66_unknown_user_violated`, `Sis.Sub.C66_empty_half_violated`, `Sis.Access.C67_saved_users_partial`, `Sis.Access.C67_levels`, `Sis.Access.C67_crash_violated`, `Sis.Sub.C50_exactly_once_partial`, `Sis.Sub.C50_only_subscribers_partial`, `Sis.Sub.C50_at_least_once`, `Sis.Sub.C50_short_keys_safe`, `Sis.Sub.C50_twice_violated`, `Sis.Sub.C51_patterns_partial`, `Sis.Sub.C51_one_table_violated`, `Sis.Sub.C51_first_decides_violated`, `Sis.Sub.C51_long_key_violated`, `Sis.Json.C68_roundtrip_partial`, `Sis.Json.C70_every_text_is_read_partial`, `Sis.Json.C71_set_int_partial`, `Sis.Json.C71_set_string_partial`, `Sis.Json.C72_second_wins_partial`, `Sis.Json.C72_first_kept_partial`, `Sis.Msg.C31_binary_partial`, `Sis.Msg.C31_binary_list_partial`, `Sis.Msg.C31_text_partial`, `Sis.Msg.C32_relay_partial`, `Sis.Msg.C73_text_partial`, `Sis.Nq.C33_packets_never_fault_partial`, `Sis.Nq.C33_packets_fifo_partial`, `Sis.Nq.C33_packets_conserved_partial`, `Sis.Nq.C33_size_partial`, `Sis.Nq.C33_read_reports_partial`, `Sis.Nq.C33_drain_partial`, `Sis.Nq.C33_bytes_never_fault_partial`, `Sis.Nq.C33_bytes_fifo_partial`, `Sis.Nq.C33_bytes_conserved_partial`, `Sis.Nq.C33_send_round_partial`, `Sis.Nq.C33_bytes_size_partial`, `Sis.Nq.C33_objects_partial`, `Sis.Nq.C33_violated_read_midway`, `Sis.Sess.C34_lookup_partial`, `Sis.Sess.C34_new_number_partial`, `Sis.Sess.C34_new_defined_partial`, `Sis.Sess.C34_stop_partial`, `Sis.Sess.C34_clear_partial`, `Sis.Sess.C34_uses_partial`, `Sis.Sess.C34_first_partial`, `Sis.Sess.C34_next_partial`, `Sis.Sess.C34_violated`, `Sis.Sess.C34_violated_waiting`, `Sis.Lk.C35_lock_never_faults`, `Sis.Lk.C35_lock_fifo`, `Sis.Fq.C35_fast_never_faults`, `Sis.Fq.C35_fast_fifo`, `Sis.Fq.C35_fast_who`, `Sis.Fq.C35_fast_drains`, `Sis.Wq.C36_defined_partial`, `Sis.Wq.C36_one_at_a_time_partial`, `Sis.Wq.C36_order_partial`, `Sis.Wq.C36_direct_partial`, `Sis.Wq.C36_next_partial`, `Sis.Ll.C37_all_defined_partial`, `Sis.Ll.C37_all_order_partial`, `Sis.Ll.C37_all_complete_partial`, `Sis.Ll.C37_size_partial`, `Sis.Ll.C38_defined_partial`, `Sis.Ll.C38_kept_partial`, `Sis.Ll.C38_complete_partial`, `Sis.Ll.C74_limit_partial`, `Sis.Time.C54_monotone_partial`, `Sis.Time.C54_date_partial`, `Sis.Time.C54_date_back_partial`, `Sis.Time.C55_week`, `Sis.Time.C55_later_partial`, `Sis.Time.C55_work_day_partial`, `Sis.Time.C55_violated`, `Sis.Time.C77_partial`, `Sis.Time.C78_partial`, `Sis.Time.C78_order`, `Sis.Refs.C39_never_used_after_free_partial`, `Sis.Refs.C39_freed_exactly_once_partial`, `Sis.Refs.C39_granted_partial`, `Sis.Rw.C75_writer_gets`, `Sis.Pool.C76_distinct_partial`, `Sis.Pool.C76_refused_partial`, `Sis.Dyn.C52_partial`, `Sis.Dyn.C52_live_partial`, `Sis.Dyn.C52_fields_partial`, `Sis.Dyn.C52_absent_partial`, `Sis.Dyn.C53_partial`, `Sis.Dyn.C53_copy`, `Sis.Dyn.C53_defined_partial`, `Sis.Dyn.C79_partial`, `Sis.Dyn.C79_index_partial`, `Sis.Zip.C08_partial`, `Sis.Zip.C08_defined_partial`, `Sis.Zip.C08_overflow_violated`, `Sis.Zip.C10_partial`, `Sis.Zip.C10_kept`, `Sis.Zip.C10_violated`, `Sis.Zip.C09_partial`, `Sis.Zip.C09_defined_partial`, `Sis.Zip.C09_ends`, `Sis.Zip.C09_overflow_violated`, `Sis.Sdb.C25_index_back_partial`, `Sis.Sdb.C25_violated_long_names`, `Sis.Sdb.C25_violated_unknown_key`, `Sis.Sdb.C23_one_partial`, `Sis.Sdb.C23_list_partial`, `Sis.Sdb.C23_latest_partial`, `Sis.Sdb.C23_latest_list_partial`, `Sis.Sdb.C23_others_partial`, `Sis.Sdb.C23_violated_empty`, `Sis.Sdb.C23_violated_comma`, `Sis.Sdb.C23_violated_dot`, `Sis.Sdb.C23_violated_blank`, `Sis.Sdb.C23_violated_trace`, `Sis.Sdb.C24_rows_partial`, `Sis.Sdb.C24_replace_partial`, `Sis.Sdb.C24_outside_partial`, `Sis.Sdb.C24_others_partial`, `Sis.Sdb.C24_violated_overlap`, `Sis.Sdb.C24_violated_twice`, `Sis.Sdb.C24_violated_touch`, `Sis.Sdb.C26_present_partial`, `Sis.Sdb.C26_violated_removed`, `Sis.Sdb.C26_violated_value`, `Sis.Sdb.C26_violated_again`, `Sis.Sdb.C27_split_partial`, `Sis.Sdb.C27_elsewhere_partial`, `Sis.Sdb.C27_written_partial`, `Sis.Sdb.C27_place_partial`, `Sis.Sdb.C27_violated_msec`, `Sis.Sdb.C80_readable_partial`, `Sis.Sdb.C80_violated_undeclared`, `Sis.Sdb.C81_files_partial`, `Sis.Sdb.C81_found_partial`, `Sis.Sdb.C81_violated_redefined`, `Sis.Sdb.C81_violated_whole`, `Sis.Sdb.C82_text_partial`, `Sis.Sdb.C82_database_partial`, `Sis.Sno.C83_all_partial`, `Sis.Sno.C83_violated_size`, `Sis.Sno.C83_violated_restart`, `Sis.Sno.C83_violated_unstopped`, `Sis.Sno.C83_violated_dots`, `Sis.Sno.C83_violated_empty`, `Sis.Sno.C84_some_partial`, `Sis.Sno.C85_object_partial`, `Sis.Rec.C86_text_partial`, `Sis.Rec.C86_empty_partial`, `Sis.Rec.C87_rows_partial`, `Sis.Rec.C87_row_partial`, `Sis.Rec.C88_roundtrip_partial`, `Sis.Rec.C89_object_partial`, `Sis.Rec.C90_select_partial`, `Sis.Rec.C91_array_partial`, `Sis.Rec.C91_object_partial`, `Sis.Rec.C91_violated_unknown`, `Sis.Csv.C92_text_partial`, `Sis.Csv.C92_names_partial`, `Sis.Csv.C92_fields_partial`, `Sis.Csv.C92_violated_unknown`, `Sis.Csv.C93_open_partial`, `Sis.Csv.C93_violated_tail`, `Sis.Csv.C94_columns_partial`, `Sis.Csv.C94_number_partial`, `Sis.Csv.C95_roundtrip_partial`, `Sis.Io.C96_series_partial`, `Sis.Io.C96_unsorted_violated`, `Sis.Io.C96_timeless_violated`, `Sis.Io.C96_single_violated`, `Sis.Io.C97_formats_partial`, `Sis.Io.C97_fields_partial`, `Sis.Io.C97_empty_violated`, `Sis.Io.C97_unknown_violated`, `Sis.Io.C98_alone`, `Sis.Io.C98_unchanged`, `Sis.Io.C99_refused_partial`, `Sis.Io.C99_refused_violated`, `Sis.Io.C100_defined_partial`, `Sis.Io.C100_odd`, `Sis.Io.C100_crash_violated`, `Sis.Sic.C101_read_partial`, `Sis.Sic.C101_violated_table`, `Sis.Sic.C101_violated_key`, `Sis.Sic.C101_violated_none`, `Sis.Sic.C101_violated_unstopped`, `Sis.Sic.C101_violated_restart`, `Sis.Sic.C101_violated_redefined`, `Sis.Sic.C101_violated_text`, `Sis.Sic.C101_violated_long`, `Sis.Sic.C101_violated_undefined`, `Sis.Sic.C102_end_partial`, `Sis.Sic.C102_violated_after`, `Sis.Sdb.C103_merge_partial`, `Sis.Sdb.C103_blocks_partial`, `Sis.Sdb.C103_rows_partial`, `Sis.Sdb.C103_values_partial`, `Sis.Sdb.C103_violated_keys`, `Sis.Sdb.C103_violated_rewrite`, `Sis.Sdb.C103_violated_twice`, `Sis.Sdb.C104_writer_partial`, `Sis.Sdb.C104_session_partial`, `Sis.Sdb.C104_violated_empty`, `Sis.Sdb.C104_violated_twice`, `Sis.Io.C105_back_partial`, `Sis.Io.C105_once_partial`, `Sis.Io.C105_violated_once`, `Sis.Io.C105_violated_where`, `Sis.Io.C105_violated_latest`, `Sis.Io.C105_violated_index`, `Sis.Io.C105_violated_again`, `Sis.Conf.C106_open_partial`, `Sis.Conf.C106_load_partial`, `Sis.Conf.C107_open_partial`, `Sis.Conf.C107_load_partial`, `Sis.Conf.C108_script_partial`, `Sis.Live.C109_sessions_partial`, `Sis.Live.C109_sessions_served_partial`, `Sis.Live.C109_data_partial`, `Sis.Live.C109_stopped`, `Sis.Live.C109_stop_all`, `Sis.Live.C109_not_subscribed`, `Sis.Live.C109_delivery`, `Sis.Live.C109_accepted_partial`, `Sis.Live.C109_day_text`, `Sis.Live.C109_stop_violated`, `Sis.Live.C110_lists_partial`, `Sis.Live.C110_heads_violated`, `Sis.Live.C110_star_violated`, `Sis.Live.C110_second_violated`, `Sis.Live.C110_changed_violated`, `Sis.Live.C111_defined_partial`, `Sis.Live.C111_refused_violated`, `Sis.Live.C111_null_violated`, `Sis.Live.C111_long_violated`, `Sis.Flog.C112_history_partial`, `Sis.Flog.C112_usual_histories_are_covered_partial`, `Sis.Flog.C112_violated_head`, `Sis.Flog.C112_violated_foreign`, `Sis.Flog.C112_violated_torn_size`, `Sis.Flog.C112_violated_remove`, `Sis.Flog.C112_violated_no_open`, `Sis.Flog.C112_violated_closed`, `Sis.Flog.C112_violated_message`, `Sis.Memdb.C113_get_partial`, `Sis.Memdb.C113_last_set_partial`, `Sis.Memdb.C113_pub_partial`, `Sis.Memdb.C113_pub_once_partial`, `Sis.Memdb.C113_received_partial`, `Sis.Memdb.C113_violated_zero`, `Sis.Memdb.C113_violated_case`, `Sis.Memdb.C113_violated_tag`, `Sis.Memdb.C113_violated_access`, `Sis.Memdb.C113_violated_init`, `Sis.Memdb.C113_violated_crash`, `Sis.Cli.C114_own_partial`, `Sis.Cli.C114_answer_partial`, `Sis.Cli.C114_back_partial`, `Sis.Cli.C114_ask_partial`, `Sis.Cli.C114_resubscribe_partial`, `Sis.Cli.C114_works`, `Sis.Cli.C114_login_partial`, `Sis.Cli.C114_violated_plain`, `Sis.Cli.C114_violated_anonymous`, `Sis.Cli.C114_violated_lost`, `Sis.Cli.C114_violated_stale`, `Sis.Cli.C114_violated_race`, `Sis.Cli.C114_violated_wrap`, `Sis.Cli.C114_violated_memdb`, `Sis.Cli.C114_violated_published`, `Sis.Sha.C115_digest_partial`, `Sis.Sha.C115_signs_partial`, `Sis.Sha.C115_same`, `Sis.Hand.C116_answer_partial`, `Sis.Hand.C116_session_partial`, `Sis.Hand.C116_pieces_partial`, `Sis.Hand.C116_agree`, `Sis.Hand.C116_refused_partial`, `Sis.Hand.C116_violated_waits`, `Sis.Hand.C116_violated_stale`, `Sis.Hand.C116_violated_silent`, `Sis.Hand.C116_violated_case`, `Sis.Snodb.C117_day_partial`, `Sis.Snodb.C117_default_partial`, `Sis.Snodb.C117_all_partial`, `Sis.Snodb.C117_started_partial`, `Sis.Snodb.C117_told_partial`, `Sis.Snodb.C117_violated_format`, `Sis.Snodb.C118_day_partial`, `Sis.Snodb.C118_kept_partial`, `Sis.Snodb.C118_crash_partial`, `Sis.Wsno.C119_compressed_partial`, `Sis.Wsno.C119_day_partial`, `Sis.Wsno.C119_read_partial`, `Sis.Wsno.C119_violated_empty`, `Sis.Wt.C120_defined_partial`, `Sis.Wt.C120_order_partial`, `Sis.Wt.C120_wait_partial`, `Sis.Wt.C120_drains_partial`, `Sis.Wt.C120_destroy_partial`, `Sis.Mw.C121_defined_partial`, `Sis.Mw.C121_order`, `Sis.Mw.C121_wait_partial`, `Sis.Mw.C121_accounts`, `Sis.Mw.C121_kept_partial`, `Sis.Mw.C121_drains_partial`, `Sis.Mrg.C122_all_partial`, `Sis.Mrg.C122_names_partial`, `Sis.Mrg.C122_order_partial`, `Sis.Mrg.C122_same_partial`, `Sis.Mrg.C123_same_partial`, `Sis.Mrg.C123_none_partial`, `Sis.Mrg.C123_violated_silent`, `Sis.Mrg.C123_violated_dot`, `Sis.Mrg.C123_violated_redefined`, `Sis.Dict.C124_all_told`, `Sis.Dict.C124_still_once`, `Sis.Link.C125_sequences_partial`, `Sis.Link.C125_no_leak_partial`, `Sis.Sds.C127_strings_partial`, `Sis.Sds.C127_room`, `Sis.Sds.C128_format_partial`, `Sis.Split.C129_split_partial`, `Sis.Split.C129_round_trip_partial`, `Sis.Split.C129_byte_round_trip_partial`, `Sis.Sds.C130_compare_partial`, `Sis.Sds.C130_replace_partial`.

## Quot.sound, propext (102 theorems)

`Sis.C02_try_iff_complete`, `Sis.BitS.C06_incr_violated`, `Sis.BitS.C07_cleared_field_violated`, `Sis.Fmap.C18_window_from_first_partial`, `Sis.Fmap.C18_never_too_many_partial`, `Sis.Fmap.C18_delete_from_first_partial`, `Sis.Fmap.C18_list_update`, `Sis.Fmap.C57_save_one_partial`, `Sis.Fmap.C57_save_non_partial`, `Sis.Fmap.C60_read_your_write_partial`, `Sis.Fmap.C60_history_partial`, `Sis.Fmap.C60_history_read_partial`, `Sis.Fmap.C61_deleted_stays_deleted_partial`, `Sis.Server.C22_flushed_means_kept_partial`, `Sis.Json.C69_writer_stays_in_buffer_partial`, `Sis.Nq.C33_violated_large_piece`, `Sis.Nq.C33_violated_large_packet`, `Sis.Wq.C36_handler_violated`, `Sis.Wq.C36_null_violated`, `Sis.Ll.C74_violated`, `Sis.Time.C54_seconds`, `Sis.Time.C54_back_partial`, `Sis.Time.C54_last_partial`, `Sis.Refs.C39_overflow_violated`, `Sis.Rw.C75_exclusive`, `Sis.Rw.C75_reader_gets_partial`, `Sis.Dyn.C52_size`, `Sis.Dyn.C79_untimed`, `Sis.Dyn.C79_index_time`, `Sis.Zip.C08_empty_violated`, `Sis.Zip.C08_stale_violated`, `Sis.Zip.C08_jump_violated`, `Sis.Zip.C09_first_violated`, `Sis.Zip.C09_key_violated`, `Sis.Zip.C09_reuse_violated`, `Sis.Sdb.C25_violated_trace`, `Sis.Rec.C86_violated_value`, `Sis.Rec.C86_violated_min`, `Sis.Rec.C87_violated_short`, `Sis.Rec.C87_violated_count`, `Sis.Rec.C88_violated`, `Sis.Rec.C88_violated_count`, `Sis.Rec.C89_violated`, `Sis.Rec.C91_violated_column`, `Sis.Csv.C92_violated_columns`, `Sis.Csv.C92_violated_long`, `Sis.Csv.C95_number_partial`, `Sis.Csv.C95_violated`, `Sis.Conf.C107_loop_violated`, `Sis.Conf.C108_pieces`, `Sis.Cli.C114_defined_partial`, `Sis.Cli.C114_alone`, `Sis.Cli.C114_violated_untagged`, `Sis.Cli.C114_violated_long`, `Sis.Cli.C114_violated_password`, `Sis.Sha.C115_violated_long`, `Sis.Hand.C116_violated_full`, `Sis.Hand.C116_violated_client`, `Sis.Hand.C116_violated_nonce`, `Sis.Hand.C116_violated_stack`, `Sis.Snodb.C117_coded_partial`, `Sis.Snodb.C117_violated_after_stop`, `Sis.Snodb.C117_violated_slow`, `Sis.Snodb.C117_violated_waiting`, `Sis.Snodb.C117_violated_twice`, `Sis.Snodb.C117_violated_history`, `Sis.Snodb.C117_violated_midnight`, `Sis.Snodb.C117_violated_names`, `Sis.Snodb.C117_violated_crash`, `Sis.Snodb.C117_violated_yesterday`, `Sis.Snodb.C117_violated_keys`, `Sis.Snodb.C117_violated_unknown`, `Sis.Snodb.C117_violated_shed`, `Sis.Snodb.C118_boot_partial`, `Sis.Snodb.C118_violated_reload`, `Sis.Snodb.C118_violated_again`, `Sis.Snodb.C118_violated_slow`, `Sis.Snodb.C118_violated_last`, `Sis.Snodb.C118_violated_first`, `Sis.Snodb.C118_violated_nostop`, `Sis.Snodb.C118_violated_late`, `Sis.Snodb.C118_violated_midnight`, `Sis.Snodb.C118_violated_crash`, `Sis.Wsno.C119_violated_keys`, `Sis.Wsno.C119_violated_more`, `Sis.Wsno.C119_violated_open`, `Sis.Wsno.C119_violated_nokeys`, `Sis.Wsno.C119_violated_late`, `Sis.Mw.C121_violated_follow`, `Sis.Mw.C121_violated_long`, `Sis.Mrg.C122_violated_stop`, `Sis.Mrg.C122_violated_long`, `Sis.Args.C126_round_trip_partial`, `Sis.Args.C126_quoted`, `Sis.Args.C126_repr_round_trip`, `Sis.Args.C126_text`, `Sis.Args.C126_refused`, `Sis.Args.C126_refused_single`, `Sis.Args.C126_ends`, `Sis.Sds.C128_violated_end`, `Sis.Split.C129_none`, `Sis.Sds.C130_order`.

## no axioms (16 theorems)

`Sis.Fmap.C18_violated`, `Sis.Fmap.C18_violated_delete`, `Sis.Fmap.C57_violated_one`, `Sis.Fmap.C60_violated_one`, `Sis.Fmap.C60_violated_non`, `Sis.Fmap.C61_violated`, `Sis.Server.C22_crash_keeps_a_prefix`, `Sis.Time.C77_violated`, `Sis.Time.C78_violated`, `Sis.Rw.C75_try_violated`, `Sis.Pool.C76_race_violated`, `Sis.Link.C125_violated_self`, `Sis.Link.C125_violated_index`, `Sis.Sds.C127_violated_self`, `Sis.Sds.C127_violated_range`, `Sis.Split.C129_violated_empty`.

## propext (68 theorems)

`Sis.C01_ssize_length`, `Sis.SL.C40_clone_empty_violated`, `Sis.Sort.C42_clone_violated`, `Sis.Fsort.C43_nan_excluded`, `Sis.NL.C44_get_violated`, `Sis.NL.C44_pop_empty_violated`, `Sis.PL.C45_truncation_violated`, `Sis.PL.C62_set_violated`, `Sis.Dict.C64_delete_ahead_violated`, `Sis.Dict.C65_set_same_pointer_violated`, `Sis.Access.C47_writer_unrestricted_violated`, `Sis.Json.C68_violated`, `Sis.Json.C70_violated`, `Sis.Json.C71_violated`, `Sis.Json.C72_violated`, `Sis.Msg.C31_violated`, `Sis.Msg.C32_violated`, `Sis.Msg.C73_violated`, `Sis.Lk.C35_lock_null_not_an_object`, `Sis.Ll.C37_open_violated`, `Sis.Ll.C37_clear_violated`, `Sis.Ll.C38_head_violated`, `Sis.Ll.C38_server_list_violated`, `Sis.Ll.C38_tail_violated`, `Sis.Ll.C38_unregistered_violated`, `Sis.Ll.C38_lost_violated`, `Sis.Time.C54_zero_violated`, `Sis.Time.C54_wsec_violated`, `Sis.Time.C54_overflow_violated`, `Sis.Refs.C39_null_violated`, `Sis.Dyn.C52_violated`, `Sis.Dyn.C52_overflow_violated`, `Sis.Dyn.C53_order_violated`, `Sis.Dyn.C53_new_violated`, `Sis.Dyn.C53_name_violated`, `Sis.Dyn.C79_violated`, `Sis.Sdb.C82_violated_long`, `Sis.Sdb.C82_violated_quote`, `Sis.Sdb.C82_violated_digits`, `Sis.Sno.C84_violated_pages`, `Sis.Rec.C90_violated`, `Sis.Csv.C93_violated_quotes`, `Sis.Csv.C94_violated_long`, `Sis.Conf.C106_quoted_violated`, `Sis.Conf.C106_digit_violated`, `Sis.Conf.C106_name_violated`, `Sis.Conf.C106_empty_violated`, `Sis.Conf.C106_nested_violated`, `Sis.Conf.C106_cut_violated`, `Sis.Conf.C107_end_violated`, `Sis.Conf.C108_quoted_violated`, `Sis.Conf.C108_end_violated`, `Sis.Wt.C120_violated_wait`, `Sis.Wt.C120_violated_walk`, `Sis.Wt.C120_violated_lock`, `Sis.Wt.C120_violated_busy`, `Sis.Wt.C120_violated_create`, `Sis.Mw.C121_violated_destroy`, `Sis.Mw.C121_violated_start`, `Sis.Mrg.C122_violated_order`, `Sis.Mrg.C122_violated_empty`, `Sis.Mrg.C122_violated_late`, `Sis.Mrg.C122_violated_year`, `Sis.Mrg.C122_violated_minute`, `Sis.Mrg.C122_violated_case`, `Sis.Args.C126_violated_tab`, `Sis.Sds.C127_violated_trim`, `Sis.Sds.C130_given`.
