# What is modelled

Generated by `tools/coverage.py` from the lines cited in the model: a function counts as modelled when a definition cites lines of
its body.  What a definition leaves out of a function is said in its comment.  Files with no modelled function are listed last.

## src/core/disk/sis_disk.io.c (16 of 30)

Modelled in `Disk`, `Flog`, `Sdb`, `Sic`, `Sno`: `_disk_ctrl_init`, `sis_disk_ctrl_read_kdict`, `sis_disk_ctrl_read_sdict`, `sis_disk_ctrl_cmp_kdict`, `sis_disk_ctrl_cmp_sdict`, `sis_disk_io_write_dict`, `sis_disk_ctrl_write_kdict`, `sis_disk_ctrl_write_sdict`, `sis_disk_ctrl_set_kdict`, `sis_disk_ctrl_set_sdict`, `sis_disk_ctrl_unzip`, `sis_disk_ctrl_unzip_sdb`, `sis_disk_ctrl_read_start`, `sis_disk_ctrl_write_start`, `sis_disk_ctrl_write_stop`, `sis_disk_ctrl_merge`.

Not modelled: `sis_disk_ctrl_create`, `sis_disk_ctrl_destroy`, `sis_disk_ctrl_clear`, `sis_disk_ctrl_work_zipmode`, `sis_disk_ctrl_widx_zipmode`, `sis_disk_ctrl_set_size`, `sis_disk_ctrl_valid_work`, `sis_disk_ctrl_valid_widx`, `sis_disk_ctrl_get_keys_sds`, `sis_disk_ctrl_get_sdbs_sds`, `sis_disk_ctrl_read_stop`, `sis_disk_ctrl_remove`, `sis_disk_ctrl_pack`, `sis_disk_ctrl_move`.

## src/core/disk/sis_disk.io.log.c (3 of 10)

Modelled in `Disk`, `Flog`: `sis_disk_io_write_log`, `cb_sis_disk_io_read_log`, `sis_disk_io_sub_log`.

Not modelled: `cb_start`, `cb_stop`, `cb_break`, `cb_original`, `read_log`, `write_log`, `main`.

## src/core/disk/sis_disk.io.sdb.c (14 of 28)

Modelled in `Sdb`, `Sno`: `sis_disk_io_write_noidx`, `sis_disk_io_write_sdb_work`, `sis_disk_io_merge_sdb`, `sis_disk_io_write_one`, `sis_disk_io_write_mul`, `sis_disk_io_write_non`, `sis_disk_io_write_sdb`, `sis_disk_io_write_map`, `sis_disk_io_write_sdb_widx`, `sis_disk_io_read_sdb`, `cb_sis_disk_io_read_sdb_widx`, `sis_disk_io_read_sdb_widx`, `cb_sis_disk_io_read_sdb_map`, `sis_disk_io_read_sdb_map`.

Not modelled: `sis_disk_io_write_widx_tail`, `cb_sis_disk_io_read_sdb`, `_disk_io_callback_sdb_dict`, `sis_disk_io_sub_sdb`, `cb_start`, `cb_stop`, `cb_key`, `cb_sdb`, `cb_break`, `cb_original`, `cb_chardata`, `read_sdb`, `write_sdb`, `main`.

## src/core/disk/sis_disk.io.sic.c (12 of 22)

Modelled in `Sic`: `sis_disk_io_write_sic_work`, `cb_incrzip_encode_sic`, `sis_disk_io_write_sic_start`, `sis_disk_io_write_sic_stop`, `_set_disk_io_sic_msec`, `sis_disk_io_write_sic`, `sis_disk_io_write_sic_widx`, `cb_incrzip_decode_sic`, `cb_sis_disk_io_read_sic`, `sis_disk_io_sub_sic`, `cb_sis_disk_io_read_sic_widx`, `sis_disk_io_read_sic_widx`.

Not modelled: `cb_start`, `cb_stop`, `cb_key`, `cb_sdb`, `cb_break`, `cb_original`, `cb_chardata`, `write_sic`, `test_map_list_speed`, `main`.

## src/core/disk/sis_disk.io.sno.c (21 of 32)

Modelled in `Sno`: `sis_disk_sno_rctrl_create`, `sis_disk_sno_rctrl_destroy`, `sis_disk_sno_rctrl_clear`, `sis_disk_sno_rctrl_set`, `sis_disk_sno_rctrl_push`, `sis_disk_sno_rctrl_rpop`, `sis_disk_io_write_sno_start`, `_disk_io_write_sno_watch`, `sis_disk_io_write_sno_stop`, `_set_disk_io_sno_msec`, `sis_disk_io_write_sno`, `sis_disk_io_write_sno_widx`, `_sis_disk_read_hid_sno`, `sis_disk_sno_rctrl_start`, `cb_sis_disk_io_read_sno`, `_disk_io_callback_sno_dict`, `_disk_io_sub_sno_parts`, `sis_disk_io_sub_sno_part`, `sis_disk_io_sub_sno`, `cb_sis_disk_io_read_sno_widx`, `sis_disk_io_read_sno_widx`.

Not modelled: `sis_disk_sno_rctrl_init`, `cb_start`, `cb_stop`, `cb_key`, `cb_sdb`, `cb_break`, `cb_original`, `cb_chardata`, `write_sno`, `test_map_list_speed`, `main`.

## src/core/disk/sis_disk_ctrl.c (10 of 35)

Modelled in `Sdb`, `Sic`, `Sno`: `sis_disk_get_sdb_scale`, `sis_disk_idx_get`, `sis_disk_wcatch_clear`, `sis_disk_rcatch_init_of_sub`, `sis_disk_sdict_isnew`, `sis_disk_reader_set_kdict`, `sis_disk_reader_set_sdict`, `sis_disk_map_get_kdict`, `sis_disk_map_get_sdict`, `sis_disk_map_merge`.

Not modelled: `sis_disk_set_search_msec`, `sis_disk_idx_create`, `sis_disk_idx_destroy`, `sis_disk_idx_set_unit`, `sis_disk_idx_get_unit`, `sis_disk_wcatch_create`, `sis_disk_wcatch_destroy`, `sis_disk_wcatch_init`, `sis_disk_wcatch_setname`, `sis_disk_rcatch_create`, `sis_disk_rcatch_destroy`, `sis_disk_rcatch_clear`, `sis_disk_rcatch_init_of_idx`, `sis_disk_kdict_create`, `sis_disk_kdict_destroy`, `sis_disk_sdict_create`, `sis_disk_sdict_destroy`, `sis_disk_sdict_last`, `sis_disk_sdict_get`, `sis_disk_kdict_get_name`, `sis_disk_sdict_get_name`, `sis_disk_kdict_get_idx`, `sis_disk_sdict_get_idx`, `sis_disk_map_create`, `sis_disk_map_destroy`.

## src/core/disk/sis_disk_files.c (11 of 24)

Modelled in `Disk`, `Flog`, `Sdb`, `Server`, `Sno`: `sis_disk_files_clear`, `sis_disk_files_seek_log`, `sis_disk_files_open_append`, `sis_disk_files_open_rdonly`, `sis_disk_files_open`, `sis_safe_write`, `sis_disk_files_write`, `sis_disk_files_write_saveidx`, `sis_disk_files_read_fulltext`, `sis_disk_files_read`, `sis_disk_io_unzip_widx`.

Not modelled: `sis_disk_files_unit_create`, `sis_disk_files_unit_destroy`, `sis_disk_files_create`, `sis_disk_files_destroy`, `sis_disk_files_close`, `sis_disk_files_init`, `sis_disk_files_inc_unit`, `sis_disk_files_open_create`, `sis_disk_files_remove`, `sis_disk_files_seek`, `sis_disk_files_offset`, `sis_disk_files_write_sync`, `sis_disk_files_read_fromidx`.

## src/core/disk/sis_disk_read.c (20 of 39)

Modelled in `Flog`, `Merge`, `Sdb`, `Sic`, `Sno`: `sis_disk_reader_unit_open`, `sis_disk_reader_sub_log`, `sis_disk_reader_sub_sic`, `sis_disk_reader_sub_sno`, `sis_disk_reader_unsub`, `sis_disk_reader_filters`, `_disk_reader_make_sdb_from_file`, `sis_disk_reader_make_sdb`, `sis_disk_reader_make_alone`, `sis_disk_reader_get_one`, `sis_disk_reader_get_mul`, `_disk_reader_get_sdb_obj`, `_disk_reader_get_sno_obj`, `sis_disk_reader_get_obj`, `cb_sub_start`, `cb_sub_stop`, `cb_key_stop`, `cb_key_chars`, `_disk_reader_sub_work`, `sis_disk_reader_sub_sdb`.

Not modelled: `sis_disk_reader_unit_create`, `sis_disk_reader_unit_destroy`, `sis_disk_reader_unit_close`, `sis_disk_reader_sub_create`, `sis_disk_reader_sub_destroy`, `sis_disk_reader_sub_push`, `sis_disk_reader_sub_getsize`, `sis_disk_reader_create`, `sis_disk_reader_destroy`, `_disk_reader_close`, `_disk_reader_open`, `sis_disk_reader_open`, `sis_disk_reader_close`, `sis_disk_reader_getdb`, `sis_disk_reader_init`, `sis_disk_reader_make_sno`, `sis_disk_reader_get_keys`, `sis_map_sdict_as_sdbs`, `sis_disk_reader_get_sdbs`.

## src/core/disk/sis_disk_write.c (26 of 34)

Modelled in `Flog`, `Io`, `Sdb`, `Sic`, `Sno`, `Snodb`: `sis_disk_writer_open`, `sis_disk_writer_close`, `sis_disk_writer_kdict_changed`, `sis_disk_writer_sdict_changed`, `sis_disk_writer_set_kdict`, `sis_disk_writer_set_sdict`, `sis_disk_writer_log`, `sis_disk_writer_start`, `sis_disk_writer_stop`, `sis_disk_writer_sic`, `sis_disk_writer_sno`, `_disk_writer_is_year`, `_disk_writer_get_year`, `_disk_writer_get_date`, `_disk_writer_get_nots`, `_disk_writer_sunit`, `sis_disk_writer_sdb_year`, `sis_disk_writer_sdb_date`, `sis_disk_writer_sdb_nots`, `sis_disk_writer_sdb`, `sis_disk_writer_one`, `sis_disk_writer_mul`, `sis_disk_writer_sdb_remove`, `sis_disk_writer_one_remove`, `sis_disk_writer_mul_remove`, `sis_disk_control_remove`.

Not modelled: `sis_disk_writer_create`, `sis_disk_writer_destroy`, `sis_disk_control_exist`, `sis_disk_control_move`, `sis_disk_control_copy`, `sis_disk_log_exist`, `sis_disk_sic_exist`, `sis_disk_sno_exist`.

## src/core/net/sis_net.c (11 of 40)

Modelled in `Net`: `sis_net_context_create`, `sis_ws_send_hand_ask`, `sis_ws_recv_hand_ask`, `sis_ws_match_hand_ans`, `cb_server_recv_after`, `cb_server_send_after`, `cb_client_recv_after`, `cb_server_connected`, `cb_client_connected`, `_make_read_data`, `sis_net_recv_message`.

Not modelled: `sis_net_is_ip4`, `sis_url_create`, `sis_url_destroy`, `sis_url_clone`, `sis_url_set`, `sis_url_get`, `sis_url_set_ip4`, `sis_url_load`, `sis_net_context_destroy`, `sis_net_slot_set`, `sis_net_class_create`, `sis_net_class_destroy`, `cb_client_send_after`, `cb_server_disconnect`, `cb_client_disconnect`, `sis_net_class_close_cxt`, `_thread_net_class_read`, `sis_net_class_open`, `sis_net_class_close`, `sis_net_class_set_cb`, `sis_net_class_set_slot`, `sis_net_class_send`, `sis_net_send_message`, `sis_net_make_message`, `exithandle`, `cb_recv`, `_cb_connected`, `_cb_disconnect`, `main`.

## src/core/net/sis_net.msg.c (6 of 39)

Modelled in `Client`, `Mem`, `Net`: `sis_net_message_relay`, `sis_net_message_set_scmd`, `sis_net_msg_tag_ok`, `sis_net_msg_tag_int`, `sis_net_msg_tag_error`, `sis_net_msg_tag_null`.

Not modelled: `sis_net_message_create`, `sis_net_message_destroy`, `sis_net_message_incr`, `sis_net_message_decr`, `sis_net_message_clear`, `_net_message_list_size`, `sis_net_message_get_size`, `sis_net_message_set_subject`, `sis_net_message_set_cmd`, `sis_net_message_set_service`, `sis_net_message_set_tag`, `sis_net_message_set_notag`, `sis_net_message_set_info`, `sis_net_message_set_info_i`, `sis_net_message_init_chars`, `sis_net_message_set_chars`, `sis_net_message_init_bytes`, `sis_net_message_set_bytes`, `sis_net_message_set_char`, `sis_net_message_set_byte`, `sis_net_msg_set_inside`, `sis_net_msg_info_as_int`, `sis_net_msg_info_as_date`, `sis_net_msg_tag_sub_start`, `sis_net_msg_tag_sub_wait`, `sis_net_msg_tag_sub_stop`, `sis_net_msg_tag_sub_open`, `sis_net_msg_tag_sub_close`, `sis_net_msg_clear`, `sis_net_msg_clear_service`, `sis_net_msg_clear_cmd`, `sis_net_msg_clear_info`, `sis_net_msg_clear_subject`.

## src/core/net/sis_net.node.c (53 of 53)

Modelled in `Flog`, `Net`: `sis_net_mem_node_create`, `sis_net_mem_node_destroy`, `sis_net_mem_node_clear`, `sis_net_mem_node_renew`, `sis_net_mems_create`, `sis_net_mems_destroy`, `_net_mems_move_write`, `_net_mems_move_read`, `sis_net_mems_clear`, `_net_mems_reset_node`, `sis_net_mems_push`, `sis_net_mems_push_sign`, `sis_net_mems_push_kv`, `sis_net_mems_cat`, `sis_net_mems_rhead`, `sis_net_mems_pop`, `sis_net_mems_read`, `sis_net_mems_free_read`, `sis_net_mems_count`, `sis_net_mems_nums`, `sis_net_mems_size`, `sis_net_node_create`, `sis_net_node_destroy`, `sis_net_nodes_create`, `_net_nodes_free_read`, `sis_net_nodes_destroy`, `sis_net_nodes_clear`, `sis_net_nodes_push`, `sis_net_nodes_read`, `sis_net_nodes_free_read`, `sis_net_nodes_count`, `sis_net_nodes_size`, `sis_net_list_create`, `sis_net_list_destroy`, `sis_net_list_clear`, `_net_list_set_grow`, `_net_list_free`, `sis_net_list_new`, `sis_net_list_get`, `sis_net_list_first`, `sis_net_list_next`, `sis_net_list_uses`, `sis_net_list_stop`, `_net_encoded_chars`, `sis_net_str_set_memory`, `sis_net_int_set_memory`, `sis_net_encoded_normal`, `_sis_json_node_get_sds`, `sis_json_to_netmsg`, `sis_net_decoded_chars`, `sis_net_memory_get_sds`, `sis_net_memory_get_int`, `sis_net_decoded_normal`.

## src/core/net/sis_net.uv.c (9 of 81)

Modelled in `Client`, `Net`: `sis_net_uv_node_destroy`, `_thread_net_reader`, `sis_net_uv_catch_push`, `sis_net_uv_catch_stop`, `cb_server_write_after`, `_cb_server_async_write`, `cb_server_write`, `sis_socket_client_close`, `_cb_after_connect`.

Not modelled: `sis_net_uv_node_create`, `sis_net_uv_catch_create`, `sis_net_uv_catch_tail`, `sis_net_uv_catch_head`, `sis_net_uv_catch_next`, `sis_net_uv_catch_clear`, `sis_net_uv_catch_destroy`, `sis_net_uv_catch_del`, `_net_uv_catch_get`, `_net_uv_catch_add`, `sis_socket_close_handle`, `_uv_exit_loop`, `sis_socket_session_create`, `sis_socket_session_set_rwcb`, `sis_socket_session_destroy`, `sis_socket_session_init`, `sis_socket_server_create`, `sis_socket_server_destroy`, `cb_session_closed`, `sis_socket_server_close`, `_sis_socket_server_init`, `_thread_server`, `_sis_socket_server_start`, `_sis_socket_server_bind`, `_sis_socket_server_bind6`, `cb_server_read_alloc`, `cb_server_read_after`, `cb_server_new_connect`, `_sis_socket_server_listen`, `sis_socket_server_open`, `sis_socket_server_open6`, `sis_socket_server_send`, `sis_socket_server_set_rwcb`, `sis_socket_server_set_cb`, `sis_socket_server_delete`, `_thread_reconnect`, `sis_socket_client_create`, `sis_socket_client_destroy`, `cb_client_close`, `cb_client_read_alloc`, `cb_client_read_after`, `_sis_socket_client_init`, `_thread_client`, `sis_socket_client_open_sync`, `sis_socket_client_open`, `_thread_connect6`, `sis_socket_client_open6`, `sis_socket_client_set_cb`, `sis_socket_client_set_rwcb`, `cb_client_write_after`, `_cb_client_async_write`, `cb_client_write`, `sis_socket_client_send`, `exithandle`, `cb_server_resv_after`, `cb_client_send_after`, `cb_client_recv_after`, `cb_new_connect`, `cb_connected`, `cb_disconnected`, `main`, `exithandle`, `main`, `exithandle`, `wait_for_a_while`, `_thread_run`, `main`, `on_write`, `on_read`, `on_open`, `on_connect`, `main`.

## src/core/net/sis_net.ws.c (10 of 10)

Modelled in `Net`: `sis_net_ws_get_ask`, `sis_net_ws_get_ans`, `sis_net_ws_head_complete`, `sis_net_ws_get_key`, `sis_net_ws_chk_ans`, `sis_net_pack_ws_message`, `sis_net_unpack_ws_check`, `sis_net_unpack_ws_message`, `sis_net_pack_ws`, `sis_net_unpack_ws`.

## src/core/sis_conf.c (13 of 20)

Modelled in `Conf`: `_sis_conf_skip`, `_sis_parse_string`, `_sis_parse_number`, `_sis_parse_array`, `_sis_parse_object`, `_sis_parse_value`, `_sis_parse_include`, `_sis_parse_key`, `_sis_conf_parse`, `sis_conf_open`, `sis_conf_load`, `sis_conf_get_match_sign`, `sis_conf_sub`.

Not modelled: `_sis_conf_delete_node`, `sis_conf_close`, `sis_conf_file_to_json_sds`, `json_printf`, `cb_json_sub`, `main`, `main1`.

## src/core/sis_csv.c (17 of 24)

Modelled in `Csv`: `_sis_file_csv_parse`, `sis_file_csv_open`, `sis_file_csv_close`, `sis_file_csv_getsize`, `sis_file_csv_fget_int`, `sis_file_csv_fget_double`, `sis_file_csv_fget_str`, `sis_file_csv_get_int`, `sis_file_csv_get_double`, `sis_file_csv_get_str`, `sis_file_csv_get_head`, `sis_csv_make_str`, `sis_csv_make_int`, `sis_csv_make_uint`, `sis_csv_make_double`, `sis_csv_make_end`, `sis_file_csv_read_sub`.

Not modelled: `sis_csv_write_open`, `sis_csv_write`, `sis_csv_write_close`, `cb_read`, `main`, `main`, `main`.

## src/core/sis_db.c (20 of 29)

Modelled in `Csv`, `Io`, `Merge`, `Sdb`: `sis_is_multiple_sub`, `sis_db_get_format_from_node`, `sis_db_struct_to_csv_sds`, `sis_subdb_unit_create`, `sis_subdb_unit_destroy`, `sis_subdb_unit_clear`, `sis_subdb_cxt_create`, `sis_subdb_cxt_destroy`, `sis_subdb_cxt_clear`, `sis_subdb_cxt_init_sdbs`, `sis_subdb_cxt_set_sdbs`, `_subdb_cxt_get_vmsec`, `_subdb_cxt_set_msec`, `sis_subdb_cxt_push_sdbs`, `sis_subdb_cxt_init_data`, `sis_subdb_cxt_push_data`, `_subdb_cxt_sub_data`, `_thread_subdb_cxt_sub`, `sis_subdb_cxt_sub_start`, `sis_subdb_cxt_sub_stop`.

Not modelled: `sis_db_get_format`, `sis_db_struct_to_json_sds`, `sis_db_struct_to_array_sds`, `sis_db_format_sds`, `cb_sub_start`, `cb_sub_stop`, `cb_key_stop`, `cb_key_chars`, `main`.

## src/core/sis_dict.c (28 of 48)

Modelled in `Client`, `Dict`, `Mem`: `_siptlw`, `_siphash`, `_siphash_nocase`, `sis_dict_set_hash_function_seed`, `_dict_reset`, `sis_dict_create`, `_dict_init`, `sis_dict_resize`, `sis_dict_expand`, `sis_dict_rehash`, `_dict_rehash_step`, `sis_dict_add_raw`, `sis_dict_replace`, `sis_dict_set_int`, `_dict_generic_delete`, `sis_dict_delete`, `_dict_clear`, `sis_dict_find`, `_dict_get_iter`, `sis_dict_get_iter`, `sis_dict_next`, `sis_dict_iter_free`, `_dict_reverse`, `sis_dict_scan`, `_dict_expand_if_needed`, `_dict_next_power`, `_dict_key_index`, `sis_dict_empty`.

Not modelled: `sis_dict_get_hash_function_seed`, `sis_dict_get_hash_func`, `sis_dict_get_casehash_func`, `sis_dict_add`, `sis_dict_set_uint`, `sis_dict_add_or_find`, `sis_dict_unlink`, `sis_dict_unlink_free`, `sis_dict_destroy`, `sis_dict_fetch_value`, `_dict_finger_print`, `sis_dict_get_random_key`, `sis_dict_get_some_keys`, `sis_dict_get_fair_random_key`, `sis_dict_enable_resize`, `sis_dict_disable_resize`, `sis_dict_get_hash`, `sis_dict_findentry_refbyptr_and_hash`, `_dict_get_stats_ht`, `_dict_get_stats`.

## src/core/sis_dynamic.c (25 of 26)

Modelled in `Dyn`, `Fmap`, `Io`, `Rec`, `Sdb`, `Time`: `_sis_dynamic_get_style`, `sis_dynamic_field_create`, `sis_dynamic_field_destroy`, `sis_dynamic_db_add_field`, `sis_dynamic_field_scale`, `sis_dynamic_db_create`, `sis_dynamic_db_create_none`, `sis_dynamic_db_decr`, `sis_dynamic_db_setname`, `sis_dynamic_db_incr`, `sis_dynamic_db_destroy`, `sis_dynamic_db_get_field`, `sis_dynamic_dbinfo_same`, `sis_dynamic_db_get_time`, `sis_dynamic_db_get_mindex`, `_sis_dynamic_unit_copy`, `sis_time_unit_convert`, `_sis_dynamic_unit_convert`, `_sis_dynamic_method_copy`, `_sis_dynamic_method_owner`, `_sis_dynamic_match`, `sis_dynamic_convert_create`, `sis_dynamic_convert_destroy`, `sis_dynamic_convert_length`, `sis_dynamic_convert`.

Not modelled: `main`.

## src/core/sis_dynamic.h (13 of 13)

Modelled in `Csv`, `Dyn`, `Io`, `Merge`, `Rec`, `Sdb`, `Time`: `_sis_field_get_uint`, `_sis_field_get_int`, `_sis_field_get_float`, `_sis_field_get_price_dot`, `_sis_field_get_price_valid`, `_sis_field_get_price`, `_sis_field_set_uint`, `_sis_field_set_int`, `_sis_field_set_float`, `_sis_field_set_price`, `sis_dynamic_field_to_csv`, `sis_dynamic_field_to_array`, `sis_dynamic_field_json_to_struct`.

## src/core/sis_file.c (1 of 7)

Modelled in `Conf`: `sis_file_read_to_sds`.

Not modelled: `sis_file_create`, `sis_file_destroy`, `sis_file_sds_write`, `sis_cat_fixed_path`, `sis_check_path`, `main`.

## src/core/sis_json.c (37 of 75)

Modelled in `Io`, `Net`, `Rec`, `Sdb`, `Server`, `Strs`: `skip`, `_sis_replace_string`, `_sis_parse_string`, `_sis_parse_info`, `_sis_parse_number`, `_sis_parse_array`, `_sis_parse_object`, `_sis_parse_value`, `_sis_json_parse`, `sis_json_load`, `sis_json_save`, `sis_json_object_merge`, `sis_json_array_add_node`, `sis_json_object_add_int`, `sis_json_object_set_int`, `sis_json_object_add_string`, `sis_json_object_set_string`, `sis_json_array_add_int`, `sis_json_array_set_int`, `sis_json_array_add_uint`, `sis_json_array_set_uint`, `sis_json_array_add_double`, `sis_json_array_set_double`, `sis_json_array_add_string`, `sis_json_create_node`, `_sis_json_to_number`, `_sis_json_to_bool`, `_sis_json_to_string`, `_sis_json_to_array`, `_sis_json_to_object`, `_sis_json_to_value`, `sis_json_output`, `sis_json_output_zip`, `sis_json_get_int`, `sis_json_get_str`, `sis_json_cmp_child_node`, `sis_json_find_node`.

Not modelled: `sis_json_open`, `sis_json_close`, `sis_json_clone`, `sis_json_create_array`, `sis_json_create_object`, `sis_json_object_add_node`, `sis_json_object_add_bool`, `sis_json_object_set_bool`, `sis_json_object_add_uint`, `sis_json_object_set_uint`, `sis_json_object_add_double`, `sis_json_object_set_double`, `sis_json_object_valid`, `sis_json_object_add_jstr`, `sis_json_object_set_jstr`, `sis_json_array_set_string`, `sis_json_delete_node`, `sis_json_printf`, `sis_json_get_valid`, `sis_json_get_double`, `sis_json_get_bool`, `sis_array_get_int`, `sis_array_get_double`, `sis_array_get_str`, `sis_json_array_bool`, `sis_json_get_size`, `sis_json_first_node`, `sis_json_next_node`, `sis_json_last_node`, `sis_json_show`, `sis_json_get_match_sign`, `sis_json_sub`, `cb_json_sub`, `main`, `main1`, `main5`, `main`, `main`.

## src/core/sis_list.c (75 of 156)

Modelled in `Csv`, `Fmap`, `Io`, `Lists`, `Sdb`: `sis_struct_list_create`, `sis_struct_list_clear`, `_struct_list_grow`, `sis_struct_list_pushs`, `sis_struct_list_push`, `sis_struct_list_update`, `sis_struct_list_insert`, `sis_struct_list_inserts`, `sis_struct_list_get`, `sis_struct_list_set_size`, `sis_struct_list_set`, `sis_struct_list_rect`, `sis_struct_list_limit`, `sis_struct_list_clone`, `sis_struct_list_pack`, `sis_struct_list_pop`, `sis_struct_list_delete`, `sis_node_del`, `sis_node_list_create`, `sis_node_list_destroy`, `sis_node_list_clear`, `sis_node_list_push`, `sis_node_list_get`, `sis_node_list_empty`, `sis_node_list_pop`, `sis_node_list_getsize`, `sis_sort_list_create`, `sis_sort_list_destroy`, `sis_sort_list_clear`, `sis_sort_list_clone`, `sis_sort_list_set`, `sis_sort_list_first`, `sis_sort_list_last`, `sis_sort_list_next`, `sis_sort_list_prev`, `_sort_list_find`, `sis_sort_list_find`, `sis_sort_list_get`, `sis_sort_list_del`, `sis_sort_list_deli`, `sis_sort_list_getsize`, `sis_pointer_list_create`, `sis_pointer_list_destroy`, `sis_pointer_list_clear`, `_pointer_list_grow`, `sis_pointer_list_clone`, `sis_pointer_list_push`, `sis_pointer_list_set`, `sis_pointer_list_update`, `sis_pointer_list_insert`, `sis_pointer_list_get`, `sis_pointer_list_first`, `sis_pointer_list_delete`, `sis_pointer_list_indexof`, `sis_pointer_list_find_and_update`, `sis_pointer_list_find_and_delete`, `sis_int_list_indexof`, `sis_int_list_push`, `sis_int_list_update`, `sis_int_list_insert`, `sis_int_list_get`, `sis_int_list_delete`, `sis_fsort_list_create`, `sis_fsort_list_destroy`, `sis_fsort_list_clear`, `_fsort_list_find`, `sis_fsort_list_set`, `sis_fsort_list_find`, `sis_fsort_list_get`, `sis_fsort_list_getkey`, `sis_fsort_list_del`, `sis_fsort_list_getsize`, `sis_string_list_clear`, `sis_string_list_load`, `sis_string_list_push_only`.

Not modelled: `sis_struct_list_destroy`, `sis_struct_list_first`, `sis_struct_list_last`, `sis_struct_list_empty`, `sis_struct_list_next`, `sis_struct_list_offset`, `sis_struct_list_set_maxsize`, `sis_struct_list_setone`, `sis_struct_list_append`, `sis_node_create`, `sis_node_destroy`, `sis_node_clear`, `sis_node_push`, `sis_node_get`, `sis_node_next`, `sis_node_set`, `sis_node_get_size`, `sis_pint_slist_create`, `sis_pint_slist_destroy`, `sis_pint_slist_clear`, `sis_pint_slist_set_maxsize`, `sis_pint_slist_set`, `sis_pint_slist_get`, `sis_pint_slist_delk`, `sis_pint_slist_del`, `sis_pint_slist_getsize`, `sis_double_list_create`, `sis_double_list_destroy`, `sis_double_list_clear`, `sis_double_list_push`, `sis_double_list_calc`, `sis_double_list_push_limit`, `sis_double_list_get`, `sis_double_list_gets`, `sis_double_list_getsize`, `sis_sort_double_list`, `sis_sort_int32_list`, `sis_double_list_sort`, `sis_double_list_value_split`, `sis_double_list_split`, `sis_double_list_count_nozero_split`, `sis_double_list_count_zero_pair_nosort`, `sis_double_list_count_zero_pair`, `sis_double_list_count_split`, `sis_double_list_count_sides`, `sis_get_simple_split`, `sis_double_list_simple_split`, `sis_double_list_simple_sides`, `sis_index_list_create`, `sis_index_list_destroy`, `sis_index_list_clear`, `sis_index_list_set`, `_index_list_free`, `sis_index_list_new`, `sis_index_list_get`, `sis_index_list_first`, `sis_index_list_next`, `sis_index_list_uses`, `sis_index_list_del`, `sis_string_list_create`, `sis_string_list_destroy`, `sis_string_list_get`, `sis_string_list_getsize`, `sis_string_list_sds`, `sis_string_list_clone`, `sis_string_list_merge`, `sis_string_list_across`, `sis_string_list_indexof`, `sis_string_list_indexofcase`, `sis_string_list_update`, `sis_string_list_find_and_update`, `sis_string_list_insert`, `sis_string_list_delete`, `sis_string_list_find_and_delete`, `sis_string_list_push`, `sis_string_list_limit`, `char_to_int`, `main1`, `main`, `main`, `main`.

## src/core/sis_list.lock.c (35 of 42)

Modelled in `Snodb`, `Sync`: `sis_unlock_node_create`, `sis_unlock_node_destroy`, `sis_lock_queue_create`, `sis_lock_queue_clear`, `sis_lock_queue_destroy`, `sis_lock_queue_head`, `sis_lock_queue_head_next`, `sis_lock_queue_tail`, `sis_lock_queue_next`, `sis_lock_queue_push`, `sis_lock_queue_pop`, `sis_wait_queue_pop`, `_thread_wait_reader`, `sis_wait_queue_create`, `sis_wait_queue_destroy`, `sis_wait_queue_push`, `sis_wait_queue_set_busy`, `_fast_queue_move`, `_thread_fast_reader`, `sis_fast_queue_create`, `sis_fast_queue_destroy`, `sis_fast_queue_clear`, `sis_fast_queue_push`, `_thread_reader`, `sis_lock_reader_create`, `sis_lock_reader_destroy`, `sis_lock_reader_zero`, `sis_lock_reader_open`, `sis_lock_reader_close`, `_unlock_check_user_cursor`, `_thread_watcher`, `sis_lock_list_create`, `sis_lock_list_destroy`, `sis_lock_list_push`, `sis_lock_list_clear`.

Not modelled: `thread_push`, `thread_fast_push`, `cb_recv`, `cb_fast_recv`, `thread_pop`, `main1`, `main`.

## src/core/sis_map.c (17 of 45)

Modelled in `Dict`, `Dyn`, `Mem`, `Merge`, `Rec`, `Server`, `Sno`, `Snodb`: `_sis_dict_strcase_hash`, `_sis_dict_strcase_compare`, `sis_map_list_create`, `sis_map_list_destroy`, `sis_map_list_clear`, `sis_map_list_get_index`, `sis_map_list_geti`, `sis_map_list_get`, `sis_map_list_set`, `sis_map_list_getsize`, `sis_map_pointer_destroy`, `sis_map_pointer_clear`, `sis_map_pointer_get`, `sis_map_pointer_find`, `sis_map_pointer_set`, `sis_map_pointer_del`, `sis_map_int_get`.

Not modelled: `_sis_dict_str_hash`, `_sis_dict_int_hash`, `_sis_dict_int64_hash`, `_sis_dict_obj_hash`, `_sis_dict_int_compare`, `_sis_dict_int64_compare`, `_sis_dict_obj_compare`, `_sis_dict_sds_dup`, `_sis_dict_str_dup`, `_sis_dict_int_dup`, `_sis_dict_int64_dup`, `_sis_dict_obj_dup`, `_sis_dict_sds_free`, `_sis_dict_str_free`, `_sis_dict_obj_free`, `sis_map_pointer_create`, `sis_map_pointer_create_v`, `sis_map_int_create`, `sis_map_int_set`, `sis_map_sds_create`, `sis_map_sds_set`, `sis_map_kint_create`, `sis_map_kint_get`, `sis_map_kint_set`, `sis_map_kint_del`, `sis_map_kobj_create`, `main`, `main`.

## src/core/sis_map.lock.c (1 of 10)

Modelled in `Client`: `sis_safe_map_set`.

Not modelled: `sis_safe_map_create`, `sis_safe_map_create_v`, `sis_safe_map_destroy`, `sis_safe_map_lock`, `sis_safe_map_unlock`, `sis_safe_map_clear`, `sis_safe_map_get`, `sis_safe_map_find`, `sis_safe_map_del`.

## src/core/sis_math.h (2 of 18)

Modelled in `Sdb`, `Sync`: `sis_is_mixed`, `sis_get_hash`.

Not modelled: `sis_abs`, `sis_zoom10`, `sis_sqrt10`, `sis_isbetween`, `sis_inside_up`, `sis_inside_dn`, `sis_inside_upi`, `sis_inside_dni`, `sis_bits_get_valid`, `sis_bits_check`, `sis_bits_set`, `sis_bits_dec`, `sis_init_random`, `sis_int_random`, `sis_double_random`, `sis_score_random`.

## src/core/sis_memory.c (25 of 36)

Modelled in `Base`, `Csv`, `Disk`, `Memory`, `Net`, `Zip`: `sis_memory_create`, `sis_memory_create_size`, `sis_memory_clear`, `sis_memory_pack`, `sis_memory_jumpto`, `sis_memory_get_address`, `sis_memory`, `sis_memory_grow`, `sis_memory_cat`, `sis_memory_cat_int`, `sis_memory_get_int`, `sis_memory_cat_int64`, `sis_memory_get_int64`, `sis_memory_cat_byte`, `sis_memory_get_byte`, `sis_memory_setpos`, `sis_memory_cat_ssize`, `sis_memory_get_ssize`, `sis_memory_try_ssize`, `sis_memory_readfile`, `sis_memory_read`, `sis_memory_get_size`, `sis_memory_set_maxsize`, `sis_memory_get_line_sign`, `sis_memory_move`.

Not modelled: `sis_memory_destroy`, `sis_memory_clone`, `sis_memory_swap`, `sis_memory_getpos`, `sis_memory_cat_double`, `sis_memory_get_double`, `sis_memory_get_freesize`, `sis_memory_set_size`, `sis_memory_get_maxsize`, `_seek_new_line`, `sis_memory_read_line`.

## src/core/sis_message.c (1 of 21)

Modelled in `Mem`: `_sis_message_get`.

Not modelled: `_sis_message_unit_free`, `sis_message_create`, `sis_message_destroy`, `_sis_message_set`, `sis_message_del`, `sis_message_set_int`, `sis_message_set_bool`, `sis_message_set_double`, `sis_message_set_str`, `sis_message_set_method`, `sis_message_set`, `sis_message_exist`, `sis_message_get_cmd`, `sis_message_get_int`, `sis_message_get_bool`, `sis_message_get_double`, `sis_message_get_str`, `sis_message_get_method`, `sis_message_get`, `main`.

## src/core/sis_method.c (1 of 34)

Modelled in `Server`: `sis_methods_get`.

Not modelled: `sis_methods_create`, `sis_methods_destroy`, `sis_methods_register`, `sis_method_map_create`, `sis_method_map_find`, `sis_method_map_destroy`, `_sis_method_node_load`, `sis_method_node_first`, `sis_method_node_create`, `sis_method_node_destroy`, `sis_method_class_create`, `sis_method_class_destroy`, `_sis_method_class_marking`, `_sis_method_class_filter`, `_sis_method_class_judge`, `_sis_method_class_clear`, `sis_method_class_loop`, `sis_method_class_execute`, `show`, `calc`, `demo_f1`, `demo_f2`, `demo_f3`, `demo_f11`, `demo_f12`, `demo_f121`, `demo_f122`, `demo_f31`, `demo_f1`, `demo_across`, `demo_free`, `demo_malloc`, `main`.

## src/core/sis_mul_worker.c (16 of 18)

Modelled in `Sync`: `_thread_mul_worker`, `sis_mul_worker_thread_create`, `sis_mul_worker_thread_destroy`, `sis_mul_worker_thread_add_task`, `sis_mul_worker_cxt_create`, `sis_mul_worker_cxt_destroy`, `sis_mul_worker_cxt_add_task`, `sis_mul_worker_cxt_add_task_i`, `sis_mul_worker_cxt_wait`, `_sis_worker_tasks_read`, `_thread_worker`, `sis_worker_tasks_create`, `sis_worker_tasks_destroy`, `sis_worker_tasks_add_task`, `sis_worker_tasks_count`, `sis_worker_tasks_wait`.

Not modelled: `working`, `main`.

## src/core/sis_nodelist.c (14 of 18)

Modelled in `Lists`: `sis_list_create`, `sis_list_clear`, `sis_list_destroy`, `sis_list_add_node_head`, `sis_list_push`, `sis_list_insert_node`, `sis_list_delete`, `sis_list_get_iter`, `sis_list_next_iter`, `sis_list_dup`, `sis_list_search_key`, `sis_list_get`, `sis_list_rotate`, `sis_list_join`.

Not modelled: `_list_release`, `sis_list_release_iter`, `sis_list_rewind`, `sis_list_rewind_tail`.

## src/core/sis_obj.c (3 of 10)

Modelled in `Sync`: `sis_object_create`, `sis_object_incr`, `sis_object_decr`.

Not modelled: `sis_object_getsize`, `sis_object_getchar`, `main`, `__task_ta`, `__task_tb`, `exithandle`, `main`.

## src/core/sis_sds.c (29 of 47)

Modelled in `Csv`, `Flog`, `Rec`, `Server`, `Strs`: `sdsReqType`, `sis_sdsnewlen`, `sis_sdsnew`, `sis_sdsdup`, `sis_sdsclear`, `sis_sds_addlen`, `sis_sds_remove_freespace`, `sis_sdsgrowzero`, `sis_sdscatlen`, `sis_sdscatsds`, `sis_sdscpylen`, `sis_sdsll2str`, `sis_sdsull2str`, `sis_sdscatprintf`, `sis_sdscatfmt`, `sis_sdstrim`, `sis_sdsrange`, `sis_sdstolower`, `sis_sdstoupper`, `sis_sdscmp`, `sis_sdssplitlen`, `sis_sdscatrepr`, `is_hex_digit`, `hex_digit_to_int`, `sis_sdssplitargs`, `sis_sdsmapchars`, `sis_sdsjoinsds`, `sis_sds_save_set`, `sis_sds_save_get`.

Not modelled: `sdsHdrSize`, `sis_sdsempty`, `sis_sdspos`, `sis_sdsfree`, `sis_sdsupdatelen`, `sis_sds_allocsize`, `sis_sds_allocptr`, `sis_sds_incrlen`, `sis_sdscat`, `sis_sdscpy`, `sis_sdsnewlong`, `sis_sdscatvprintf`, `sis_sdsfreesplitres`, `sis_sdsjoin`, `sis_sds_save_create`, `sis_sds_save_destroy`, `_sds_debug`, `main`.

## src/core/sis_sds.h (5 of 6)

Modelled in `Net`, `Strs`: `sis_sdsavail`, `sis_sdssetlen`, `sis_sdsinclen`, `sis_sdsalloc`, `sis_sdssetalloc`.

Not modelled: `sis_sdslen`.

## src/core/sis_sha1.c (4 of 4)

Modelled in `Net`: `_rol`, `_clear_w_buffer`, `_inner_hash`, `sis_shacalc`.

## src/core/sis_str.c (13 of 36)

Modelled in `Client`, `Conf`, `Csv`, `Io`, `Merge`, `Net`, `Rec`, `Server`, `Strs`: `sis_strcase_match`, `sis_strcasecmp`, `sis_strncasecmp`, `sis_strdup`, `sis_str_split`, `sis_str_divide`, `sis_str_divide_sds`, `sis_strsub`, `sis_str_pos`, `sis_str_substr_nums`, `sis_str_subcmp`, `sis_str_subcmp_strict`, `sis_str_get_id`.

Not modelled: `sis_str_isnumber`, `sis_strncmp`, `sis_str_merge`, `sis_str_swap`, `sis_str_replace`, `sis_str_to_upper`, `sis_str_to_lower`, `sis_str_method`, `sis_str_exist_ch`, `sis_str_substr`, `sis_strsubcmp_last`, `sis_str_subcmp_match`, `sis_str_getline`, `sis_str_match`, `sis_str_parse`, `sis_str_get_time_id`, `sis_str_get_random`, `sis_str_read_long`, `sis_str_change`, `sis_str_swap_ht`, `sis_str_swap_ht2`, `main1`, `main`.

## src/core/sis_thread.c (13 of 27)

Modelled in `Sync`: `sis_wait_malloc`, `sis_wait_get`, `sis_wait_free`, `sis_mutex_rw_create`, `sis_mutex_rw_destroy`, `sis_mutex_rw_lock_r`, `sis_mutex_rw_try_lock_r`, `sis_mutex_rw_unlock_r`, `sis_mutex_rw_try_lock_w`, `sis_mutex_rw_lock_w`, `sis_mutex_rw_unlock_w`, `sis_wait_thread_destroy`, `sis_wait_thread_open`.

Not modelled: `sis_wait_thread_create`, `sis_wait_thread_notice`, `sis_wait_thread_close`, `sis_wait_thread_start`, `sis_wait_thread_noexit`, `sis_wait_thread_wait`, `sis_wait_thread_stop`, `_plan_task_example`, `exithandle`, `main`, `__task_ta`, `__task_tb`, `exithandle`, `main`.

## src/core/sis_time.c (7 of 49)

Modelled in `Fmap`, `Io`, `Time`: `sis_time_get_idate`, `sis_time_get_id`, `sis_time_get_itime`, `sis_time_make_time`, `sis_time_get_week_ofday`, `sis_time_get_offset_day`, `sis_time_next_work_day`.

Not modelled: `sis_time_get_iyear`, `sis_time_get_imonth`, `sis_msec_get_itime`, `sis_msec_get_idate`, `sis_msec_get_mtime`, `sis_sec_get_itime`, `sis_time_get_iminute`, `sis_msec_get_iminute`, `sis_time_get_isec`, `sis_time_get_showtime`, `sis_msec_get_showtime`, `sis_time_get_offset_iminute`, `sis_time_get_offset_time`, `sis_time_get_isec_offset_i`, `sis_time_get_iminute_offset_i`, `sis_time_get_iminute_offset_time`, `sis_time_get_iminute_minnum`, `sis_time_make_msec`, `sis_time_get_month_ofday`, `sis_time_get_dayoffset_ofday`, `sis_time_str_is_date`, `sis_time_format_minute`, `sis_time_format_date`, `sis_time_format_msec`, `sis_time_format_csec`, `sis_time_format_datetime`, `sis_msec_format_datetime`, `sis_time_format_datetime_longstr`, `sis_time_format_msec_longstr`, `sis_time_get_minute_from_shortstr`, `sis_time_get_itime_from_str`, `sis_time_get_iyear_from_str`, `sis_time_get_idate_from_str`, `sis_time_get_idate_from_shstr`, `sis_time_get_msec_from_shortstr`, `sis_time_get_msec_from_longstr`, `sis_time_get_time_from_shstr`, `sis_time_get_msec_from_str`, `sis_time_get_msec_from_int`, `sis_delay_create`, `sis_delay_busy`, `sis_delay_destroy`.

## src/core/sis_utils.c (16 of 23)

Modelled in `Csv`, `Live`, `Rec`, `Sdb`, `Snodb`: `sis_sdbinfo_to_json`, `sis_sdb_to_array_sds`, `sis_sdb_to_csv_sds`, `sis_sdb_to_array_of_conf_sds`, `sis_sdb_get_fields_of_json`, `sis_sdb_get_fields_of_csv`, `sisdb_sdb_struct_to_sds`, `sis_sdb_fields_to_csv_sds`, `sis_sdb_fields_to_array_sds`, `sis_sdb_fields_to_json_sds`, `sis_array_to_struct_sds`, `sis_json_to_struct_sds`, `sis_json_to_sds`, `sis_match_key`, `sis_match_sdb`, `sis_match_sdb_of_sds`.

Not modelled: `sis_sdbinfo_to_conf`, `sis_json_merge_rpath`, `sis_match_sdb_of_map`, `sis_get_map_keys`, `sis_get_map_sdbs`, `sis_map_as_keys`, `sis_map_as_sdbs`.

## src/core/zip/sis_bits.h (22 of 33)

Modelled in `Bits`, `Net`, `Zip`: `sis_bits_stream_create`, `sis_bits_stream_getbytes`, `sis_bits_stream_moveto`, `sis_bits_stream_move`, `sis_bits_stream_get`, `sis_bits_stream_put`, `sis_bits_stream_put_buffer`, `sis_bits_stream_put_sint`, `sis_bits_stream_put_short`, `sis_bits_stream_put_uint`, `sis_bits_stream_put_int`, `sis_bits_stream_put_incr_int`, `sis_bits_stream_put_chars`, `sis_bits_stream_charcmp`, `sis_bits_stream_put_incr_chars`, `sis_bits_stream_get_sint`, `sis_bits_stream_get_short`, `sis_bits_stream_get_uint`, `sis_bits_stream_get_int`, `sis_bits_stream_get_incr_int`, `sis_bits_stream_get_chars`, `sis_bits_stream_get_incr_chars`.

Not modelled: `sis_bits_stream_destroy`, `sis_bits_stream_init`, `sis_bits_stream_link`, `sis_bits_stream_move_bytes`, `sis_bits_stream_savepos`, `sis_bits_stream_restore`, `sis_bits_stream_put_float`, `sis_bits_stream_put_incr_float`, `sis_bits_stream_get_buffer`, `sis_bits_stream_get_float`, `sis_bits_stream_get_incr_float`.

## src/core/zip/sis_incrzip.c (22 of 31)

Modelled in `Snodb`, `Zip`: `sis_incrzip_class_create`, `sis_incrzip_class_clear`, `sis_incrzip_set_key`, `sis_incrzip_set_sdb`, `sis_incrzip_getsize`, `sis_incrzip_set_bags`, `_sis_incrzip_get_curmem`, `sis_incrzip_compress_start`, `sis_incrzip_compress_addkey`, `_incrzip_compress_next`, `sis_incrzip_compress_restart`, `sis_incrzip_compress_stop`, `sis_incrzip_isinit`, `_sis_incrzip_compress_one`, `_incrzip_compress`, `sis_incrzip_compress`, `sis_incrzip_compress_step`, `sis_incrzip_get_bags`, `sis_incrzip_uncompress_start`, `_sis_incrzip_uncompress_one`, `sis_incrzip_uncompress`, `sis_incrzip_uncompress_step`.

Not modelled: `_incrzip_memory_free`, `_incrzip_memory_init`, `sis_incrzip_class_destroy`, `sis_incrzip_uncompress_stop`, `cb_sis_decode`, `cb_sis_encode`, `main1`, `main3`, `main`.

## src/core/zip/sis_snappy.c (2 of 4)

Modelled in `Sdb`: `sis_snappy_compress`, `sis_snappy_uncompress`.

Not modelled: `sis_net_snappy_compress`, `sis_net_snappy_uncompress`.

## src/os/linux/os_file.c (4 of 27)

Modelled in `Flog`, `Server`, `Snodb`: `sis_file_open`, `sis_file_write`, `sis_file_fsync`, `sis_file_delete`.

Not modelled: `sis_file_fixpath`, `sis_open`, `sis_getpos`, `sis_setpos`, `sis_size`, `sis_read`, `sis_write`, `sis_file_seek`, `sis_file_getpos`, `sis_file_setpos`, `sis_file_getpos`, `sis_file_setpos`, `sis_file_size`, `sis_file_read`, `sis_file_getpath`, `sis_file_getname`, `sis_file_exists`, `sis_path_exists`, `sis_path_mkdir`, `sis_file_rename`, `sis_path_complete`, `sis_path_get_files`, `sis_path_del_files`.

## src/os/linux/os_str.h (5 of 6)

Modelled in `Client`, `Net`, `Sdb`, `Strs`: `sis_strcpy`, `sis_strncpy`, `sis_trim`, `sis_lldtoa`, `sis_llutoa`.

Not modelled: `sis_strlen`.

## src/os/linux/os_thread.c (1 of 28)

Modelled in `Sync`: `sis_thread_wait_init`.

Not modelled: `sis_thread_create`, `sis_thread_finish`, `sis_thread_join`, `sis_thread_clear`, `sis_thread_self`, `sis_thread_handle`, `sis_thread_handle`, `sis_mutex_create`, `sis_rwlock_init`, `sis_mutex_wait_lock_r`, `sis_mutex_wait_lock_w`, `sis_mutex_wait_lock_r`, `sis_mutex_wait_lock_w`, `sis_thread_wait_start`, `sis_thread_wait_stop`, `sis_thread_wait_sleep`, `sis_thread_wait_sleep_msec`, `sis_thread_wait_sleep`, `sis_thread_wait_sleep_msec`, `sis_thread_wait_create`, `sis_thread_wait_destroy`, `sis_thread_wait_notice`, `sis_thread_wait_kill`, `__task_ta`, `__task_tb`, `exithandle`, `main`.

## src/os/linux/os_time.c (1 of 7)

Modelled in `Time`: `sis_time_check`.

Not modelled: `sis_localtime`, `sis_time_get_now`, `sis_time_get_now_msec`, `sis_time_get_now_usec`, `sis_sleep`, `sis_time_format_now`.

## src/worker.c (1 of 22)

Modelled in `Mem`: `sis_worker_get_method`.

Not modelled: `sis_work_thread_wait`, `sis_work_thread_create`, `sis_work_thread_open`, `sis_work_thread_destroy`, `_service_work_thread`, `_sis_worker_get_workname`, `_sis_worker_init`, `_sis_load_work_time`, `sis_worker_create_of_name`, `sis_worker_create_of_conf`, `sis_worker_create`, `sis_worker_destroy`, `sis_worker_init_multiple`, `sis_worker_command`, `sis_work_thread_notice`, `sis_worker_get`, `sis_worker_search`, `sis_thread_wait_sleep1`, `_plan_task_example`, `exithandle`, `main`.

## workers/frwdb/frwdb.c (1 of 31)

Modelled in `Net`: `_frwdb_read_data`.

Not modelled: `frwdb_init`, `frwdb_uninit`, `cmd_frwdb_create`, `cmd_frwdb_setdb`, `cmd_frwdb_start`, `frwdb_wfile_merge`, `cmd_frwdb_merge`, `cmd_frwdb_stop`, `frwdb_wfile_save`, `cmd_frwdb_save`, `cmd_frwdb_set`, `_frwdb_make_data_chr`, `cmd_frwdb_bset`, `cmd_frwdb_sub`, `cmd_frwdb_unsub`, `cmd_frwdb_get`, `cmd_frwdb_init`, `cmd_frwdb_rlog`, `cmd_frwdb_wlog`, `frwdb_working`, `cb_frwdb_wlog_load`, `frwdb_wlog_load`, `frwdb_wlog_start`, `frwdb_wlog_stop`, `frwdb_wlog_remove`, `frwdb_wfile_nodes_to_memory`, `frwdb_write_stop`, `_frwdb_make_data_idx`, `_thread_reader`, `frwdb_write_start`.

## workers/memdb/memdb.c (7 of 11)

Modelled in `Mem`: `cmd_memdb_init`, `cmd_memdb_get`, `cmd_memdb_set`, `cmd_memdb_sub`, `cmd_memdb_hsub`, `cmd_memdb_pub`, `cmd_memdb_unsub`.

Not modelled: `memdb_unit_create`, `memdb_unit_destroy`, `memdb_init`, `memdb_uninit`.

## workers/sisdb/sisdb.c (13 of 29)

Modelled in `Io`, `Server`: `sisdb_working`, `cmd_sisdb_create`, `cmd_sisdb_get`, `cmd_sisdb_set`, `cmd_sisdb_bset`, `cmd_sisdb_del`, `cmd_sisdb_sub`, `cmd_sisdb_hsub`, `cmd_sisdb_unsub`, `cmd_sisdb_init`, `cmd_sisdb_open`, `cmd_sisdb_wlog`, `cmd_sisdb_clear`.

Not modelled: `sisdb_init`, `sisdb_uninit`, `sisdb_method_init`, `sisdb_method_uninit`, `cmd_sisdb_show`, `cmd_sisdb_drop`, `cmd_sisdb_gets`, `cmd_sisdb_keys`, `cmd_sisdb_dels`, `cmd_sisdb_psub`, `cmd_sisdb_unpsub`, `cmd_sisdb_read`, `cmd_sisdb_save`, `cmd_sisdb_pack`, `cmd_sisdb_close`, `cmd_sisdb_rlog`.

## workers/sisdb/sisdb_disk.c (4 of 10)

Modelled in `Server`: `sisdb_rlog_read`, `sisdb_disk_save_start`, `sisdb_disk_save`, `sisdb_disk_save_stop`.

Not modelled: `sisdb_disk_pack`, `sisdb_disk_read`, `cb_rlog_netmsg`, `sisdb_wlog_open`, `sisdb_wlog_remove`, `sisdb_wlog_close`.

## workers/sisdb/sisdb_fmap.c (15 of 18)

Modelled in `Fmap`, `Io`: `_fmap_calc_nots_count`, `_fmap_calc_nots_start`, `sisdb_fmap_cxt_create`, `sisdb_fmap_cxt_destroy`, `_fmap_cxt_new_of_map`, `sisdb_fmap_cxt_init`, `sisdb_fmap_cxt_new`, `sisdb_fmap_cxt_setdb`, `sisdb_fmap_cxt_getdb_of_key`, `sisdb_fmap_cxt_get_keys`, `sisdb_fmap_cxt_get_sdbs`, `sisdb_fmap_cxt_read`, `sisdb_fmap_cxt_update`, `sisdb_fmap_cxt_del`, `sisdb_fmap_cxt_remove`.

Not modelled: `sisdb_fmap_cxt_get`, `sisdb_fmap_cxt_getdb`, `sisdb_fmap_cxt_get_key_count`.

## workers/sisdb/sisdb_fmap_ctrl.c (13 of 18)

Modelled in `Fmap`, `Io`: `sisdb_fmap_unit_create`, `sisdb_fmap_unit_reidx`, `sisdb_fmap_unit_get_mindex`, `sisdb_fmap_unit_get_start`, `sisdb_fmap_unit_goto`, `sisdb_fmap_cmp_find_head`, `sisdb_fmap_cmp_find_tail`, `sisdb_fmap_cmp_same`, `sisdb_fmap_offset_prev`, `_fmap_cmp_range_head`, `_fmap_cmp_range_tail`, `sisdb_fmap_cmp_where`, `sisdb_fmap_cmp_range`.

Not modelled: `sisdb_fmap_unit_destroy`, `sisdb_fmap_unit_clear`, `sisdb_fmap_unit_count`, `main1`, `main`.

## workers/sisdb/sisdb_fmap_read.c (7 of 7)

Modelled in `Fmap`, `Io`: `sisdb_fmap_cxt_tsdb_read`, `_fmap_cxt_getdata_from_disk`, `_fmap_cxt_getdata_year`, `_fmap_cxt_getdata_date`, `_fmap_cxt_get_head_sign`, `_fmap_cxt_get_tail_sign`, `sisdb_fmap_cxt_read_data`.

## workers/sisdb/sisdb_fmap_write.c (14 of 15)

Modelled in `Fmap`, `Io`: `sisdb_fmap_unit_add_idx`, `sisdb_fmap_unit_set_idx`, `sisdb_fmap_unit_del_idx`, `sisdb_fmap_unit_move_idx`, `sisdb_fmap_cxt_tsdb_del`, `sisdb_fmap_cxt_tsdb_remove`, `_fmap_cxt_vlist_add`, `_fmap_unit_solely_update_noidx`, `_fmap_unit_solely_update`, `sisdb_fmap_cxt_solely_update`, `sisdb_fmap_cxt_mindex_update`, `_disk_save_fmap_sdb`, `_disk_save_fmap`, `sisdb_fmap_cxt_save`.

Not modelled: `sisdb_fmap_cxt_free_data`.

## workers/sisdb/sisdb_io.c (9 of 18)

Modelled in `Fmap`, `Io`, `Rec`: `sisdb_io_create`, `_init_cmd_from_get`, `_read_fields`, `sisdb_io_get_sds`, `sisdb_io_get_chars_sds`, `_init_cmd_from_set`, `sisdb_io_update`, `sisdb_io_set_chars`, `sisdb_io_del`.

Not modelled: `sisdb_io_set_one_chars`, `sisdb_io_del_one`, `sisdb_io_drop`, `sisdb_io_gets_one_sds`, `sisdb_io_gets_sds`, `sisdb_io_keys_one_sds`, `sisdb_io_keys_sds`, `sisdb_io_dels_one`, `sisdb_io_dels`.

## workers/sisdb_client/sisdb_client.c (20 of 22)

Modelled in `Client`: `sisdb_client_ask_create`, `sisdb_client_init`, `sisdb_client_send_ask`, `_cb_recv`, `_cb_connected`, `_cb_disconnect`, `sisdb_client_method_init`, `sisdb_client_method_uninit`, `sisdb_client_ask_cmd`, `sisdb_client_ask_del`, `sisdb_client_ask_get`, `sisdb_client_ask_unsub`, `sisdb_client_ask_sub_exists`, `cb_reply`, `cmd_sisdb_client_setcb`, `cmd_sisdb_client_status`, `cmd_sisdb_client_chars_wait`, `cmd_sisdb_client_bytes_wait`, `cmd_sisdb_client_chars_nowait`, `cmd_sisdb_client_bytes_nowait`.

Not modelled: `sisdb_client_ask_destroy`, `sisdb_client_uninit`.

## workers/sisdb_flog/sisdb_flog.c (10 of 13)

Modelled in `Flog`, `Server`, `Snodb`: `sisdb_flog_init`, `cb_flog_start`, `cb_flog_stop`, `cb_flog_break`, `cb_flog_original`, `cmd_sisdb_flog_sub`, `cmd_sisdb_flog_open`, `cmd_sisdb_flog_close`, `cmd_sisdb_flog_write`, `cmd_sisdb_flog_remove`.

Not modelled: `sisdb_flog_uninit`, `cmd_sisdb_flog_unsub`, `main`.

## workers/sisdb_server/sisdb_incr.c (12 of 19)

Modelled in `Snodb`: `sisdb_incr_create`, `sisdb_incr_set_keys`, `sisdb_incr_set_sdbs`, `sisdb_incr_get_kname`, `sisdb_incr_get_sname`, `_init_dict`, `sisdb_incr_unzip_start`, `sisdb_incr_unzip_set`, `sisdb_incr_zip_start`, `sisdb_incr_zip_set`, `sisdb_incr_zip_restart`, `sisdb_incr_zip_stop`.

Not modelled: `sisdb_incr_destroy`, `sisdb_incr_clear`, `sisdb_incr_get_kidx`, `sisdb_incr_get_sidx`, `sisdb_incr_unzip_stop`, `sisdb_incr_getsize`, `cb_worker_encode`.

## workers/sisdb_server/sisdb_server.c (17 of 33)

Modelled in `Mem`, `Server`: `_cb_connect_close`, `sisdb_server_work_init`, `cb_socket_recv`, `sisdb_server_reply_ok`, `sisdb_server_reply_error`, `sisdb_server_reply_null`, `sisdb_server_reply_no_method`, `sisdb_server_reply_no_service`, `sisdb_server_reply_no_auth`, `sisdb_server_send_service`, `sisdb_server_get_access`, `cb_reader_recv`, `cmd_sisdb_server_auth`, `cmd_sisdb_server_setuser`, `sisdb_server_open_works`, `sisdb_server_sysinfo_save`, `sisdb_server_sysinfo_load`.

Not modelled: `_cb_connect_open`, `cb_net_message`, `sisdb_server_init`, `cb_sys_init_scripts`, `sisdb_server_working`, `sisdb_server_work_uninit`, `sisdb_server_uninit`, `cmd_sisdb_server_show`, `sisdb_server_open`, `cmd_sisdb_server_sub`, `cmd_sisdb_server_unsub`, `cmd_sisdb_server_open`, `cmd_sisdb_server_close`, `cmd_sisdb_server_save`, `cmd_sisdb_server_pack`, `cmd_sisdb_server_call`.

## workers/sisdb_server/sisdb_sub.c (13 of 14)

Modelled in `Live`, `Mem`, `Server`: `_set_sub_unit_type`, `sisdb_sub_unit_create`, `sisdb_sub_cxt_create`, `sisdb_sub_cxt_destroy`, `sisdb_sub_cxt_clear`, `sisdb_sub_cxt_init`, `sisdb_sub_notice`, `sisdb_sub_cxt_sub`, `sisdb_sub_cxt_hsub`, `sisdb_unsub_notice`, `sisdb_sub_cxt_unsub`, `_make_notice_send`, `sisdb_sub_cxt_pub`.

Not modelled: `sisdb_sub_unit_destroy`.

## workers/sisdb_server/sisdb_sys.c (3 of 8)

Modelled in `Server`: `sis_sys_access_itoa`, `sis_sys_access_atoi`, `sis_sys_access_method`.

Not modelled: `sis_userinfo_create`, `sis_userinfo_destroy`, `sis_workinfo_create_of_json`, `sis_workinfo_create`, `sis_workinfo_destroy`.

## workers/sisdb_wsdb/sisdb_wsdb.c (1 of 11)

Modelled in `Sdb`: `cmd_sisdb_wsdb_merge`.

Not modelled: `sisdb_wsdb_init`, `sisdb_wsdb_uninit`, `sisdb_wsdb_start`, `sisdb_wsdb_stop`, `_write_wsdb_head`, `cmd_sisdb_wsdb_start`, `cmd_sisdb_wsdb_stop`, `sisdb_wsdb_write`, `cmd_sisdb_wsdb_write`, `cmd_sisdb_wsdb_push`.

## workers/sisdb_wsno/sisdb_wsno.c (12 of 13)

Modelled in `Snodb`: `sisdb_wsno_init`, `sisdb_wsno_stop`, `sisdb_wsno_start`, `cb_sub_start`, `cb_sub_stop`, `cb_dict_keys`, `cb_dict_sdbs`, `cb_decode`, `_write_wsno_head`, `cb_sub_chars`, `cb_sub_incrzip`, `cmd_sisdb_wsno_getcb`.

Not modelled: `sisdb_wsno_uninit`.

## workers/snodb/snodb.c (15 of 22)

Modelled in `Snodb`: `cb_input_reader`, `cb_wlog_reader`, `snodb_init`, `cmd_snodb_set`, `_snodb_write_start`, `cmd_snodb_start`, `cmd_snodb_stop`, `_snodb_write_incrzip`, `_snodb_write_bytes`, `_snodb_write_init`, `cmd_snodb_ipub`, `cmd_snodb_pub`, `cmd_snodb_zpub`, `cmd_snodb_sub`, `cmd_snodb_unsub`.

Not modelled: `snodb_uninit`, `snodb_working`, `cmd_snodb_init`, `cmd_snodb_get`, `cmd_snodb_clear`, `cmd_snodb_wlog`, `cmd_snodb_rlog`.

## workers/snodb/snodb_disk.c (8 of 14)

Modelled in `Snodb`: `cb_snodb_wlog_start`, `cb_snodb_wlog_load`, `snodb_wlog_load`, `snodb_wlog_save`, `cb_snodb_wfile_start`, `cb_snodb_wfile_stop`, `cb_snodb_wfile_load`, `snodb_wlog_to_snos`.

Not modelled: `cb_snodb_wlog_stop`, `snodb_wlog_start`, `snodb_wlog_stop`, `snodb_wlog_remove`, `snodb_reader_history_start`, `snodb_reader_history_stop`.

## workers/snodb/snodb_reader.c (17 of 22)

Modelled in `Snodb`: `snodb_register_reader`, `cb_sub_incrzip`, `cb_sub_chars`, `cb_sub_start`, `cb_sub_realtime`, `cb_sub_stop`, `cb_dict_keys`, `cb_dict_sdbs`, `snodb_reader_new_history`, `snodb_reader_new_realtime`, `snodb_remove_reader`, `cb_output_reader_send`, `cb_output_reader`, `cb_output_realtime`, `cb_decode`, `snodb_reader_realtime_start`, `snodb_reader_realtime_stop`.

Not modelled: `snodb_read_get_obj`, `snodb_read`, `snodb_reader_create`, `snodb_reader_destroy`, `cb_encode`.

## workers/subdb/subdb.c (15 of 17)

Modelled in `Live`: `subdb_userinfo_incr`, `subdb_userinfo_decr`, `subdb_userinfo_destroy`, `subdb_init`, `subdb_uninit`, `cmd_subdb_init`, `subdb_wlog_start`, `cmd_subdb_set`, `cmd_subdb_start`, `cmd_subdb_stop`, `_subdb_reader_init`, `cmd_subdb_pub`, `cmd_subdb_sub`, `cmd_subdb_unsub`, `cmd_subdb_wlog`.

Not modelled: `subdb_wlog_save`, `subdb_wlog_stop`.

## Files not modelled

`src/core/net/sis_net.dp.c` (19), `src/core/net/sis_net.rds.c` (4), `src/core/net/sis_net.t.c` (6), `src/core/net/sis_net.uv.t.c` (34), `src/core/sis_crypt.c` (2), `src/core/sis_dbf.c` (13), `src/core/sis_group.c` (47), `src/core/sis_ini.c` (7), `src/core/sis_log.c` (14), `src/core/sis_loop.c` (16), `src/core/sis_malloc.c` (2), `src/core/sis_thread.h` (2), `src/core/sis_time.h` (1), `src/core/zip/sis_utf8.c` (8), `src/core/zip/sis_zint.h` (15), `src/os/linux/os_fork.c` (4), `src/os/linux/os_malloc.c` (5), `src/os/linux/os_malloc.h` (3), `src/os/linux/os_net.c` (3), `src/os/linux/os_str.c` (1), `src/server.c` (12), `workers/frwdb/frwdb_reader.c` (23), `workers/service_core/service_core.c` (11), `workers/service_search/service_search.c` (11), `workers/sisdb_rsdb/sisdb_rsdb.c` (19), `workers/sisdb_rseg/sisdb_rseg.c` (23), `workers/sisdb_rsno/sisdb_rsno.c` (26), `workers/sisdb_server/sisdb_call.c` (2), `workers/sisdb_wseg/sisdb_wseg.c` (15); `src/core/ai`, `src/os/win32`, and the clients outside of `src` and `workers`.
