{"id": "C01", "title": "Variable-length size codec is lossless", "statement": "Appending any size value below 2^64 to a memory buffer with sis_memory_cat_ssize and reading it back with sis_memory_get_ssize yields the same value and consumes exactly the bytes that were appended, whatever follows in the buffer.", "quantifier": "every size below 2^64 and every trailing byte sequence", "why_tests_cant": "2^64 values over five length classes; a test samples only a few boundaries", "anchors": ["src/core/sis_memory.c:sis_memory_cat_ssize", "src/core/sis_memory.c:sis_memory_get_ssize", "src/core/sis_memory.c:sis_memory_cat_byte", "src/core/sis_memory.c:sis_memory_get_byte"]}
{"id": "C02", "title": "Size codec is self-delimiting and its completeness test is exact", "statement": "sis_memory_try_ssize answers true exactly when the buffered bytes start with a complete size encoding; in particular it answers false on every strict prefix of an encoded size and true as soon as the last byte arrives, and no encoded size is a strict prefix of another encoded size.", "quantifier": "every byte sequence and every cut point of every encoding", "why_tests_cant": "quantifies over all byte strings and all arrival points", "anchors": ["src/core/sis_memory.c:sis_memory_try_ssize", "src/core/sis_memory.c:sis_memory_get_ssize"]}
{"id": "C03", "title": "Memory buffer is a lossless byte queue under any operation history", "statement": "For every sequence of append, consume, pack, grow, clear and file-read operations that never consumes more than is unread, the unread content of an s_sis_memory equals everything appended minus everything consumed, in order; the write cursor never passes the allocated capacity, and the read cursor never passes the write cursor.", "quantifier": "every finite operation history and every byte content", "why_tests_cant": "histories interleave compaction and reallocation in unboundedly many ways", "anchors": ["src/core/sis_memory.c:sis_memory_cat", "src/core/sis_memory.c:sis_memory_pack", "src/core/sis_memory.c:sis_memory_grow", "src/core/sis_memory.c:sis_memory_clear", "src/core/sis_memory.c:sis_memory_read", "src/core/sis_memory.c:sis_memory_move"]}
{"id": "C04", "title": "Bit stream: what is put is what is got", "statement": "After any sequence of sis_bits_stream_put calls with widths 1..64, reading the same widths in the same order with sis_bits_stream_get from the start returns the low bits of the same values, and a put never disturbs bits already written before the cursor.", "quantifier": "every list of (value,width) pairs, every initial buffer content large enough", "why_tests_cant": "all alignments times all widths times all values", "anchors": ["src/core/zip/sis_bits.h:sis_bits_stream_put", "src/core/zip/sis_bits.h:sis_bits_stream_get"]}
{"id": "C05", "title": "Unsigned compressed integers are lossless in their range and refuse the rest", "statement": "sis_bits_stream_put_sint, put_short and put_uint followed by the matching get return the same value and leave the cursor just behind it for every value in range (0..305, 0..69889, 0..2^32-1); out of range put_sint/put_short return -1 and leave the stream untouched.", "quantifier": "every 32-bit value, every bit position", "why_tests_cant": "2^32 values times 8 alignments", "anchors": ["src/core/zip/sis_bits.h:sis_bits_stream_put_sint", "src/core/zip/sis_bits.h:sis_bits_stream_put_short", "src/core/zip/sis_bits.h:sis_bits_stream_put_uint", "src/core/zip/sis_bits.h:sis_bits_stream_get_sint", "src/core/zip/sis_bits.h:sis_bits_stream_get_short", "src/core/zip/sis_bits.h:sis_bits_stream_get_uint"]}
{"id": "C06", "title": "Signed compressed integers are lossless", "statement": "sis_bits_stream_put_int followed by sis_bits_stream_get_int returns the same value for every signed 64-bit integer, and the incremental form restores the value from the same predecessor.", "quantifier": "every int64 value and predecessor, every bit position", "why_tests_cant": "2^64 values; the single failing value is not one a test would pick", "anchors": ["src/core/zip/sis_bits.h:sis_bits_stream_put_int", "src/core/zip/sis_bits.h:sis_bits_stream_get_int", "src/core/zip/sis_bits.h:sis_bits_stream_put_incr_int", "src/core/zip/sis_bits.h:sis_bits_stream_get_incr_int"]}
{"id": "C07", "title": "Compressed character fields are lossless", "statement": "A fixed-size character field written with put_incr_chars against a previous field value and read with get_incr_chars against the same previous value comes back equal (up to bytes after the first NUL).", "quantifier": "every pair of field contents of equal declared size", "why_tests_cant": "all pairs of strings, including empty and prefix-related ones", "anchors": ["src/core/zip/sis_bits.h:sis_bits_stream_charcmp", "src/core/zip/sis_bits.h:sis_bits_stream_put_incr_chars", "src/core/zip/sis_bits.h:sis_bits_stream_get_incr_chars", "src/core/zip/sis_bits.h:sis_bits_stream_put_chars", "src/core/zip/sis_bits.h:sis_bits_stream_get_chars"]}
{"id": "C08", "title": "Compressed record stream restores every record", "statement": "A sequence of (key,table,record) compressed with sis_incrzip_compress and decompressed with sis_incrzip_uncompress in the same sequence yields the same records in the same order for tables of integer and character fields.", "quantifier": "every registered schema, every key count, every record history", "why_tests_cant": "the delta state depends on the whole history of every (key,table) pair", "anchors": ["src/core/zip/sis_incrzip.c:sis_incrzip_compress", "src/core/zip/sis_incrzip.c:sis_incrzip_uncompress", "src/core/zip/sis_incrzip.c:_incrzip_compress", "src/core/zip/sis_incrzip.c:sis_incrzip_set_sdb"]}
{"id": "C09", "title": "Stepwise decompression agrees with stepwise compression", "statement": "A block produced by sis_incrzip_compress_start/step and decoded with sis_incrzip_uncompress_start/step delivers every record of every bag unchanged, in order, including bags holding more than one record.", "quantifier": "every list of bags and bag sizes", "why_tests_cant": "depends on the bag size and on the position of the bag in the stream", "anchors": ["src/core/zip/sis_incrzip.c:sis_incrzip_compress_step", "src/core/zip/sis_incrzip.c:sis_incrzip_uncompress_step", "src/core/zip/sis_incrzip.c:sis_incrzip_compress_start"]}
{"id": "C10", "title": "Bag counter codec is lossless", "statement": "The record counter of a compressed bag written by the compressor is read back unchanged by the decompressor for every count in 1..2^32-1.", "quantifier": "every bag count", "why_tests_cant": "2^32 counts over three length classes", "anchors": ["src/core/zip/sis_incrzip.c:sis_incrzip_set_bags", "src/core/zip/sis_incrzip.c:sis_incrzip_get_bags"]}
{"id": "C11", "title": "Lookup by exact timestamp returns exactly the matching records", "statement": "For a time series held sorted by timestamp, a 'where' query for timestamp t yields the complete contiguous run of records with timestamp t and their number, and reports no match when there is none, independent of the interpolated starting position used by the search.", "quantifier": "every sorted series, every t, every starting hint", "why_tests_cant": "all series lengths, duplicate patterns and hints", "anchors": ["workers/sisdb/sisdb_fmap_ctrl.c:sisdb_fmap_cmp_where", "workers/sisdb/sisdb_fmap_ctrl.c:sisdb_fmap_cmp_same", "workers/sisdb/sisdb_fmap_ctrl.c:sisdb_fmap_unit_goto"]}
{"id": "C12", "title": "Range query returns exactly the records inside the range", "statement": "For a sorted time series and start <= stop, a range query selects exactly the records whose timestamp lies in [start,stop]; with the 'previous' option and no record at start it additionally includes the last record before start; an empty selection is reported as no match.", "quantifier": "every sorted series, every start, stop, option and starting hint", "why_tests_cant": "all series, bounds and duplicate patterns", "anchors": ["workers/sisdb/sisdb_fmap_ctrl.c:sisdb_fmap_cmp_range", "workers/sisdb/sisdb_fmap_ctrl.c:_fmap_cmp_range_head", "workers/sisdb/sisdb_fmap_ctrl.c:_fmap_cmp_range_tail"]}
{"id": "C13", "title": "Writes keep the series sorted by time and lose nothing", "statement": "Starting from a sorted series, every update of a time-indexed table leaves the series sorted by timestamp and containing exactly the old records plus the new one (no record lost, duplicated or altered).", "quantifier": "every sorted series and every history of updates", "why_tests_cant": "every insertion order of every multiset of timestamps", "anchors": ["workers/sisdb/sisdb_fmap_write.c:sisdb_fmap_cxt_mindex_update", "workers/sisdb/sisdb_fmap_ctrl.c:sisdb_fmap_cmp_find_tail", "workers/sisdb/sisdb_fmap.c:sisdb_fmap_cxt_update"]}
{"id": "C14", "title": "Records with equal timestamps keep arrival order", "statement": "In a time-indexed table, records carrying the same timestamp are returned in the order in which they were written.", "quantifier": "every history of writes", "why_tests_cant": "depends on how many equal records precede and whether a later record exists", "anchors": ["workers/sisdb/sisdb_fmap_write.c:sisdb_fmap_cxt_mindex_update"]}
{"id": "C15", "title": "A unique-key table keeps at most one record per unique key and updates it in place", "statement": "Writing a record to a table with unique fields replaces the stored record with the same time and unique fields if there is one, otherwise inserts it in time order; no record with a different time or different unique fields is changed or lost.", "quantifier": "every sorted series and every incoming record", "why_tests_cant": "depends on the neighbours of the insertion point", "anchors": ["workers/sisdb/sisdb_fmap_write.c:_fmap_unit_solely_update"]}
{"id": "C16", "title": "Range delete removes exactly the selected records", "statement": "A delete by exact timestamp or by time range removes exactly the records the corresponding query would return, keeps every other record in order, and reports the number removed.", "quantifier": "every sorted series, every range", "why_tests_cant": "all series and bounds", "anchors": ["workers/sisdb/sisdb_fmap_write.c:sisdb_fmap_cxt_tsdb_del", "workers/sisdb/sisdb_fmap_ctrl.c:sisdb_fmap_cmp_where", "workers/sisdb/sisdb_fmap_ctrl.c:sisdb_fmap_cmp_range"]}
{"id": "C17", "title": "Per-day index stays consistent with the records after a delete", "statement": "After deleting n records starting at position i the per-period index describes the remaining records: each entry's record count equals the number of remaining records of that period and the counts sum to the number of records.", "quantifier": "every index layout and every deleted interval", "why_tests_cant": "intervals may begin and end inside different periods", "anchors": ["workers/sisdb/sisdb_fmap_write.c:sisdb_fmap_unit_del_idx"]}
{"id": "C18", "title": "Paging of series without time honours start and count", "statement": "For a table without time index, reading with (start,count) returns the requested window: negative start counts from the end, non-negative start from the beginning, and count limits the number of records.", "quantifier": "every record list, start and count", "why_tests_cant": "sign and width conversions only show for particular start values", "anchors": ["workers/sisdb/sisdb_fmap.c:_fmap_calc_nots_count", "workers/sisdb/sisdb_fmap.c:sisdb_fmap_cxt_read"]}
{"id": "C19", "title": "Message log survives a crash at any byte", "statement": "If a process appending messages to a log file is killed at any point, so that the file holds any byte prefix of what was appended, reopening the log for append keeps exactly the complete records (every record fully on disk, no torn record) and positions new records directly behind them.", "quantifier": "every message sequence and every crash byte", "why_tests_cant": "every byte of every file is a crash point", "anchors": ["src/core/disk/sis_disk_files.c:sis_disk_files_seek_log", "src/core/disk/sis_disk_files.c:sis_disk_files_write"]}
{"id": "C20", "title": "Log replay delivers every complete record once and in order", "statement": "Replaying a log file delivers each complete record exactly once, in write order, with its content unchanged, and nothing else.", "quantifier": "every message sequence including empty and one-byte messages", "why_tests_cant": "only the size of the last record decides", "anchors": ["src/core/disk/sis_disk_files.c:sis_disk_files_read_fulltext"]}
{"id": "C21", "title": "Log parsing does not depend on the read chunk size", "statement": "Scanning or replaying a log larger than the read buffer gives the same records as scanning it in one piece.", "quantifier": "every log content, every chunk size at least as large as a header", "why_tests_cant": "only particular alignments of a record header with a 16 MB boundary matter", "anchors": ["src/core/disk/sis_disk_files.c:sis_disk_files_seek_log", "src/core/disk/sis_disk_files.c:sis_disk_files_read_fulltext"]}
{"id": "C22", "title": "Acknowledged writes survive a server crash", "statement": "After a crash at any moment, restarting the server and replaying disk plus log reproduces a state that contains every write that was acknowledged before the crash.", "quantifier": "every request history, every crash point including inside save", "why_tests_cant": "the crash point ranges over every instant of save and log rotation", "anchors": ["workers/sisdb/sisdb_disk.c:sisdb_disk_save_start", "workers/sisdb/sisdb_disk.c:sisdb_rlog_read", "workers/sisdb_server/sisdb_server.c:cb_reader_recv"]}
{"id": "C23", "title": "Latest value wins for single-value keys on disk", "statement": "After any sequence of single-value or list-value writes to a database file, reading a key returns the last value written for it, and other keys are unaffected.", "quantifier": "every write history over every set of keys", "why_tests_cant": "all histories and key interleavings", "anchors": ["src/core/disk/sis_disk.io.sdb.c:sis_disk_io_write_one", "src/core/disk/sis_disk.io.sdb.c:sis_disk_io_write_mul", "src/core/disk/sis_disk_read.c:sis_disk_reader_get_one"]}
{"id": "C24", "title": "Writing a time block never loses records outside its time range", "statement": "Writing a block of time-stamped records for a (key,table) replaces older blocks covering the same times; every stored record whose time lies outside the newly written block stays readable.", "quantifier": "every history of block writes", "why_tests_cant": "depends on overlap relation between all blocks of a history", "anchors": ["src/core/disk/sis_disk.io.sdb.c:sis_disk_io_merge_sdb", "src/core/disk/sis_disk.io.sdb.c:sis_disk_io_write_sdb"]}
{"id": "C25", "title": "Disk index records are lossless", "statement": "The index written when a database file is closed, for any set of (key,table) entries with any number of blocks, is read back with the same entries, in the same order, with all block attributes equal.", "quantifier": "every index", "why_tests_cant": "all index sizes, offsets and times", "anchors": ["src/core/disk/sis_disk.io.sdb.c:sis_disk_io_write_sdb_widx", "src/core/disk/sis_disk.io.sdb.c:cb_sis_disk_io_read_sdb_widx"]}
{"id": "C26", "title": "Map records are lossless and respect deletion", "statement": "Presence/deletion marks for (key,table,date) appended to the map file are read back as written, so that a key removed on a date is reported removed and a key rewritten later is reported present.", "quantifier": "every history of writes and removals", "why_tests_cant": "the failing byte layout appears only for deletion marks", "anchors": ["src/core/disk/sis_disk.io.sdb.c:sis_disk_io_write_map", "src/core/disk/sis_disk.io.sdb.c:cb_sis_disk_io_read_sdb_map"]}
{"id": "C27", "title": "Splitting a block into per-date or per-year files loses and misplaces nothing", "statement": "Writing a time-ordered block to date- or year-partitioned storage stores every record exactly once, in order, in the partition of its own timestamp.", "quantifier": "every time-ordered block and every supported time unit", "why_tests_cant": "depends on timestamps exceeding 32 bits and on period boundaries", "anchors": ["src/core/disk/sis_disk_write.c:sis_disk_writer_sdb_date", "src/core/disk/sis_disk_write.c:sis_disk_writer_sdb_year"]}
{"id": "C28", "title": "WebSocket framing is lossless", "statement": "A message of any size packed for a WebSocket connection and unpacked by the peer yields the same bytes, and bytes following it in the receive buffer are left untouched.", "quantifier": "every message content and size, every following bytes", "why_tests_cant": "frame splitting happens at 16 KB boundaries; length classes at 126 and 65536", "anchors": ["src/core/net/sis_net.ws.c:sis_net_pack_ws", "src/core/net/sis_net.ws.c:sis_net_unpack_ws"]}
{"id": "C29", "title": "WebSocket reassembly is independent of TCP segmentation", "statement": "Whatever way the byte stream of packed messages is cut into arrivals, the receiver delivers the same messages in the same order, never a partial message.", "quantifier": "every message sequence and every segmentation", "why_tests_cant": "exponentially many segmentations", "anchors": ["src/core/net/sis_net.ws.c:sis_net_unpack_ws", "src/core/net/sis_net.ws.c:sis_net_unpack_ws_check"]}
{"id": "C30", "title": "WebSocket input never causes out-of-bounds access", "statement": "For every received byte sequence the unpacker touches only received bytes.", "quantifier": "every byte sequence an attacker may send", "why_tests_cant": "adversarial inputs are unbounded", "anchors": ["src/core/net/sis_net.ws.c:sis_net_unpack_ws"]}
{"id": "C31", "title": "Network messages survive encoding", "statement": "Encoding a request or reply for the wire and decoding it on the other side restores name, serial number, service, command, subject, tag and info.", "quantifier": "every combination of present fields and every content", "why_tests_cant": "2^7 presence patterns times all contents", "anchors": ["src/core/net/sis_net.node.c:sis_net_encoded_normal", "src/core/net/sis_net.node.c:sis_net_decoded_normal"]}
{"id": "C32", "title": "Relayed messages keep their payload", "statement": "Copying a message for forwarding keeps every part that is present, including the list payload.", "quantifier": "every message", "why_tests_cant": "all presence patterns", "anchors": ["src/core/net/sis_net.msg.c:sis_net_message_relay"]}
{"id": "C33", "title": "Send queue is FIFO and loses nothing", "statement": "For every interleaving of producers and the consumer, messages pushed to a connection's send queue are popped exactly once in push order, and byte counters equal the queued content.", "quantifier": "every operation history", "why_tests_cant": "node reuse and growth depend on the whole history", "anchors": ["src/core/net/sis_net.node.c:sis_net_mems_push", "src/core/net/sis_net.node.c:sis_net_mems_pop", "src/core/net/sis_net.node.c:sis_net_nodes_push", "src/core/net/sis_net.node.c:sis_net_nodes_read"]}
{"id": "C34", "title": "Session numbers are never shared by two live sessions", "statement": "A session number handed out by the session table refers to that session until it is closed, is not handed out again while in use or during its quarantine period, and lookups by number return the stored session; this holds for any number of sessions.", "quantifier": "every history of open, close and lookup, any number of sessions", "why_tests_cant": "needs histories with more sessions than the initial capacity and arbitrary clock readings", "anchors": ["src/core/net/sis_net.node.c:sis_net_list_new", "src/core/net/sis_net.node.c:sis_net_list_get", "src/core/net/sis_net.node.c:sis_net_list_stop", "src/core/net/sis_net.node.c:_net_list_set_grow"]}
{"id": "C35", "title": "Producer/consumer queue is FIFO under every schedule", "statement": "For every schedule of concurrent pushes and pops, each pushed object (a pointer that is not null) is popped at most once, pops return objects in push order, and pop returns nothing only if the queue is empty.", "quantifier": "every interleaving of every number of threads", "why_tests_cant": "interleavings", "anchors": ["src/core/sis_list.lock.c:sis_lock_queue_push", "src/core/sis_list.lock.c:sis_lock_queue_pop", "src/core/sis_list.lock.c:sis_fast_queue_push"]}
{"id": "C36", "title": "Work queue hands out one job at a time, in order", "statement": "With the wait queue, a job is handed to the handler only when the previous one has been reported finished, jobs are handed out in push order and none is lost or repeated.", "quantifier": "every schedule of push and finish events", "why_tests_cant": "schedules", "anchors": ["src/core/sis_list.lock.c:sis_wait_queue_push", "src/core/sis_list.lock.c:sis_wait_queue_pop"]}
{"id": "C37", "title": "Every reader of a shared list sees every message once and in order", "statement": "In save-all mode every reader attached from the head receives every message pushed, exactly once, in order; a reader attached at the tail receives every message pushed after attaching.", "quantifier": "every schedule of pushes, reader attach and reader steps", "why_tests_cant": "schedules and number of readers", "anchors": ["src/core/sis_list.lock.c:sis_lock_list_push", "src/core/sis_list.lock.c:sis_lock_reader_open", "src/core/sis_list.lock.c:_thread_reader"]}
{"id": "C38", "title": "Recycling never removes a message some reader has not yet received", "statement": "When the shared list is configured to discard consumed messages, a message is discarded only after every attached reader has received it.", "quantifier": "every schedule of push, reader step and recycle step", "why_tests_cant": "the failing schedules need a reader that has not yet started or sits on the recycled element", "anchors": ["src/core/sis_list.lock.c:_thread_watcher", "src/core/sis_list.lock.c:sis_lock_reader_open"]}
{"id": "C39", "title": "Shared objects are freed exactly when the last holder lets go", "statement": "For every history of increments and decrements on a shared object, the object is destroyed exactly once, when the last reference is released, and never used afterwards by a holder.", "quantifier": "every history", "why_tests_cant": "histories", "anchors": ["src/core/sis_obj.c:sis_object_incr", "src/core/sis_obj.c:sis_object_decr"]}
{"id": "C40", "title": "Record array behaves as a list", "statement": "The record array's push, insert, update, delete, pop and get behave as the corresponding operations on a list of fixed-size records under every operation history: get, update and delete reject out-of-range positions without changing anything, an insert at a negative position goes to the front and one beyond the end is appended; a copy has the contents of its source.", "quantifier": "every operation history", "why_tests_cant": "histories", "anchors": ["src/core/sis_list.c:sis_struct_list_push", "src/core/sis_list.c:sis_struct_list_insert", "src/core/sis_list.c:sis_struct_list_delete", "src/core/sis_list.c:sis_struct_list_pop"]}
{"id": "C41", "title": "Named list: lookup by name and by position agree", "statement": "After any history of sets, each name set is present exactly once at a position that never changes, the value found by name equals the value found by that position and is the last value set, names differing only in case being the same name.", "quantifier": "every history of sets and lookups", "why_tests_cant": "histories", "anchors": ["src/core/sis_map.c:sis_map_list_set", "src/core/sis_map.c:sis_map_list_get", "src/core/sis_map.c:sis_map_list_geti", "src/core/sis_map.c:sis_map_list_get_index"]}
{"id": "C42", "title": "Sorted list keeps unique sorted keys", "statement": "After any history of sets and deletions the sorted list holds its keys in strict order (decreasing, or increasing when the ascending flag is set) and lookups find exactly the last value set for a key.", "quantifier": "every history", "why_tests_cant": "histories", "anchors": ["src/core/sis_list.c:sis_sort_list_set", "src/core/sis_list.c:sis_sort_list_find"]}
{"id": "C43", "title": "Ranked list is descending and stable", "statement": "After any history of insertions of items with comparable scores (no NaN) and deletions, the ranked list shows the items present ordered by decreasing score, equal scores in arrival order.", "quantifier": "every history of insertions and deletions", "why_tests_cant": "all permutations", "anchors": ["src/core/sis_list.c:sis_fsort_list_set", "src/core/sis_list.c:sis_fsort_list_get", "src/core/sis_list.c:sis_fsort_list_del"]}
{"id": "C44", "title": "Block list addresses the element that was pushed", "statement": "After any history of push and pop, the element at position i of the block list is the i-th element still present.", "quantifier": "every block size and history", "why_tests_cant": "depends on number of consumed elements in the first block", "anchors": ["src/core/sis_list.c:sis_node_list_push", "src/core/sis_list.c:sis_node_list_pop", "src/core/sis_list.c:sis_node_list_get"]}
{"id": "C45", "title": "Integer list returns the numbers stored", "statement": "A 64-bit number pushed on an integer list is returned unchanged by get.", "quantifier": "every int64", "why_tests_cant": "2^64 values", "anchors": ["src/core/sis_list.c:sis_int_list_get", "src/core/sis_list.c:sis_int_list_push"]}
{"id": "C46", "title": "Unauthenticated connections can only authenticate", "statement": "When users are configured, a connection that has not authenticated successfully cannot run any command except auth; every other request is answered with a no-authority reply and changes nothing.", "quantifier": "every request history on every connection", "why_tests_cant": "all histories", "anchors": ["workers/sisdb_server/sisdb_server.c:cb_reader_recv", "workers/sisdb_server/sisdb_server.c:sisdb_server_get_access", "workers/sisdb_server/sisdb_server.c:cmd_sisdb_server_auth"]}
{"id": "C47", "title": "Read-only users cannot change data, write users cannot delete", "statement": "A user with read access can only run commands marked readable; a user with write access cannot delete data; internal commands are not reachable from the network by any user.", "quantifier": "every user level, every command", "why_tests_cant": "all combinations of level and command flags, extended with new commands", "anchors": ["workers/sisdb_server/sisdb_sys.c:sis_sys_access_method", "workers/sisdb/sisdb.c:sisdb_methods"]}
{"id": "C48", "title": "Authentication requires the exact password", "statement": "auth succeeds only for a known user name with exactly the stored password.", "quantifier": "every stored and presented password", "why_tests_cant": "all pairs of strings", "anchors": ["workers/sisdb_server/sisdb_server.c:cmd_sisdb_server_auth"]}
{"id": "C49", "title": "A closed connection leaves nothing behind for the next owner of its number", "statement": "After a connection closes, its authority and its subscriptions are gone: a later connection with the same number starts unauthenticated and receives no notifications it did not subscribe to.", "quantifier": "every history of connect, auth, subscribe, close", "why_tests_cant": "histories with number reuse", "anchors": ["workers/sisdb_server/sisdb_server.c:_cb_connect_close", "workers/sisdb/sisdb.c:cmd_sisdb_clear", "workers/sisdb_server/sisdb_sub.c:sisdb_sub_cxt_unsub"]}
{"id": "C50", "title": "Each subscriber of a key is notified exactly once per write", "statement": "After any history of subscriptions and cancellations, a write to a key notifies each client subscribed to exactly that key once, and no client that has no matching subscription.", "quantifier": "every history and every key", "why_tests_cant": "histories", "anchors": ["workers/sisdb_server/sisdb_sub.c:sisdb_sub_cxt_pub", "workers/sisdb_server/sisdb_sub.c:sisdb_sub_cxt_sub", "workers/sisdb_server/sisdb_sub.c:sisdb_sub_cxt_unsub"]}
{"id": "C51", "title": "Wildcard subscriptions are notified", "statement": "A client subscribed with a pattern (all keys of a table, all tables of a key, everything, a list) is notified of every write whose key matches the pattern.", "quantifier": "every pattern and key", "why_tests_cant": "all pattern shapes", "anchors": ["workers/sisdb_server/sisdb_sub.c:sisdb_sub_cxt_pub", "workers/sisdb_server/sisdb_sub.c:sisdb_sub_cxt_sub"]}
{"id": "C52", "title": "Fields of a table never overlap", "statement": "For every table definition, the byte ranges of the fields of a record are pairwise disjoint and lie inside the record size reported for the table.", "quantifier": "every list of field definitions", "why_tests_cant": "field counts and sizes are unbounded; failure needs records above 64 KB", "anchors": ["src/core/sis_dynamic.c:sis_dynamic_db_create", "src/core/sis_dynamic.c:sis_dynamic_db_add_field"]}
{"id": "C53", "title": "Schema conversion carries every field by name", "statement": "Converting a record between two versions of a table copies each field that exists under the same name in both, and zero-fills new fields.", "quantifier": "every pair of table definitions and every record", "why_tests_cant": "all pairs of schemas; reordered fields of equal size are the failing case", "anchors": ["src/core/sis_dynamic.c:sis_dynamic_convert", "src/core/sis_dynamic.c:_sis_dynamic_match"]}
{"id": "C54", "title": "Time unit conversion is monotone and consistent", "statement": "Converting a timestamp from a finer to a coarser time unit never reorders timestamps, and converting a coarse one to a finer unit and back is the identity.", "quantifier": "every timestamp, every pair of supported units", "why_tests_cant": "all 64-bit timestamps", "anchors": ["src/core/sis_dynamic.c:sis_time_unit_convert"]}
{"id": "C55", "title": "Work-day stepping lands on a work day", "statement": "The next work day after any date is a weekday strictly later than that date.", "quantifier": "every date", "why_tests_cant": "all dates", "anchors": ["src/core/sis_time.c:sis_time_next_work_day"]}
{"id": "C56", "title": "The per-period index describes the records after every write", "statement": "After any write the per-period entries of a series name, in order, exactly the periods of its records with their counts and positions.", "quantifier": "every history of writes and every batch", "why_tests_cant": "needs all batches, including unsorted ones and the first one", "anchors": ["workers/sisdb/sisdb_fmap_write.c:sisdb_fmap_cxt_mindex_update", "workers/sisdb/sisdb_fmap_write.c:sisdb_fmap_unit_add_idx"]}
{"id": "C57", "title": "A save writes every change made in memory", "statement": "When the in-memory data is saved, every series and value changed since the last save is written to disk with its current contents.", "quantifier": "every state reached by writes and deletes before the save", "why_tests_cant": "histories before the save are unbounded", "anchors": ["workers/sisdb/sisdb_fmap.c:sisdb_fmap_cxt_update", "workers/sisdb/sisdb_disk.c:sisdb_disk_save"]}
{"id": "C58", "title": "Loading on demand does not change answers", "statement": "A query on a series whose blocks are read from disk on demand returns what it would return if the whole series were in memory.", "quantifier": "every set of stored blocks and every sequence of queries", "why_tests_cant": "sequences of queries and block layouts are unbounded", "anchors": ["workers/sisdb/sisdb_fmap_read.c:sisdb_fmap_cxt_read_data", "workers/sisdb/sisdb_fmap_read.c:_fmap_cxt_getdata_from_disk"]}
{"id": "C59", "title": "Upsert in a unique-key table without time field", "statement": "In a table with unique fields and no time field, a write replaces the record with the same key if there is one and otherwise appends; no other record changes.", "quantifier": "every table contents and batch", "why_tests_cant": "all contents and batches", "anchors": ["workers/sisdb/sisdb_fmap_write.c:sisdb_fmap_cxt_solely_update"]}
{"id": "C60", "title": "A client reads back what it wrote to a plain key", "statement": "Reading a key without time index returns the value last written to it.", "quantifier": "every history of reads and writes on every prior stored value", "why_tests_cant": "the failing case needs a stored value that was not yet read", "anchors": ["workers/sisdb/sisdb_fmap.c:sisdb_fmap_cxt_update", "workers/sisdb/sisdb_fmap.c:sisdb_fmap_cxt_read"]}
{"id": "C61", "title": "A deleted value stays deleted", "statement": "After a key is deleted, reading it finds nothing until it is written again.", "quantifier": "every history and every prior stored value", "why_tests_cant": "the failing case needs a stored value that was not yet read", "anchors": ["workers/sisdb/sisdb_fmap.c:sisdb_fmap_cxt_del", "workers/sisdb/sisdb_fmap.c:sisdb_fmap_cxt_read"]}
{"id": "C62", "title": "The pointer list is a list and frees what it drops once", "statement": "The pointer array's calls behave as the corresponding operations on a list under every history, and with a free function every element that leaves the array is freed exactly once, elements still present never.", "quantifier": "every operation history", "why_tests_cant": "histories are unbounded", "anchors": ["src/core/sis_list.c:sis_pointer_list_push", "src/core/sis_list.c:sis_pointer_list_set", "src/core/sis_list.c:sis_pointer_list_delete", "src/core/sis_list.c:sis_pointer_list_find_and_delete"]}
{"id": "C63", "title": "The hash map answers with the last value set under every history", "statement": "After any history of sets, deletes, lookups, clears and open or closed iterators, looking a key up gives the value last set for it and not deleted or cleared since, whatever growth or incremental rehashing the history triggered; names equal but for case are one key.", "quantifier": "every history of calls, every key set and every hash collision pattern", "why_tests_cant": "the states between the two tables depend on the whole history; collisions and growth points cannot be enumerated", "anchors": ["src/core/sis_dict.c:sis_dict_set", "src/core/sis_dict.c:sis_dict_find", "src/core/sis_dict.c:sis_dict_delete", "src/core/sis_dict.c:sis_dict_rehash", "src/core/sis_map.c:_sis_dict_strcase_compare"]}
{"id": "C64", "title": "Walking a map visits each key that stays exactly once", "statement": "A walk over a map during which keys other than the next one are added, replaced or deleted yields each key that was present throughout exactly once and with its current value, and never a deleted key.", "quantifier": "every map, every interleaving of walk steps with map calls", "why_tests_cant": "interleavings of walk and updates are unbounded", "anchors": ["src/core/sis_dict.c:sis_dict_next", "src/core/sis_dict.c:sis_dict_get_iter", "src/core/sis_dict.c:sis_dict_iter_free"]}
{"id": "C65", "title": "A map that owns its values frees each one exactly once", "statement": "A map created with a free function frees each value exactly once: when it is replaced, deleted or cleared, and never while it can still be looked up.", "quantifier": "every history of map calls", "why_tests_cant": "histories are unbounded", "anchors": ["src/core/sis_dict.c:sis_dict_set", "src/core/sis_dict.c:sis_dict_delete", "src/core/sis_dict.c:sis_dict_empty"]}
{"id": "C66", "title": "No request crashes the server", "statement": "Whatever a client sends, logged in or not, the server answers it or drops it and keeps serving the other clients.", "quantifier": "every request in every reachable state", "why_tests_cant": "the failing requests are malformed or refer to things that do not exist; their combinations with states are unbounded", "anchors": ["workers/sisdb_server/sisdb_server.c:cmd_sisdb_server_auth", "workers/sisdb_server/sisdb_server.c:cmd_sisdb_server_setuser", "workers/sisdb_server/sisdb_sub.c:_set_sub_unit_type"]}
{"id": "C67", "title": "Configured users survive a crash at any point", "statement": "If the server crashes at any point, also while it stores a change of the users, a restarted server knows the users as before or as after the change, and never serves clients without login.", "quantifier": "every crash point of every change of users", "why_tests_cant": "crash points between file operations are not reachable from tests", "anchors": ["workers/sisdb_server/sisdb_server.c:sisdb_server_sysinfo_save", "workers/sisdb_server/sisdb_server.c:sisdb_server_sysinfo_load", "src/core/sis_json.c:sis_json_save"]}
{"id": "C68", "title": "A JSON document that is written and read again is the same document", "statement": "Writing a document, compact, formatted or to a file, and reading the text back gives a document with the same structure, names, types and values.", "quantifier": "every document tree", "why_tests_cant": "documents are unbounded trees with arbitrary texts; the failing ones need particular characters in particular places", "anchors": ["src/core/sis_json.c:sis_json_output", "src/core/sis_json.c:sis_json_output_zip", "src/core/sis_json.c:sis_json_save", "src/core/sis_json.c:sis_json_load"]}
{"id": "C69", "title": "Writing a JSON document never leaves the memory allocated for it", "statement": "For every document each text composed while writing it, with its terminating zero, fits into the memory allocated for that text.", "quantifier": "every document tree, both layouts, every depth", "why_tests_cant": "the length is computed apart from the text; equality at every tree cannot be tested", "anchors": ["src/core/sis_json.c:_sis_json_to_string", "src/core/sis_json.c:_sis_json_to_array", "src/core/sis_json.c:_sis_json_to_object"]}
{"id": "C70", "title": "Any text given as JSON is read to an end and malformed ones are refused", "statement": "Reading any sequence of bytes as JSON comes to an end, and a text that is not a JSON document is refused.", "quantifier": "every byte sequence", "why_tests_cant": "malformed texts are unbounded", "anchors": ["src/core/sis_json.c:sis_json_load", "src/core/sis_json.c:_sis_parse_value"]}
{"id": "C71", "title": "A JSON member that was set is read back and others are untouched", "statement": "After setting a member, reading it under its name gives the value, in the document and in its written text, and reading any other name gives what it gave before.", "quantifier": "every document, every name and value", "why_tests_cant": "documents and names are unbounded", "anchors": ["src/core/sis_json.c:sis_json_object_set_int", "src/core/sis_json.c:sis_json_object_set_string", "src/core/sis_json.c:sis_json_get_int", "src/core/sis_json.c:sis_json_get_str", "src/core/sis_json.c:sis_json_find_node"]}
{"id": "C72", "title": "Merging a second configuration overrides exactly what it mentions", "statement": "After merging a second configuration into the first, every value the second one gives is found under its path, and every value of the first one it does not mention is found unchanged.", "quantifier": "every pair of configurations and every path", "why_tests_cant": "pairs of trees and paths are unbounded", "anchors": ["src/core/sis_json.c:sis_json_object_merge", "src/server.c:_server_open"]}
{"id": "C73", "title": "Decoding a received message never reads behind its last byte", "statement": "Whatever bytes arrive as a message, decoding them reads only those bytes, and gives a message or refuses it.", "quantifier": "every byte sequence", "why_tests_cant": "malformed and truncated messages are unbounded", "anchors": ["src/core/net/sis_net.node.c:sis_net_decoded_normal", "src/core/net/sis_net.node.c:sis_net_memory_get_sds", "src/core/net/sis_net.node.c:sis_net_memory_get_int"]}
{"id": "C74", "title": "A shared list with a size limit keeps no more than its limit", "statement": "Once the recycler of a shared list has caught up with the newest message, the messages still kept have together no more bytes than the limit the list was created with, apart from the newest one.", "quantifier": "every schedule of writers, readers and the recycler, every limit and message size", "why_tests_cant": "what is kept depends on the interleaving and on the whole history", "anchors": ["src/core/sis_list.lock.c:_thread_watcher", "src/core/sis_list.lock.c:sis_lock_list_create"]}
{"id": "C75", "title": "The read-write lock admits several readers or one writer and a free lock is given", "statement": "At every time at most one thread has the lock to write and then none has it to read; when nobody has the lock and nobody waits for it, whoever asks for it gets it.", "quantifier": "every order of the calls of any number of threads", "why_tests_cant": "the orders of calls are unbounded; the failing one needs a failed attempt first", "anchors": ["src/core/sis_thread.c:sis_mutex_rw_lock_r", "src/core/sis_thread.c:sis_mutex_rw_try_lock_r", "src/core/sis_thread.c:sis_mutex_rw_lock_w", "src/core/sis_thread.c:sis_mutex_rw_try_lock_w", "src/core/sis_thread.c:sis_mutex_rw_unlock_r", "src/core/sis_thread.c:sis_mutex_rw_unlock_w"]}
{"id": "C76", "title": "A wait handle belongs to one owner at a time", "statement": "Two wait handles that were given out and not returned are different, and a handle is refused only when all of them are out.", "quantifier": "every history of calls of any number of threads", "why_tests_cant": "depends on the interleaving of two calls", "anchors": ["src/core/sis_thread.c:sis_wait_malloc", "src/core/sis_thread.c:sis_wait_free", "src/core/sis_thread.c:sis_wait_get"]}
{"id": "C77", "title": "Stepping a date by days gives the date that many days away", "statement": "The date a given number of days after or before a date is that of the calendar, over the ends of months, years and leap years.", "quantifier": "every date, every number of days, every time zone", "why_tests_cant": "dates, distances and time zones are too many; the failing one begins at time zero", "anchors": ["src/core/sis_time.c:sis_time_get_offset_day", "src/core/sis_time.c:sis_time_make_time", "src/core/sis_time.c:sis_time_get_idate", "src/os/linux/os_time.c:sis_time_check"]}
{"id": "C78", "title": "Date and time of day survive the conversion to seconds", "statement": "The seconds made of a date and a time of day have that date and that time of day, and later dates and times of day are later seconds.", "quantifier": "every date, time of day and time zone", "why_tests_cant": "all seconds of all dates; the failing one is a single second", "anchors": ["src/core/sis_time.c:sis_time_make_time", "src/core/sis_time.c:sis_time_get_idate", "src/core/sis_time.c:sis_time_get_itime"]}
{"id": "C79", "title": "The time of a record is its time field", "statement": "The time of a record is the value of the first field of the table that is a time, and its index is that time or, in a table without times, the value of the last field marked as index.", "quantifier": "every list of field definitions, every buffer of records and every position in it", "why_tests_cant": "definitions are unbounded; the failing ones repeat a name", "anchors": ["src/core/sis_dynamic.c:sis_dynamic_db_get_time", "src/core/sis_dynamic.c:sis_dynamic_db_get_mindex", "src/core/sis_dynamic.c:sis_dynamic_db_create"]}
{"id": "C80", "title": "A closed database can be opened and read again", "statement": "After any sessions of writing, each closed properly, the database can be opened for writing again, and reading any key or any key and table from it is defined, whatever was written for other keys.", "quantifier": "every history of sessions, every key and table", "why_tests_cant": "one write makes the file unreadable for all other keys only in certain orders of calls", "anchors": ["src/core/disk/sis_disk_write.c:sis_disk_writer_open", "src/core/disk/sis_disk_write.c:sis_disk_writer_close", "src/core/disk/sis_disk_write.c:sis_disk_writer_sdb", "src/core/disk/sis_disk_read.c:sis_disk_reader_get_one"]}
{"id": "C81", "title": "Reading a time range gives the records of the range", "statement": "Reading a key and a table for a time range gives exactly the stored records whose times are in the range, in the order of their periods.", "quantifier": "every history of sessions and every time range", "why_tests_cant": "histories and ranges are unbounded; the failing ones need a table that was defined anew", "anchors": ["src/core/disk/sis_disk_read.c:_disk_reader_get_sdb_obj", "src/core/disk/sis_disk_read.c:sis_disk_reader_make_sdb", "src/core/disk/sis_disk_read.c:_disk_reader_make_sdb_from_file"]}
{"id": "C82", "title": "Table definitions survive in the files of a database", "statement": "The text a database keeps its tables in is read as the same tables: the same names, and the same fields with the same types, lengths, numbers of elements, digits, flags and places in the record.", "quantifier": "every list of tables with any number of fields", "why_tests_cant": "definitions are unbounded; the failing ones need names of more than 31 bytes, quotes, or 256 digits", "anchors": ["src/core/disk/sis_disk.io.c:sis_disk_ctrl_write_sdict", "src/core/sis_utils.c:sis_sdbinfo_to_json", "src/core/disk/sis_disk_ctrl.c:sis_disk_reader_set_sdict", "src/core/sis_dynamic.c:sis_dynamic_db_create", "src/core/sis_dynamic.c:sis_dynamic_field_create"]}
{"id": "C83", "title": "A subscriber to a file of records hears all records in the order of writing", "statement": "A subscriber to everything in a file that keeps records in order hears the records of all sessions of writing, each once, in the order in which they were written and under the names of their key and table, until it ends the subscription; it is told that it broke off exactly if it did.", "quantifier": "every history of sessions of writing, every size of a page, every subscriber", "why_tests_cant": "histories are unbounded and pages are cut by size; the failing ones need a second start or a changed table", "anchors": ["src/core/disk/sis_disk.io.sno.c:sis_disk_io_write_sno", "src/core/disk/sis_disk.io.sno.c:sis_disk_io_sub_sno", "src/core/disk/sis_disk.io.sno.c:cb_sis_disk_io_read_sno", "src/core/disk/sis_disk_write.c:sis_disk_writer_sno", "src/core/disk/sis_disk_read.c:sis_disk_reader_sub_sno"]}
{"id": "C84", "title": "A subscriber to some keys and tables hears exactly their records in order", "statement": "A subscriber to a list of beginnings of keys and a list of tables hears exactly the records of such a key and such a table, of all sessions of writing, in the order in which they were written, until it ends the subscription.", "quantifier": "every history of sessions of writing, every size of a page, every list of keys and tables, every subscriber", "why_tests_cant": "records of several keys and tables are put together again page by page, histories and lists are unbounded; the failing ones need an index of several blocks", "anchors": ["src/core/disk/sis_disk.io.sno.c:sis_disk_io_sub_sno_part", "src/core/disk/sis_disk.io.sno.c:_disk_io_sub_sno_parts", "src/core/disk/sis_disk.io.sno.c:sis_disk_sno_rctrl_push", "src/core/disk/sis_disk.io.sno.c:sis_disk_io_write_sno_widx", "src/core/disk/sis_disk.io.sno.c:sis_disk_io_read_sno_widx"]}
{"id": "C85", "title": "Reading a key and a table of a file of records gives their records in order", "statement": "Reading a key and a table from a file that keeps records in order gives the bytes of exactly their records, of all sessions of writing and in the order in which they were written, and nothing if there are none.", "quantifier": "every history of sessions of writing, every key and table", "why_tests_cant": "histories are unbounded; the failing ones need a table whose records changed their size", "anchors": ["src/core/disk/sis_disk_read.c:sis_disk_reader_get_obj", "src/core/disk/sis_disk_read.c:_disk_reader_get_sno_obj", "src/core/disk/sis_disk.io.sno.c:sis_disk_io_write_sno"]}
{"id": "C86", "title": "The text of records has their values", "statement": "The text returned for records is a JSON array with the values of each record, element by element and in the order of the fields; a single record is not put into an array of its own, and no record gives no answer.", "quantifier": "every table, every number of records, all values", "why_tests_cant": "tables, numbers of records and values are unbounded; the failing ones need a week time, a number of three bytes or the smallest number of 64 bits", "anchors": ["src/core/sis_utils.c:sis_sdb_to_array_sds", "src/core/sis_dynamic.h:sis_dynamic_field_to_array", "workers/sisdb/sisdb_io.c:sisdb_io_get_chars_sds"]}
{"id": "C87", "title": "Records given as an array are stored with their values", "statement": "Setting a JSON array of rows, or one row, stores one record for each row, and each field of it holds the value at its place in the row; a row that does not fit the table is refused.", "quantifier": "every table, every number of rows, all values", "why_tests_cant": "tables, rows and values are unbounded; the failing ones need a row of the wrong length or a field of several elements", "anchors": ["src/core/sis_utils.c:sis_array_to_struct_sds", "src/core/sis_dynamic.h:sis_dynamic_field_json_to_struct", "workers/sisdb/sisdb_io.c:sisdb_io_set_chars"]}
{"id": "C88", "title": "The text of records can be stored again", "statement": "Storing the text that was returned for records stores the same records.", "quantifier": "every table, every number of records, all values", "why_tests_cant": "tables and records are unbounded; the failing ones need unsigned numbers from 2^63 on, backslashes, bytes behind the end of a text or a field of several elements", "anchors": ["src/core/sis_utils.c:sis_sdb_to_array_sds", "src/core/sis_utils.c:sis_array_to_struct_sds"]}
{"id": "C89", "title": "A record given as an object has the values given under the names of its fields", "statement": "Setting a JSON object stores one record in which each element of a field holds the value given under its name, whatever the order of the members and the case of the names; elements that are not given are zero.", "quantifier": "every table, every list of members", "why_tests_cant": "tables and members are unbounded; the failing ones need a point or a number in the name of a field", "anchors": ["src/core/sis_utils.c:sis_json_to_struct_sds", "src/core/sis_dynamic.h:sis_dynamic_field_json_to_struct"]}
{"id": "C90", "title": "Selected fields in binary are the bytes of these fields", "statement": "A query for some fields in binary gives, record by record, the bytes of exactly the elements named, in the order of the names; names of no field add nothing.", "quantifier": "every table, every list of names, every number of records", "why_tests_cant": "lists of names are unbounded; the failing ones name an element that is not there, and read outside of the records", "anchors": ["src/core/sis_utils.c:sisdb_sdb_struct_to_sds", "src/core/sis_dynamic.c:sis_dynamic_db_get_field", "workers/sisdb/sisdb_io.c:sisdb_io_get_sds"]}
{"id": "C91", "title": "Selected fields as text are the values of these fields", "statement": "A query for some fields as text gives, record by record, the values of exactly the fields named, in the order of the names; in the answer as an object the column of each field is the place of its value in the rows.", "quantifier": "every table, every list of names, every number of records", "why_tests_cant": "lists of names are unbounded; the failing ones have an unknown name or a field of several elements", "anchors": ["src/core/sis_utils.c:sis_sdb_fields_to_array_sds", "src/core/sis_utils.c:sis_sdb_fields_to_json_sds"]}
{"id": "C92", "title": "The CSV text of records has their values", "statement": "A query for records as CSV gives one line for each record, with the values of its elements in the order of the fields and a comma between them, behind a line with the names of the columns; with a list of fields it gives exactly these columns.", "quantifier": "every table, every number of records, every list of fields, all values", "why_tests_cant": "tables, numbers of records and values are unbounded; the failing ones need an empty text in the first column, a week time, a long number or an unknown field", "anchors": ["src/core/sis_csv.c:sis_csv_make_str", "src/core/sis_csv.c:sis_csv_make_double", "src/core/sis_dynamic.h:sis_dynamic_field_to_csv", "src/core/sis_utils.c:sis_sdb_to_csv_sds", "src/core/sis_db.c:sis_db_struct_to_csv_sds", "src/core/sis_utils.c:sis_sdb_fields_to_csv_sds"]}
{"id": "C93", "title": "A CSV file is opened with all its lines and columns", "statement": "Opening a CSV file gives all its lines, however the reads from the file are cut; each column is the text between the separators, a name of the first line stands for its column, and an unknown name gives nothing.", "quantifier": "every file, every way in which reading it is cut into pieces, every separator", "why_tests_cant": "files and cuts are unbounded; the failing ones need a last line without an end or a quoted column", "anchors": ["src/core/sis_csv.c:sis_file_csv_open", "src/core/sis_csv.c:_sis_file_csv_parse", "src/core/sis_csv.c:sis_file_csv_get_str", "src/core/sis_csv.c:sis_file_csv_get_head"]}
{"id": "C94", "title": "A subscriber to a CSV file is called once for each line, in order", "statement": "Reading a CSV file line by line calls the subscriber once for each line, in the order of the file and with the columns of the line; numbers in columns are read as they are written.", "quantifier": "every file, every way in which reading it is cut into pieces", "why_tests_cant": "files and cuts are unbounded; the failing ones need a last line without an end or a column of 64 bytes", "anchors": ["src/core/sis_csv.c:sis_file_csv_read_sub", "src/core/sis_csv.h:SIS_CSV_GET_INT"]}
{"id": "C95", "title": "Records written as CSV are read back with their values", "statement": "A file with the CSV text of records, when it is opened, has a line for each record, with the value of each element under its name.", "quantifier": "every table, every number of records, all values, every way in which reading the file is cut into pieces", "why_tests_cant": "tables, records and cuts are unbounded; the failing ones need a comma or a blank in a text, or two columns of the same name", "anchors": ["src/core/sis_csv.c:sis_file_csv_open", "src/core/sis_csv.c:sis_file_csv_get_str", "src/core/sis_utils.c:sis_sdb_to_csv_sds", "src/core/sis_db.c:sis_db_struct_to_csv_sds"]}
{"id": "C96", "title": "A series is what was sent and not deleted", "statement": "After a table with a time was defined, rows were sent for a key of it as text, one by one or several at once and in any order, and rows of some times were deleted, a query for a time, a range of times or the latest row is answered with the rows that were sent and not deleted since, in the order of their times; rows of the same time are in the order in which they came.", "quantifier": "every definition of a table, every history of sets and deletes with any other commands between them, every query", "why_tests_cant": "histories, tables and queries are unbounded; the failing ones need a first batch out of order or a table without times", "anchors": ["workers/sisdb/sisdb.c:cmd_sisdb_create", "workers/sisdb/sisdb.c:cmd_sisdb_set", "workers/sisdb/sisdb.c:cmd_sisdb_get", "workers/sisdb/sisdb.c:cmd_sisdb_del", "workers/sisdb/sisdb_io.c:sisdb_io_set_chars", "workers/sisdb/sisdb_io.c:sisdb_io_get_chars_sds", "workers/sisdb/sisdb_io.c:sisdb_io_del", "workers/sisdb/sisdb_fmap.c:sisdb_fmap_cxt_update"]}
{"id": "C97", "title": "All formats show the same rows", "statement": "A query finds the same rows whatever format is asked for: as arrays, as an object, as bytes from which the values can be read, or as CSV lines; if it names columns, the answer has exactly these columns of these rows, in the order they are named.", "quantifier": "every history of commands as in C96, every query, every list of columns", "why_tests_cant": "histories, queries and lists of columns are unbounded; the failing ones need an empty text in the first column or an unknown name", "anchors": ["workers/sisdb/sisdb.c:cmd_sisdb_get", "workers/sisdb/sisdb_io.c:sisdb_io_get_sds", "workers/sisdb/sisdb_io.c:sisdb_io_get_chars_sds", "src/core/sis_db.c:sis_db_get_format_from_node"]}
{"id": "C98", "title": "Commands about other tables and series do not matter", "statement": "The answers to commands about a table and one of its series, and to any query of that series, are the same whether commands about other tables and series are executed between them or not.", "quantifier": "every sequence of commands of any clients", "why_tests_cant": "interleavings of commands are unbounded", "anchors": ["workers/sisdb/sisdb.c:cmd_sisdb_create", "workers/sisdb/sisdb.c:cmd_sisdb_set", "workers/sisdb/sisdb.c:cmd_sisdb_bset", "workers/sisdb/sisdb.c:cmd_sisdb_del", "workers/sisdb/sisdb_fmap.c:sisdb_fmap_cxt_get", "workers/sisdb/sisdb_fmap.c:sisdb_fmap_cxt_setdb"]}
{"id": "C99", "title": "A refused command changes nothing", "statement": "If a command is answered with an error, the answer to any query is the same as before it.", "quantifier": "every state of the database, every command, every query", "why_tests_cant": "states and commands are unbounded; the failing one leaves an empty series", "anchors": ["workers/sisdb/sisdb.c:cmd_sisdb_set", "workers/sisdb/sisdb.c:cmd_sisdb_bset", "workers/sisdb/sisdb_io.c:sisdb_io_set_chars", "workers/sisdb/sisdb_io.c:sisdb_io_update", "workers/sisdb/sisdb_fmap.c:sisdb_fmap_cxt_update"]}
{"id": "C100", "title": "Every command of a client is answered", "statement": "No create, set, bset, get or del that a client can send stops the server; each is answered.", "quantifier": "every state of the database, every command", "why_tests_cant": "commands are unbounded; the failing ones name a table that is not there or have no content", "anchors": ["workers/sisdb/sisdb.c:cmd_sisdb_set", "workers/sisdb/sisdb.c:cmd_sisdb_bset", "workers/sisdb/sisdb.c:cmd_sisdb_del", "workers/sisdb/sisdb_fmap.c:sisdb_fmap_cxt_getdb_of_key"]}
{"id": "C101", "title": "A file of compressed records is read with all its records in order", "statement": "After a file of compressed records was written in any number of sessions, a subscriber hears the records of all sessions in the order in which they were written, those whose key and table it asked for, with the names under which key and table were first given, and with the same number or text in each field.", "quantifier": "every history of sessions, of keys, tables and records, every subscription", "why_tests_cant": "histories, tables and records are unbounded; the failing ones give a table or key after the start, make a text empty, have long records or no stop", "anchors": ["src/core/disk/sis_disk.io.sic.c:sis_disk_io_write_sic", "src/core/disk/sis_disk.io.sic.c:sis_disk_io_sub_sic", "src/core/disk/sis_disk.io.sic.c:sis_disk_io_write_sic_widx", "src/core/disk/sis_disk.io.sic.c:sis_disk_io_read_sic_widx", "src/core/disk/sis_disk_write.c:sis_disk_writer_sic", "src/core/disk/sis_disk_read.c:sis_disk_reader_sub_sic"]}
{"id": "C102", "title": "A subscriber to a file of compressed records that ends its subscription hears no more", "statement": "When a subscriber ends its subscription to a file of compressed records while it is called with a record, it hears no further record, and it is told that it broke off exactly if it did so.", "quantifier": "every history of sessions, every subscription, every moment at which it is ended", "why_tests_cant": "files and the moments at which a subscription can end are unbounded; the failing ones end it inside a block", "anchors": ["src/core/disk/sis_disk.io.sic.c:sis_disk_io_sub_sic", "src/core/disk/sis_disk.io.sic.c:cb_sis_disk_io_read_sic", "src/core/disk/sis_disk.io.sic.c:cb_incrzip_decode_sic", "src/core/disk/sis_disk_read.c:sis_disk_reader_unsub"]}
{"id": "C103", "title": "Merging the files of a year changes nothing a reader sees", "statement": "When the blocks of the file of a year are merged into one for each key and table, every query for records and values is answered as before, and later writes replace the records they would have replaced without the merge.", "quantifier": "every history of sessions and merges, every year, every query", "why_tests_cant": "histories and files are unbounded; the failing ones declare a key after the first records of the year or write a day again after the merge", "anchors": ["src/core/disk/sis_disk.io.c:sis_disk_ctrl_merge", "workers/sisdb_wsdb/sisdb_wsdb.c:cmd_sisdb_wsdb_merge", "src/core/disk/sis_disk_read.c:sis_disk_reader_get_obj"]}
{"id": "C104", "title": "No call of the database writer leaves its memory", "statement": "Opening a database, declaring keys, defining tables, writing values and records, removing marks and closing, in any order, reads and writes only memory that belongs to it and comes to its end, whatever is in the database already and however large the files become.", "quantifier": "every history of the database, every sequence of calls", "why_tests_cant": "sequences of calls are unbounded; the failing ones need a definition with a field that comes twice or a block without records", "anchors": ["src/core/disk/sis_disk_write.c:sis_disk_writer_sdb", "src/core/disk/sis_disk_write.c:sis_disk_writer_one", "src/core/disk/sis_disk_write.c:sis_disk_writer_mul", "src/core/disk/sis_disk_write.c:sis_disk_writer_set_kdict", "src/core/disk/sis_disk_write.c:sis_disk_writer_set_sdict", "src/core/disk/sis_disk_write.c:sis_disk_writer_close"]}
{"id": "C105", "title": "What clients wrote is there after a save and a start", "statement": "When the server is saved and started again on its files, every query is answered as it was before the save.", "quantifier": "every sequence of commands, every query", "why_tests_cant": "commands and files are unbounded; the failing ones send rows to a key only once, ask for an exact time or the latest rows, have an index that is no time, or are saved again", "anchors": ["workers/sisdb/sisdb_fmap_write.c:sisdb_fmap_cxt_save", "workers/sisdb/sisdb_fmap_write.c:_disk_save_fmap_sdb", "workers/sisdb/sisdb_fmap.c:sisdb_fmap_cxt_init", "workers/sisdb/sisdb_fmap_read.c:sisdb_fmap_cxt_read_data", "workers/sisdb/sisdb.c:cmd_sisdb_get"]}
{"id": "C106", "title": "A configuration is read as it is written", "statement": "A configuration file, or an object given as text, with numbers, words, texts in quotes, arrays and objects nested to any depth, laid out with blanks and comments as one likes and with files included in it, is read as the document it stands for: every member with its name, kind and value, in order, those of an included file in the place of the include.", "quantifier": "every document, every layout, every set of files", "why_tests_cant": "documents, layouts and includes are unbounded; the failing ones have a blank in quotes, a word that begins with a digit, an empty text, an include in an included file, or are cut off", "anchors": ["src/core/sis_conf.c:sis_conf_open", "src/core/sis_conf.c:sis_conf_load", "src/core/sis_conf.c:_sis_parse_value", "src/core/sis_conf.c:_sis_parse_include"]}
{"id": "C107", "title": "Reading a configuration comes to an end inside its text", "statement": "Whatever is in a configuration file or text, reading it comes to an end with a document or a refusal, and nothing but the text is read.", "quantifier": "every sequence of bytes, every set of files", "why_tests_cant": "texts are unbounded; the failing ones end within a name or include themselves", "anchors": ["src/core/sis_conf.c:sis_conf_open", "src/core/sis_conf.c:sis_conf_load", "src/core/sis_conf.c:_sis_parse_key", "src/core/sis_conf.c:_sis_parse_include"]}
{"id": "C108", "title": "A script is run object by object", "statement": "When a script file is run, each object in it is executed exactly once, in the order of the file, with the document it stands for, whatever the pieces in which the file is read.", "quantifier": "every script, every way in which reading the file is cut into pieces", "why_tests_cant": "scripts and cuts are unbounded; the failing ones have a bracket in quotes or a name without a value", "anchors": ["src/core/sis_conf.c:sis_conf_sub", "src/core/sis_conf.c:sis_conf_get_match_sign", "src/core/sis_conf.c:sis_conf_load"]}
{"id": "C109", "title": "A client of live data hears whole sessions", "statement": "What a client of the live data service receives is a sequence of sessions: the day, the keys and tables, the day again, then records, then the end with that day. Records come only in a session of the day that is started; an accepted record reaches exactly the subscribers with a subject that covers it; a stop reaches every subscriber once; a connection that is not subscribed receives nothing.", "quantifier": "every sequence of commands of the source and of any clients", "why_tests_cant": "sequences and interleavings are unbounded; the failing ones stop a day before its first record", "anchors": ["workers/subdb/subdb.c:cmd_subdb_start", "workers/subdb/subdb.c:cmd_subdb_pub", "workers/subdb/subdb.c:cmd_subdb_stop", "workers/subdb/subdb.c:cmd_subdb_sub", "workers/subdb/subdb.c:cmd_subdb_unsub", "workers/subdb/subdb.c:_subdb_reader_init"]}
{"id": "C110", "title": "A client of live data is told the keys and tables it will hear of", "statement": "At the beginning of a session a client is told the keys and the tables of the source that its subjects ask for, and every record it receives is of a key and a table it was told.", "quantifier": "every sequence of commands, every list of keys and tables, every subject", "why_tests_cant": "lists and subjects are unbounded; the failing ones have a table whose name begins another, a star alone, a second subject or lists given again", "anchors": ["workers/subdb/subdb.c:_subdb_reader_init", "workers/subdb/subdb.c:subdb_userinfo_incr", "src/core/sis_utils.c:sis_match_key", "src/core/sis_utils.c:sis_match_sdb_of_sds"]}
{"id": "C111", "title": "No command stops the live data service", "statement": "Whatever commands the source and the clients send, in any order, the service answers each and reads only memory that belongs to it.", "quantifier": "every sequence of commands", "why_tests_cant": "sequences of commands are unbounded; the failing ones give a list of tables that is refused or no text, or have a long subject", "anchors": ["workers/subdb/subdb.c:cmd_subdb_set", "workers/subdb/subdb.c:cmd_subdb_pub", "workers/subdb/subdb.c:_subdb_reader_init"]}
{"id": "C112", "title": "What is written to the log of requests is heard again", "statement": "Whoever subscribes to a log hears the date, every message written to that log since it was created or removed, as it was written and in order, and the date again, whatever sessions, other logs, crashes and restarts lie between; after a crash at most messages at the end are missing that had not reached the disk completely. A removed log is silent. A command is answered with success only if it did what it says.", "quantifier": "every history of commands, crashes at every byte, restarts and days", "why_tests_cant": "histories and crash points are unbounded; the failing ones die within the first sixteen bytes or a size field, have a configured directory, or a file that cannot be created", "anchors": ["workers/sisdb_flog/sisdb_flog.c:cmd_sisdb_flog_open", "workers/sisdb_flog/sisdb_flog.c:cmd_sisdb_flog_write", "workers/sisdb_flog/sisdb_flog.c:cmd_sisdb_flog_sub", "workers/sisdb_flog/sisdb_flog.c:cmd_sisdb_flog_remove", "src/core/disk/sis_disk_files.c:sis_disk_files_open", "src/core/disk/sis_disk.io.c:sis_disk_ctrl_write_start", "src/core/disk/sis_disk.io.log.c:sis_disk_io_sub_log"]}
{"id": "C113", "title": "The data set in memory holds the last text of every subject, and hands on what is published", "statement": "Whoever is logged in and asks for a subject gets one answer with the text that was set last for that subject by a client that may write, or that there is none; sets to other subjects, subscriptions and published messages change nothing. A published message reaches every subscriber of its subject once, as it was published, and nobody else. No client takes the texts or the subscriptions of others away.", "quantifier": "every sequence of requests of any clients, every subject and text", "why_tests_cant": "sequences and texts are unbounded; the failing ones have a zero byte, subjects that differ in case, or an init sent by a client", "anchors": ["workers/memdb/memdb.c:cmd_memdb_get", "workers/memdb/memdb.c:cmd_memdb_set", "workers/memdb/memdb.c:cmd_memdb_pub", "workers/memdb/memdb.c:cmd_memdb_sub", "workers/memdb/memdb.c:cmd_memdb_unsub", "workers/memdb/memdb.c:cmd_memdb_init", "workers/memdb/memdb.c:memdb_unit_create", "workers/sisdb_server/sisdb_server.c:cb_reader_recv", "workers/sisdb_server/sisdb_sub.c:sisdb_sub_cxt_pub"]}
{"id": "C114", "title": "The client brings every answer to its own question, and keeps its subscriptions across connections", "statement": "A question that the client takes is sent as it was asked, with a number of its own. Its callback is called, or the call that waits for it comes back, exactly when a message with that number comes, with what that message says; once for a question, every time for a subscription. A client that is not connected and logged in refuses questions, and says so when asked. When the connection comes back and the login succeeds, every subscription that is in force is sent again, once, and a question that was open is asked again or ended. Threads may ask at the same time.", "quantifier": "every sequence of connections, disconnections, logins, messages, questions and cancellations, every text, every interleaving of asking threads", "why_tests_cant": "lives and interleavings are unbounded; the failing ones have threads that ask at the same moment, sixteen million questions, subscriptions without a service or without login, or a published text that passes through the data set in memory", "anchors": ["workers/sisdb_client/sisdb_client.c:_cb_recv", "workers/sisdb_client/sisdb_client.c:_cb_connected", "workers/sisdb_client/sisdb_client.c:_cb_disconnect", "workers/sisdb_client/sisdb_client.c:sisdb_client_ask_cmd", "workers/sisdb_client/sisdb_client.c:sisdb_client_ask_get", "workers/sisdb_client/sisdb_client.c:sisdb_client_ask_unsub", "workers/sisdb_client/sisdb_client.c:sisdb_client_send_ask", "workers/sisdb_client/sisdb_client.c:cmd_sisdb_client_bytes_wait", "workers/sisdb_client/sisdb_client.c:cmd_sisdb_client_status"]}
{"id": "C115", "title": "The digest of a text is its SHA-1 in Base64", "statement": "For every text the digest is the Base64 of the SHA-1 of the text as the standards define them, 28 signs of which the last is an equals sign, whatever the memory held before.", "quantifier": "every text of every length, every content of uninitialised memory", "why_tests_cant": "texts are unbounded; the failing ones are longer than any test would use", "anchors": ["src/core/sis_sha1.c:sis_shacalc"]}
{"id": "C116", "title": "The handshake of websockets follows the RFC, whatever arrives in which pieces", "statement": "A server answers every request to open a websocket, cut into pieces in any way, with the answer that RFC 6455 asks for, once and to the client that asked; names of headers count without case; requests that it refuses are answered with a refusal or by closing the connection; messages behind the request come out. A client of this code asks as the RFC says and takes only the answer to its own key. Both find each other.", "quantifier": "every request, every cut into pieces, every content of the memory before", "why_tests_cant": "requests, cuts and contents of memory are unbounded; the failing ones depend on what freed memory held", "anchors": ["src/core/net/sis_net.ws.c:sis_net_ws_head_complete", "src/core/net/sis_net.ws.c:sis_net_ws_get_key", "src/core/net/sis_net.ws.c:sis_net_ws_get_ans", "src/core/net/sis_net.ws.c:sis_net_ws_get_ask", "src/core/net/sis_net.ws.c:sis_net_ws_chk_ans", "src/core/net/sis_net.c:sis_ws_recv_hand_ask", "src/core/net/sis_net.c:sis_ws_match_hand_ans", "src/core/net/sis_net.c:cb_server_recv_after", "src/core/net/sis_net.c:cb_client_recv_after", "src/core/sis_memory.c:sis_memory_cat"]}
{"id": "C117", "title": "A subscriber of the stream of a day gets the day's packets, in order and without gap", "statement": "A connection that subscribes to a stream is told, when something is published, that the day starts and which keys and tables there are, then gets the packets of that day in order and without gap, the first of which begins a block: from the first block if it asked for the head, else from the latest one; its data is made with the keys and tables it was told. When the day stops it has got everything and is told so, and nothing comes behind. Subscriptions that are answered with success take effect. No command reads memory that is not the service's.", "quantifier": "every history of commands, every packet, every interleaving of subscribers' threads, source and compressor", "why_tests_cant": "histories and interleavings are unbounded; the failing ones stop while someone is behind, subscribe twice, pass midnight or start without stop", "anchors": ["workers/snodb/snodb.c:cmd_snodb_start", "workers/snodb/snodb.c:cmd_snodb_stop", "workers/snodb/snodb.c:cmd_snodb_pub", "workers/snodb/snodb.c:cmd_snodb_zpub", "workers/snodb/snodb.c:cmd_snodb_sub", "workers/snodb/snodb.c:cmd_snodb_set", "workers/snodb/snodb.c:cb_input_reader", "workers/snodb/snodb_reader.c:cb_output_reader", "workers/snodb/snodb_reader.c:cb_output_reader_send", "workers/snodb/snodb_reader.c:snodb_reader_realtime_start", "workers/snodb/snodb_reader.c:snodb_reader_realtime_stop", "workers/snodb/snodb_reader.c:snodb_register_reader", "workers/snodb/snodb_reader.c:snodb_remove_reader", "workers/snodb/snodb_reader.c:cb_decode"]}
{"id": "C118", "title": "What is published to the stream of a day is in the file of the day, and survives a crash in its log", "statement": "A stream with a log writes every packet of a day, behind the keys and tables it is made with, into the log of that day, from the first that begins a block, in order; when the day is stopped the file of the day holds all of it and the log is removed; files and logs of other days are not touched. After a crash the records that had reached the disk are still in the log, the day goes on behind them, and subscribers get the whole day.", "quantifier": "every history of days, packets and subscriptions, every interleaving of the thread that writes the log, a crash at every record", "why_tests_cant": "histories, interleavings and crash points are unbounded; the failing ones stop before the log's thread has read all, start a day again, do not stop it or pass midnight", "anchors": ["workers/snodb/snodb.c:cb_wlog_reader", "workers/snodb/snodb.c:cmd_snodb_start", "workers/snodb/snodb.c:cmd_snodb_stop", "workers/snodb/snodb.c:snodb_init", "workers/snodb/snodb_disk.c:cb_snodb_wlog_load", "workers/snodb/snodb_disk.c:snodb_wlog_load", "workers/snodb/snodb_disk.c:snodb_wlog_save", "workers/snodb/snodb_disk.c:snodb_wlog_to_snos"]}
{"id": "C119", "title": "The file of a day holds the records that were published on that day, under their names", "statement": "When the log of a day is turned into the file of that day, who reads the file gets exactly the records that were published, in order, with the numbers and texts they had and under the names of the keys and tables they were published with: all records of a day that ended in order, and after a crash all that came before the last pause whose packets reached the log; also if the process ran several times on that day. Making the file never fails in a way that loses the log or stops the program.", "quantifier": "every list of keys and tables, every sequence of records and pauses, every point at which the process stopped, every number of times it ran on that day", "why_tests_cant": "sequences, sizes and crash points are unbounded; the failing logs have other keys behind a restart, no packet at all, or a file that cannot be opened", "anchors": ["workers/sisdb_server/sisdb_incr.c:sisdb_incr_zip_set", "workers/sisdb_server/sisdb_incr.c:sisdb_incr_zip_start", "workers/sisdb_server/sisdb_incr.c:sisdb_incr_zip_restart", "workers/sisdb_server/sisdb_incr.c:sisdb_incr_zip_stop", "workers/sisdb_server/sisdb_incr.c:sisdb_incr_unzip_start", "workers/sisdb_server/sisdb_incr.c:sisdb_incr_unzip_set", "workers/sisdb_server/sisdb_incr.c:sisdb_incr_set_keys", "workers/sisdb_server/sisdb_incr.c:sisdb_incr_set_sdbs", "workers/sisdb_wsno/sisdb_wsno.c:sisdb_wsno_start", "workers/sisdb_wsno/sisdb_wsno.c:sisdb_wsno_stop", "workers/sisdb_wsno/sisdb_wsno.c:_write_wsno_head", "workers/sisdb_wsno/sisdb_wsno.c:cb_decode", "workers/sisdb_wsno/sisdb_wsno.c:cb_sub_incrzip", "workers/snodb/snodb_disk.c:snodb_wlog_to_snos"]}
{"id": "C120", "title": "A list of tasks with one thread runs every task once and in order, and waiting for it means they are done", "statement": "Tasks given to a list with its own thread begin in the order they were given, each once and not before the one before it has ended; none stays behind; a call that waits for the list returns only when all tasks given before the call have ended; and the list can be destroyed at any time after that without memory being used that was freed.", "quantifier": "every history of tasks, waits and the destruction, every interleaving of the callers and the thread", "why_tests_cant": "interleavings are unbounded; the failing ones read two counters in the wrong order, or destroy the list in the few instructions after a task has ended", "anchors": ["src/core/sis_mul_worker.c:sis_worker_tasks_create", "src/core/sis_mul_worker.c:sis_worker_tasks_destroy", "src/core/sis_mul_worker.c:sis_worker_tasks_add_task", "src/core/sis_mul_worker.c:sis_worker_tasks_wait", "src/core/sis_mul_worker.c:_thread_worker", "src/core/sis_mul_worker.c:_sis_worker_tasks_read"]}
{"id": "C121", "title": "A group of threads runs the tasks of a name in order, and waiting for the group means they are done", "statement": "Tasks given to a group of threads under a name or a number run, those of one name in the order they were given, each once and not before the one before it of that name has ended; none stays behind; a call that waits for the group returns only when the tasks given before the call have ended; when the group is destroyed every task has run.", "quantifier": "every number of threads, every history of tasks, names, waits and the destruction, every interleaving of the callers and the threads", "why_tests_cant": "interleavings are unbounded; the failing ones destroy the group before a thread has looked at its list, or give it tasks from running tasks", "anchors": ["src/core/sis_mul_worker.c:sis_mul_worker_cxt_create", "src/core/sis_mul_worker.c:sis_mul_worker_cxt_destroy", "src/core/sis_mul_worker.c:sis_mul_worker_cxt_add_task", "src/core/sis_mul_worker.c:sis_mul_worker_cxt_add_task_i", "src/core/sis_mul_worker.c:sis_mul_worker_cxt_wait", "src/core/sis_math.h:sis_get_hash"]}
{"id": "C122", "title": "The records of many keys are played back in the order of time, all of them and none twice", "statement": "Records of several keys and tables, each key's handed in by time, before the start or when the client is told that a key ran out, are told to the client each once, under the names they were handed in with, those of a key in the order handed in and those of all keys in the order of their times, also when the tables count time in different units; between the announcement of the start and that of the end, which comes by itself. A playback can be stopped, started and destroyed at any time.", "quantifier": "every number of keys, tables and records, every time and unit, every division into pieces handed in later", "why_tests_cant": "keys, records and pieces are unbounded; the failing ones hand in a piece while another key waits, make a table known late, or stop before the start", "anchors": ["src/core/sis_db.c:sis_subdb_cxt_create", "src/core/sis_db.c:sis_subdb_cxt_destroy", "src/core/sis_db.c:sis_subdb_cxt_clear", "src/core/sis_db.c:sis_subdb_cxt_set_sdbs", "src/core/sis_db.c:sis_subdb_cxt_push_sdbs", "src/core/sis_db.c:_subdb_cxt_set_msec", "src/core/sis_db.c:_subdb_cxt_sub_data", "src/core/sis_db.c:_thread_subdb_cxt_sub", "src/core/sis_db.c:sis_subdb_cxt_sub_start", "src/core/sis_db.c:sis_subdb_cxt_sub_stop", "src/core/disk/sis_disk_read.c:sis_disk_reader_sub_sdb"]}
{"id": "C123", "title": "A subscription to a key of a database on disk tells exactly what a read of it returns", "statement": "Who subscribes to a key and a table of a database on disk for a range of time is told of the start, then the records that a read of the same range returns, in that order, one by one and each once, under the name of the key and the table, and of the end; the call returns by itself. This holds for whatever was written in any sessions before.", "quantifier": "every history of sessions, every key, table and range of time", "why_tests_cant": "histories, numbers of files and of blocks are unbounded; the failing ones have a dot in a key, changed the size of a table's records, or have no record", "anchors": ["src/core/disk/sis_disk_read.c:sis_disk_reader_sub_sdb", "src/core/disk/sis_disk_read.c:_disk_reader_sub_work", "src/core/disk/sis_disk_read.c:cb_key_stop", "src/core/disk/sis_disk_read.c:sis_disk_reader_filters", "src/core/disk/sis_disk_read.c:sis_disk_reader_make_sdb", "src/core/disk/sis_disk_read.c:sis_disk_reader_get_obj", "src/core/sis_db.c:sis_subdb_cxt_push_sdbs", "src/core/sis_str.c:sis_str_divide"]}
{"id": "C124", "title": "Going through a dictionary by a cursor misses no key that was there all the time, whatever is done in between", "statement": "Calls that start with the cursor 0 and hand in each time the cursor they got always return and tell only entries the dictionary holds at the time of the call. When the cursor 0 comes back, every key that had a value at each of the calls has been told, also if between the calls keys were set, removed and looked up, the dictionary was cleared, grew or was made smaller, and also in the middle of its growing. If nothing was done in between, the cursor 0 does come back, and every key was told exactly once with its value.", "quantifier": "every history of the dictionary, every key, every thing done between any two calls", "why_tests_cant": "histories and the sizes of the tables are unbounded; whether a key is missed depends on the slots it had at each call", "anchors": ["src/core/sis_dict.c:sis_dict_scan", "src/core/sis_dict.c:_dict_reverse", "src/core/sis_dict.c:sis_dict_resize", "src/core/sis_dict.c:_dict_rehash_step"]}
{"id": "C125", "title": "Linked lists are sequences, from both ends and in the middle, and no memory is lost", "statement": "Linked lists behave as sequences of values: adding at either end, before or after an element, removing an element, clearing, rotating, joining two lists, copying a list and going through it in either direction while removing the element that was reached all do to the sequence what they say; the size, the element at an index from either end and a search agree with it. Elements handed out stay valid until they are removed. A value is handed to the method that frees it exactly when its element is removed, and the memory in use is that of the elements.", "quantifier": "every number of lists, every history of calls, every address memory is given at", "why_tests_cant": "histories are unbounded; broken links show only in later calls; the failing ones join a list to itself or ask for the smallest index", "anchors": ["src/core/sis_nodelist.c:sis_list_create", "src/core/sis_nodelist.c:sis_list_clear", "src/core/sis_nodelist.c:sis_list_add_node_head", "src/core/sis_nodelist.c:sis_list_push", "src/core/sis_nodelist.c:sis_list_insert_node", "src/core/sis_nodelist.c:sis_list_delete", "src/core/sis_nodelist.c:sis_list_get_iter", "src/core/sis_nodelist.c:sis_list_next_iter", "src/core/sis_nodelist.c:sis_list_dup", "src/core/sis_nodelist.c:sis_list_search_key", "src/core/sis_nodelist.c:sis_list_get", "src/core/sis_nodelist.c:sis_list_rotate", "src/core/sis_nodelist.c:sis_list_join"]}
{"id": "C126", "title": "Arguments that are quoted and joined are split back into exactly the same arguments", "statement": "Any list of byte strings, each put into double quotes by the call for that, into single quotes, or left as a plain word, and joined by blanks, is split by the call that splits a command line into exactly these strings, also if they hold zeros, quotes, backslashes, line ends or bytes that cannot be printed; the quoted text itself holds no zero. A line with quotes that are not closed, or with something directly behind closed quotes, is refused as a whole. Whatever separates quoted arguments also separates plain ones. Every line is split or refused: the call ends.", "quantifier": "every list of byte strings, every way of writing each of them, every blanks between, before and behind them, every line", "why_tests_cant": "byte strings and lists are unbounded; whether an escape is read back depends on the bytes that follow it", "anchors": ["src/core/sis_sds.c:sis_sdscatrepr", "src/core/sis_sds.c:sis_sdssplitargs", "src/core/sis_sds.c:sis_sdsjoinsds", "src/core/sis_sds.c:is_hex_digit", "src/core/sis_sds.c:hex_digit_to_int"]}
{"id": "C127", "title": "Strings hold exactly the bytes that were put into them, however they grow and shrink", "statement": "A string made of any bytes, to which bytes are appended, which is overwritten, grown with zeros, given more room, cleared, stripped of its free room, copied, cut to a range of positions from either end and trimmed at both ends of the bytes given, in any order, always has the length and the bytes these calls say, with a zero behind them; no call reads or writes outside of the memory of the string. When room was asked for, there is that much room. A string can be appended to itself.", "quantifier": "every first content, every history of calls, every content and size given to them", "why_tests_cant": "histories and sizes are unbounded; the header of a string changes its form at 32, 256, 65536 and 2^32 bytes, and a length that does not fit would be cut silently; the failing calls append a string to itself, cut to a range that ends before the first byte or at the last position there can be, or trim a string with zeros", "anchors": ["src/core/sis_sds.c:sis_sdsnewlen", "src/core/sis_sds.c:sis_sdsdup", "src/core/sis_sds.c:sis_sdsclear", "src/core/sis_sds.c:sis_sds_addlen", "src/core/sis_sds.c:sis_sds_remove_freespace", "src/core/sis_sds.c:sis_sdsgrowzero", "src/core/sis_sds.c:sis_sdscatlen", "src/core/sis_sds.c:sis_sdscatsds", "src/core/sis_sds.c:sis_sdscpylen", "src/core/sis_sds.c:sis_sdsrange", "src/core/sis_sds.c:sis_sdstrim", "src/core/sis_sds.c:sdsReqType", "src/core/sis_sds.h:sis_sdslen", "src/core/sis_sds.h:sis_sdsavail", "src/core/sis_sds.h:sis_sdssetlen", "src/core/sis_sds.h:sis_sdssetalloc", "src/core/sis_sds.h:sis_sdsalloc"]}
{"id": "C128", "title": "A text with arguments is appended to a string exactly as its format says", "statement": "The fast call that appends a format with arguments to a string appends exactly the bytes of the format, with each argument in its place: texts and strings byte for byte (a string also with zeros in it), signed and unsigned numbers of 32 and 64 bits as their decimal text, and the byte behind any other percent sign as it is. What the string held before stays, the length is right and a zero follows, no call writes outside of the memory of the string or of the buffer for numbers, and the string can be used on by any other call. Any number and any format can be given.", "quantifier": "every content and history of the string, every format, every list of arguments of the types the format names, every calls afterwards", "why_tests_cant": "formats, arguments and strings are unbounded; the room is checked piece by piece and the header changes its form in between; the failing formats end with a percent sign or are given the smallest number", "anchors": ["src/core/sis_sds.c:sis_sdscatfmt", "src/core/sis_sds.c:sis_sdsll2str", "src/core/sis_sds.c:sis_sdsull2str", "src/core/sis_sds.c:sis_sds_addlen", "src/core/sis_sds.h:sis_sdsinclen", "src/core/sis_sds.h:sis_sdsavail"]}
{"id": "C129", "title": "Bytes split at a separator are complete, and joined strings are split back", "statement": "Bytes split at a separator of any length give strings that, joined with the separator, are exactly these bytes; the separators are found from the left, and none is left over within the strings. The array of strings is never left, however many there are. Strings joined with a separator that does not occur in them are split into the same strings. Without a separator nothing is split.", "quantifier": "every bytes, every separator, every list of strings", "why_tests_cant": "bytes and separators are unbounded; separators can overlap each other and themselves, and the array grows while it is filled; the failing list is that of one empty string", "anchors": ["src/core/sis_sds.c:sis_sdssplitlen", "src/core/sis_sds.c:sis_sdsjoinsds"]}
{"id": "C130", "title": "Strings are ordered by their bytes, and their bytes can be replaced one by one", "statement": "The comparison of two strings reads nothing but their bytes and says zero exactly if they are the same, and otherwise which of them comes first: the beginning of the other, or the one with the smaller byte, as a number from 0 to 255, where they first differ. This is an order of all strings, also with zeros in them. Replacing bytes by pairs changes every byte that begins a pair into the second of the first such pair, changes no other byte, and never replaces a byte twice; making small or capital letters does that for the 26 letters. The string can be used on by any other call.", "quantifier": "all contents and histories of the strings, every list of pairs, every calls afterwards", "why_tests_cant": "contents and lists are unbounded; an order has to hold for every two and every three strings", "anchors": ["src/core/sis_sds.c:sis_sdscmp", "src/core/sis_sds.c:sis_sdsmapchars", "src/core/sis_sds.c:sis_sdstolower", "src/core/sis_sds.c:sis_sdstoupper"]}
