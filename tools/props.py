import json
P=[]
def p(title,stmt,quant,why,anchors):
    P.append(dict(id="C%02d"%(len(P)+1),title=title,statement=stmt,quantifier=quant,why_tests_cant=why,anchors=anchors))
M="src/core/sis_memory.c"; B="src/core/zip/sis_bits.h"; Z="src/core/zip/sis_incrzip.c"
# --- buffers / codecs
p("Variable-length size codec is lossless",
  "Appending any size value below 2^64 to a memory buffer with sis_memory_cat_ssize and reading it back with sis_memory_get_ssize yields the same value and consumes exactly the bytes that were appended, whatever follows in the buffer.",
  "every size below 2^64 and every trailing byte sequence","2^64 values over five length classes; a test samples only a few boundaries",
  [M+":sis_memory_cat_ssize",M+":sis_memory_get_ssize",M+":sis_memory_cat_byte",M+":sis_memory_get_byte"])
p("Size codec is self-delimiting and its completeness test is exact",
  "sis_memory_try_ssize answers true exactly when the buffered bytes start with a complete size encoding; in particular it answers false on every strict prefix of an encoded size and true as soon as the last byte arrives, and no encoded size is a strict prefix of another encoded size.",
  "every byte sequence and every cut point of every encoding","quantifies over all byte strings and all arrival points",
  [M+":sis_memory_try_ssize",M+":sis_memory_get_ssize"])
p("Memory buffer is a lossless byte queue under any operation history",
  "For every sequence of append, consume, pack, grow, clear and file-read operations that never consumes more than is unread, the unread content of an s_sis_memory equals everything appended minus everything consumed, in order; the write cursor never passes the allocated capacity, and the read cursor never passes the write cursor.",
  "every finite operation history and every byte content","histories interleave compaction and reallocation in unboundedly many ways",
  [M+":sis_memory_cat",M+":sis_memory_pack",M+":sis_memory_grow",M+":sis_memory_clear",M+":sis_memory_read","src/core/sis_memory.c:sis_memory_move"])
p("Bit stream: what is put is what is got",
  "After any sequence of sis_bits_stream_put calls with widths 1..64, reading the same widths in the same order with sis_bits_stream_get from the start returns the low bits of the same values, and a put never disturbs bits already written before the cursor.",
  "every list of (value,width) pairs, every initial buffer content large enough","all alignments times all widths times all values",
  [B+":sis_bits_stream_put",B+":sis_bits_stream_get"])
p("Unsigned compressed integers are lossless in their range and refuse the rest",
  "sis_bits_stream_put_sint, put_short and put_uint followed by the matching get return the same value and leave the cursor just behind it for every value in range (0..305, 0..69889, 0..2^32-1); out of range put_sint/put_short return -1 and leave the stream untouched.",
  "every 32-bit value, every bit position","2^32 values times 8 alignments",[B+":sis_bits_stream_put_sint",B+":sis_bits_stream_put_short",B+":sis_bits_stream_put_uint",B+":sis_bits_stream_get_sint",B+":sis_bits_stream_get_short",B+":sis_bits_stream_get_uint"])
p("Signed compressed integers are lossless",
  "sis_bits_stream_put_int followed by sis_bits_stream_get_int returns the same value for every signed 64-bit integer, and the incremental form restores the value from the same predecessor.",
  "every int64 value and predecessor, every bit position","2^64 values; the single failing value is not one a test would pick",[B+":sis_bits_stream_put_int",B+":sis_bits_stream_get_int",B+":sis_bits_stream_put_incr_int",B+":sis_bits_stream_get_incr_int"])
p("Compressed character fields are lossless",
  "A fixed-size character field written with put_incr_chars against a previous field value and read with get_incr_chars against the same previous value comes back equal (up to bytes after the first NUL).",
  "every pair of field contents of equal declared size","all pairs of strings, including empty and prefix-related ones",[B+":sis_bits_stream_charcmp",B+":sis_bits_stream_put_incr_chars",B+":sis_bits_stream_get_incr_chars",B+":sis_bits_stream_put_chars",B+":sis_bits_stream_get_chars"])
p("Compressed record stream restores every record",
  "A sequence of (key,table,record) compressed with sis_incrzip_compress and decompressed with sis_incrzip_uncompress in the same sequence yields the same records in the same order for tables of integer and character fields.",
  "every registered schema, every key count, every record history","the delta state depends on the whole history of every (key,table) pair",[Z+":sis_incrzip_compress",Z+":sis_incrzip_uncompress",Z+":_incrzip_compress",Z+":sis_incrzip_set_sdb"])
p("Stepwise decompression agrees with stepwise compression",
  "A block produced by sis_incrzip_compress_start/step and decoded with sis_incrzip_uncompress_start/step delivers every record of every bag unchanged, in order, including bags holding more than one record.",
  "every list of bags and bag sizes","depends on the bag size and on the position of the bag in the stream",[Z+":sis_incrzip_compress_step",Z+":sis_incrzip_uncompress_step",Z+":sis_incrzip_compress_start"])
p("Bag counter codec is lossless",
  "The record counter of a compressed bag written by the compressor is read back unchanged by the decompressor for every count in 1..2^32-1.",
  "every bag count","2^32 counts over three length classes",[Z+":sis_incrzip_set_bags",Z+":sis_incrzip_get_bags"])
F="workers/sisdb/"
# --- in-memory time series
p("Lookup by exact timestamp returns exactly the matching records",
  "For a time series held sorted by timestamp, a 'where' query for timestamp t yields the complete contiguous run of records with timestamp t and their number, and reports no match when there is none, independent of the interpolated starting position used by the search.",
  "every sorted series, every t, every starting hint","all series lengths, duplicate patterns and hints",[F+"sisdb_fmap_ctrl.c:sisdb_fmap_cmp_where",F+"sisdb_fmap_ctrl.c:sisdb_fmap_cmp_same",F+"sisdb_fmap_ctrl.c:sisdb_fmap_unit_goto"])
p("Range query returns exactly the records inside the range",
  "For a sorted time series and start <= stop, a range query selects exactly the records whose timestamp lies in [start,stop]; with the 'previous' option and no record at start it additionally includes the last record before start; an empty selection is reported as no match.",
  "every sorted series, every start, stop, option and starting hint","all series, bounds and duplicate patterns",[F+"sisdb_fmap_ctrl.c:sisdb_fmap_cmp_range",F+"sisdb_fmap_ctrl.c:_fmap_cmp_range_head",F+"sisdb_fmap_ctrl.c:_fmap_cmp_range_tail"])
p("Writes keep the series sorted by time and lose nothing",
  "Starting from a sorted series, every update of a time-indexed table leaves the series sorted by timestamp and containing exactly the old records plus the new one (no record lost, duplicated or altered).",
  "every sorted series and every history of updates","every insertion order of every multiset of timestamps",[F+"sisdb_fmap_write.c:sisdb_fmap_cxt_mindex_update",F+"sisdb_fmap_ctrl.c:sisdb_fmap_cmp_find_tail",F+"sisdb_fmap.c:sisdb_fmap_cxt_update"])
p("Records with equal timestamps keep arrival order",
  "In a time-indexed table, records carrying the same timestamp are returned in the order in which they were written.",
  "every history of writes","depends on how many equal records precede and whether a later record exists",[F+"sisdb_fmap_write.c:sisdb_fmap_cxt_mindex_update"])
p("A unique-key table keeps at most one record per unique key and updates it in place",
  "Writing a record to a table with unique fields replaces the stored record with the same time and unique fields if there is one, otherwise inserts it in time order; no record with a different time or different unique fields is changed or lost.",
  "every sorted series and every incoming record","depends on the neighbours of the insertion point",[F+"sisdb_fmap_write.c:_fmap_unit_solely_update"])
p("Range delete removes exactly the selected records",
  "A delete by exact timestamp or by time range removes exactly the records the corresponding query would return, keeps every other record in order, and reports the number removed.",
  "every sorted series, every range","all series and bounds",[F+"sisdb_fmap_write.c:sisdb_fmap_cxt_tsdb_del",F+"sisdb_fmap_ctrl.c:sisdb_fmap_cmp_where",F+"sisdb_fmap_ctrl.c:sisdb_fmap_cmp_range"])
p("Per-day index stays consistent with the records after a delete",
  "After deleting n records starting at position i the per-period index describes the remaining records: each entry's record count equals the number of remaining records of that period and the counts sum to the number of records.",
  "every index layout and every deleted interval","intervals may begin and end inside different periods",[F+"sisdb_fmap_write.c:sisdb_fmap_unit_del_idx"])
p("Paging of series without time honours start and count",
  "For a table without time index, reading with (start,count) returns the requested window: negative start counts from the end, non-negative start from the beginning, and count limits the number of records.",
  "every record list, start and count","sign and width conversions only show for particular start values",[F+"sisdb_fmap.c:_fmap_calc_nots_count",F+"sisdb_fmap.c:sisdb_fmap_cxt_read"])
# --- log & crash
D="src/core/disk/"
p("Message log survives a crash at any byte",
  "If a process appending messages to a log file is killed at any point, so that the file holds any byte prefix of what was appended, reopening the log for append keeps exactly the complete records (every record fully on disk, no torn record) and positions new records directly behind them.",
  "every message sequence and every crash byte","every byte of every file is a crash point",[D+"sis_disk_files.c:sis_disk_files_seek_log",D+"sis_disk_files.c:sis_disk_files_write"])
p("Log replay delivers every complete record once and in order",
  "Replaying a log file delivers each complete record exactly once, in write order, with its content unchanged, and nothing else.",
  "every message sequence including empty and one-byte messages","only the size of the last record decides",[D+"sis_disk_files.c:sis_disk_files_read_fulltext"])
p("Log parsing does not depend on the read chunk size",
  "Scanning or replaying a log larger than the read buffer gives the same records as scanning it in one piece.",
  "every log content, every chunk size at least as large as a header","only particular alignments of a record header with a 16 MB boundary matter",[D+"sis_disk_files.c:sis_disk_files_seek_log",D+"sis_disk_files.c:sis_disk_files_read_fulltext"])
p("Acknowledged writes survive a server crash",
  "After a crash at any moment, restarting the server and replaying disk plus log reproduces a state that contains every write that was acknowledged before the crash.",
  "every request history, every crash point including inside save","the crash point ranges over every instant of save and log rotation",[F+"sisdb_disk.c:sisdb_disk_save_start",F+"sisdb_disk.c:sisdb_rlog_read","workers/sisdb_server/sisdb_server.c:cb_reader_recv"])
p("Latest value wins for single-value keys on disk",
  "After any sequence of single-value or list-value writes to a database file, reading a key returns the last value written for it, and other keys are unaffected.",
  "every write history over every set of keys","all histories and key interleavings",[D+"sis_disk.io.sdb.c:sis_disk_io_write_one",D+"sis_disk.io.sdb.c:sis_disk_io_write_mul",D+"sis_disk_read.c:sis_disk_reader_get_one"])
p("Writing a time block never loses records outside its time range",
  "Writing a block of time-stamped records for a (key,table) replaces older blocks covering the same times; every stored record whose time lies outside the newly written block stays readable.",
  "every history of block writes","depends on overlap relation between all blocks of a history",[D+"sis_disk.io.sdb.c:sis_disk_io_merge_sdb",D+"sis_disk.io.sdb.c:sis_disk_io_write_sdb"])
p("Disk index records are lossless",
  "The index written when a database file is closed, for any set of (key,table) entries with any number of blocks, is read back with the same entries, in the same order, with all block attributes equal.",
  "every index","all index sizes, offsets and times",[D+"sis_disk.io.sdb.c:sis_disk_io_write_sdb_widx",D+"sis_disk.io.sdb.c:cb_sis_disk_io_read_sdb_widx"])
p("Map records are lossless and respect deletion",
  "Presence/deletion marks for (key,table,date) appended to the map file are read back as written, so that a key removed on a date is reported removed and a key rewritten later is reported present.",
  "every history of writes and removals","the failing byte layout appears only for deletion marks",[D+"sis_disk.io.sdb.c:sis_disk_io_write_map",D+"sis_disk.io.sdb.c:cb_sis_disk_io_read_sdb_map"])
p("Splitting a block into per-date or per-year files loses and misplaces nothing",
  "Writing a time-ordered block to date- or year-partitioned storage stores every record exactly once, in order, in the partition of its own timestamp.",
  "every time-ordered block and every supported time unit","depends on timestamps exceeding 32 bits and on period boundaries",[D+"sis_disk_write.c:sis_disk_writer_sdb_date",D+"sis_disk_write.c:sis_disk_writer_sdb_year"])
# --- network
N="src/core/net/"
p("WebSocket framing is lossless",
  "A message of any size packed for a WebSocket connection and unpacked by the peer yields the same bytes, and bytes following it in the receive buffer are left untouched.",
  "every message content and size, every following bytes","frame splitting happens at 16 KB boundaries; length classes at 126 and 65536",[N+"sis_net.ws.c:sis_net_pack_ws",N+"sis_net.ws.c:sis_net_unpack_ws"])
p("WebSocket reassembly is independent of TCP segmentation",
  "Whatever way the byte stream of packed messages is cut into arrivals, the receiver delivers the same messages in the same order, never a partial message.",
  "every message sequence and every segmentation","exponentially many segmentations",[N+"sis_net.ws.c:sis_net_unpack_ws",N+"sis_net.ws.c:sis_net_unpack_ws_check"])
p("WebSocket input never causes out-of-bounds access",
  "For every received byte sequence the unpacker touches only received bytes.",
  "every byte sequence an attacker may send","adversarial inputs are unbounded",[N+"sis_net.ws.c:sis_net_unpack_ws"])
p("Network messages survive encoding",
  "Encoding a request or reply for the wire and decoding it on the other side restores name, serial number, service, command, subject, tag and info.",
  "every combination of present fields and every content","2^7 presence patterns times all contents",[N+"sis_net.node.c:sis_net_encoded_normal",N+"sis_net.node.c:sis_net_decoded_normal"])
p("Relayed messages keep their payload",
  "Copying a message for forwarding keeps every part that is present, including the list payload.",
  "every message","all presence patterns",[N+"sis_net.msg.c:sis_net_message_relay"])
p("Send queue is FIFO and loses nothing",
  "For every interleaving of producers and the consumer, messages pushed to a connection's send queue are popped exactly once in push order, and byte counters equal the queued content.",
  "every operation history","node reuse and growth depend on the whole history",[N+"sis_net.node.c:sis_net_mems_push",N+"sis_net.node.c:sis_net_mems_pop",N+"sis_net.node.c:sis_net_nodes_push",N+"sis_net.node.c:sis_net_nodes_read"])
p("Session numbers are never shared by two live sessions",
  "A session number handed out by the session table refers to that session until it is closed, is not handed out again while in use or during its quarantine period, and lookups by number return the stored session; this holds for any number of sessions.",
  "every history of open, close and lookup, any number of sessions","needs histories with more sessions than the initial capacity and arbitrary clock readings",[N+"sis_net.node.c:sis_net_list_new",N+"sis_net.node.c:sis_net_list_get",N+"sis_net.node.c:sis_net_list_stop",N+"sis_net.node.c:_net_list_set_grow"])
# --- concurrency
L="src/core/sis_list.lock.c"
p("Producer/consumer queue is FIFO under every schedule",
  "For every schedule of concurrent pushes and pops, each pushed object (a pointer that is not null) is popped at most once, pops return objects in push order, and pop returns nothing only if the queue is empty.",
  "every interleaving of every number of threads","interleavings",[L+":sis_lock_queue_push",L+":sis_lock_queue_pop",L+":sis_fast_queue_push"])
p("Work queue hands out one job at a time, in order",
  "With the wait queue, a job is handed to the handler only when the previous one has been reported finished, jobs are handed out in push order and none is lost or repeated.",
  "every schedule of push and finish events","schedules",[L+":sis_wait_queue_push",L+":sis_wait_queue_pop"])
p("Every reader of a shared list sees every message once and in order",
  "In save-all mode every reader attached from the head receives every message pushed, exactly once, in order; a reader attached at the tail receives every message pushed after attaching.",
  "every schedule of pushes, reader attach and reader steps","schedules and number of readers",[L+":sis_lock_list_push",L+":sis_lock_reader_open",L+":_thread_reader"])
p("Recycling never removes a message some reader has not yet received",
  "When the shared list is configured to discard consumed messages, a message is discarded only after every attached reader has received it.",
  "every schedule of push, reader step and recycle step","the failing schedules need a reader that has not yet started or sits on the recycled element",[L+":_thread_watcher",L+":sis_lock_reader_open"])
p("Shared objects are freed exactly when the last holder lets go",
  "For every history of increments and decrements on a shared object, the object is destroyed exactly once, when the last reference is released, and never used afterwards by a holder.",
  "every history","histories",["src/core/sis_obj.c:sis_object_incr","src/core/sis_obj.c:sis_object_decr"])
# --- containers
S="src/core/sis_list.c"
p("Record array behaves as a list",
  "The record array's push, insert, update, delete, pop and get behave as the corresponding operations on a list of fixed-size records under every operation history: get, update and delete reject out-of-range positions without changing anything, an insert at a negative position goes to the front and one beyond the end is appended; a copy has the contents of its source.",
  "every operation history","histories",[S+":sis_struct_list_push",S+":sis_struct_list_insert",S+":sis_struct_list_delete",S+":sis_struct_list_pop"])
p("Named list: lookup by name and by position agree",
  "After any history of sets, each name set is present exactly once at a position that never changes, the value found by name equals the value found by that position and is the last value set, names differing only in case being the same name.",
  "every history of sets and lookups","histories",["src/core/sis_map.c:sis_map_list_set","src/core/sis_map.c:sis_map_list_get","src/core/sis_map.c:sis_map_list_geti","src/core/sis_map.c:sis_map_list_get_index"])
p("Sorted list keeps unique sorted keys",
  "After any history of sets and deletions the sorted list holds its keys in strict order (decreasing, or increasing when the ascending flag is set) and lookups find exactly the last value set for a key.",
  "every history","histories",[S+":sis_sort_list_set",S+":sis_sort_list_find"])
p("Ranked list is descending and stable",
  "After any history of insertions of items with comparable scores (no NaN) and deletions, the ranked list shows the items present ordered by decreasing score, equal scores in arrival order.",
  "every history of insertions and deletions","all permutations",[S+":sis_fsort_list_set",S+":sis_fsort_list_get",S+":sis_fsort_list_del"])
p("Block list addresses the element that was pushed",
  "After any history of push and pop, the element at position i of the block list is the i-th element still present.",
  "every block size and history","depends on number of consumed elements in the first block",[S+":sis_node_list_push",S+":sis_node_list_pop",S+":sis_node_list_get"])
p("Integer list returns the numbers stored",
  "A 64-bit number pushed on an integer list is returned unchanged by get.",
  "every int64","2^64 values",[S+":sis_int_list_get",S+":sis_int_list_push"])
# --- access / pubsub
A="workers/sisdb_server/"
p("Unauthenticated connections can only authenticate",
  "When users are configured, a connection that has not authenticated successfully cannot run any command except auth; every other request is answered with a no-authority reply and changes nothing.",
  "every request history on every connection","all histories",[A+"sisdb_server.c:cb_reader_recv",A+"sisdb_server.c:sisdb_server_get_access",A+"sisdb_server.c:cmd_sisdb_server_auth"])
p("Read-only users cannot change data, write users cannot delete",
  "A user with read access can only run commands marked readable; a user with write access cannot delete data; internal commands are not reachable from the network by any user.",
  "every user level, every command","all combinations of level and command flags, extended with new commands",[A+"sisdb_sys.c:sis_sys_access_method","workers/sisdb/sisdb.c:sisdb_methods"])
p("Authentication requires the exact password",
  "auth succeeds only for a known user name with exactly the stored password.",
  "every stored and presented password","all pairs of strings",[A+"sisdb_server.c:cmd_sisdb_server_auth"])
p("A closed connection leaves nothing behind for the next owner of its number",
  "After a connection closes, its authority and its subscriptions are gone: a later connection with the same number starts unauthenticated and receives no notifications it did not subscribe to.",
  "every history of connect, auth, subscribe, close","histories with number reuse",[A+"sisdb_server.c:_cb_connect_close","workers/sisdb/sisdb.c:cmd_sisdb_clear",A+"sisdb_sub.c:sisdb_sub_cxt_unsub"])
p("Each subscriber of a key is notified exactly once per write",
  "After any history of subscriptions and cancellations, a write to a key notifies each client subscribed to exactly that key once, and no client that has no matching subscription.",
  "every history and every key","histories",[A+"sisdb_sub.c:sisdb_sub_cxt_pub",A+"sisdb_sub.c:sisdb_sub_cxt_sub",A+"sisdb_sub.c:sisdb_sub_cxt_unsub"])
p("Wildcard subscriptions are notified",
  "A client subscribed with a pattern (all keys of a table, all tables of a key, everything, a list) is notified of every write whose key matches the pattern.",
  "every pattern and key","all pattern shapes",[A+"sisdb_sub.c:sisdb_sub_cxt_pub",A+"sisdb_sub.c:sisdb_sub_cxt_sub"])
# --- schema
Y="src/core/sis_dynamic.c"
p("Fields of a table never overlap",
  "For every table definition, the byte ranges of the fields of a record are pairwise disjoint and lie inside the record size reported for the table.",
  "every list of field definitions","field counts and sizes are unbounded; failure needs records above 64 KB",[Y+":sis_dynamic_db_create",Y+":sis_dynamic_db_add_field"])
p("Schema conversion carries every field by name",
  "Converting a record between two versions of a table copies each field that exists under the same name in both, and zero-fills new fields.",
  "every pair of table definitions and every record","all pairs of schemas; reordered fields of equal size are the failing case",[Y+":sis_dynamic_convert",Y+":_sis_dynamic_match"])
p("Time unit conversion is monotone and consistent",
  "Converting a timestamp from a finer to a coarser time unit never reorders timestamps, and converting a coarse one to a finer unit and back is the identity.",
  "every timestamp, every pair of supported units","all 64-bit timestamps",[Y+":sis_time_unit_convert"])
p("Work-day stepping lands on a work day",
  "The next work day after any date is a weekday strictly later than that date.",
  "every date","all dates",["src/core/sis_time.c:sis_time_get_next_work_day"] if False else ["src/core/sis_time.c:sis_time_next_work_day"])
# --- added with the model
W="workers/sisdb/"
p("The per-period index describes the records after every write",
  "After any write the per-period entries of a series name, in order, exactly the periods of its records with their counts and positions.",
  "every history of writes and every batch","needs all batches, including unsorted ones and the first one",[W+"sisdb_fmap_write.c:sisdb_fmap_cxt_mindex_update",W+"sisdb_fmap_write.c:sisdb_fmap_unit_add_idx"])
p("A save writes every change made in memory",
  "When the in-memory data is saved, every series and value changed since the last save is written to disk with its current contents.",
  "every state reached by writes and deletes before the save","histories before the save are unbounded",[W+"sisdb_fmap.c:sisdb_fmap_cxt_update",W+"sisdb_disk.c:sisdb_disk_save"])
p("Loading on demand does not change answers",
  "A query on a series whose blocks are read from disk on demand returns what it would return if the whole series were in memory.",
  "every set of stored blocks and every sequence of queries","sequences of queries and block layouts are unbounded",[W+"sisdb_fmap_read.c:sisdb_fmap_cxt_read_data",W+"sisdb_fmap_read.c:_fmap_cxt_getdata_from_disk"])
p("Upsert in a unique-key table without time field",
  "In a table with unique fields and no time field, a write replaces the record with the same key if there is one and otherwise appends; no other record changes.",
  "every table contents and batch","all contents and batches",[W+"sisdb_fmap_write.c:sisdb_fmap_cxt_solely_update"])
p("A client reads back what it wrote to a plain key",
  "Reading a key without time index returns the value last written to it.",
  "every history of reads and writes on every prior stored value","the failing case needs a stored value that was not yet read",[W+"sisdb_fmap.c:sisdb_fmap_cxt_update",W+"sisdb_fmap.c:sisdb_fmap_cxt_read"])
p("A deleted value stays deleted",
  "After a key is deleted, reading it finds nothing until it is written again.",
  "every history and every prior stored value","the failing case needs a stored value that was not yet read",[W+"sisdb_fmap.c:sisdb_fmap_cxt_del",W+"sisdb_fmap.c:sisdb_fmap_cxt_read"])
S="src/core/sis_list.c"
p("The pointer list is a list and frees what it drops once",
  "The pointer array's calls behave as the corresponding operations on a list under every history, and with a free function every element that leaves the array is freed exactly once, elements still present never.",
  "every operation history","histories are unbounded",[S+":sis_pointer_list_push",S+":sis_pointer_list_set",S+":sis_pointer_list_delete",S+":sis_pointer_list_find_and_delete"])
D="src/core/sis_dict.c"
p("The hash map answers with the last value set under every history",
  "After any history of sets, deletes, lookups, clears and open or closed iterators, looking a key up gives the value last set for it and not deleted or cleared since, whatever growth or incremental rehashing the history triggered; names equal but for case are one key.",
  "every history of calls, every key set and every hash collision pattern","the states between the two tables depend on the whole history; collisions and growth points cannot be enumerated",[D+":sis_dict_set",D+":sis_dict_find",D+":sis_dict_delete",D+":sis_dict_rehash","src/core/sis_map.c:_sis_dict_strcase_compare"])
p("Walking a map visits each key that stays exactly once",
  "A walk over a map during which keys other than the next one are added, replaced or deleted yields each key that was present throughout exactly once and with its current value, and never a deleted key.",
  "every map, every interleaving of walk steps with map calls","interleavings of walk and updates are unbounded",[D+":sis_dict_next",D+":sis_dict_get_iter",D+":sis_dict_iter_free"])
p("A map that owns its values frees each one exactly once",
  "A map created with a free function frees each value exactly once: when it is replaced, deleted or cleared, and never while it can still be looked up.",
  "every history of map calls","histories are unbounded",[D+":sis_dict_set",D+":sis_dict_delete",D+":sis_dict_empty"])
V="workers/sisdb_server/sisdb_server.c"
p("No request crashes the server",
  "Whatever a client sends, logged in or not, the server answers it or drops it and keeps serving the other clients.",
  "every request in every reachable state","the failing requests are malformed or refer to things that do not exist; their combinations with states are unbounded",[V+":cmd_sisdb_server_auth",V+":cmd_sisdb_server_setuser","workers/sisdb_server/sisdb_sub.c:_set_sub_unit_type"])
p("Configured users survive a crash at any point",
  "If the server crashes at any point, also while it stores a change of the users, a restarted server knows the users as before or as after the change, and never serves clients without login.",
  "every crash point of every change of users","crash points between file operations are not reachable from tests",[V+":sisdb_server_sysinfo_save",V+":sisdb_server_sysinfo_load","src/core/sis_json.c:sis_json_save"])
J="src/core/sis_json.c"
p("A JSON document that is written and read again is the same document",
  "Writing a document, compact, formatted or to a file, and reading the text back gives a document with the same structure, names, types and values.",
  "every document tree","documents are unbounded trees with arbitrary texts; the failing ones need particular characters in particular places",[J+":sis_json_output",J+":sis_json_output_zip",J+":sis_json_save",J+":sis_json_load"])
p("Writing a JSON document never leaves the memory allocated for it",
  "For every document each text composed while writing it, with its terminating zero, fits into the memory allocated for that text.",
  "every document tree, both layouts, every depth","the length is computed apart from the text; equality at every tree cannot be tested",[J+":_sis_json_to_string",J+":_sis_json_to_array",J+":_sis_json_to_object"])
p("Any text given as JSON is read to an end and malformed ones are refused",
  "Reading any sequence of bytes as JSON comes to an end, and a text that is not a JSON document is refused.",
  "every byte sequence","malformed texts are unbounded",[J+":sis_json_load",J+":_sis_parse_value"])
p("A JSON member that was set is read back and others are untouched",
  "After setting a member, reading it under its name gives the value, in the document and in its written text, and reading any other name gives what it gave before.",
  "every document, every name and value","documents and names are unbounded",[J+":sis_json_object_set_int",J+":sis_json_object_set_string",J+":sis_json_get_int",J+":sis_json_get_str",J+":sis_json_find_node"])
p("Merging a second configuration overrides exactly what it mentions",
  "After merging a second configuration into the first, every value the second one gives is found under its path, and every value of the first one it does not mention is found unchanged.",
  "every pair of configurations and every path","pairs of trees and paths are unbounded",[J+":sis_json_object_merge","src/server.c:_server_open"])
p("Decoding a received message never reads behind its last byte",
  "Whatever bytes arrive as a message, decoding them reads only those bytes, and gives a message or refuses it.",
  "every byte sequence","malformed and truncated messages are unbounded",["src/core/net/sis_net.node.c:sis_net_decoded_normal","src/core/net/sis_net.node.c:sis_net_memory_get_sds","src/core/net/sis_net.node.c:sis_net_memory_get_int"])
T="src/core/sis_thread.c"
p("A shared list with a size limit keeps no more than its limit",
  "Once the recycler of a shared list has caught up with the newest message, the messages still kept have together no more bytes than the limit the list was created with, apart from the newest one.",
  "every schedule of writers, readers and the recycler, every limit and message size","what is kept depends on the interleaving and on the whole history",["src/core/sis_list.lock.c:_thread_watcher","src/core/sis_list.lock.c:sis_lock_list_create"])
p("The read-write lock admits several readers or one writer and a free lock is given",
  "At every time at most one thread has the lock to write and then none has it to read; when nobody has the lock and nobody waits for it, whoever asks for it gets it.",
  "every order of the calls of any number of threads","the orders of calls are unbounded; the failing one needs a failed attempt first",[T+":sis_mutex_rw_lock_r",T+":sis_mutex_rw_try_lock_r",T+":sis_mutex_rw_lock_w",T+":sis_mutex_rw_try_lock_w",T+":sis_mutex_rw_unlock_r",T+":sis_mutex_rw_unlock_w"])
p("A wait handle belongs to one owner at a time",
  "Two wait handles that were given out and not returned are different, and a handle is refused only when all of them are out.",
  "every history of calls of any number of threads","depends on the interleaving of two calls",[T+":sis_wait_malloc",T+":sis_wait_free",T+":sis_wait_get"])
p("Stepping a date by days gives the date that many days away",
  "The date a given number of days after or before a date is that of the calendar, over the ends of months, years and leap years.",
  "every date, every number of days, every time zone","dates, distances and time zones are too many; the failing one begins at time zero",["src/core/sis_time.c:sis_time_get_offset_day","src/core/sis_time.c:sis_time_make_time","src/core/sis_time.c:sis_time_get_idate","src/os/linux/os_time.c:sis_time_check"])
p("Date and time of day survive the conversion to seconds",
  "The seconds made of a date and a time of day have that date and that time of day, and later dates and times of day are later seconds.",
  "every date, time of day and time zone","all seconds of all dates; the failing one is a single second",["src/core/sis_time.c:sis_time_make_time","src/core/sis_time.c:sis_time_get_idate","src/core/sis_time.c:sis_time_get_itime"])
D="src/core/sis_dynamic.c"
p("The time of a record is its time field",
  "The time of a record is the value of the first field of the table that is a time, and its index is that time or, in a table without times, the value of the last field marked as index.",
  "every list of field definitions, every buffer of records and every position in it","definitions are unbounded; the failing ones repeat a name",[D+":sis_dynamic_db_get_time",D+":sis_dynamic_db_get_mindex",D+":sis_dynamic_db_create"])
W="src/core/disk/sis_disk_write.c"
R="src/core/disk/sis_disk_read.c"
p("A closed database can be opened and read again",
  "After any sessions of writing, each closed properly, the database can be opened for writing again, and reading any key or any key and table from it is defined, whatever was written for other keys.",
  "every history of sessions, every key and table","one write makes the file unreadable for all other keys only in certain orders of calls",[W+":sis_disk_writer_open",W+":sis_disk_writer_close",W+":sis_disk_writer_sdb",R+":sis_disk_reader_get_one"])
p("Reading a time range gives the records of the range",
  "Reading a key and a table for a time range gives exactly the stored records whose times are in the range, in the order of their periods.",
  "every history of sessions and every time range","histories and ranges are unbounded; the failing ones need a table that was defined anew",[R+":_disk_reader_get_sdb_obj",R+":sis_disk_reader_make_sdb",R+":_disk_reader_make_sdb_from_file"])
p("Table definitions survive in the files of a database",
  "The text a database keeps its tables in is read as the same tables: the same names, and the same fields with the same types, lengths, numbers of elements, digits, flags and places in the record.",
  "every list of tables with any number of fields","definitions are unbounded; the failing ones need names of more than 31 bytes, quotes, or 256 digits",["src/core/disk/sis_disk.io.c:sis_disk_ctrl_write_sdict","src/core/sis_utils.c:sis_sdbinfo_to_json","src/core/disk/sis_disk_ctrl.c:sis_disk_reader_set_sdict",D+":sis_dynamic_db_create",D+":sis_dynamic_field_create"])
N="src/core/disk/sis_disk.io.sno.c"
p("A subscriber to a file of records hears all records in the order of writing",
  "A subscriber to everything in a file that keeps records in order hears the records of all sessions of writing, each once, in the order in which they were written and under the names of their key and table, until it ends the subscription; it is told that it broke off exactly if it did.",
  "every history of sessions of writing, every size of a page, every subscriber","histories are unbounded and pages are cut by size; the failing ones need a second start or a changed table",[N+":sis_disk_io_write_sno",N+":sis_disk_io_sub_sno",N+":cb_sis_disk_io_read_sno",W+":sis_disk_writer_sno",R+":sis_disk_reader_sub_sno"])
p("A subscriber to some keys and tables hears exactly their records in order",
  "A subscriber to a list of beginnings of keys and a list of tables hears exactly the records of such a key and such a table, of all sessions of writing, in the order in which they were written, until it ends the subscription.",
  "every history of sessions of writing, every size of a page, every list of keys and tables, every subscriber","records of several keys and tables are put together again page by page, histories and lists are unbounded; the failing ones need an index of several blocks",[N+":sis_disk_io_sub_sno_part",N+":_disk_io_sub_sno_parts",N+":sis_disk_sno_rctrl_push",N+":sis_disk_io_write_sno_widx",N+":sis_disk_io_read_sno_widx"])
p("Reading a key and a table of a file of records gives their records in order",
  "Reading a key and a table from a file that keeps records in order gives the bytes of exactly their records, of all sessions of writing and in the order in which they were written, and nothing if there are none.",
  "every history of sessions of writing, every key and table","histories are unbounded; the failing ones need a table whose records changed their size",[R+":sis_disk_reader_get_obj",R+":_disk_reader_get_sno_obj",N+":sis_disk_io_write_sno"])
U="src/core/sis_utils.c"
p("The text of records has their values",
  "The text returned for records is a JSON array with the values of each record, element by element and in the order of the fields; a single record is not put into an array of its own, and no record gives no answer.",
  "every table, every number of records, all values","tables, numbers of records and values are unbounded; the failing ones need a week time, a number of three bytes or the smallest number of 64 bits",[U+":sis_sdb_to_array_sds","src/core/sis_dynamic.h:sis_dynamic_field_to_array","workers/sisdb/sisdb_io.c:sisdb_io_get_chars_sds"])
p("Records given as an array are stored with their values",
  "Setting a JSON array of rows, or one row, stores one record for each row, and each field of it holds the value at its place in the row; a row that does not fit the table is refused.",
  "every table, every number of rows, all values","tables, rows and values are unbounded; the failing ones need a row of the wrong length or a field of several elements",[U+":sis_array_to_struct_sds","src/core/sis_dynamic.h:sis_dynamic_field_json_to_struct","workers/sisdb/sisdb_io.c:sisdb_io_set_chars"])
p("The text of records can be stored again",
  "Storing the text that was returned for records stores the same records.",
  "every table, every number of records, all values","tables and records are unbounded; the failing ones need unsigned numbers from 2^63 on, backslashes, bytes behind the end of a text or a field of several elements",[U+":sis_sdb_to_array_sds",U+":sis_array_to_struct_sds"])
p("A record given as an object has the values given under the names of its fields",
  "Setting a JSON object stores one record in which each element of a field holds the value given under its name, whatever the order of the members and the case of the names; elements that are not given are zero.",
  "every table, every list of members","tables and members are unbounded; the failing ones need a point or a number in the name of a field",[U+":sis_json_to_struct_sds","src/core/sis_dynamic.h:sis_dynamic_field_json_to_struct"])
p("Selected fields in binary are the bytes of these fields",
  "A query for some fields in binary gives, record by record, the bytes of exactly the elements named, in the order of the names; names of no field add nothing.",
  "every table, every list of names, every number of records","lists of names are unbounded; the failing ones name an element that is not there, and read outside of the records",[U+":sisdb_sdb_struct_to_sds",D+":sis_dynamic_db_get_field","workers/sisdb/sisdb_io.c:sisdb_io_get_sds"])
p("Selected fields as text are the values of these fields",
  "A query for some fields as text gives, record by record, the values of exactly the fields named, in the order of the names; in the answer as an object the column of each field is the place of its value in the rows.",
  "every table, every list of names, every number of records","lists of names are unbounded; the failing ones have an unknown name or a field of several elements",[U+":sis_sdb_fields_to_array_sds",U+":sis_sdb_fields_to_json_sds"])
V="src/core/sis_csv.c"
p("The CSV text of records has their values",
  "A query for records as CSV gives one line for each record, with the values of its elements in the order of the fields and a comma between them, behind a line with the names of the columns; with a list of fields it gives exactly these columns.",
  "every table, every number of records, every list of fields, all values","tables, numbers of records and values are unbounded; the failing ones need an empty text in the first column, a week time, a long number or an unknown field",[V+":sis_csv_make_str",V+":sis_csv_make_double","src/core/sis_dynamic.h:sis_dynamic_field_to_csv",U+":sis_sdb_to_csv_sds","src/core/sis_db.c:sis_db_struct_to_csv_sds",U+":sis_sdb_fields_to_csv_sds"])
p("A CSV file is opened with all its lines and columns",
  "Opening a CSV file gives all its lines, however the reads from the file are cut; each column is the text between the separators, a name of the first line stands for its column, and an unknown name gives nothing.",
  "every file, every way in which reading it is cut into pieces, every separator","files and cuts are unbounded; the failing ones need a last line without an end or a quoted column",[V+":sis_file_csv_open",V+":_sis_file_csv_parse",V+":sis_file_csv_get_str",V+":sis_file_csv_get_head"])
p("A subscriber to a CSV file is called once for each line, in order",
  "Reading a CSV file line by line calls the subscriber once for each line, in the order of the file and with the columns of the line; numbers in columns are read as they are written.",
  "every file, every way in which reading it is cut into pieces","files and cuts are unbounded; the failing ones need a last line without an end or a column of 64 bytes",[V+":sis_file_csv_read_sub","src/core/sis_csv.h:SIS_CSV_GET_INT"])
p("Records written as CSV are read back with their values",
  "A file with the CSV text of records, when it is opened, has a line for each record, with the value of each element under its name.",
  "every table, every number of records, all values, every way in which reading the file is cut into pieces","tables, records and cuts are unbounded; the failing ones need a comma or a blank in a text, or two columns of the same name",[V+":sis_file_csv_open",V+":sis_file_csv_get_str",U+":sis_sdb_to_csv_sds","src/core/sis_db.c:sis_db_struct_to_csv_sds"])
B="workers/sisdb/sisdb.c"
I="workers/sisdb/sisdb_io.c"
M="workers/sisdb/sisdb_fmap.c"
p("A series is what was sent and not deleted",
  "After a table with a time was defined, rows were sent for a key of it as text, one by one or several at once and in any order, and rows of some times were deleted, a query for a time, a range of times or the latest row is answered with the rows that were sent and not deleted since, in the order of their times; rows of the same time are in the order in which they came.",
  "every definition of a table, every history of sets and deletes with any other commands between them, every query","histories, tables and queries are unbounded; the failing ones need a first batch out of order or a table without times",[B+":cmd_sisdb_create",B+":cmd_sisdb_set",B+":cmd_sisdb_get",B+":cmd_sisdb_del",I+":sisdb_io_set_chars",I+":sisdb_io_get_chars_sds",I+":sisdb_io_del",M+":sisdb_fmap_cxt_update"])
p("All formats show the same rows",
  "A query finds the same rows whatever format is asked for: as arrays, as an object, as bytes from which the values can be read, or as CSV lines; if it names columns, the answer has exactly these columns of these rows, in the order they are named.",
  "every history of commands as in C96, every query, every list of columns","histories, queries and lists of columns are unbounded; the failing ones need an empty text in the first column or an unknown name",[B+":cmd_sisdb_get",I+":sisdb_io_get_sds",I+":sisdb_io_get_chars_sds","src/core/sis_db.c:sis_db_get_format_from_node"])
p("Commands about other tables and series do not matter",
  "The answers to commands about a table and one of its series, and to any query of that series, are the same whether commands about other tables and series are executed between them or not.",
  "every sequence of commands of any clients","interleavings of commands are unbounded",[B+":cmd_sisdb_create",B+":cmd_sisdb_set",B+":cmd_sisdb_bset",B+":cmd_sisdb_del",M+":sisdb_fmap_cxt_get",M+":sisdb_fmap_cxt_setdb"])
p("A refused command changes nothing",
  "If a command is answered with an error, the answer to any query is the same as before it.",
  "every state of the database, every command, every query","states and commands are unbounded; the failing one leaves an empty series",[B+":cmd_sisdb_set",B+":cmd_sisdb_bset",I+":sisdb_io_set_chars",I+":sisdb_io_update",M+":sisdb_fmap_cxt_update"])
p("Every command of a client is answered",
  "No create, set, bset, get or del that a client can send stops the server; each is answered.",
  "every state of the database, every command","commands are unbounded; the failing ones name a table that is not there or have no content",[B+":cmd_sisdb_set",B+":cmd_sisdb_bset",B+":cmd_sisdb_del",M+":sisdb_fmap_cxt_getdb_of_key"])
S="src/core/disk/sis_disk.io.sic.c"
p("A file of compressed records is read with all its records in order",
  "After a file of compressed records was written in any number of sessions, a subscriber hears the records of all sessions in the order in which they were written, those whose key and table it asked for, with the names under which key and table were first given, and with the same number or text in each field.",
  "every history of sessions, of keys, tables and records, every subscription","histories, tables and records are unbounded; the failing ones give a table or key after the start, make a text empty, have long records or no stop",[S+":sis_disk_io_write_sic",S+":sis_disk_io_sub_sic",S+":sis_disk_io_write_sic_widx",S+":sis_disk_io_read_sic_widx","src/core/disk/sis_disk_write.c:sis_disk_writer_sic","src/core/disk/sis_disk_read.c:sis_disk_reader_sub_sic"])
p("A subscriber to a file of compressed records that ends its subscription hears no more",
  "When a subscriber ends its subscription to a file of compressed records while it is called with a record, it hears no further record, and it is told that it broke off exactly if it did so.",
  "every history of sessions, every subscription, every moment at which it is ended","files and the moments at which a subscription can end are unbounded; the failing ones end it inside a block",[S+":sis_disk_io_sub_sic",S+":cb_sis_disk_io_read_sic",S+":cb_incrzip_decode_sic","src/core/disk/sis_disk_read.c:sis_disk_reader_unsub"])
p("Merging the files of a year changes nothing a reader sees",
  "When the blocks of the file of a year are merged into one for each key and table, every query for records and values is answered as before, and later writes replace the records they would have replaced without the merge.",
  "every history of sessions and merges, every year, every query","histories and files are unbounded; the failing ones declare a key after the first records of the year or write a day again after the merge",["src/core/disk/sis_disk.io.c:sis_disk_ctrl_merge","workers/sisdb_wsdb/sisdb_wsdb.c:cmd_sisdb_wsdb_merge","src/core/disk/sis_disk_read.c:sis_disk_reader_get_obj"])
p("No call of the database writer leaves its memory",
  "Opening a database, declaring keys, defining tables, writing values and records, removing marks and closing, in any order, reads and writes only memory that belongs to it and comes to its end, whatever is in the database already and however large the files become.",
  "every history of the database, every sequence of calls","sequences of calls are unbounded; the failing ones need a definition with a field that comes twice or a block without records",[W+":sis_disk_writer_sdb",W+":sis_disk_writer_one",W+":sis_disk_writer_mul",W+":sis_disk_writer_set_kdict",W+":sis_disk_writer_set_sdict",W+":sis_disk_writer_close"])
p("What clients wrote is there after a save and a start",
  "When the server is saved and started again on its files, every query is answered as it was before the save.",
  "every sequence of commands, every query","commands and files are unbounded; the failing ones send rows to a key only once, ask for an exact time or the latest rows, have an index that is no time, or are saved again",["workers/sisdb/sisdb_fmap_write.c:sisdb_fmap_cxt_save","workers/sisdb/sisdb_fmap_write.c:_disk_save_fmap_sdb","workers/sisdb/sisdb_fmap.c:sisdb_fmap_cxt_init","workers/sisdb/sisdb_fmap_read.c:sisdb_fmap_cxt_read_data","workers/sisdb/sisdb.c:cmd_sisdb_get"])
F="src/core/sis_conf.c"
p("A configuration is read as it is written",
  "A configuration file, or an object given as text, with numbers, words, texts in quotes, arrays and objects nested to any depth, laid out with blanks and comments as one likes and with files included in it, is read as the document it stands for: every member with its name, kind and value, in order, those of an included file in the place of the include.",
  "every document, every layout, every set of files","documents, layouts and includes are unbounded; the failing ones have a blank in quotes, a word that begins with a digit, an empty text, an include in an included file, or are cut off",[F+":sis_conf_open",F+":sis_conf_load",F+":_sis_parse_value",F+":_sis_parse_include"])
p("Reading a configuration comes to an end inside its text",
  "Whatever is in a configuration file or text, reading it comes to an end with a document or a refusal, and nothing but the text is read.",
  "every sequence of bytes, every set of files","texts are unbounded; the failing ones end within a name or include themselves",[F+":sis_conf_open",F+":sis_conf_load",F+":_sis_parse_key",F+":_sis_parse_include"])
p("A script is run object by object",
  "When a script file is run, each object in it is executed exactly once, in the order of the file, with the document it stands for, whatever the pieces in which the file is read.",
  "every script, every way in which reading the file is cut into pieces","scripts and cuts are unbounded; the failing ones have a bracket in quotes or a name without a value",[F+":sis_conf_sub",F+":sis_conf_get_match_sign",F+":sis_conf_load"])
L="workers/subdb/subdb.c"
p("A client of live data hears whole sessions",
  "What a client of the live data service receives is a sequence of sessions: the day, the keys and tables, the day again, then records, then the end with that day. Records come only in a session of the day that is started; an accepted record reaches exactly the subscribers with a subject that covers it; a stop reaches every subscriber once; a connection that is not subscribed receives nothing.",
  "every sequence of commands of the source and of any clients","sequences and interleavings are unbounded; the failing ones stop a day before its first record",[L+":cmd_subdb_start",L+":cmd_subdb_pub",L+":cmd_subdb_stop",L+":cmd_subdb_sub",L+":cmd_subdb_unsub",L+":_subdb_reader_init"])
p("A client of live data is told the keys and tables it will hear of",
  "At the beginning of a session a client is told the keys and the tables of the source that its subjects ask for, and every record it receives is of a key and a table it was told.",
  "every sequence of commands, every list of keys and tables, every subject","lists and subjects are unbounded; the failing ones have a table whose name begins another, a star alone, a second subject or lists given again",[L+":_subdb_reader_init",L+":subdb_userinfo_incr","src/core/sis_utils.c:sis_match_key","src/core/sis_utils.c:sis_match_sdb_of_sds"])
p("No command stops the live data service",
  "Whatever commands the source and the clients send, in any order, the service answers each and reads only memory that belongs to it.",
  "every sequence of commands","sequences of commands are unbounded; the failing ones give a list of tables that is refused or no text, or have a long subject",[L+":cmd_subdb_set",L+":cmd_subdb_pub",L+":_subdb_reader_init"])
G="workers/sisdb_flog/sisdb_flog.c"
p("What is written to the log of requests is heard again",
  "Whoever subscribes to a log hears the date, every message written to that log since it was created or removed, as it was written and in order, and the date again, whatever sessions, other logs, crashes and restarts lie between; after a crash at most messages at the end are missing that had not reached the disk completely. A removed log is silent. A command is answered with success only if it did what it says.",
  "every history of commands, crashes at every byte, restarts and days","histories and crash points are unbounded; the failing ones die within the first sixteen bytes or a size field, have a configured directory, or a file that cannot be created",[G+":cmd_sisdb_flog_open",G+":cmd_sisdb_flog_write",G+":cmd_sisdb_flog_sub",G+":cmd_sisdb_flog_remove","src/core/disk/sis_disk_files.c:sis_disk_files_open","src/core/disk/sis_disk.io.c:sis_disk_ctrl_write_start","src/core/disk/sis_disk.io.log.c:sis_disk_io_sub_log"])
A="workers/memdb/memdb.c"
p("The data set in memory holds the last text of every subject, and hands on what is published",
  "Whoever is logged in and asks for a subject gets one answer with the text that was set last for that subject by a client that may write, or that there is none; sets to other subjects, subscriptions and published messages change nothing. A published message reaches every subscriber of its subject once, as it was published, and nobody else. No client takes the texts or the subscriptions of others away.",
  "every sequence of requests of any clients, every subject and text","sequences and texts are unbounded; the failing ones have a zero byte, subjects that differ in case, or an init sent by a client",[A+":cmd_memdb_get",A+":cmd_memdb_set",A+":cmd_memdb_pub",A+":cmd_memdb_sub",A+":cmd_memdb_unsub",A+":cmd_memdb_init",A+":memdb_unit_create","workers/sisdb_server/sisdb_server.c:cb_reader_recv","workers/sisdb_server/sisdb_sub.c:sisdb_sub_cxt_pub"])
K="workers/sisdb_client/sisdb_client.c"
p("The client brings every answer to its own question, and keeps its subscriptions across connections",
  "A question that the client takes is sent as it was asked, with a number of its own. Its callback is called, or the call that waits for it comes back, exactly when a message with that number comes, with what that message says; once for a question, every time for a subscription. A client that is not connected and logged in refuses questions, and says so when asked. When the connection comes back and the login succeeds, every subscription that is in force is sent again, once, and a question that was open is asked again or ended. Threads may ask at the same time.",
  "every sequence of connections, disconnections, logins, messages, questions and cancellations, every text, every interleaving of asking threads","lives and interleavings are unbounded; the failing ones have threads that ask at the same moment, sixteen million questions, subscriptions without a service or without login, or a published text that passes through the data set in memory",[K+":_cb_recv",K+":_cb_connected",K+":_cb_disconnect",K+":sisdb_client_ask_cmd",K+":sisdb_client_ask_get",K+":sisdb_client_ask_unsub",K+":sisdb_client_send_ask",K+":cmd_sisdb_client_bytes_wait",K+":cmd_sisdb_client_status"])
H="src/core/net/sis_net.ws.c"
p("The digest of a text is its SHA-1 in Base64",
  "For every text the digest is the Base64 of the SHA-1 of the text as the standards define them, 28 signs of which the last is an equals sign, whatever the memory held before.",
  "every text of every length, every content of uninitialised memory","texts are unbounded; the failing ones are longer than any test would use",["src/core/sis_sha1.c:sis_shacalc"])
p("The handshake of websockets follows the RFC, whatever arrives in which pieces",
  "A server answers every request to open a websocket, cut into pieces in any way, with the answer that RFC 6455 asks for, once and to the client that asked; names of headers count without case; requests that it refuses are answered with a refusal or by closing the connection; messages behind the request come out. A client of this code asks as the RFC says and takes only the answer to its own key. Both find each other.",
  "every request, every cut into pieces, every content of the memory before","requests, cuts and contents of memory are unbounded; the failing ones depend on what freed memory held",[H+":sis_net_ws_head_complete",H+":sis_net_ws_get_key",H+":sis_net_ws_get_ans",H+":sis_net_ws_get_ask",H+":sis_net_ws_chk_ans","src/core/net/sis_net.c:sis_ws_recv_hand_ask","src/core/net/sis_net.c:sis_ws_match_hand_ans","src/core/net/sis_net.c:cb_server_recv_after","src/core/net/sis_net.c:cb_client_recv_after","src/core/sis_memory.c:sis_memory_cat"])
S="workers/snodb/snodb.c"
R="workers/snodb/snodb_reader.c"
p("A subscriber of the stream of a day gets the day's packets, in order and without gap",
  "A connection that subscribes to a stream is told, when something is published, that the day starts and which keys and tables there are, then gets the packets of that day in order and without gap, the first of which begins a block: from the first block if it asked for the head, else from the latest one; its data is made with the keys and tables it was told. When the day stops it has got everything and is told so, and nothing comes behind. Subscriptions that are answered with success take effect. No command reads memory that is not the service's.",
  "every history of commands, every packet, every interleaving of subscribers' threads, source and compressor","histories and interleavings are unbounded; the failing ones stop while someone is behind, subscribe twice, pass midnight or start without stop",[S+":cmd_snodb_start",S+":cmd_snodb_stop",S+":cmd_snodb_pub",S+":cmd_snodb_zpub",S+":cmd_snodb_sub",S+":cmd_snodb_set",S+":cb_input_reader",R+":cb_output_reader",R+":cb_output_reader_send",R+":snodb_reader_realtime_start",R+":snodb_reader_realtime_stop",R+":snodb_register_reader",R+":snodb_remove_reader",R+":cb_decode"])
D="workers/snodb/snodb_disk.c"
p("What is published to the stream of a day is in the file of the day, and survives a crash in its log",
  "A stream with a log writes every packet of a day, behind the keys and tables it is made with, into the log of that day, from the first that begins a block, in order; when the day is stopped the file of the day holds all of it and the log is removed; files and logs of other days are not touched. After a crash the records that had reached the disk are still in the log, the day goes on behind them, and subscribers get the whole day.",
  "every history of days, packets and subscriptions, every interleaving of the thread that writes the log, a crash at every record","histories, interleavings and crash points are unbounded; the failing ones stop before the log's thread has read all, start a day again, do not stop it or pass midnight",[S+":cb_wlog_reader",S+":cmd_snodb_start",S+":cmd_snodb_stop",S+":snodb_init",D+":cb_snodb_wlog_load",D+":snodb_wlog_load",D+":snodb_wlog_save",D+":snodb_wlog_to_snos"])
I="workers/sisdb_server/sisdb_incr.c"
N="workers/sisdb_wsno/sisdb_wsno.c"
p("The file of a day holds the records that were published on that day, under their names",
  "When the log of a day is turned into the file of that day, who reads the file gets exactly the records that were published, in order, with the numbers and texts they had and under the names of the keys and tables they were published with: all records of a day that ended in order, and after a crash all that came before the last pause whose packets reached the log; also if the process ran several times on that day. Making the file never fails in a way that loses the log or stops the program.",
  "every list of keys and tables, every sequence of records and pauses, every point at which the process stopped, every number of times it ran on that day","sequences, sizes and crash points are unbounded; the failing logs have other keys behind a restart, no packet at all, or a file that cannot be opened",[I+":sisdb_incr_zip_set",I+":sisdb_incr_zip_start",I+":sisdb_incr_zip_restart",I+":sisdb_incr_zip_stop",I+":sisdb_incr_unzip_start",I+":sisdb_incr_unzip_set",I+":sisdb_incr_set_keys",I+":sisdb_incr_set_sdbs",N+":sisdb_wsno_start",N+":sisdb_wsno_stop",N+":_write_wsno_head",N+":cb_decode",N+":cb_sub_incrzip",D+":snodb_wlog_to_snos"])
W="src/core/sis_mul_worker.c"
p("A list of tasks with one thread runs every task once and in order, and waiting for it means they are done",
  "Tasks given to a list with its own thread begin in the order they were given, each once and not before the one before it has ended; none stays behind; a call that waits for the list returns only when all tasks given before the call have ended; and the list can be destroyed at any time after that without memory being used that was freed.",
  "every history of tasks, waits and the destruction, every interleaving of the callers and the thread","interleavings are unbounded; the failing ones read two counters in the wrong order, or destroy the list in the few instructions after a task has ended",[W+":sis_worker_tasks_create",W+":sis_worker_tasks_destroy",W+":sis_worker_tasks_add_task",W+":sis_worker_tasks_wait",W+":_thread_worker",W+":_sis_worker_tasks_read"])
p("A group of threads runs the tasks of a name in order, and waiting for the group means they are done",
  "Tasks given to a group of threads under a name or a number run, those of one name in the order they were given, each once and not before the one before it of that name has ended; none stays behind; a call that waits for the group returns only when the tasks given before the call have ended; when the group is destroyed every task has run.",
  "every number of threads, every history of tasks, names, waits and the destruction, every interleaving of the callers and the threads","interleavings are unbounded; the failing ones destroy the group before a thread has looked at its list, or give it tasks from running tasks",[W+":sis_mul_worker_cxt_create",W+":sis_mul_worker_cxt_destroy",W+":sis_mul_worker_cxt_add_task",W+":sis_mul_worker_cxt_add_task_i",W+":sis_mul_worker_cxt_wait","src/core/sis_math.h:sis_get_hash"])
B="src/core/sis_db.c"
p("The records of many keys are played back in the order of time, all of them and none twice",
  "Records of several keys and tables, each key's handed in by time, before the start or when the client is told that a key ran out, are told to the client each once, under the names they were handed in with, those of a key in the order handed in and those of all keys in the order of their times, also when the tables count time in different units; between the announcement of the start and that of the end, which comes by itself. A playback can be stopped, started and destroyed at any time.",
  "every number of keys, tables and records, every time and unit, every division into pieces handed in later","keys, records and pieces are unbounded; the failing ones hand in a piece while another key waits, make a table known late, or stop before the start",[B+":sis_subdb_cxt_create",B+":sis_subdb_cxt_destroy",B+":sis_subdb_cxt_clear",B+":sis_subdb_cxt_set_sdbs",B+":sis_subdb_cxt_push_sdbs",B+":_subdb_cxt_set_msec",B+":_subdb_cxt_sub_data",B+":_thread_subdb_cxt_sub",B+":sis_subdb_cxt_sub_start",B+":sis_subdb_cxt_sub_stop","src/core/disk/sis_disk_read.c:sis_disk_reader_sub_sdb"])
K="src/core/disk/sis_disk_read.c"
p("A subscription to a key of a database on disk tells exactly what a read of it returns",
  "Who subscribes to a key and a table of a database on disk for a range of time is told of the start, then the records that a read of the same range returns, in that order, one by one and each once, under the name of the key and the table, and of the end; the call returns by itself. This holds for whatever was written in any sessions before.",
  "every history of sessions, every key, table and range of time","histories, numbers of files and of blocks are unbounded; the failing ones have a dot in a key, changed the size of a table's records, or have no record",[K+":sis_disk_reader_sub_sdb",K+":_disk_reader_sub_work",K+":cb_key_stop",K+":sis_disk_reader_filters",K+":sis_disk_reader_make_sdb",K+":sis_disk_reader_get_obj",B+":sis_subdb_cxt_push_sdbs","src/core/sis_str.c:sis_str_divide"])
T="src/core/sis_dict.c"
p("Going through a dictionary by a cursor misses no key that was there all the time, whatever is done in between",
  "Calls that start with the cursor 0 and hand in each time the cursor they got always return and tell only entries the dictionary holds at the time of the call. When the cursor 0 comes back, every key that had a value at each of the calls has been told, also if between the calls keys were set, removed and looked up, the dictionary was cleared, grew or was made smaller, and also in the middle of its growing. If nothing was done in between, the cursor 0 does come back, and every key was told exactly once with its value.",
  "every history of the dictionary, every key, every thing done between any two calls","histories and the sizes of the tables are unbounded; whether a key is missed depends on the slots it had at each call",[T+":sis_dict_scan",T+":_dict_reverse",T+":sis_dict_resize",T+":_dict_rehash_step"])
K="src/core/sis_nodelist.c"
p("Linked lists are sequences, from both ends and in the middle, and no memory is lost",
  "Linked lists behave as sequences of values: adding at either end, before or after an element, removing an element, clearing, rotating, joining two lists, copying a list and going through it in either direction while removing the element that was reached all do to the sequence what they say; the size, the element at an index from either end and a search agree with it. Elements handed out stay valid until they are removed. A value is handed to the method that frees it exactly when its element is removed, and the memory in use is that of the elements.",
  "every number of lists, every history of calls, every address memory is given at","histories are unbounded; broken links show only in later calls; the failing ones join a list to itself or ask for the smallest index",[K+":sis_list_create",K+":sis_list_clear",K+":sis_list_add_node_head",K+":sis_list_push",K+":sis_list_insert_node",K+":sis_list_delete",K+":sis_list_get_iter",K+":sis_list_next_iter",K+":sis_list_dup",K+":sis_list_search_key",K+":sis_list_get",K+":sis_list_rotate",K+":sis_list_join"])
S="src/core/sis_sds.c"
p("Arguments that are quoted and joined are split back into exactly the same arguments",
  "Any list of byte strings, each put into double quotes by the call for that, into single quotes, or left as a plain word, and joined by blanks, is split by the call that splits a command line into exactly these strings, also if they hold zeros, quotes, backslashes, line ends or bytes that cannot be printed; the quoted text itself holds no zero. A line with quotes that are not closed, or with something directly behind closed quotes, is refused as a whole. Whatever separates quoted arguments also separates plain ones. Every line is split or refused: the call ends.",
  "every list of byte strings, every way of writing each of them, every blanks between, before and behind them, every line","byte strings and lists are unbounded; whether an escape is read back depends on the bytes that follow it",[S+":sis_sdscatrepr",S+":sis_sdssplitargs",S+":sis_sdsjoinsds",S+":is_hex_digit",S+":hex_digit_to_int"])
H="src/core/sis_sds.h"
p("Strings hold exactly the bytes that were put into them, however they grow and shrink",
  "A string made of any bytes, to which bytes are appended, which is overwritten, grown with zeros, given more room, cleared, stripped of its free room, copied, cut to a range of positions from either end and trimmed at both ends of the bytes given, in any order, always has the length and the bytes these calls say, with a zero behind them; no call reads or writes outside of the memory of the string. When room was asked for, there is that much room. A string can be appended to itself.",
  "every first content, every history of calls, every content and size given to them","histories and sizes are unbounded; the header of a string changes its form at 32, 256, 65536 and 2^32 bytes, and a length that does not fit would be cut silently; the failing calls append a string to itself, cut to a range that ends before the first byte or at the last position there can be, or trim a string with zeros",[S+":sis_sdsnewlen",S+":sis_sdsdup",S+":sis_sdsclear",S+":sis_sds_addlen",S+":sis_sds_remove_freespace",S+":sis_sdsgrowzero",S+":sis_sdscatlen",S+":sis_sdscatsds",S+":sis_sdscpylen",S+":sis_sdsrange",S+":sis_sdstrim",S+":sdsReqType",H+":sis_sdslen",H+":sis_sdsavail",H+":sis_sdssetlen",H+":sis_sdssetalloc",H+":sis_sdsalloc"])
p("A text with arguments is appended to a string exactly as its format says",
  "The fast call that appends a format with arguments to a string appends exactly the bytes of the format, with each argument in its place: texts and strings byte for byte (a string also with zeros in it), signed and unsigned numbers of 32 and 64 bits as their decimal text, and the byte behind any other percent sign as it is. What the string held before stays, the length is right and a zero follows, no call writes outside of the memory of the string or of the buffer for numbers, and the string can be used on by any other call. Any number and any format can be given.",
  "every content and history of the string, every format, every list of arguments of the types the format names, every calls afterwards","formats, arguments and strings are unbounded; the room is checked piece by piece and the header changes its form in between; the failing formats end with a percent sign or are given the smallest number",[S+":sis_sdscatfmt",S+":sis_sdsll2str",S+":sis_sdsull2str",S+":sis_sds_addlen",H+":sis_sdsinclen",H+":sis_sdsavail"])
p("Bytes split at a separator are complete, and joined strings are split back",
  "Bytes split at a separator of any length give strings that, joined with the separator, are exactly these bytes; the separators are found from the left, and none is left over within the strings. The array of strings is never left, however many there are. Strings joined with a separator that does not occur in them are split into the same strings. Without a separator nothing is split.",
  "every bytes, every separator, every list of strings","bytes and separators are unbounded; separators can overlap each other and themselves, and the array grows while it is filled; the failing list is that of one empty string",[S+":sis_sdssplitlen",S+":sis_sdsjoinsds"])
p("Strings are ordered by their bytes, and their bytes can be replaced one by one",
  "The comparison of two strings reads nothing but their bytes and says zero exactly if they are the same, and otherwise which of them comes first: the beginning of the other, or the one with the smaller byte, as a number from 0 to 255, where they first differ. This is an order of all strings, also with zeros in them. Replacing bytes by pairs changes every byte that begins a pair into the second of the first such pair, changes no other byte, and never replaces a byte twice; making small or capital letters does that for the 26 letters. The string can be used on by any other call.",
  "all contents and histories of the strings, every list of pairs, every calls afterwards","contents and lists are unbounded; an order has to hold for every two and every three strings",[S+":sis_sdscmp",S+":sis_sdsmapchars",S+":sis_sdstolower",S+":sis_sdstoupper"])
with open('/verif/properties.jsonl','w') as f:
    for x in P: f.write(json.dumps(x,ensure_ascii=False)+"\n")
print(len(P))
