# Formal model of seerline/sisdb: design

## Trusted base

* Lean 4.33.0's kernel.  The axioms each theorem depends on are in AXIOMS.md, printed by Lean: at most `propext`,
  `Classical.choice` and `Quot.sound`.  No axioms of our own, no `sorry`, no `native_decide` or `bv_decide`; `decide +kernel`
  is used for concrete witnesses only, and is checked by the kernel.
* The faithfulness of the hand-written model to the C sources in `/repo`.  Every definition cites the file and lines it models and
  says what it simplifies.  COVERAGE.md lists the functions that are modelled and those that are not, file by file.
* The specification files (`*Spec.lean`) and the statements of the property theorems, which have to be read.
* The platform: a 64-bit little-endian machine, `size_t` of 64 bits, `int` of 32 bits in two's complement, `char` of 8 bits,
  signed, `malloc` never fails, and memory that is used after it was freed, or outside of its bounds, is undefined behaviour.
* The C library and other libraries, where they are not modelled: what `printf` and `strtod` make of floating point numbers is a
  parameter (`Rec.Fl`), with what is assumed of it in the hypotheses of the theorems; so is what the snappy library returns
  (`Sdb.Lib`), of which it is only assumed, where a theorem says so, that it unpacks what it packed.  Files are sequences of bytes, with reads
  that may be cut anywhere; libuv is what calls the modelled callbacks, in any order that its documentation allows.
* Threads: a region under a mutex is one atomic step, other reads and writes of shared words are atomic steps in program
  order (sequential consistency, `Sync`, `Net`).  Weaker memory models are not covered.

What is not modelled at all: the event loop of the net layer, the commands of the workers besides those of
`sisdb`, `sisdb_server`, `sisdb_fmap`, `sisdb_flog`, `memdb`, `subdb`, `snodb`, `sisdb_wsno` and `sisdb_client` and the merge of `sisdb_wsdb`, DBF and INI files, logging, and `src/core/ai`.

## Conventions

* A C function becomes a total Lean function. Where the C has undefined behaviour (reading outside a buffer, NULL
  dereference, use after free) the model has a distinct outcome (`none`/`ub`), never a silent default.
* A component is a directory: a file named after what it models (the code), `*Spec.lean` (an independent specification where one
  is needed), `*Lemmas.lean` (helper facts) and `*Theorems.lean` (the property theorems with non-vacuity examples).
* When the code violates a property, the negation is proved with a concrete witness (`*_violated`), and the part
  that does hold is proved as `*_partial`; the manifest status is then `partial`.

## Plan per property

| id | what is modelled | how it is proved |
|----|------------------|------------------|
| C01 | `sis_memory_cat_ssize`, `get_ssize`, `cat_byte`, `get_byte` on byte lists | round-trip law, case split on 5 length classes |
| C02 | `sis_memory_try_ssize` | iff with an independent "complete encoding" predicate; prefix-freeness |
| C03 | `s_sis_memory` {buffer,size,maxsize,offset} and its operations | refinement to an abstract byte queue, induction over operation list |
| C04 | `sis_bits_stream_put/get` on a byte buffer with the real shift/mask loops | bit-level characterisation, induction over the list of fields |
| C05 | put/get_sint, short, uint | round trip over the abstract bit stream |
| C06 | put/get_int, incr_int | round trip for all but INT64_MIN; violation witness at INT64_MIN |
| C07 | charcmp, put/get_incr_chars | round trip; violation for empty after non-empty |
| C08 | incrzip compress/uncompress, integer + char fields (floating point not modelled) | induction over records with the per-(key,table) memory as simulation relation; violations for texts that become empty, an empty first text, a change by 2^63 and records too wide for the buffer |
| C09 | incrzip start/step/restart/addkey/stop and uncompress start/step | simulation between both sides along any history, pending block as bits still to be read; negations for a first bag with two records, negative keys, reuse after a whole block and records too wide |
| C10 | bag counter | round trip up to 2^31-1 behind any bits; violation from 2^31 on |
| C11 | fmap goto hint, `cmp_same`, `cmp_where` | loop invariants over sorted lists with arbitrary hint |
| C12 | `cmp_range`, `range_head`, `range_tail` | same |
| C13 | `find_tail`, `vlist_add`, `mindex_update` | sortedness and permutation by induction over the history |
| C14 | `mindex_update` | negation witness, positive part |
| C15 | `solely_update` | negation witness, positive part |
| C16 | `tsdb_del` | filter characterisation |
| C17 | `del_idx` | negation witness, positive part for deletes inside one entry |
| C18 | `calc_nots_count` | negation witness, positive part |
| C19 | log write, `seek_log` | any byte prefix of an encoded log parses to the longest record prefix |
| C20 | `read_fulltext` | positive for records of at least 2 payload bytes, negation for short final record |
| C21 | chunked reading | refinement to unchunked parse under condition; negation |
| C22 | request loop with write-ahead log, save, restart | invariant over request/crash histories; negation inside save window |
| C23 | write_one/mul, index, reader | refinement to a key→value map |
| C24 | merge_sdb, write_sdb, reader | negation, positive for non-overlapping or covering blocks |
| C25 | widx write/read | round trip |
| C26 | map write/read | negation for deletion marks, positive for presence marks |
| C27 | sdb_year, sdb_date splitting | partition correctness; negation for msec multi-day |
| C28–C30 | ws pack/unpack | round trip, prefix theorem, stream segmentation; UB witness |
| C31, C32 | encoded/decoded normal, relay | round trip under stated conditions; negations |
| C33 | net_mems, net_nodes (Net/Queue) | refinement to a FIFO queue over call histories, for packets and for bytes; negations for pieces over 16 MB and for a read in the middle of a round |
| C34 | net_list (Net/Sessions) | table refines a map from numbers to live/closed sessions read off the call history; negations at 1024 live or waiting numbers |
| C35 | lock queue and fast queue (Sync/LockQueue, Sync/FastQueue): heap of nodes, a freed node as a distinct outcome, the fast queue in steps between two accesses to shared memory | invariant over all schedules: what left, followed by what is linked, is what was put in |
| C36 | wait queue (Sync/WaitQueue) | invariant over all schedules; negations for a handler that calls back and for a null job |
| C37 | lock list with readers and watcher (Sync/LockList), save-all and small totals | invariant: each reader's cursor against what it received; from every point the reader's thread, run alone, receives all that is due; negations for clearing and for a thread that has not looked yet |
| C38 | the same list when it recycles | invariant for readers of new messages opened behind a running watcher: the watcher's cursor is never ahead of a reader; negations (use after free) for readers from the head, on an empty list, not yet registered |
| C39 | object reference count, every access to the counter a step | invariant over schedules of any number of threads; negations for an object without pointer and for the counter going round |
| C40–C45 | containers | refinement to `List`/assoc list, negations for node_list and int_list |
| C46–C49 | access control, auth, connection close | decision logic and history invariants, negations |
| C50, C51 | subscriptions | history invariants, negation for patterns |
| C52, C53 | schema layout, conversion | layout invariant, negations |
| C54 | time units on the Gregorian calendar in a zone with a constant distance | calendar proved to step day by day; monotone by induction; negations |
| C55 | next work day | the same calendar; negation for every Friday and Saturday |
| C56 | `add_idx`, `set_idx`, `move_idx` | invariant relating index entries to the periods of the records; negations |
| C57 | `sisdb_fmap` save loop | case analysis on written/moved marks; negations |
| C58 | `read_data`, `getdata_*`, `getdata_from_disk` | simulation: memory = loaded part of the stored list; negations |
| C59 | `solely_update` without index | equality with an independent upsert |
| C60, C61 | ONE/MUL/NON read, update, delete | state machine with a read counter; negations |
| C62 | pointer array with free function | refinement to a list with the multiset of freed elements; negation for `set` |
| C63 | `sis_dict` with both tables, incremental rehash, growth, siphash and case-insensitive comparison | invariant (entries of both tables distinct and in their slots), refinement to the last set in the history |
| C64 | `sis_dict_get_iter`, `next`, `iter_free` with the read-ahead pointer | invariant on the part of the tables still to be visited; negation for deleting ahead |
| C65 | values freed by set, delete, empty | multiset of given = freed + held; negation for setting the same pointer |
| C66 | requests handled by the reader thread, subscriptions | exact characterisation of the crashing requests; negations |
| C67 | saving and loading the users file | case analysis over crash points; negation |
| C68 | JSON reader and writer, function by function (`Strs/Json.lean`) | the written text of a value is read back before any rest, mutual induction over the tree; negation |
| C69 | what the writer allocates against what it composes | induction over elements and members |
| C70 | the reader with a bound on its recursion | the bound is never reached, induction on the length; negation |
| C71 | setting and finding members | splitting the children at the first of that name; negation |
| C72 | `sis_json_object_merge` | one member at a time, then induction over the path; negation |
| C73 | message decoder with reads behind the message as a separate outcome | case analysis; negation |
| C74 | shared list with a size limit and its watcher | invariant over schedules, messages of one size; negation |
| C75 | read-write lock, one attempt a step | invariant over orders of calls: counters are the holders; negation for readers after a failed attempt to write |
| C76 | pool of wait handles | invariant over histories of calls one at a time; negation for two threads at once |
| C77 | date stepping | the same calendar; negation at time 0 |
| C78 | date and time of day to seconds and back | the same calendar; negation at time 0 |
| C79 | time and index of a record | the layout invariant of C52 with the addresses of the special fields; negation for a repeated name |
| C80 | writer sessions, reader | from the refinement of C23: every file of a history can be read; negation for keys that were not declared |
| C81 | reader over a time range | the files of the range in order by the calendar of C54 and C55, content invariant of the files; negations for tables defined anew and for whole days |
| C82 | `sis_sdbinfo_to_json`, `sis_disk_ctrl_write_sdict`, `sis_disk_reader_set_sdict`, `sis_dynamic_db_create` on JSON documents | the document of a table meets C68, so it is read as written; the fields read from it make the same table by induction over the definitions; negations for long names, quotes and 256 digits |
| C83 | files of records in order (SNO): `sis_disk_writer_sno`, `sis_disk_io_write_sno`, `_disk_io_write_sno_watch`, start, stop, close, open again, `cb_sis_disk_io_read_sno`, the list of numbered records | invariant of the writer: the blocks of the file, played from the first to the last, give the records of the pages, the buffers in memory those of the open page; by induction over calls and sessions; negations for a second start, no stop, a changed table, dots, no bytes |
| C84 | index of such a file (written and read back) and `sis_disk_io_sub_sno_part` | the blocks of a node are the pages with records of its key and table; page by page the numbered records of the wanted nodes are the wanted records of the page in order; negation for an index of two blocks |
| C85 | `_disk_reader_get_sno_obj` | the blocks of a node in order hold the records of the key and table |
| C86 | `sis_sdb_to_array_sds`, `sis_dynamic_field_to_array` and the writer of JSON texts; floating point texts are a parameter | the nodes made of the records have the text of their values, by induction over elements, fields and records |
| C87 | `sis_array_to_struct_sds`, `sis_dynamic_field_json_to_struct` behind the reader of JSON texts (C68) | the text is read as the rows it says; the writes of a row are to bytes apart from one another, so each element holds its value; negations for rows of other lengths and fields of several elements |
| C88 | both | composition; negations for values whose text says less |
| C89 | `sis_json_to_struct_sds` | the member found for a name is the first with that name in any case; negations for points and numbers in names |
| C90 | `sisdb_sdb_struct_to_sds`, `sis_dynamic_db_get_field` on names of fields and elements | induction over records and names; negation for elements that are not there |
| C91 | `sis_sdb_fields_to_array_sds`, `sis_sdb_fields_to_json_sds` | as C86 on the fields named; negations for unknown names and fields of several elements |
| C92 | `sis_sdb_to_csv_sds`, `sis_sdb_fields_to_csv_sds`, `sis_dynamic_field_to_csv`, `sis_csv_make_*` on lines and columns | induction over records, fields and elements; negations for empty first columns, week times, long numbers and unknown names |
| C93 | `sis_file_csv_open` with the memory buffer that cuts lines, `sis_file_csv_get_*` | the lines taken are those of the whole text, whatever the cuts; a line is cut at separators into its columns; negations for the last line and quotes |
| C94 | `sis_file_csv_read_sub`, `SIS_CSV_GET_INT` | as C93 with columns as they are in the text; negation for long columns |
| C95 | the two together | C92 and C93 composed; negations for commas, blanks and equal names |
| C96 | `cmd_sisdb_create`, `_set`, `_bset`, `_get`, `_del` as a step function, from the texts of commands to the texts of answers | what each command does to the rows of a series, by the theorems on fields, records and texts; induction over the history; negations for the other cases |
| C97 | the formats and columns of `cmd_sisdb_get` | C96 with C90, C91 and C92; negations |
| C98 | the same | two databases that agree on a table and a series stay so; induction over the commands |
| C99 | the same | case analysis of the commands that are refused; negation |
| C100 | the same, undefined behaviour as an outcome | from C96; negations |
| C101 | files of compressed records: writer with its compressor, blocks, index, reader with its decompressor (`Sic/Sic.lean`) | simulation between the compressor and any later decompressor with more keys and tables, kept over all calls and sessions; the index is read back by its round trip; negations |
| C102 | the same, with a subscriber that may end at any record | induction over the blocks; negation |
| C103 | the merge of a year file (`Sdb/Merge.lean`) on the model of C23 to C28 | the fold over the index of the old file is related entry by entry to the new index; the new file satisfies the invariant of C23 with one block for each entry, and histories with merges refine the content; negations |
| C104 | every call of the writer of C23 to C28 with undefined behaviour as an outcome, with removal of marks and records of keys that were not declared (`Sdb/Defined.lean`) | an invariant on dictionaries and indexes that needs no limit on sizes is kept by every call and suffices for the next and for closing; negations |
| C105 | the calls of the writer a save makes, the server started on the files, and its queries (`Io/Save.lean`), on the models of C23, C58 and C96 | an invariant of the database over the commands gives that what is saved is a history of the writer; the index and the blocks readers get from its files are the series of the server; composition with the theorems of C24, C57, C58 and C81; negations |
| C106 | the reader of configuration files and texts, with blanks, comments, includes and errors (`Conf/Conf.lean`); values and their layouts as trees (`Conf/ConfSpec.lean`) | recursion over the trees: each function of the reader stops behind the text of the tree with its document; negations |
| C107 | the same; reading behind the text and recursion without an end are no outcome | each function ends and stops inside its text, by induction over the length, with includes as a hypothesis; then induction over the files that are included; a larger bound of the recursion changes nothing; negations |
| C108 | the search for the closing bracket and the loop over the pieces of the file (`Conf/Conf.lean`) | what is taken from the memory does not depend on what follows; the search passes over the text of each tree; negations |
| C109 | the commands of the live data service (`Live/Live.lean`) on top of the subscriptions of C49-C51; specification of streams in `Live/LiveSpec.lean` | invariant over the history: the users are the members, their states follow the day, the count of readers is never above the served; the stream of each connection by induction; negation |
| C110 | `sis_match_key`, `sis_match_sdb_of_sds` and the messages for a new reader (`Live/Live.lean`) | lists of names are read back from their join, documents by C68; what is kept is what the subject asks for; negations |
| C111 | NULL, live and freed texts of the tables (`Live/Live.lean`) | invariant: with careful commands the text is never freed and is always a document; negations |
| C112 | the commands of the log worker down to the bytes of its files (`Flog/Flog.lean`), on top of C19-C21 (log files) and C31 (messages); a log as a list of messages in `Flog/FlogSpec.lean` | refinement: each file is the head and a prefix of the records, the open one exactly; what is heard is the specification's; every usual history has a run of the specification; negations |
| C113 | the methods of the data set in memory behind the dispatcher of the server, every message that is sent (`Mem/Memdb.lean`), on top of C50 (subscriptions) and C31, C32 (messages); the text of a subject as a fold over the requests in `Mem/MemdbSpec.lean` | invariant: the table holds what the fold says; the subscriptions are those of the history of C50; negations |
| C114 | the client as a machine of events (connected, lost, a message, a question, a cancellation, closed) and what is seen at each, and asking in small steps of several threads (`Client/Client.lean`); numbers, subscriptions in force and what a question says in `Client/ClientSpec.lean` | invariant over lives: the table holds the questions taken and not yet answered or cancelled, under their numbers; every claim from it; composition with the data set in memory (C113); negations, the wrap of the numbers by induction over rounds |
| C115 | the digest with its array as a function of places and any content before (`Net/Sha.lean`); SHA-1 and Base64 from the standards in `Net/ShaSpec.lean` | the loops hold the words of the schedule; bytes or'ed into the last blocks are the padded text; induction over blocks; Base64 by cases; the example of RFC 6455 by the kernel |
| C116 | the handshake of server and client down to the buffer with what it held before, `strstr` with its end, the stack behind the key (`Net/Hand.lean`), on top of C115 and C29; heads, requests and the answer in `Net/HandSpec.lean` | first occurrences over lines; induction over pieces in memory of zeros; composition with C29 for the messages and of client and server; negations |
| C117 | commands, compressor, list of packets and the thread of every subscriber as steps in any order (`Snodb/Snodb.lean`); what the compressor hands on is any packets; what is sent and what was published in `Snodb/SnodbSpec.lean` | an invariant of the places of all subscribers and one of what each was sent since its start, kept by every step; draining for completeness; negations by runs |
| C118 | the log's thread, start, stop and crash on top of the stream of C117 (`Snodb/Wlog.lean`); a log is a list of records (C112), a file what its writer is handed; what belongs into a log, and whole days, in `Snodb/WlogSpec.lean` | an invariant of the log, its thread and the list, kept by every step of a day; induction over days; the state after a crash is again one to begin from; negations by runs, the lost reload for every log |
| C119 | the compressor of the stream and the worker that makes the file of the log (`Snodb/Wsno.lean`), on top of the incremental compression of C09; a file is what its writer (C83) is handed; which records belong into the file in `Snodb/WsnoSpec.lean` | the compressor's invariant kept by every record and pause; a decompressor in any state reads what a new compressor makes, so sections are read one after the other; the file is read back by C83; negations by logs, those about opening and empty logs for every one |
| C120 | the list of tasks with its thread, one step for each access to what is shared, with a heap of the tasks and the order of the two reads of the wait as a parameter (`Sync/Tasks.lean`); what was added, began and ended is read from the history (`Sync/TasksSpec.lean`) | an invariant about the list in the heap, the two counters and where the thread is, kept by every step; the rest follows from it; negations by schedules |
| C121 | the group of threads, its lists and its locks, one step for each stretch under a lock (`Sync/MulWorker.lean`); spec as for C120, by name (`Sync/MulWorkerSpec.lean`) | an invariant for each thread about the tasks of its list, kept by every step; names are given to one thread, so what holds for the thread holds for the name; negations by schedules |
| C122 | the merge by time with its queues, the time of the round and the count of what is left in 32 bits, and the client's answer to a key that ran out (`Merge/Merge.lean`); what was given, what was told and when a record is due in `Merge/MergeSpec.lean` | an invariant that what was told, is queued and is still to come of a key together stay the same, and a measure for the end; for the order that in a round exactly what is due at its time is told; negations by playbacks, those of the stop and of long names for every one |
| C123 | the subscription to one key and one table: the files of the range as for a read, the blocks handed to the merge of C122 one by one, the division of the name at its first dot, records cut by the size of the table in the first file (`Merge/Play.lean`); stated by the histories of `Sdb/WriterSpec.lean` and a read | the blocks of the files are those of a read; no file holds a definition of a table that was not given (`Sdb/KnownTabs.lean`); every block of a history is whole records and not empty, so the merge asks for each; negations by databases written by the model |
| C124 | the call with the cursor, the reversal of bits with its shifts and masks, the smaller and the larger table while growing, and the request for the smallest table (`Dict/Scan.lean`), on the dictionary of C63; what a client does between the calls in `Dict/ScanSpec.lean` | the cursor read backwards is a position that only grows; the keys before it, by their hash read backwards, have been told, in whichever table they are, since all tables have powers of two as sizes; without changes the calls tell disjoint parts of the entries that together are all |
| C125 | the linked list with its nodes in a memory that all lists share, every read and write of a link being one of that memory (`Lists/LinkList.lean`); what the calls mean for sequences in `Lists/LinkListSpec.lean` | the nodes of each list are linked in both directions, lists are apart, and the memory in use is that of their nodes: kept by every call, by two lemmas about setting the link of the last node of a part and of the first of the next; negations by calls |
| C126 | quoting, joining and splitting of arguments byte by byte (`Strs/Args.lean`); the ways of writing an argument in `Strs/ArgsSpec.lean` | one lemma for each escape and what follows it, then induction over the bytes and over the arguments; the number of steps is shown to be enough for every line, so that no refusal is an artefact. `isprint` and `isspace` are those of the C locale; the memory of the strings and running out of it are not modelled. `C126_violated_tab`: vertical tab and form feed are blanks for one loop and not for the other |
| C127 | a string as the type of its header, its two numbers cut to the width of that type, and the memory behind it, in which bytes never written are known as such and every access is checked (`Strs/Sds.lean`); what the calls mean for the bytes in `Strs/SdsSpec.lean` | invariant: the numbers fit the type, the memory is as long as they say, and begins with the bytes and a zero; kept by every call. The addresses of strings are not modelled: who keeps an old pointer after a call is outside. `C127_violated_self`: appending a string to itself; `C127_violated_range`, `C127_violated_trim`: see the names; the specification has what the code does there |
| C128 | `sis_sdscatfmt` on the same memory (`Strs/SdsFmt.lean`), an argument with its type; numbers are the texts of `Csv.ll2str`/`Csv.ull2str` and must fit their buffer of 21 bytes; a missing argument, one of another type and reading the format beyond its zero are undefined; formats as pieces in `Strs/SdsFmtSpec.lean` | the invariant of C127 without the zero behind the bytes is kept by every piece, and the last write restores the zero; a format that ends with `%` and the smallest number are shown to fail; appending the string to itself with `%S` is the failure of C127 and is not modelled again |
| C129 | `sis_sdssplitlen` with its positions, the array of strings and its growth, writing outside of the array and an overflow of its size undefined (`Strs/Split.lean`); joining is that of C126; the first separator in `Strs/SplitSpec.lean` | invariant of the loop: the strings so far, each with a separator, then what was passed, then the rest, and no separator begins in what was passed; that there is only one such way of splitting gives the way back; one empty string is shown to fail |
| C130 | the loops of `sis_sdscmp`, `sis_sdsmapchars`, `sis_sdstolower` and `sis_sdstoupper` on the memory of C127, where reading a byte never written, or the pairs beyond their end, is undefined (`Strs/SdsCmp.lean`); the order and the replaced byte in `Strs/SdsCmpSpec.lean` | the comparison by induction over the common bytes; the replacement with the invariant that the bytes passed are replaced and the others are as before; letters over all 256 bytes |
