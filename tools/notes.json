{
"C01": "Every reader primitive is a function of the flattened stream; lifted through the whole connection loop.",
"C06": "Violated by the code: the count is reset for every line, so the limit only bites at 0 (C06_zero_limit_partial). Exactly what it does, for any bytes (C06_exactly_partial): all limits but 0 do the same; 0 accepts the requests without header fields and no others.",
"C07": "Start line and single header lines are bounded (C07_sizes_partial); if no line has an empty name, every name with each of its values is bounded too (C07_pairs_partial). Missing: values sent under an empty name, for which it is false (C07_header_sum_violated).",
"C08": "Violated by the code: over-long elements are re-split instead of refused; what is guaranteed is in C08_long_name_partial.",
"C10": "Violated by the code for a head cut to two left-over bytes; every other cut is refused (C10_truncated_partial).",
"C11": "Violated by the code: any line of two bytes ends the head; the exact rule is C11_end_exact_partial.",
"C12": "Violated by the code: a line without colon is skipped, an empty name is merged into the next header.",
"C13": "Violated by the code for empty values and bare LF; delivered exactly for values with CRLF (C13_value_delivered_partial).",
"C15": "Violated by the code: the body loop spins for ever when the client closes early; never delivered (C15_short_body_partial).",
"C17": "Violated by the code: the first of conflicting Content-Length values wins. Proved for every service and input: the first value is a number below 2^64 and decides the length of the body.",
"C18": "Violated by the code: max_body_size is never consulted by the connection loop. Proved for every service and input: the body is as long as announced, and shorter than what the client sent.",
"C20": "Negation proved: only the first chunk is read, sizes in hexadecimal are refused or misread as decimal. Proved exactly: a chunked body of RFC 9112 is decoded and consumed if and only if it has no chunks. What is accepted instead: C136.",
"C21": "Violated by the code: Transfer-Encoding is ignored by the connection loop, chunk bytes are parsed as requests. Proved for every service: without a space in the first size line nothing after the head is taken for a request; the connection ends after this one.",
"C24": "Violated by the code: bodies accumulate over a connection. Heads are isolated (C24_heads_partial); a body is seen alone exactly if no earlier request on the connection had one (C24_body_exactly_partial).",
"C27": "Violated by the code after a delete and when the service spells Content-Length with capitals; proved otherwise. C27_exactly_partial states for histories without delete exactly when it holds.",
"C29": "Violated by the code: no check for CR/LF; proved when names and values have no line breaks.",
"C30": "Violated by the code: two versions in the status line for every request with a version, and the body grows by one greeting per request (C30_never_valid_violated, for every position of every connection); exact behaviour in C78. Valid only for the first request when its version is unreadable.",
"C31": "Violated by the code: HTTP/1.0 and unreadable versions keep the connection open; closes exactly for major version 0.",
"C32": "Violated by the code: the status line is always two spaces; exact behaviour in C79. Proved for every input: the response is complete and delimited by a right Content-Length.",
"C33": "Violated by the code: the major number is parsed twice, the minor number is never read; everything else exact.",
"C34": "Violated by the code: over_tls is passed swapped; every served connection reports the opposite of the truth. Proved: the flag differs between two connections exactly when they differ in encryption.",
"C37": "Violated by the code: a slot emptied by delete is reused by later calls under the wrong name. A name that is stored in list form, deleted and set again always stays absent (C37_set_again_violated); deleted and appended to, it is always right (C37_append_again_partial). Appending to another name is right if each visits it before the deleted one or it is new (C37_append_earlier_partial), and always loses its values if each visits it later (C37_append_later_violated). Without set and append after delete everything is right (C37_delete_partial).",
"C42": "SHA-1 and base64 are parameters here; written out and proved against their standards in C163.",
"C43": "Violated by the code: only Sec-WebSocket-Key is looked at (the function is not called anywhere in the pinned source). Proved: without a key there is no upgrade and the response is untouched.",
"C44": "flate2 and brotli are parameters constrained by Spec.Lawful; proved for direct writes and for bodies read from the network.",
"C45": "Violated by the code: the number of bytes accepted is ignored; what is proved is that every byte is offered once.",
"C46": "Violated by the code: the body keeps its bytes; start line, headers and codec are cleared.",
"C47": "Violated by the code: clear does not repair a body whose codec failed in end; the exact automaton is C80.",
"C48": "Violated by the code: bytes_size.rs:65 has 1204*1024*1024 for a gigabyte; everything without a positive number of gigabytes is proved; exact value in C82.",
"C49": "Unicode tables are parameters assumed right on ASCII.",
"C50": "Violated by the code: a leading unit panics; amounts of 2^64 or more panic (debug) or wrap (release). Exact outcomes in C83.",
"C51": "For every Unicode table, no assumption.",
"C54": "False as stated for the code as written: C54_not_inherited_violated and, for whole configurations, C54_services_violated give the counterexample (the number of headers and the size of a body are not inherited from the root). C54_inherited_partial and, for whole configurations, C54_services_partial prove inheritance for the fields that are.",
"C57": "False as stated for keys that differ only in surrounding white space (C57_white_space_violated). C57_unique_partial proves distinct names whenever the trimmed keys are distinct.",
"C61": "C61_delivered_partial: every sequence of records whose wanted appenders are an initial segment of the whole list, or any records if all appenders are consoles or all are files. C61_undefined_violated: any other record makes the consumer read outside a vector (undefined behaviour), because a compacted list is indexed by appender positions.",
"C62": "Same condition as C61. C62_undefined_violated exhibits a console for the root and a file for one service: every record of that service is undefined behaviour.",
"C65": "C65_disabled_violated: with logging disabled everywhere set-up finds no appender; the guard made before that check is dropped and waits for a thread that was never started, so the process hangs: it neither serves nor ends. C65_some_left_partial: with at least one appender left it starts.",
"C68": "C68_early_violated and C68_lost_violated: the consumer sets the shutdown signal before its last flush, so drop can return (and the process exit) with the records still in memory; the file is unchanged. C68_handed_partial: when drop returns every record has been handed to the appenders, and all is flushed once the consumer's last flush is done.",
"C70": "Fails for the code as written: the record that triggers a rotation, if shorter than the buffer, is dropped with the buffer (C70_lost_violated), and rotating onto an existing name replaces that file (C70_replaced_violated). Proved: without failing system writes, with an empty buffer at each rotation and free names, every record is in a named file after a flush.",
"C71": "Fails for the code as written when a local day has more than 24 hours (C71_twice_violated; autumn is such a lawful zone). Proved for all other times: rotations come in strictly increasing local days (hours), all later than the one in which the appender was opened.",
"C72": "Fails for the code as written: nothing is escaped and keys are not quoted. C72_message_violated (control characters, backslashes and quotes in the message), C72_keys_violated (every usual key), C72_forged_violated (a message can add members). Proved: texts that need no escapes, with no pairs or with keys that are JSON strings already, give one line that is one JSON object with the record's fields.",
"C75": "Violated by the code: a race (unstarted services are lost) and a livelock (all ended early); the part about started services is proved.",
"C85": "False as stated for names with slashes: C85_same_file_violated shows that for every name a, the services a and ./a write to the same log file. C85_different_partial proves the claim for all names without a slash; C85_exactly_partial says for all names exactly when files can be shared (paths compared piece by piece; symbolic links and .. not followed).",
"C89": "C89_panics_violated: an accepted configuration with a log buffer larger than isize::MAX, or with a daily log file on a day whose end cannot be computed, makes the process panic at start. C89_starts_partial: without such log files logging never panics and starts exactly if the files open, an appender results and no logger is installed.",
"C90": "C90_root_violated: the records of src/serve.rs name the service by a string, which is not the numeric key, so they count as root records. C90_request_line_violated: the record with method and target has no service key. C90_hello_partial, C90_hello_log_partial: the other records of the hello-world service carry the number.",
"C91": "C91_no_file_violated: without a file (release build) there is no service and the program ends, while an empty file gives the hello-world service.",
"C93": "C93_spreads_violated: after a panic of the consumer thread (for example from the unwrap in calcnext, see C71) every log and flush call panics, waiting flushes and the guard's drop never return. C93_quiet_partial: without such a panic no call panics.",
"C96": "Fails for the code as written after a short day (C96_late_violated) and when the start of the day is missing or repeated (C96_panic_violated). Proved when the day of the last rotation lasts 24 hours.",
"C97": "Fails for the code as written on every rotation: the date is that of the write that triggers it (C97_misdated_violated).",
"C100": "Violated by the code: idle_timeout is read from the configuration and fixed up, but no read in src/serve.rs or src/message.rs has a timeout; the connection waits for ever at every position (C100_idle_client_kept_violated).",
"C102": "Violated: C102_space_before_colon_violated proves that such a line is stored as a header of the trimmed name, wherever it stands in a well-formed head. Proved: white space other than the space character makes the request fail.",
"C103": "Violated: C103_not_a_token_violated (any printable bytes and inner spaces are accepted as a name). C103_names_partial proves what does hold of every stored name: no colon, control character, byte above 126, capital letter, or space at an end. C103_exactly_partial: together with the limits on length, these are exactly the names that a service can see.",
"C104": "Violated for empty words: C104_empty_words_violated. C104_no_space_partial proves that neither word ever contains a space, for every input. C104_exactly_partial: exactly which methods, targets and versions a service can see.",
"C105": "Violated: C105_any_version_violated (any 1 to 126 printable bytes are delivered as version). C105_version_partial: those are the only versions delivered.",
"C106": "Violated: C106_host_violated (any number of Host headers other than one, every service).",
"C107": "Violated: from every reachable state a Ctrl-C can be lost on a running service when a connection arrives at the same time (C107_lost_signal_violated), any number of times (C107_any_number_violated). C107_stops_partial: if all loops are waiting with their receiver registered and no connection is accepted afterwards, the process ends. C107_again_partial, C107_again_all_partial: in every fair execution without end in which the user goes on pressing Ctrl-C and only finitely many connections come (to one service, to all), the service, the process ends; C107_again_possible_partial: after every beginning there are such executions.",
"C108": "Violated: C108_dropped_violated (any number of services and connections). C108_until_end_partial: connections are dropped only when every service has stopped and the process ends.",
"C109": "Violated in per-core mode: C109_per_core_violated (a thread that cannot be created makes main return and free the configuration under the running services). C109_multi_partial proves it for multi-thread mode.",
"C113": "Violated: no write has a timeout. C113_never_reads_violated: for every limits, buffer size, request and answering service, a client that never reads keeps the connection for ever and nothing after its first request is read. C113_stalls_partial: the connection waits for the client exactly when the stream below has stalled.",
"C116": "Violated: version and code append, so a second call glues the texts together (C116_glued_violated, exact for all calls); delheader breaks later headers (C27, C37). C116_once_partial: one version and one code, any header and setheader calls in any order.",
"C117": "Proved for records of at most 2 MiB ending in LF (all rendered records do); negation proved for longer ones.",
"C118": "Proved for one console appender; negation proved for two.",
"C121": "Proved for connections left by break; negation proved for a client that closes inside a body and for upgraded connections.",
"C122": "Proved for debug builds; negation proved for release builds.",
"C123": "Proved for every record but the quoted body; negation proved for that one.",
"C125": "Violated: C125_ignored_violated shows that services which differ in host, keep-alive, idle timeout, header-count limit, body limit, compression, WebSocket, write buffer size, message buffer size or root directory behave the same in every world. C125_used_partial: explicit limits for targets and header lines, and the read buffer size, take effect. C125_told_apart_partial: services without TLS whose kind, target limit or header-line limit is not the same are told apart by some client, of which the bytes are given; C125_tls_partial: the same with TLS, where the limit of time for handshakes makes a difference too; C125_exactly_partial: with read buffers of the same size these three settings are exactly those that make a difference. C125_file_violated: two files that are accepted and agree on service, max_url_size and max_header_line_size give a client that takes what it is sent the same bytes and the same end, whatever else they say. C125_file_apart_partial: files whose services differ in kind or in one of these limits are told apart by some client, of which the bytes are given.",
"C126": "Violated: C126_todo_violated (forwarding and upstream services are accepted and panic when started), C126_same_address_violated (two services on one address are accepted, one of them cannot serve) and C126_too_large_violated (buffer sizes above isize::MAX are accepted and every connection panics). C126_started_partial: the other two kinds serve until Ctrl-C.",
"C127": "Violated: C127_root_tls_violated (certificate and key of the root are not inherited; the service is served unencrypted). C127_own_tls_partial: a service's own certificate and key are always used.",
"C128": "Violated: C128_race_violated (two or more services, nothing fails: a thread that had not yet taken the read lock when the main thread got the write lock goes on with freed logger and configuration, any number of times) and C128_spawn_failed_violated (a thread cannot be created: the services before it go on). C128_no_late_thread_partial: nothing freed is used in executions without failed creation in which every thread had taken the lock before the main thread began to wait.",
"C131": "Negation proved for the hello-world service: the k-th answer of a connection holds k greetings, so n equal requests make it write at least 6n(n+1) bytes and no factor is enough. For the file-system service the factor is proved: 7*out <= 25*in for every input.",
"C132": "Negation proved: an unfinished piece is not examined, so bytes without a space that are not printable keep the connection waiting (up to 128 bytes) although no continuation is a request. Proved: a first word that is complete and not printable is refused at once; and exactly which unfinished heads can still become heads (C132_exactly_partial: all pieces, header lines and limits), so that the server waits in vain for all others of HeadOpen.",
"C133": "Negation proved: a field line with an empty value, a tab or a byte from 128 on makes the whole head fail. Proved exactly: a head of RFC 9112 within the limits is accepted, and delivered as the RFC says, if and only if every field line has something after the colon and that is printable ASCII and spaces.",
"C134": "Negation proved: nothing that starts with CR LF is ever accepted; the connection gives no answer.",
"C138": "The contract of set_len is broken by the first body of a connection (C138_exposed_violated), exactly when C138_exactly says. What holds: nothing uninitialised is read or gets into a body (C138_reads_written_partial).",
"C139": "On BadDatagram the method string can be invalid UTF-8 (C139_invalid_violated). What holds: after Ok, and in every request a service gets, the strings are valid.",
"C142": "False for the code as written (C142_unknown_violated): nothing has deny_unknown_fields, so an entry with a misspelled name is ignored in every section. What holds (C142_known_partial; C142_kinds_partial for all settings at all depths, against one table of the settings and their kinds): doubled settings and values of the wrong type or range are refused.",
"C143": "False for the code as written (C143_misspelled_violated): `tls`, `cert` and `key` are the only settings without capitalised aliases; with `Tls`, `Cert` or `Key` the service is started and serves everybody unencrypted. What holds: the exact lower-case names are used or nobody is served, for services of the file (C143_exact_partial) and of included files (C143_offered_partial).",
"C144": "False for the code as written for `logging` (C144_logging_violated): a section without appenders turns the log off, no section logs to the console. What holds (C144_empty_partial): runtime, tcp, http and services.",
"C145": "False for the code as written (C145_early_violated): a readable early answer never changes anything. What holds (C145_unreadable_partial): an unreadable one is refused.",
"C147": "False for the code as written (C147_panic_violated): any string at which the reading of a size panics, as the value of max_body_size. What holds: these and the durations are the only way (C147_load_partial), and exactly when loading panics, with included files (C147_exactly_partial). The first mistake of a section decides (C147_first_partial), and a section panics exactly if there is a first entry that does, alone (C147_section_partial). `C147_file_partial` and `C147_files_partial` say the same without the functions of the model: which values of which settings, at which place, in which files.",
"C150": "False for the code as written when a clock is set back (C150_set_back_violated): local times without offset repeat. What holds (C150_order_partial): the texts are ordered exactly as local times, so as times wherever the offset is the same.",
"C151": "False for the code as written (C151_race_violated): a record may follow one that is later by any length of time. What holds (C151_thread_partial): the records of one thread.",
"C153": "False for the code as written (C153_accepted_violated): start-up does not look at the layout, and the first record with a destination ends the logging thread (then see C93). What holds (C153_usable_partial): usable layouts never panic, whether a layout is usable does not depend on the time, and the built-in layouts are usable.",
"C154": "False for the code as written (C154_ignored_violated): the layouts of services have no effect at all. What holds (C154_root_partial): a service whose layout is that of the root section.",
"C155": "False for the code as written (C155_quote_violated): a quote in the layout spoils every line. What holds, exactly (C155_exactly_partial): the lines tell their records if and only if the layout has no control characters, quotes and backslashes; in particular with the default layout (C155_default_partial).",
"C156": "C156_hangs_violated: with an accepted configuration that leaves no appender the process hangs at start instead of ending. C156_status_partial: every other failure of the start ends it with status 1 or 101.",
"C157": "C157_zero_violated: if no service can bind its address the process ends with status 0. C157_all_ended_partial and C157_per_core_partial: what the status does say.",
"C158": "C158_anonymous_violated: the record names neither the service nor its number; it counts as a record of the root, and is lost if logging is disabled there. C158_reported_partial: there is exactly one error record for each failed service, with the text of the error (one runtime; in per-core mode a panic of a service is not logged at all).",
"C159": "C159_debug_violated, C159_argv_violated: a debug build loads ./httpd.toml whatever is on the command line. C159_release_partial: a release build loads the named file; which command lines name which file is C239.",
"C162": "Holds for everything written while calls succeed, whatever failed before, up to a successful flush (C162_recovers_partial, with what came before reduced to a part of what was written). Violated as stated (C162_torn_violated): tokio files report a failed write with the next call, the bytes that the disk did not take are gone, and the next record is put behind the part that was written.",
"C164": "C164_dropped_violated: write_to always sets Content-Length, also for 101, and ws::serve is empty, so the connection is dropped right after the response. C164_switch_partial: the rest of the response is exactly the one of RFC 6455. No service of the repository calls upgrade; the theorem is about the shortest one that would.",
"C166": "C166_headers_violated: the limit on the number of header fields is not applied, so one request takes up more with every line it has. C166_requests_violated and C166_no_bound_violated: clear() leaves the body, so with the nth request the bodies of all n are held; with the hello-world and the file-system service a client can raise it over every bound with requests that are each within the limits. C166_received_partial: it is never more than the client has sent (for services that leave request bodies alone), and is bounded by the limits, the number of header values and the size of the body.",
"C167": "C167_close_violated: the Connection field is never looked at, so both services answer the requests that follow, and leave the connection open. C167_persists_partial: requests after which the connection is to persist are all answered and leave it open.",
"C168": "C168_content_violated: the hello-world service sends its greeting in answer to HEAD too. C168_same_partial: answers do not depend on the method, so the fields are those of GET; the file-system service sends no content at all.",
"C169": "C169_both_wait_violated: nothing is written before the whole announced content has come, for every service. C169_sent_partial: content sent without waiting is delivered.",
"C171": "Proved for configurations whose records are Deliverable (no mix of console and files that C61 shows to be undefined) and whose files do not rotate (C173 has those that do); the file must have one name and one appender (C60, C85). Violated by the code: hello-world logs method and target without the number of its service, so the file of the service has no line that says what was requested (C171_request_line_violated).",
"C174": "C174_dead_violated: once the consumer thread has panicked, a hello-world connection of which the log has taken n records gets at most n/2 answers, ever, and a connection made later gets no byte at all, because every log call of a connection panics (dispatcher.rs:23) before the answer is written. What holds: C174_order (answers come after the records of their request, for every service), C174_quiet_partial (if no record of the connection passes the maximum level its task never panics in a log call and can answer everything), C174_level_partial (that is so with loglevel info or less for services whose records are for tracing, unless a service fails, and with every level for a silent service in a release build unless a write or the service fails).",
"C175": "C175_request_violated: with a console and a log file in the configuration, one request to a hello-world service whose appenders are not the first of the configuration makes the consumer read outside a vector (consumer.rs:180 takes a position in the list of all appenders for one in the list of chosen appenders), in every interleaving; C175_first_violated: unless the log of the root is disabled, no service has the first appenders, so with the default root console any service with a file is concerned. What holds: C175_defined_partial, consoles only or files only.",
"C176": "C176_hangs_violated: once the thread of the logger has panicked, the process never ends (dispatcher.rs:52-57 waits for a signal nobody sets), and when a service fails, log::error! in the join loop panics, the runtime is dropped with all other services and the process hangs while it unwinds. What holds: C176_ends_partial, without a panic of that thread.",
"C177": "violated in two ways. With a daily file, when the day of a rotation has no midnight or two in the local zone, the thread panics over the first record the file wants once it is due (C177_midnight_violated); with a time layout that cannot be used it panics over the first record any appender wants (C177_layout_violated). After that no record is written, and a hello-world connection made later gets not a byte (C177_silence_violated). Proved: with a usable layout, and without daily files or with days that have one midnight each, the thread never panics, no log call does, and the files are those of C173 (C177_quiet_partial).",
"C178": "Violated: the channel has no bound and a log call does not wait, so a hello-world client whose answers all come can leave behind any number of records and any number of bytes (C178_backlog_violated, C178_no_bound_violated). Proved: nothing is lost however long the channel is, a log call is one step whatever the consumer does, and the consumer alone can empty the channel (C178_conserved_partial).",
"C179": "Violated for hello-world: bodies pile up over the requests of a connection and are logged with each, so the log is quadratic in what is sent and no factor is enough. Proved: a service that logs nothing about requests logs a constant; hello-world at most 258 times what was received, times the number of requests, up to constants (C179_bound_partial).",
"C180": "Violated: nothing ends the task of a client that sends no complete request (C100), not even when the client has left inside an announced body (C15); as many of them as there are descriptors shut out everybody else for good (C180_shut_out_violated; after a TLS handshake C180_tls_violated). Proved: first come first served, each once, within the limit; a free descriptor goes to the first in the queue; if all tasks end, everybody is served (C180_fair_partial).",
"C181": "Violated: the loop calls accept again at once, any number of times, and a debug build logs a record each time, without bound (C181_spins_violated). Proved: an accept fails only when all descriptors are in use, changes nothing, and is not logged in a release build (C181_harmless_partial).",
"C182": "Violated: `parse::<usize>()` accepts a leading plus sign, so `Content-Length: +5` announces a body of 5 bytes (C182_plus_violated, for every request and service). What holds: nothing but digits or a plus sign and digits gets past (C182_digits_partial).",
"C183": "Violated: serve looks at Content-Length only; with a Content-Length that covers just the size line of the first chunk, any request inside the chunk is delivered as the second request of the connection (C183_smuggling_violated). What holds: a client that goes by Content-Length stays in step (C183_length_counts_partial).",
"C184": "Violated: on every chunked message without Content-Length the limited reader delivers the first chunk and serve's reader nothing (C184_disagree_violated). Exactly when they agree on all streams: no Transfer-Encoding value contains `chunked` and the announced length is within the limit (C184_agree_partial).",
"C185": "Violated both ways: spellings with capital letters are not recognised (C185_case_violated), values that merely contain the letters are (C185_substring_violated). What holds: the lower-case word as last coding is recognised, and without these letters nothing is (C185_lower_partial).",
"C186": "Violated: texts are written between quotes without escapes; for every record f of ASCII texts there is a body with which a client of hello-world makes one record come out as two JSON lines, the second being that of f (C186_forged_violated). What holds: lists of records without quotes in their texts (JSON, C186_json_partial), or with one-line messages (plain lines, C186_plain_partial; by C73 those of the colour renderer without colours), can be read back. No log call of the server has key/value pairs besides `service`, so the records have none.",
"C187": "Violated in debug builds: `log::trace!(\"accept failed\")` panics once the logger's thread is gone (C93), and the panic ends the accept loop for good: one failing accept and nobody gets a connection to the service any more (C187_ends_violated). What holds: in a release build, or with a level that drops the record, or while the logger's thread lives, the service stays in its loop and accepts as the loop alone does (C187_goes_on_partial).",
"C188": "Time passes only when nothing is to be done at once: delays of the machine and the resolution of tokio's timer (1 ms) are left out.",
"C190": "Negations: after a panic of the logger thread the process never ends (C190_hangs_violated), and a service whose own task logs goes down with it (C190_taken_down_violated). Holds without such a panic, if all threads could be created and none is late (C190_ends_partial).",
"C192": "Violated twice. C192_expands_violated: for every lawful codec, every compressed body of at most max_body_size bytes is accepted whatever it expands to. C192_corrupt_violated: errors of the decoder are ignored by both readers. C192_received_partial: the bytes that reach the decoder are limited, and ending the body says whether the decoder gave up what it had. (No service calls these readers at this commit.)",
"C194": "println! panics if the line cannot be written: the first two lines end the process with 101 before anything is served, the line of a service ends that service, the last one turns status 0 into 101 (C194_broken_pipe_violated). Proved: a service whose own line is out serves what it serves otherwise; with a working standard output records and status are those of C157/C158. Per-core mode is not covered.",
"C195": "Forward and upstream services are announced and then panic in todo!() (C195_todo_violated). Proved for hello world and the file system service: announced exactly if bound and TLS loads, the line has address, kind and TLS, and the announced service accepts until Ctrl-C.",
"C198": "A service name with a NUL makes Builder::spawn panic in the main thread: that service gets no thread and the process ends with status 101 (C198_nul_violated). If standard output is a pipe that nobody reads, println! panics before any thread is started (C198_broken_pipe_violated). Otherwise one thread each, and no other (C198_threads_partial).",
"C199": "Violated: the task drops the stream without shutdown and without reading what has arrived, so a client that has sent more can be reset and lose every answer (C199_reset_violated: for every service, whenever the server ends the connection and one more segment has arrived). Proved for clients that send well-formed requests one at a time (C199_polite_partial). What the kernel does on close (RFC 9112 section 9.6) is an assumption of Model/Closing.lean.",
"C202": "Violated: nothing compares the addresses of the services. Two services whose addresses mean one socket address never listen both, and either may win while the other ends with an error that is only logged (C202_chance_violated; that such configurations are accepted is C126_same_address_violated); with a text that means two socket addresses (localhost) both listen, each at one of them, either way round (C202_split_violated). What holds: if no addresses of different services clash, each service gets the first of its addresses that the machine grants, whatever the order (C202_apart_partial), and never waits for another (C202_no_wait_partial). What TcpListener::bind and the kernel do is assumed as documented.",
"C203": "Violated by set, which never changes to the hash table: after n of them with different names the next call looks at n names (C203_set_violated); and by remove, which goes back to the front after every second match: n other values before 2n equal ones take n*n+3n comparisons (C203_remove_violated). What holds: append looks at 35 names at most whatever came before, every operation at 36 and one for each set before it (C203_names_partial); for the head of a request, delivered or refused, at most 35 names for each line and 12 for each byte received, and at most 36 for each look-up in the delivered request (C203_head_partial); remove at most n*n+n values (C203_values_partial). Look-ups in the hash table are not counted.",
"C204": "C204_one_day_partial: with regular days, no failing write, rename or opening and free dated names, the writes fall into groups, one for each file, all of the day in which the file was begun except the last of each group but the last, which is of a later day; each file was given exactly the records of its group (of which at most a buffer is lost, at the end). False in general: a start looks at no dates, so after a restart on a later day its records follow those of the earlier day in the same file (C204_restart_violated); the first record of a later day goes to the file of the earlier day if it is as long as the buffer (C204_trigger_violated) and is lost otherwise (C70_lost_violated).",
"C207": "False for the code as written: release builds log nothing about such a client (C207_release_violated), and the records about handshakes do not name the service (C207_root_violated). What holds (C207_debug_partial): in debug builds every accepted connection has its record, which tells whether it is served.",
"C214": "The code as written violates the claim: panics of a service and errors of building its runtime are never reported in per-core mode (C214_silent_violated), and a service whose thread begins late is not reported either (C214_race_violated). Proved: errors returned by run are reported exactly once, before the thread ends, as long as the logger is there, and nothing else is (C214_reported_partial).",
"C215": "C215_flushed_partial has it for every run in which the logger thread got to its last flush before the end of the process (then also: status 0). C215_lost_violated: for every configuration and all outcomes of the services (lines together below 8092 bytes) there is a run that ends with status 0 with the file as it was before the start, because dispatcher.rs:123 sets the signal before the flush of line 126.",
"C216": "False as stated, C216_late_violated: with two services the process can say httpd: shutdown, then that the second service is listening, and exit with status 0 while it runs. C216_refused_violated: when a thread cannot be created, services before it may have been announced. Proved for every execution: the rest (C216_says_partial); for one service, and whenever every thread has taken the lock before the main thread stops looking, all about httpd: shutdown (C216_in_time_partial). C216_command_line_partial: from the command line, the lines are those of services that the file asks for, with the address, TLS and the kind that the file says.",
"C217": "False as stated, C217_lost_violated: the guard of the logger lets go when its thread sets the signal, which is before the last flush, so the process can end with all records still in the buffers (C215 is the same for multi-thread mode). Proved, C217_flushed_partial: if the thread of the logger gets to its end, every file has all the lines (with daily files, at most one buffer lost per rotation).",
"C218": "What holds: over TCP, and over TLS as long as the client has not left in the middle of a body, a turn ends within a bound that does not depend on what the client sends (C218_turn_partial); as long as fewer connections over TLS were left in the middle of a body than there are workers, every ready task gets its turn (C218_workers_partial; C218_enough_partial says it by what the clients send: those that count have closed inside a body). Not so over TLS (C218_endless_violated): as many such clients as there are workers stop the whole process (C218_frozen_violated). Scheduler, budget and free reads after a TLS close are those of tokio 1.36 and tokio-rustls 0.26, from their documentation and source as remembered; they are part of the trusted base.",
"C219": "What holds: the main thread leaves the join loop only when every service has ended; then no task begins a turn, and unless a connection over TLS was left in the middle of a body the drop of the runtime needs nothing but the end of the turns that are going on - without TLS always (C219_ends_partial). The drop can end exactly if no worker is kept, and those who keep one have closed inside a body (C219_exactly_partial). Not so with such a connection: one is enough, whatever the number of workers, and the process never gets to httpd: shutdown (C219_kept_violated; with one worker not even the service ends, C218). That the drop waits for the workers without limit is from the documentation of tokio 1.36 (Runtime::drop) and is part of the trusted base.",
"C222": "Proved: the file is behind by at most one buffer, for ever (C222_lag_partial): every record is in the file once as many bytes as the buffer holds have been logged after it; and joined with the command line, for every file of the configuration that does not rotate and every connection of its services (C222_command_line_partial). Negation proved for the code as written (C222_kept_back_violated): nothing flushes the appenders but an explicit flush and the end of the process, so the last records (up to 8091 bytes) may never get into the file while the process runs, although everybody is treated fairly.",
"C225": "False for the code as written (C225_starved_violated): the descriptors are those of the process, an accept that fails for want of one is tried again at once and nobody is put first, so that for any limit there is an execution in which one service takes every descriptor that becomes free and a client of another is never accepted, although no accept loop is left out for ever and every connection ends. Proved instead: somebody is accepted as long as somebody waits (C225_progress_partial), everybody is if only finitely many connect (C225_finite_partial), or if the accept loop is not left out again and again when it could succeed (C225_strong_partial), with fewer connections that stay for ever than descriptors.",
"C228": "Holds as long as standard error can be written (goes_on, one_each, as_before), and when there is nothing to report (silent). Negation for the code as written: eprintln! panics if standard error cannot be written, so the first report that cannot be written ends the thread that writes the log (unheard), and with it every thread that logs afterwards (spreads).",
"C231": "Violated for the two writers of brotli: the result of into_inner is not looked at (C231_silent_violated). Proved: exact reports of the other four writers and of flush and close.",
"C232": "Violated for Brotli with levels of 2147483648 and above, which become negative (C232_high_violated). Proved: format and level in all other cases.",
"C234": "False for the code as written (C234_goodbye_violated): the stream is dropped without `shutdown` (src/main.rs:133-134), so no record but data is ever sent. What holds: with whole answers a client that takes them apart by their content-length sees a cut inside an answer (C234_cut_partial).",
"C241": "What holds: whatever the client sends, every record about its connection is shown whole and in its colours, unless it is the record of a body of text with an escape character in it (C241_shown_partial). The property as stated does not hold for the code: src/services/helloworld.rs logs a body of text as it is, and with_color does not remove escape characters; for any record f of ASCII characters there is a request after which the terminal shows a line exactly as it would show f (C241_forged_violated)."
}
