STATUS = {
"C03": ("proved", "All well-formed heads (optional space after the colon, URLs with spaces or HTTP/ inside) whose field names do not collide with the parser's own dictionary keys (that collision is C06)."),
"C04": ("partial", "Exact iff-characterisation of is_valid_request; the Host clause of the claim is false when the client sends a _version field (C04_refuted_host), so soundness is stated with that exception."),
"C05": ("proved", "Round trip through save() for all well-formed heads; edits and save() for all states."),
"C06": ("partial", "False as stated: C06_refuted_forge. Exact description of what the application sees (C06_seen_exact) and the claim for requests without reserved field names."),
"C36": ("proved", "KeepAliveConnections as an insertion-ordered table; all operation sequences."),
"C08": ("proved", "All segmentations, including the bytes that came with the head; also that the stream waits while bytes are missing."),
"C09": ("partial", "False as stated: C09_refuted, C09_refuted_internal. C09_exact characterises exactly which segmentations decode and which raise BadRequest."),
"C10": ("proved", "Arbitrary bytes and cuts. The size-line syntax is what Python's int(_, 16) accepts after the prefix 0x."),
"C11": ("proved", "Sized reads only (n > 0); mixing with recv(-1) is not covered."),
"C12": ("proved", "On a fresh request."),
"C13": ("proved", "Receive-side accounting of put_to_queue and the stream's check."),
"C14": ("proved", "Any consumer schedule."),
"C49": ("proved", "Exact rational arithmetic instead of floating point."),
"C30": ("proved", "Any frame accepted by RFC 6455 (reader) and every frame created (writer), any segmentation. Payloads of 64 KiB and more must respect ws_max_payload_size."),
"C31": ("partial", "False for limits below 65535 (C31_refuted): 7- and 16-bit lengths are never compared with the limit. Proved for the 64-bit form and, for limits of at least 65535, for all frames."),
"C32": ("proved", "Ping, pong, close and every other opcode, at the level of recv() and receive()."),
"C33": ("partial", "False as stated: truncated messages are delivered at end of input and fragments are delivered separately (two refutations). Proved while the end of input has not been reached."),
"C34": ("proved", "Data and fields without CR; ids containing NUL are ignored by the grammar itself. C34_cr_injects shows CR must be excluded."),
"C35": ("proved", "Strings given by their UTF-8 bytes. The cookie name is not encoded by the code and must be free of ';'."),
"C44": ("proved", "html_escape on bytes and the 404 page; the str branch is the standard library's html.escape and is not modelled."),
"C48": ("proved", ""),
"C39": ("proved", "Paths without regular-expression metacharacters (the code does not escape them: C39_refuted_metachar) and URLs without a newline byte. Patterns go through a model of the part of re's syntax they use."),
"C40": ("proved", ""),
"C41": ("partial", "False for regex routes: a chosen regex route is moved to the key of that URL (C41_refuted_history) and overlapping requests can delete another route (C41_refuted_concurrent). Proved: URLs of plain routes, applications without regex routes, and that a URL served by a regex route keeps it."),
"C42": ("proved", ""),
"C43": ("proved", ""),
"C55": ("proved", ""),
"C56": ("proved", ""),
"C57": ("proved", ""),
"C58": ("partial", "Proved for command lines whose values do not start with a dash and that end with the application; unknown options and bad numbers anywhere. C58_refuted lists what goes wrong otherwise: a trailing option takes the program name as value, dashed values are taken for options, a trailing value is taken as the application."),
"C59": ("proved", "C59_bind: lists of addresses; C59_refused: exactly the lists with an element that has a colon and no number behind it are refused as a whole."),
"C01": ("proved", "Exact outcome for every fragmentation. A head whose blank line starts exactly client_max_header_size - 2 bytes in is accepted or refused depending on fragmentation (C01_boundary); any shorter head is always accepted, any longer one never."),
"C02": ("proved", ""),
"C07": ("proved", "Includes the exact refusal codes (400/500) and the converse (good framing is accepted). Not modelled: CPython's 4300-digit limit of int()."),
"C17": ("proved", ""),
"C19": ("proved", ""),
"C24": ("proved", ""),
"C18": ("proved", "Any interleaving of handler and send task, bodies with Content-Length and chunked ones (which have no length to exceed: C18_limit is about the former). C18_admitted: a body that is acceptable is never kept from being read. Before the send task takes the first marker, several reads can emit the interim response several times: once per request holds after that marker (C18_once)."),
"C20": ("proved", "Returned and yielded bodies, all options."),
"C21": ("proved", "end, request middlewares that return data and returned bodies."),
"C27": ("proved", "end, write, returned and yielded bodies, request middlewares."),
"C22": ("partial", "Proved for returned and yielded data, end and write. False when a response middleware or a late set_status changes the status after the framing was decided, for write with status 426/101, and for write after end (four C22_refuted theorems)."),
"C23": ("partial", "Refusal of LF by set_header, set_status, set_content_type and set_cookie, and the shape of every head, proved for all applications that give append_header no LF. append_header does not check (C23_refuted_append)."),
"C28": ("partial", "Proved for every failure unless the exception's message contains LF (C28_refuted: nothing is sent and the connection stays open)."),
"C29": ("partial", "Proved for end, middlewares, returned bodies and delimited streams. False for undelimited streams (HTTP/1.0), 204/HEAD streams and handlers returning None (four C29_refuted theorems)."),
"C60": ("partial", "False: with Connection: close no final response is ever delivered (C60_refuted, for every continuation)."),
"C61": ("partial", "False when the handler does not read the body (C61_refuted); C61_ready says exactly that two markers are needed."),
"C62": ("proved", ""),
"C63": ("proved", ""),
"C25": ("partial", "Ranges written as RFC 9110 has them (any zeros and white space, one or several headers): exact positions, 206 heads, bytes, multipart bodies, 416 and 400 responses, for every file and buffer size; more than 101 ranges (C25_many, C25_many_beyond); soundness for every header value. False: 5-0 is served as byte 5, ranges ending behind the file are refused instead of cut, signs and underscores are accepted, and an empty suffix sends no head (four C25_refuted theorems)."),
"C26": ("proved", "Whole file, HEAD and 304; file_size not overridden, the first sendfile of the connection (see C64)."),
"C64": ("partial", "False: the first file's handle is kept for the connection (C64_refuted, C64_exact); holds as long as all files sent have the same content."),
"C37": ("partial", "Order, no duplicates and no waiting beside a non-empty queue are proved for every schedule, including cancellations. False: an item handed to a call that is cancelled before it runs is lost, a cancelled call makes later ones fail at once, cancelling a call that waits behind another cancels that one too, and clear() forgets waiting calls (four C37_refuted theorems)."),
"C38": ("partial", "Proved for every schedule in which no acquire fails. False with timeouts and cancellations (three C38_refuted theorems): the body runs all the same and the lock of another task is released. What happens then is proved as well: C38_aborted and C38_gave_up (the task goes inside and leaves the lock free, whoever holds it), C38_unstarted (a thread that has not begun takes no lock)."),
"C51": ("partial", "At most one handler at a time, and no head looked for meanwhile, for every schedule in which handlers end with completing their response and no body is too large; while a request is handled no other head is taken before an end marker, for every schedule. False: a handler that goes on after completing its response, a head that is no request, and a too large stale segment (three C51_refuted theorems)."),
"C52": ("proved", "For every schedule of the connection machine; the transport is modelled as refusing writes after close or abort."),
"C15": ("partial", "Proved: where every byte received goes, for schedules in which bodies are read, and later segments queued, before the response is completed. False otherwise: an unread body is read by the next handler, or handled as a request (C15_refuted_body, C15_refuted_head)."),
"C16": ("partial", "Proved for schedules in which no segment is still being queued when a response is completed, with progress. False otherwise: the pieces of that segment are reordered (C16_refuted)."),
"C46": ("partial", "Proved for every header list whose names have no colon and are not _line, whatever messages follow; LF always leads to the fixed error response. False for names with a colon and for _line (C46_refuted_colon, C46_refuted_line)."),
"C47": ("partial", "The exact verdict is proved for every history (C47_partial). False: an application that catches the LifespanError, reports failure after complete or is cancelled is not refused, and one that reports shutdown.failed at start-up is (four C47_refuted theorems)."),
"C65": ("partial", "Proved for known statuses and headers whose names have no colon and are not _line. False for a status that HTTPStatus does not know: the whole message is dropped (C65_refuted_status, for all such statuses)."),
"C66": ("partial", "Proved for chunked and raw bodies and for bodyless responses. False for HEAD with status 426, for data sent after the last body message, and the flag that turns chunks off is kept for later responses of the connection (three C66_refuted theorems)."),
"C67": ("partial", "Proved when the application raises and when it sent its last body message. False when it returns without one (C67_refuted)."),
"C68": ("partial", "Proved for native handlers one after another (C68_partial), with completeness (C68_no_escape). False for ASGI applications and for handlers that go on after their response (two C68_refuted theorems, for every timeout)."),
"C45": ("partial", "Proved for requests without a body and for Content-Length >= 1, every segmentation, complete or not. False for every chunked body: no message without more_body, or one too early (C45_refuted_chunked, C45_chunked_taken, C45_refuted_truncated), and for Content-Length: 0 (C45_refuted_zero)."),
"C69": ("partial", "Proved for the call that waits and for calls after the end of the response. False for every call after the disconnect: it raises TypeError (C69_refuted)."),
"C54": ("partial", "Content-Length bodies: proved for every segmentation and schedule that a body within the limit is parsed whole and nothing larger than the limit is parsed; ValueError is proved if the body came with the head. Chunked bodies: what is parsed is the payload of complete chunks, and the limit works if the body came with the head. False otherwise: a body over the limit may give {} without ValueError (C54_refuted_silent), a chunked form may be lost (C54_refuted_lost) or be larger than the limit (C54_refuted_larger), a second call after ValueError returns {} (C54_refuted_again), bytes behind the body are counted (C54_refuted_pipelined)."),
"C53": ("partial", "Proved for every segmentation, limit and sequence of calls: the parts with their fields and contents, in order (contents may hold the delimiter if Content-Length is right); every incomplete body gives the complete parts and then BadRequest; soundness for arbitrary bodies. False: boundaries with + or quotes (C53_refuted_boundary), a body without the final line break or with an epilogue (C53_refuted_epilogue), a preamble loses the first part's fields (C53_refuted_preamble); leaving the loop and calling again repeats or loses parts (C53_refuted_abandoned). Part headers up to 8193 bytes. Not modelled: parse_qsl of Content-Disposition."),
"C50": ("partial", "Proved for every history without close middlewares, and with them as long as no descriptor is given out before the connection that had it is cleaned up: a connection is given only what its own tasks put, in order and completely; new connections find empty queues. Assumed: only tasks that connection_lost cancels wait on the queues or in put_to_queue. False with close middlewares (C50_refuted_close, _taken, _read, _stuck) and for tasks made by the application (C50_refuted_task); the check of connection_made looks at queue[0] twice (C50_refuted_unseen)."),
"C70": ("partial", "Proved for header names without colon that are not _line. False if the application gives Connection: close with the acceptance (C70_refuted_close), and if the client repeats its key header (C70_refuted_key). The accept key is a parameter here; C122 says what it is."),
"C71": ("partial", "Proved for text messages, non-empty binary messages, pings and pongs in any segmentation and interleaving, with the closing event (C71_close, C71_lost). Empty binary messages are not delivered (C71_refuted_empty); before the acceptance receive repeats websocket.connect (C71_refuted_connect). Timers (ping, receive timeout) are not modelled."),
"C72": ("partial", "Proved for non-empty messages below 2^64 bytes. Empty ones are not sent (C72_refuted_empty); before the acceptance frames are sent in place of a response (C72_refuted_early)."),
"C73": ("partial", "Proved for websocket.close with a code of 16 bits in an open session (C73_close_partial), and for exceptions of the application after (C73_failed) and before (C73_failed_before) the acceptance. False for a rejection before the acceptance, for the client's close frame, which is not answered, for protocol violations, where the client is told nothing and the application 1005, and for codes out of range (C73_refuted_reject, _client, _violation, _code)."),
"C74": ("partial", "Proved for up to 100 items (max_fields for forms) that are escaped wherever they are not ASCII; more are refused (C74_limit). Blank values are dropped, a refused query is empty at the second access, and bytes that are not escaped are read as latin-1 (C74_refuted_blank, _limit, _raw)."),
"C75": ("partial", "Proved for every non-empty text set by set_cookie, and for other non-empty values without %, + and &. Those bytes change or split values, and blank values are dropped (C75_refuted_changed, _split, _blank)."),
"C76": ("partial", "Proved for ASCII without %, +, & and ;, without quotes at the ends. False for these (C76_refuted_changed, _cut, _utf8, _quotes)."),
"C77": ("partial", "Proved without X-Forwarded-Proto, for paths that are ASCII once decoded, IPv4 and unnamed unix sockets. False for other paths (latin-1 in place of UTF-8), URLs in absolute form, X-Forwarded-Proto (any text; repeated: AttributeError), IPv6 addresses, named unix sockets and white space around values (C77_refuted_*)."),
"C78": ("partial", "C78_type says exactly when the type is websocket, C78_websocket_partial gives the scope. Requests that are no handshakes are taken for one, Upgrade lists are not recognised, a repeated Upgrade raises AttributeError, and white space around subprotocols is kept (C78_refuted_*)."),
"C79": ("partial", "C79_early holds in every schedule: at most one abort, never before the time. C79_partial shows the rest where no head is nonsense except the first and no body is too large. False otherwise: a nonsense head on a kept connection leaves its timer running, which aborts a later request; a timer may fire while the first bytes of a body are queued or an error response is pending (C79_refuted_*)."),
"C80": ("partial", "C80_deadline holds in every schedule. C80_partial and C80_bounded_partial need handlers that complete their response, and interim responses sent while they run. False otherwise: a connection may stay open without any timer (C80_refuted_*)."),
"C81": ("partial", "C81_partial (order) and C81_progress_partial hold for the first request of a connection in every schedule in which no segment is being queued at the moment the 101 is sent. False otherwise: such a segment may be overtaken (C81_refuted_early); on a connection that served a request before, every WebSocket is closed right after its 101 (C81_kept, C81_refuted_kept)."),
"C82": ("proved", "For every schedule, with the flow control of asyncio's transports (CPython 3.11) as part of the model."),
"C83": ("partial", "C83_early and C83_deadline hold in every schedule. C83_wakes_partial and C83_reads_partial need a transport whose own high limit is at most 65536 (as without TLS), or a call of set_watermarks before the wait. False with TLS otherwise, as in WebSocket sessions: after 65537 to 524287 unsent bytes the next message is never sent, although the client has read everything (C83_refuted_tls), and the connection is aborted."),
"C84": ("partial", "C84_serves holds in every schedule, and so does C84_codes (with which code a worker ends); C84_replaced_partial and C84_shutdown_partial need that no other worker ends meanwhile. False otherwise: a worker that ends between is_alive() and poll() ends the parent with EOFError (C84_refuted_race; not with one worker, C84_single); a worker that has just ended makes send(0) raise BrokenPipeError, and the workers after it are never told (C84_refuted_stop), as does an interrupt while a worker is replaced (C84_refuted_replacing); a worker that ends before it told its pid holds up the parent for ever (C84_refuted_silent)."),
"C85": ("partial", "C85_heartbeat holds in every schedule. C85_blocked_partial: a worker stands still only if the parent has not looked at its pipe for 2 * n seconds, or two seconds in its first wait. The first wait is too short for three or more workers (C85_refuted_start)."),
"C86": ("proved", "C86_session for lists of calls, C86_handlers for every handler, C86_handshake for the first read, C86_echo end to end. Complete text messages, non-empty binary messages, pings and pongs within the limits; fragments and empty binary messages are C33, C71."),
"C87": ("partial", "C87_ends_partial: silence gives 1000, violations 1008 and 1009, close(code) its code (C87_close). False otherwise: the client's close frame is not answered (C87_refuted_reply); a text that is not UTF-8 (C87_refuted_text), a handler that returns (C87_refuted_return) or fails (C87_refuted_error) gives no close frame; ping and close send control frames that RFC 6455 forbids (C87_refuted_control)."),
"C88": ("partial", "C88_expired_partial, C88_responsive, C88_bound, C88_fires, C88_spaced, C88_pong, C88_session. False for connections that have left the list of kept connections (C88_refuted_evicted), in the middle of a frame (C88_refuted_slow), and pings of the client are not answered while the handler does not read (C88_refuted_busy)."),
"C89": ("partial", "C89_returned, C89_streamed, C89_end, C89_middleware, C89_error. False for status 205: Content-Length of data that is not sent (C89_refuted_end), or no length at all on a kept connection (C89_refuted_returned); false when a response middleware changes the status after the body is decided (C89_refuted_middleware). Handlers that call write or end themselves are the subject of C105, sendfile of C100."),
"C90": ("partial", "C90_order (order and completeness), C90_requests (which request each handler gets), C90_pipeline (what the client reads, composing C15, C52 and C89), C90_continue (the same with Expect: 100-continue, for a client that skips interim responses). For calm executions (Flow.Calm: bodies read, no segment half queued when a response ends, no refused head, 100 Continue sent at most once) in which handlers queue only while they run. False otherwise: C90_refuted, C90_refuted_continue; and for methods in lower case, C90_refuted_case."),
"C91": ("partial", "C91_sound (only a change of a watched file reloads), C91_partial (a change does reload, for modules loaded at the first second with something to watch and files present at every second since), C91_watched, C91_never (what is not watched by then never reloads). False in general: C91_refuted_late, C91_refuted_missing, C91_refuted_prefix, C91_refuted_fail."),
"C92": ("partial", "C92_order, C92_clean (exit code 0), C92_once_partial, C92_zero_partial, C92_ends_partial (exactly when the process does not end), C92_hang, C92_second, C92_smooth. False in general: C92_refuted_hang (Ctrl-C, then a stop hook that raises), C92_refuted_twice and C92_refuted_memory (a stop hook that raises ConnectionResetError on reload or memory limit)."),
"C93": ("proved", "C93_requests, C93_answers (with C89 and C90), C93_live (no deadlock). Hypotheses: Plain (on the requests), Fair (segments within one request, handlers that read their bodies and keep the connection, queue of body parts within its limit; no timers, half-close, upgrade). C93_refuted_segment shows that the condition on segments is needed when the earlier request has a body (a limitation that http_request.py:252 states)."),
"C94": ("partial", "C94_exact: the objects are always those of the latest request that had them, which may be an earlier one (C94_refuted_websocket, C94_refuted_sse, C94_refuted_wire). C94_own_partial, C94_first_partial: right for requests with objects of their own, and on connections without earlier objects. C94_order: calls follow the order of the requests."),
"C95": ("partial", "C95_connect, C95_before, C95_serves, C95_close, C95_cleanup. False: close hooks come after the connect hooks (C95_refuted_overlap), no handler is called after a close hook (C95_refuted_late)."),
"C96": ("partial", "C96_stopped for callables that add nothing to the set; C96_all_partial for others if the loop ends, which it need not (C96_refuted_loop)."),
"C97": ("partial", "C97_queue (the queue, every schedule), C97_first (all bytes, first exchange of a connection), C97_unqueued (each end of a response may add to what waits). C97_calm_partial, C97_bytes_partial: any number of requests if all that was received is queued when a response ends. Otherwise false: C97_refuted_early, no bound at all."),
"C98": ("partial", "C98_agrees (every error handler), C98_page, C98_reads, C98_charset, C98_classes, C98_private, C98_debug, C98_debug_tags, C98_debug_page; C98_silent is the exact condition for the exceptions that are not answered (nothing sent, connection left open): C98_refuted_args, C98_refuted_text. C98_refuted_markup, C98_refuted_declared: arguments are not escaped in text/html, and the codec is not that of the response."),
"C99": ("partial", "C99_tcp, C99_tcp_stays (SO_REUSEPORT, or one worker), C99_restart, C99_unix_partial (one worker at a path), C99_file. False otherwise: C99_refuted_workers (for every n, only the last worker is reached), C99_unix_one, C99_unix_lost, C99_refuted_race, C99_refuted_exclusive with C99_exclusive, C99_refuted_empty; C99_left: the socket file is never removed."),
"C100": ("partial", "C100_whole, C100_range, C100_multi, C100_head, C100_current, C100_resume, C100_unsatisfiable, C100_unit, C100_many and C100_many_beyond (more than 101 ranges: 400 or 416, never a part): from the bytes of the request to what an independent client (Spec/Client, Spec/Download) reads. False: C100_refuted_cut (a range that ends behind the file is refused, not cut); C100_refuted_boundary (a boundary that occurs in the pieces). Not covered: files that change while they are sent."),
"C101": ("partial", "C101_options (API), C101_starts, C101_command and C101_bind (from sys.argv to the options of the workers), C101_workers_partial, C101_level_partial, C101_once_partial. False: C101_refuted_workers (a worker_num given to listen is neither checked nor limited), C101_refuted_level (a log_level in lower case given to listen makes each worker fail), C101_refuted_twice (listen(port) and run(host, port) start one address twice). C101_loop: the event loop."),
"C102": ("partial", "C102_named, C102_default, C102_served, C102_object: paths are compared by what they denote (Spec/Launch). False: C102_refuted_package (package.module:attr imports the package), C102_refuted_colon, C102_refuted_loaded, C102_refuted_unnamed. Symbolic links and import hooks are not modelled."),
"C103": ("partial", "C103_partial: any number of reloads for an application of one main module with functions from modules of its own, as long as no module that came into use by a reload is used after a later one. For every program, C103_last says which of several server objects is taken over and C103_methods what can be registered by a method. False otherwise: C103_refuted_nested and C103_refuted_added (the parent ends with PicklingError), C103_refuted_subclass, C103_refuted_two, C103_refuted_loaded (old or foreign routes), C103_refuted_stacked (two route decorators on a function: no start), C103_refuted_prefix. Programs are reduced to definitions, imports and registrations."),
"C104": ("partial", "C104_early (every schedule), C104_delivered (accounting), C104_ends, C104_prompt, C104_stalled (exactly after keepalive_timeout), C104_body, C104_answer (408 and close), C104_cancelled (a cancelled read gives no data). False for handlers that catch the TimeoutError: a second read does not wait (C104_refuted_retry), an item that comes at the deadline is lost (C104_refuted_lost), a cancellation by app_handler_timeout looks the same and does not end the handler (C104_refuted_cancel), after the connection is lost the body seems to end (C104_refuted_gone), and sized reads give nothing any more, like at the end (C104_sized, C104_sized_after, C104_refuted_sized)."),
"C105": ("partial", "C105_partial (non-empty writes, then end()), C105_chunked (exactly what is read, for any pieces: up to the first empty one; nothing if there is none), C105_sized (own Content-Length), C105_closed (neither), C105_bodyless (HEAD, 204, 304), C105_options (each piece keeps its options). False for end(data) behind a chunked write (C105_refuted_end), an empty write in the middle (C105_refuted_empty), return without end (C105_refuted_none), returned data (C105_refuted_returned), and buffer_min_size over four times buffer_size (C105_refuted_marks)."),
"C106": ("partial", "C106_chunked, C106_length (with a right Content-Length), C106_sized (with any: exactly what is read), C106_closed (neither), C106_bodyless (HEAD, 204, 304), C106_sequence (a kept connection), C106_error (exception before the start), C106_cut (exception in the middle of a chunked response). False for a wrong Content-Length (C106_refuted_small, C106_refuted_large), for an exception in the middle of a response without length and chunks (C106_refuted_cut), and for an application that returns without its last body message (C106_refuted_open)."),
"C107": ("partial", "C107_requests, C107_answers, C107_live, for clients that wait (Fair with Patient, Polite). False for a client that sends the body at once, as RFC 9110 allows: C107_refuted_early (the next request is lost, and its bytes become the body of the one after it)."),
"C108": ("partial", "C108_date, C108_read, C108_same, C108_clean, C108_modified, C108_cookie, C108_cookie_set. False beyond: C108_refuted_years (before 1000 and after 9999 the text is no IMF-fixdate), C108_refuted_second (changes within a second keep the date), C108_refuted_later (a later If-Modified-Since gets the file, not 304)."),
"C109": ("partial", "C109_runs, C109_middlewares, C109_events, C109_routes, C109_call, C109_bound, C109_order, C109_spellings; the options are the stated ones if no function with options is decorated twice (C109_meant_partial). False otherwise: C109_refuted_stack (upper decorators lose the options, and with them websocket, sse and rate), C109_refuted_kwonly (defaults after * are no options), C109_refuted_code (handlers for other error codes are dropped silently)."),
"C110": ("partial", "C110_requests_partial, C110_answers_partial, C110_live_partial hold for all schedules if the next request comes after the server has reset the connection, and the handler of a chunked request ends when all bytes are taken and none is being queued. All three conditions are needed: C110_refuted_early (a request sent after the whole answer is swallowed), C110_refuted_tail and C110_refuted_dropped (the CRLF of the last chunk gets into the next body, or makes the next request be dropped without an answer), C110_refuted_count (bytes counted for the next request: its handler gets an empty body and its body is taken for a request)."),
"C111": ("partial", "Holds for the first head (C111_first_partial) and for refusals within the try (C111_refused_partial). False otherwise, in general form: C111_refuted_dropped (on a kept connection a head that is no request leaves no trace; C111_exact says which heads these are, C111_long: any request line over 8190 bytes, and any request behind an empty line), C111_refuted_stuck (the constructor raises; C111_keys: exactly for fields named _method or _url), C111_refuted_shift (answers shift by one). Timers are not part of this model: the keep-alive timer ends such connections later."),
"C112": ("partial", "C112_length_partial: bodies with a Content-Length, in full. C112_chunked_partial: chunked bodies, exactly when no segment ends just behind the data of a chunk; otherwise the request is refused. C112_bare_partial: without a body nothing is read, but the stream never ends (body() waits for keepalive_timeout). C112_refuted shows both exceptions. The client and the handlers are those of C110 (Fair); timers are not part of this model."),
"C113": ("partial", "C113_once: of a body with a Content-Length no byte is lost and none is given twice, whatever the calls. C113_order_partial, C113_rest_partial, C113_sized_partial: in order, and body() gives the rest, if the sized reads have left nothing over whenever an unsized call is made. C113_body: body() alone equals stream(), for every queue. C113_skips, C113_leaves_out: otherwise the order is lost, body() leaves bytes out and a later read waits for a timeout. C113_end: a loop `while not eof(): recv()` always ends by StopAsyncIteration. C113_refuted_chunked, C113_refuted_framing, C113_refuted_raw: for chunked bodies the mix loses content or takes content for framing. form() and files() are not part of the mix."),
"C114": ("partial", "C114_found, C114_worker, C114_kept: exact for all histories. C114_get_partial: context.get likewise unless a program has stored something under the name get (C114_refuted_get). C114_options, C114_requests: context.options holds for each name the value of the latest function with such an option on this connection, so an option of an earlier request shows through (C114_refuted_options); C114_own_partial, C114_first_partial: right for names that the function has, and on a fresh connection. Names that begin with two underscores are not modelled."),
"C115": ("partial", "C115_browser_partial: every control arrives with its name, file name, type and content for every segmentation, for names that are read as written (C76). The second half is false: C115_left proves that files() leaves the end of the body in the queue whenever the last piece lies within the last part's content and closing line, C115_kept and C115_lost that it stays there until a handler reads or a request without a body ends, and that the next handler that reads gets an empty body whatever its own; C115_refuted_next shows it on one connection. C115_one: nothing is left if the form comes in one piece. C115_entries: the entries length and type of a part. C115_exact: for every cut, whether the end is taken (takesEnd, Spec/FilesPieces); C115_two: of two pieces, it is left if and only if the first holds the first header."),
"C116": ("partial", "False for sized reads: C116_left proves that reads whose sizes sum up to no more than the body return exactly those bytes and leave the end of the body in the queue, and nothing else if the sum is the Content-Length; C116_refuted_next shows the next request on the connection reading an empty body after read(content_length). It holds for body() (C116_body), for reads that ask for more than the body (C116_over), and whenever eof() is true (C116_eof). Chunked bodies: C116_chunked proves for every well-formed body and segmentation that body() takes the segments up to the one with the end of the last chunk's line and leaves all others in the queue, C116_chunked_iff when nothing is left, C116_taken that what is taken is complete, C116_next what the next handler reads then."),
"C117": ("partial", "C117_same: in every state and for every framing, form() gives what parse_qs makes of what body() would return, and raises what body() would raise (for sizes over 2 and up to the limit); C117_body and C117_again: body() after form() returns what was parsed, a later form() the same fields, or {} after an error. C117_partial and C117_fields_partial: with only body() before it, form() gives the fields of the whole body. False after read() and recv(): C117_exact proves that the whole body is parsed exactly if these have returned nothing and hold nothing back; C117_peek and C117_refuted_peek: one byte read of a form in one piece and form() is empty. The limit holds only without body() before (C117_limit)."),
"C118": ("proved", "C118_prompt for stream (the default) and C118_held for stream=False, for every prefix of what a response hands to send(). C118_any is for every request, with middlewares that answer, calls of write(), exceptions and error handlers, when nobody asks for data to be held back. C118_lost: with stream=False a generator that raises loses what was held back. The model's generators are finite lists of pieces."),
"C119": ("proved", "C119_view carries what is proved about one connection (Model/Conn) to each of a worker; C119_bounded, C119_kicked, C119_room and C119_last are the statement; C119_refuted_idle proves its last sentence. What happens on a connection behind connection_lost is not part of this model."),
"C120": ("partial", "C120_date_partial: less than two seconds old while the worker serves, plus the lateness of the event loop and the time it stood still in recv; C120_refuted_recv shows that the latter is needed, C120_refuted_closing that the date is not set any more when the loop has ended, while responses may still be made. C120_memory, C120_within, C120_usage and C120_other_systems are the rest, in full."),
"C121": ("partial", "C121_path, C121_record, C121_same and C121_log: proved for all paths, for exceptions whose class name has no colon; one line each if the text of the exception has no line break. C121_refuted_text: the text is written as it is, so one with a line break adds lines. C121_refuted_abort: if the response has begun, the path is not in the record, and a request for the path `abort` gives the same one."),
"C122": ("partial", "C122_digest, C122_base64, C122_key and C122_once: proved for all inputs. C122_asgi_partial and C122_native_partial: the accept line answers the value of the field as it was sent. False if white space follows the key (C122_refuted_space): the parser keeps it, and it is hashed with the key."),
}
