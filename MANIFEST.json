{
 "claims": [
  {
   "property": "C01",
   "status": "proved",
   "theorems": [
    "Verif.C01_outcome",
    "Verif.C01_fragmentation",
    "Verif.C01_too_large",
    "Verif.C01_independent",
    "Verif.C01_boundary"
   ],
   "note": "Exact outcome for every fragmentation. A head whose blank line starts exactly client_max_header_size - 2 bytes in is accepted or refused depending on fragmentation (C01_boundary); any shorter head is always accepted, any longer one never."
  },
  {
   "property": "C02",
   "status": "proved",
   "theorems": [
    "Verif.C02_bounded"
   ],
   "note": ""
  },
  {
   "property": "C03",
   "status": "proved",
   "theorems": [
    "Verif.C03_parse",
    "Verif.C03_dictionary",
    "Verif.C03_auto"
   ],
   "note": "All well-formed heads (optional space after the colon, URLs with spaces or HTTP/ inside) whose field names do not collide with the parser's own dictionary keys (that collision is C06)."
  },
  {
   "property": "C04",
   "status": "partial",
   "theorems": [
    "Verif.C04_valid_iff",
    "Verif.C04_sound_partial",
    "Verif.C04_refuted_host",
    "Verif.C04_response_iff",
    "Verif.C04_response_values"
   ],
   "note": "Exact iff-characterisation of is_valid_request; the Host clause of the claim is false when the client sends a _version field (C04_refuted_host), so soundness is stated with that exception."
  },
  {
   "property": "C05",
   "status": "proved",
   "theorems": [
    "Verif.C05_roundtrip",
    "Verif.C05_edits"
   ],
   "note": "Round trip through save() for all well-formed heads; edits and save() for all states."
  },
  {
   "property": "C06",
   "status": "partial",
   "theorems": [
    "Verif.C06_seen_exact",
    "Verif.C06_request_line_partial",
    "Verif.C06_refuted_forge"
   ],
   "note": "False as stated: C06_refuted_forge. Exact description of what the application sees (C06_seen_exact) and the claim for requests without reserved field names."
  },
  {
   "property": "C07",
   "status": "proved",
   "theorems": [
    "Verif.C07_framing",
    "Verif.C07_refused",
    "Verif.C07_accepts"
   ],
   "note": "Includes the exact refusal codes (400/500) and the converse (good framing is accepted). Not modelled: CPython's 4300-digit limit of int()."
  },
  {
   "property": "C08",
   "status": "proved",
   "theorems": [
    "Verif.C08_exact",
    "Verif.C08_waits"
   ],
   "note": "All segmentations, including the bytes that came with the head; also that the stream waits while bytes are missing."
  },
  {
   "property": "C09",
   "status": "partial",
   "theorems": [
    "Verif.C09_exact",
    "Verif.C09_decode_partial",
    "Verif.C09_refuted",
    "Verif.C09_refuted_internal"
   ],
   "note": "False as stated: C09_refuted, C09_refuted_internal. C09_exact characterises exactly which segmentations decode and which raise BadRequest."
  },
  {
   "property": "C10",
   "status": "proved",
   "theorems": [
    "Verif.C10_done_complete",
    "Verif.C10_terminates",
    "Verif.C10_truncated",
    "Verif.C10_cut"
   ],
   "note": "Arbitrary bytes and cuts. The size-line syntax is what Python's int(_, 16) accepts after the prefix 0x."
  },
  {
   "property": "C11",
   "status": "proved",
   "theorems": [
    "Verif.C11_read",
    "Verif.C11_partition",
    "Verif.C11_progress"
   ],
   "note": "Sized reads only (n > 0); mixing with recv(-1) is not covered."
  },
  {
   "property": "C12",
   "status": "proved",
   "theorems": [
    "Verif.C12_body",
    "Verif.C12_content_length",
    "Verif.C12_no_partial",
    "Verif.C12_retry"
   ],
   "note": "On a fresh request."
  },
  {
   "property": "C13",
   "status": "proved",
   "theorems": [
    "Verif.C13_declared",
    "Verif.C13_undeclared",
    "Verif.C13_within"
   ],
   "note": "Receive-side accounting of put_to_queue and the stream's check."
  },
  {
   "property": "C14",
   "status": "proved",
   "theorems": [
    "Verif.C14_pieces"
   ],
   "note": "Any consumer schedule."
  },
  {
   "property": "C15",
   "status": "partial",
   "theorems": [
    "Verif.C15_refuted_body",
    "Verif.C15_refuted_head",
    "Verif.C15_partial"
   ],
   "note": "Proved: where every byte received goes, for schedules in which bodies are read, and later segments queued, before the response is completed. False otherwise: an unread body is read by the next handler, or handled as a request (C15_refuted_body, C15_refuted_head)."
  },
  {
   "property": "C16",
   "status": "partial",
   "theorems": [
    "Verif.C16_progress",
    "Verif.C16_progress_needs_tidy",
    "Verif.C16_refuted",
    "Verif.C16_partial"
   ],
   "note": "Proved for schedules in which no segment is still being queued when a response is completed, with progress. False otherwise: the pieces of that segment are reordered (C16_refuted)."
  },
  {
   "property": "C17",
   "status": "proved",
   "theorems": [
    "Verif.C17_keepalive",
    "Verif.C17_wire"
   ],
   "note": ""
  },
  {
   "property": "C18",
   "status": "proved",
   "theorems": [
    "Verif.C18_order",
    "Verif.C18_once",
    "Verif.C18_limit",
    "Verif.C18_admitted",
    "Verif.C18_expect"
   ],
   "note": "Any interleaving of handler and send task, bodies with Content-Length and chunked ones (which have no length to exceed: C18_limit is about the former). C18_admitted: a body that is acceptable is never kept from being read. Before the send task takes the first marker, several reads can emit the interim response several times: once per request holds after that marker (C18_once)."
  },
  {
   "property": "C19",
   "status": "proved",
   "theorems": [
    "Verif.C19_calls",
    "Verif.C19_request",
    "Verif.C19_mutation"
   ],
   "note": ""
  },
  {
   "property": "C20",
   "status": "proved",
   "theorems": [
    "Verif.C20_streamed",
    "Verif.C20_returned"
   ],
   "note": "Returned and yielded bodies, all options."
  },
  {
   "property": "C21",
   "status": "proved",
   "theorems": [
    "Verif.C21_end",
    "Verif.C21_middleware",
    "Verif.C21_returned"
   ],
   "note": "end, request middlewares that return data and returned bodies."
  },
  {
   "property": "C22",
   "status": "partial",
   "theorems": [
    "Verif.C22_returned",
    "Verif.C22_streamed",
    "Verif.C22_end",
    "Verif.C22_write",
    "Verif.C22_refuted_middleware",
    "Verif.C22_refuted_late",
    "Verif.C22_refuted_upgrade",
    "Verif.C22_refuted_after_end"
   ],
   "note": "Proved for returned and yielded data, end and write. False when a response middleware or a late set_status changes the status after the framing was decided, for write with status 426/101, and for write after end (four C22_refuted theorems)."
  },
  {
   "property": "C23",
   "status": "partial",
   "theorems": [
    "Verif.C23_refused",
    "Verif.C23_request_partial",
    "Verif.C23_refuted_append",
    "Verif.C23_refuted_error"
   ],
   "note": "Refusal of LF by set_header, set_status, set_content_type and set_cookie, and the shape of every head, proved for all applications that give append_header no LF. append_header does not check (C23_refuted_append)."
  },
  {
   "property": "C24",
   "status": "proved",
   "theorems": [
    "Verif.C24_stream",
    "Verif.C24_closed"
   ],
   "note": ""
  },
  {
   "property": "C25",
   "status": "partial",
   "theorems": [
    "Verif.C25_many",
    "Verif.C25_many_beyond",
    "Verif.C25_parse",
    "Verif.C25_unsatisfiable",
    "Verif.C25_sound",
    "Verif.C25_unit",
    "Verif.C25_malformed",
    "Verif.C25_refuted_zero",
    "Verif.C25_refuted_cut",
    "Verif.C25_refuted_number",
    "Verif.C25_refuted_empty",
    "Verif.C25_single",
    "Verif.C25_head",
    "Verif.C25_multi",
    "Verif.C25_refused"
   ],
   "note": "Ranges written as RFC 9110 has them (any zeros and white space, one or several headers): exact positions, 206 heads, bytes, multipart bodies, 416 and 400 responses, for every file and buffer size; more than 101 ranges (C25_many, C25_many_beyond); soundness for every header value. False: 5-0 is served as byte 5, ranges ending behind the file are refused instead of cut, signs and underscores are accepted, and an empty suffix sends no head (four C25_refuted theorems)."
  },
  {
   "property": "C26",
   "status": "proved",
   "theorems": [
    "Verif.C26_whole",
    "Verif.C26_head",
    "Verif.C26_current"
   ],
   "note": "Whole file, HEAD and 304; file_size not overridden, the first sendfile of the connection (see C64)."
  },
  {
   "property": "C27",
   "status": "proved",
   "theorems": [
    "Verif.C27_end",
    "Verif.C27_write",
    "Verif.C27_returned",
    "Verif.C27_streamed",
    "Verif.C27_middleware"
   ],
   "note": "end, write, returned and yielded bodies, request middlewares."
  },
  {
   "property": "C28",
   "status": "partial",
   "theorems": [
    "Verif.C28_error_partial",
    "Verif.C28_status_partial",
    "Verif.C28_sent",
    "Verif.C28_websocket",
    "Verif.C28_refuted"
   ],
   "note": "Proved for every failure unless the exception's message contains LF (C28_refuted: nothing is sent and the connection stays open)."
  },
  {
   "property": "C29",
   "status": "partial",
   "theorems": [
    "Verif.C29_returned",
    "Verif.C29_streamed_partial",
    "Verif.C29_upgrade",
    "Verif.C29_end",
    "Verif.C29_middleware",
    "Verif.C29_close",
    "Verif.C29_refuted_http10",
    "Verif.C29_refuted_204",
    "Verif.C29_refuted_head",
    "Verif.C29_refuted_none"
   ],
   "note": "Proved for end, middlewares, returned bodies and delimited streams. False for undelimited streams (HTTP/1.0), 204/HEAD streams and handlers returning None (four C29_refuted theorems)."
  },
  {
   "property": "C30",
   "status": "proved",
   "theorems": [
    "Verif.C30_create",
    "Verif.C30_recv_binary",
    "Verif.C30_recv_text",
    "Verif.C30_roundtrip"
   ],
   "note": "Any frame accepted by RFC 6455 (reader) and every frame created (writer), any segmentation. Payloads of 64 KiB and more must respect ws_max_payload_size."
  },
  {
   "property": "C31",
   "status": "partial",
   "theorems": [
    "Verif.C31_refused_partial",
    "Verif.C31_refused_large",
    "Verif.C31_refuted"
   ],
   "note": "False for limits below 65535 (C31_refuted): 7- and 16-bit lengths are never compared with the limit. Proved for the 64-bit form and, for limits of at least 65535, for all frames."
  },
  {
   "property": "C32",
   "status": "proved",
   "theorems": [
    "Verif.C32_ping",
    "Verif.C32_pong",
    "Verif.C32_close",
    "Verif.C32_other"
   ],
   "note": "Ping, pong, close and every other opcode, at the level of recv() and receive()."
  },
  {
   "property": "C33",
   "status": "partial",
   "theorems": [
    "Verif.C33_complete_partial",
    "Verif.C33_refuted_truncated",
    "Verif.C33_refuted_fragment"
   ],
   "note": "False as stated: truncated messages are delivered at end of input and fragments are delivered separately (two refutations). Proved while the end of input has not been reached."
  },
  {
   "property": "C34",
   "status": "proved",
   "theorems": [
    "Verif.C34_one_event",
    "Verif.C34_refused",
    "Verif.C34_cr_injects"
   ],
   "note": "Data and fields without CR; ids containing NUL are ignored by the grammar itself. C34_cr_injects shows CR must be excluded."
  },
  {
   "property": "C35",
   "status": "proved",
   "theorems": [
    "Verif.C35_quote",
    "Verif.C35_cookie",
    "Verif.C35_total"
   ],
   "note": "Strings given by their UTF-8 bytes. The cookie name is not encoded by the code and must be free of ';'."
  },
  {
   "property": "C36",
   "status": "proved",
   "theorems": [
    "Verif.C36_bounded",
    "Verif.C36_present",
    "Verif.C36_evicts_oldest",
    "Verif.C36_delete",
    "Verif.C36_no_spurious_eviction"
   ],
   "note": "KeepAliveConnections as an insertion-ordered table; all operation sequences."
  },
  {
   "property": "C37",
   "status": "partial",
   "theorems": [
    "Verif.C37_fifo",
    "Verif.C37_delivered",
    "Verif.C37_waiting",
    "Verif.C37_partial",
    "Verif.C37_refuted_lost",
    "Verif.C37_refuted_spurious",
    "Verif.C37_refuted_kill",
    "Verif.C37_refuted_clear"
   ],
   "note": "Order, no duplicates and no waiting beside a non-empty queue are proved for every schedule, including cancellations. False: an item handed to a call that is cancelled before it runs is lost, a cancelled call makes later ones fail at once, cancelling a call that waits behind another cancels that one too, and clear() forgets waiting calls (four C37_refuted theorems)."
  },
  {
   "property": "C38",
   "status": "partial",
   "theorems": [
    "Verif.C38_partial",
    "Verif.C38_held_partial",
    "Verif.C38_progress_partial",
    "Verif.C38_refuted_timeout",
    "Verif.C38_refuted_cancel",
    "Verif.C38_aborted",
    "Verif.C38_refuted_orphan",
    "Verif.C38_gave_up",
    "Verif.C38_unstarted"
   ],
   "note": "Proved for every schedule in which no acquire fails. False with timeouts and cancellations (three C38_refuted theorems): the body runs all the same and the lock of another task is released. What happens then is proved as well: C38_aborted and C38_gave_up (the task goes inside and leaves the lock free, whoever holds it), C38_unstarted (a thread that has not begun takes no lock)."
  },
  {
   "property": "C39",
   "status": "proved",
   "theorems": [
    "Verif.C39_found",
    "Verif.C39_index",
    "Verif.C39_only",
    "Verif.C39_refuted_metachar"
   ],
   "note": "Paths without regular-expression metacharacters (the code does not escape them: C39_refuted_metachar) and URLs without a newline byte. Patterns go through a model of the part of re's syntax they use."
  },
  {
   "property": "C40",
   "status": "proved",
   "theorems": [
    "Verif.C40_dispatch",
    "Verif.C40_one_handler"
   ],
   "note": ""
  },
  {
   "property": "C41",
   "status": "partial",
   "theorems": [
    "Verif.C41_refuted_history",
    "Verif.C41_refuted_concurrent",
    "Verif.C41_partial",
    "Verif.C41_sticky_partial"
   ],
   "note": "False for regex routes: a chosen regex route is moved to the key of that URL (C41_refuted_history) and overlapping requests can delete another route (C41_refuted_concurrent). Proved: URLs of plain routes, applications without regex routes, and that a URL served by a regex route keeps it."
  },
  {
   "property": "C42",
   "status": "proved",
   "theorems": [
    "Verif.C42_request_pass",
    "Verif.C42_request_stop",
    "Verif.C42_response_pass",
    "Verif.C42_response_stop",
    "Verif.C42_connect",
    "Verif.C42_close",
    "Verif.C42_response_none"
   ],
   "note": ""
  },
  {
   "property": "C43",
   "status": "proved",
   "theorems": [
    "Verif.C43_options",
    "Verif.C43_getoptions"
   ],
   "note": ""
  },
  {
   "property": "C44",
   "status": "proved",
   "theorems": [
    "Verif.C44_safe",
    "Verif.C44_unescape",
    "Verif.C44_page"
   ],
   "note": "html_escape on bytes and the 404 page; the str branch is the standard library's html.escape and is not modelled."
  },
  {
   "property": "C45",
   "status": "partial",
   "theorems": [
    "Verif.C45_content_length_partial",
    "Verif.C45_content_length_waits",
    "Verif.C45_none",
    "Verif.C45_chunked_all",
    "Verif.C45_refuted_chunked",
    "Verif.C45_refuted_truncated",
    "Verif.C45_chunked_taken",
    "Verif.C45_refuted_zero"
   ],
   "note": "Proved for requests without a body and for Content-Length >= 1, every segmentation, complete or not. False for every chunked body: no message without more_body, or one too early (C45_refuted_chunked, C45_chunked_taken, C45_refuted_truncated), and for Content-Length: 0 (C45_refuted_zero)."
  },
  {
   "property": "C46",
   "status": "partial",
   "theorems": [
    "Verif.C46_partial",
    "Verif.C46_lf",
    "Verif.C46_once",
    "Verif.C46_refuted_colon",
    "Verif.C46_refuted_line"
   ],
   "note": "Proved for every header list whose names have no colon and are not _line, whatever messages follow; LF always leads to the fixed error response. False for names with a colon and for _line (C46_refuted_colon, C46_refuted_line)."
  },
  {
   "property": "C47",
   "status": "partial",
   "theorems": [
    "Verif.C47_partial",
    "Verif.C47_starting",
    "Verif.C47_only_reported",
    "Verif.C47_reported",
    "Verif.C47_tolerated",
    "Verif.C47_complete",
    "Verif.C47_decided",
    "Verif.C47_failed",
    "Verif.C47_received",
    "Verif.C47_shutdown_no_wait",
    "Verif.C47_shutdown_ends",
    "Verif.C47_raises",
    "Verif.C47_ready_twice",
    "Verif.C47_shutdown_waits",
    "Verif.C47_shutdown_logged",
    "Verif.C47_refuted_caught",
    "Verif.C47_refuted_late",
    "Verif.C47_refuted_cancelled",
    "Verif.C47_refuted_shutdown"
   ],
   "note": "The exact verdict is proved for every history (C47_partial). False: an application that catches the LifespanError, reports failure after complete or is cancelled is not refused, and one that reports shutdown.failed at start-up is (four C47_refuted theorems)."
  },
  {
   "property": "C48",
   "status": "proved",
   "theorems": [
    "Verif.C48_ip"
   ],
   "note": ""
  },
  {
   "property": "C49",
   "status": "proved",
   "theorems": [
    "Verif.C49_rate",
    "Verif.C49_backpressure"
   ],
   "note": "Exact rational arithmetic instead of floating point."
  },
  {
   "property": "C50",
   "status": "partial",
   "theorems": [
    "Verif.C50_partial",
    "Verif.C50_without_partial",
    "Verif.C50_empty",
    "Verif.C50_order",
    "Verif.C50_refuted_close",
    "Verif.C50_refuted_taken",
    "Verif.C50_refuted_read",
    "Verif.C50_refuted_stuck",
    "Verif.C50_refuted_task",
    "Verif.C50_refuted_unseen"
   ],
   "note": "Proved for every history without close middlewares, and with them as long as no descriptor is given out before the connection that had it is cleaned up: a connection is given only what its own tasks put, in order and completely; new connections find empty queues. Assumed: only tasks that connection_lost cancels wait on the queues or in put_to_queue. False with close middlewares (C50_refuted_close, _taken, _read, _stuck) and for tasks made by the application (C50_refuted_task); the check of connection_made looks at queue[0] twice (C50_refuted_unseen)."
  },
  {
   "property": "C51",
   "status": "partial",
   "theorems": [
    "Verif.C51_partial",
    "Verif.C51_heads",
    "Verif.C51_locked",
    "Verif.C51_refuted_two",
    "Verif.C51_refuted_silent",
    "Verif.C51_refuted_limit"
   ],
   "note": "At most one handler at a time, and no head looked for meanwhile, for every schedule in which handlers end with completing their response and no body is too large; while a request is handled no other head is taken before an end marker, for every schedule. False: a handler that goes on after completing its response, a head that is no request, and a too large stale segment (three C51_refuted theorems)."
  },
  {
   "property": "C52",
   "status": "proved",
   "theorems": [
    "Verif.C52_order",
    "Verif.C52_close"
   ],
   "note": "For every schedule of the connection machine; the transport is modelled as refusing writes after close or abort."
  },
  {
   "property": "C53",
   "status": "partial",
   "theorems": [
    "Verif.C53_files",
    "Verif.C53_partial",
    "Verif.C53_calls",
    "Verif.C53_truncated",
    "Verif.C53_odd",
    "Verif.C53_sound",
    "Verif.C53_ends",
    "Verif.C53_boundary",
    "Verif.C53_refuted_boundary",
    "Verif.C53_refuted_epilogue",
    "Verif.C53_refuted_preamble",
    "Verif.C53_refuted_abandoned"
   ],
   "note": "Proved for every segmentation, limit and sequence of calls: the parts with their fields and contents, in order (contents may hold the delimiter if Content-Length is right); every incomplete body gives the complete parts and then BadRequest; soundness for arbitrary bodies. False: boundaries with + or quotes (C53_refuted_boundary), a body without the final line break or with an epilogue (C53_refuted_epilogue), a preamble loses the first part's fields (C53_refuted_preamble); leaving the loop and calling again repeats or loses parts (C53_refuted_abandoned). Part headers up to 8193 bytes. Not modelled: parse_qsl of Content-Disposition."
  },
  {
   "property": "C54",
   "status": "partial",
   "theorems": [
    "Verif.C54_partial",
    "Verif.C54_never_larger",
    "Verif.C54_raises",
    "Verif.C54_ends",
    "Verif.C54_again",
    "Verif.C54_chunked_sound",
    "Verif.C54_chunked_first",
    "Verif.C54_refuted_silent",
    "Verif.C54_refuted_lost",
    "Verif.C54_refuted_larger",
    "Verif.C54_refuted_again",
    "Verif.C54_refuted_pipelined"
   ],
   "note": "Content-Length bodies: proved for every segmentation and schedule that a body within the limit is parsed whole and nothing larger than the limit is parsed; ValueError is proved if the body came with the head. Chunked bodies: what is parsed is the payload of complete chunks, and the limit works if the body came with the head. False otherwise: a body over the limit may give {} without ValueError (C54_refuted_silent), a chunked form may be lost (C54_refuted_lost) or be larger than the limit (C54_refuted_larger), a second call after ValueError returns {} (C54_refuted_again), bytes behind the body are counted (C54_refuted_pipelined)."
  },
  {
   "property": "C55",
   "status": "proved",
   "theorems": [
    "Verif.C55_listen",
    "Verif.C55_places",
    "Verif.C55_options"
   ],
   "note": ""
  },
  {
   "property": "C56",
   "status": "proved",
   "theorems": [
    "Verif.C56_shape",
    "Verif.C56_routes",
    "Verif.C56_options"
   ],
   "note": ""
  },
  {
   "property": "C57",
   "status": "proved",
   "theorems": [
    "Verif.C57_hooks"
   ],
   "note": ""
  },
  {
   "property": "C58",
   "status": "partial",
   "theorems": [
    "Verif.C58_wellformed_partial",
    "Verif.C58_bad_number",
    "Verif.C58_unknown",
    "Verif.C58_refuted"
   ],
   "note": "Proved for command lines whose values do not start with a dash and that end with the application; unknown options and bad numbers anywhere. C58_refuted lists what goes wrong otherwise: a trailing option takes the program name as value, dashed values are taken for options, a trailing value is taken as the application."
  },
  {
   "property": "C59",
   "status": "proved",
   "theorems": [
    "Verif.C59_bind",
    "Verif.C59_refused"
   ],
   "note": "C59_bind: lists of addresses; C59_refused: exactly the lists with an element that has a colon and no number behind it are refused as a whole."
  },
  {
   "property": "C60",
   "status": "partial",
   "theorems": [
    "Verif.C60_refuted"
   ],
   "note": "False: with Connection: close no final response is ever delivered (C60_refuted, for every continuation)."
  },
  {
   "property": "C61",
   "status": "partial",
   "theorems": [
    "Verif.C61_ready",
    "Verif.C61_refuted"
   ],
   "note": "False when the handler does not read the body (C61_refuted); C61_ready says exactly that two markers are needed."
  },
  {
   "property": "C62",
   "status": "proved",
   "theorems": [
    "Verif.C62_buffer",
    "Verif.C62_size_line"
   ],
   "note": ""
  },
  {
   "property": "C63",
   "status": "proved",
   "theorems": [
    "Verif.C63_request",
    "Verif.C63_content_type"
   ],
   "note": ""
  },
  {
   "property": "C64",
   "status": "partial",
   "theorems": [
    "Verif.C64_refuted",
    "Verif.C64_refuted_length",
    "Verif.C64_exact",
    "Verif.C64_same_partial"
   ],
   "note": "False: the first file's handle is kept for the connection (C64_refuted, C64_exact); holds as long as all files sent have the same content."
  },
  {
   "property": "C65",
   "status": "partial",
   "theorems": [
    "Verif.C65_partial",
    "Verif.C65_refuted_status"
   ],
   "note": "Proved for known statuses and headers whose names have no colon and are not _line. False for a status that HTTPStatus does not know: the whole message is dropped (C65_refuted_status, for all such statuses)."
  },
  {
   "property": "C66",
   "status": "partial",
   "theorems": [
    "Verif.C66_chunked",
    "Verif.C66_raw",
    "Verif.C66_bodyless",
    "Verif.C66_refuted_426",
    "Verif.C66_refuted_flag",
    "Verif.C66_refuted_late"
   ],
   "note": "Proved for chunked and raw bodies and for bodyless responses. False for HEAD with status 426, for data sent after the last body message, and the flag that turns chunks off is kept for later responses of the connection (three C66_refuted theorems)."
  },
  {
   "property": "C67",
   "status": "partial",
   "theorems": [
    "Verif.C67_raises",
    "Verif.C67_returns_partial",
    "Verif.C67_refuted",
    "Verif.C67_refuted_silent"
   ],
   "note": "Proved when the application raises and when it sent its last body message. False when it returns without one (C67_refuted)."
  },
  {
   "property": "C68",
   "status": "partial",
   "theorems": [
    "Verif.C68_partial",
    "Verif.C68_some",
    "Verif.C68_no_escape",
    "Verif.C68_upgraded",
    "Verif.C68_refuted_asgi",
    "Verif.C68_refuted_overlap"
   ],
   "note": "Proved for native handlers one after another (C68_partial), with completeness (C68_no_escape). False for ASGI applications and for handlers that go on after their response (two C68_refuted theorems, for every timeout)."
  },
  {
   "property": "C69",
   "status": "partial",
   "theorems": [
    "Verif.C69_partial",
    "Verif.C69_refuted",
    "Verif.C69_after_response"
   ],
   "note": "Proved for the call that waits and for calls after the end of the response. False for every call after the disconnect: it raises TypeError (C69_refuted)."
  },
  {
   "property": "C70",
   "status": "partial",
   "theorems": [
    "Verif.C70_partial",
    "Verif.C70_refuted_close",
    "Verif.C70_refuted_key"
   ],
   "note": "Proved for header names without colon that are not _line. False if the application gives Connection: close with the acceptance (C70_refuted_close), and if the client repeats its key header (C70_refuted_key). The accept key is a parameter here; C122 says what it is."
  },
  {
   "property": "C71",
   "status": "partial",
   "theorems": [
    "Verif.C71_partial",
    "Verif.C71_close",
    "Verif.C71_lost",
    "Verif.C71_waits",
    "Verif.C71_refuted_empty",
    "Verif.C71_refuted_connect"
   ],
   "note": "Proved for text messages, non-empty binary messages, pings and pongs in any segmentation and interleaving, with the closing event (C71_close, C71_lost). Empty binary messages are not delivered (C71_refuted_empty); before the acceptance receive repeats websocket.connect (C71_refuted_connect). Timers (ping, receive timeout) are not modelled."
  },
  {
   "property": "C72",
   "status": "partial",
   "theorems": [
    "Verif.C72_partial",
    "Verif.C72_wire",
    "Verif.C72_refuted_empty",
    "Verif.C72_refuted_early"
   ],
   "note": "Proved for non-empty messages below 2^64 bytes. Empty ones are not sent (C72_refuted_empty); before the acceptance frames are sent in place of a response (C72_refuted_early)."
  },
  {
   "property": "C73",
   "status": "partial",
   "theorems": [
    "Verif.C73_close_partial",
    "Verif.C73_failed",
    "Verif.C73_failed_before",
    "Verif.C73_failed_after",
    "Verif.C73_refuted_reject",
    "Verif.C73_refuted_client",
    "Verif.C73_refuted_violation",
    "Verif.C73_refuted_code"
   ],
   "note": "Proved for websocket.close with a code of 16 bits in an open session (C73_close_partial), and for exceptions of the application after (C73_failed) and before (C73_failed_before) the acceptance. False for a rejection before the acceptance, for the client's close frame, which is not answered, for protocol violations, where the client is told nothing and the application 1005, and for codes out of range (C73_refuted_reject, _client, _violation, _code)."
  },
  {
   "property": "C74",
   "status": "partial",
   "theorems": [
    "Verif.C74_query_partial",
    "Verif.C74_form_partial",
    "Verif.C74_limit",
    "Verif.C74_refuted_limit",
    "Verif.C74_refuted_blank",
    "Verif.C74_refuted_raw"
   ],
   "note": "Proved for up to 100 items (max_fields for forms) that are escaped wherever they are not ASCII; more are refused (C74_limit). Blank values are dropped, a refused query is empty at the second access, and bytes that are not escaped are read as latin-1 (C74_refuted_blank, _limit, _raw)."
  },
  {
   "property": "C75",
   "status": "partial",
   "theorems": [
    "Verif.C75_one_partial",
    "Verif.C75_many_partial",
    "Verif.C75_none",
    "Verif.C75_refuted_changed",
    "Verif.C75_refuted_split",
    "Verif.C75_refuted_blank"
   ],
   "note": "Proved for every non-empty text set by set_cookie, and for other non-empty values without %, + and &. Those bytes change or split values, and blank values are dropped (C75_refuted_changed, _split, _blank)."
  },
  {
   "property": "C76",
   "status": "partial",
   "theorems": [
    "Verif.C76_partial",
    "Verif.C76_refuted_changed",
    "Verif.C76_refuted_cut",
    "Verif.C76_refuted_utf8",
    "Verif.C76_refuted_quotes"
   ],
   "note": "Proved for ASCII without %, +, & and ;, without quotes at the ends. False for these (C76_refuted_changed, _cut, _utf8, _quotes)."
  },
  {
   "property": "C77",
   "status": "partial",
   "theorems": [
    "Verif.C77_http_partial",
    "Verif.C77_forwarded",
    "Verif.C77_refuted_utf8",
    "Verif.C77_refuted_absolute",
    "Verif.C77_refuted_scheme",
    "Verif.C77_refuted_twice",
    "Verif.C77_refuted_addresses",
    "Verif.C77_refuted_space"
   ],
   "note": "Proved without X-Forwarded-Proto, for paths that are ASCII once decoded, IPv4 and unnamed unix sockets. False for other paths (latin-1 in place of UTF-8), URLs in absolute form, X-Forwarded-Proto (any text; repeated: AttributeError), IPv6 addresses, named unix sockets and white space around values (C77_refuted_*)."
  },
  {
   "property": "C78",
   "status": "partial",
   "theorems": [
    "Verif.C78_websocket_partial",
    "Verif.C78_type",
    "Verif.C78_refuted_loose",
    "Verif.C78_refuted_upgrade",
    "Verif.C78_refuted_space"
   ],
   "note": "C78_type says exactly when the type is websocket, C78_websocket_partial gives the scope. Requests that are no handshakes are taken for one, Upgrade lists are not recognised, a repeated Upgrade raises AttributeError, and white space around subprotocols is kept (C78_refuted_*)."
  },
  {
   "property": "C79",
   "status": "partial",
   "theorems": [
    "Verif.C79_early",
    "Verif.C79_partial",
    "Verif.C79_refuted_junk",
    "Verif.C79_refuted_feeding",
    "Verif.C79_refuted_refused"
   ],
   "note": "C79_early holds in every schedule: at most one abort, never before the time. C79_partial shows the rest where no head is nonsense except the first and no body is too large. False otherwise: a nonsense head on a kept connection leaves its timer running, which aborts a later request; a timer may fire while the first bytes of a body are queued or an error response is pending (C79_refuted_*)."
  },
  {
   "property": "C80",
   "status": "partial",
   "theorems": [
    "Verif.C80_deadline",
    "Verif.C80_partial",
    "Verif.C80_bounded_partial",
    "Verif.C80_refuted_continue",
    "Verif.C80_refuted_open",
    "Verif.C80_refuted_forever"
   ],
   "note": "C80_deadline holds in every schedule. C80_partial and C80_bounded_partial need handlers that complete their response, and interim responses sent while they run. False otherwise: a connection may stay open without any timer (C80_refuted_*)."
  },
  {
   "property": "C81",
   "status": "partial",
   "theorems": [
    "Verif.C81_partial",
    "Verif.C81_progress_partial",
    "Verif.C81_kept",
    "Verif.C81_refuted_kept",
    "Verif.C81_refuted_early"
   ],
   "note": "C81_partial (order) and C81_progress_partial hold for the first request of a connection in every schedule in which no segment is being queued at the moment the 101 is sent. False otherwise: such a segment may be overtaken (C81_refuted_early); on a connection that served a request before, every WebSocket is closed right after its 101 (C81_kept, C81_refuted_kept)."
  },
  {
   "property": "C82",
   "status": "proved",
   "theorems": [
    "Verif.C82_order",
    "Verif.C82_bounded",
    "Verif.C82_cut"
   ],
   "note": "For every schedule, with the flow control of asyncio's transports (CPython 3.11) as part of the model."
  },
  {
   "property": "C83",
   "status": "partial",
   "theorems": [
    "Verif.C83_wakes_partial",
    "Verif.C83_reads_partial",
    "Verif.C83_early",
    "Verif.C83_deadline",
    "Verif.C83_refuted_tls",
    "Verif.C83_refuted_tls_cut"
   ],
   "note": "C83_early and C83_deadline hold in every schedule. C83_wakes_partial and C83_reads_partial need a transport whose own high limit is at most 65536 (as without TLS), or a call of set_watermarks before the wait. False with TLS otherwise, as in WebSocket sessions: after 65537 to 524287 unsent bytes the next message is never sent, although the client has read everything (C83_refuted_tls), and the connection is aborted."
  },
  {
   "property": "C84",
   "status": "partial",
   "theorems": [
    "Verif.C84_serves",
    "Verif.C84_one",
    "Verif.C84_replaced_partial",
    "Verif.C84_shutdown_partial",
    "Verif.C84_refuted_stop",
    "Verif.C84_refuted_replacing",
    "Verif.C84_refuted_race",
    "Verif.C84_single",
    "Verif.C84_refuted_silent",
    "Verif.C84_codes"
   ],
   "note": "C84_serves holds in every schedule, and so does C84_codes (with which code a worker ends); C84_replaced_partial and C84_shutdown_partial need that no other worker ends meanwhile. False otherwise: a worker that ends between is_alive() and poll() ends the parent with EOFError (C84_refuted_race; not with one worker, C84_single); a worker that has just ended makes send(0) raise BrokenPipeError, and the workers after it are never told (C84_refuted_stop), as does an interrupt while a worker is replaced (C84_refuted_replacing); a worker that ends before it told its pid holds up the parent for ever (C84_refuted_silent)."
  },
  {
   "property": "C85",
   "status": "partial",
   "theorems": [
    "Verif.C85_heartbeat",
    "Verif.C85_blocked_partial",
    "Verif.C85_refuted_start"
   ],
   "note": "C85_heartbeat holds in every schedule. C85_blocked_partial: a worker stands still only if the parent has not looked at its pipe for 2 * n seconds, or two seconds in its first wait. The first wait is too short for three or more workers (C85_refuted_start)."
  },
  {
   "property": "C86",
   "status": "proved",
   "theorems": [
    "Verif.C86_session",
    "Verif.C86_handlers",
    "Verif.C86_handshake",
    "Verif.C86_echo"
   ],
   "note": "C86_session for lists of calls, C86_handlers for every handler, C86_handshake for the first read, C86_echo end to end. Complete text messages, non-empty binary messages, pings and pongs within the limits; fragments and empty binary messages are C33, C71."
  },
  {
   "property": "C87",
   "status": "partial",
   "theorems": [
    "Verif.C87_ends_partial",
    "Verif.C87_close",
    "Verif.C87_refuted_reply",
    "Verif.C87_refuted_text",
    "Verif.C87_refuted_return",
    "Verif.C87_refuted_error",
    "Verif.C87_refuted_control"
   ],
   "note": "C87_ends_partial: silence gives 1000, violations 1008 and 1009, close(code) its code (C87_close). False otherwise: the client's close frame is not answered (C87_refuted_reply); a text that is not UTF-8 (C87_refuted_text), a handler that returns (C87_refuted_return) or fails (C87_refuted_error) gives no close frame; ping and close send control frames that RFC 6455 forbids (C87_refuted_control)."
  },
  {
   "property": "C88",
   "status": "partial",
   "theorems": [
    "Verif.C88_expired_partial",
    "Verif.C88_responsive",
    "Verif.C88_bound",
    "Verif.C88_fires",
    "Verif.C88_spaced",
    "Verif.C88_waiting",
    "Verif.C88_pong",
    "Verif.C88_session",
    "Verif.C88_refuted_evicted",
    "Verif.C88_refuted_slow",
    "Verif.C88_refuted_busy"
   ],
   "note": "C88_expired_partial, C88_responsive, C88_bound, C88_fires, C88_spaced, C88_pong, C88_session. False for connections that have left the list of kept connections (C88_refuted_evicted), in the middle of a frame (C88_refuted_slow), and pings of the client are not answered while the handler does not read (C88_refuted_busy)."
  },
  {
   "property": "C89",
   "status": "partial",
   "theorems": [
    "Verif.C89_returned",
    "Verif.C89_streamed",
    "Verif.C89_end",
    "Verif.C89_middleware",
    "Verif.C89_error",
    "Verif.C89_refuted_end",
    "Verif.C89_refuted_returned",
    "Verif.C89_refuted_middleware"
   ],
   "note": "C89_returned, C89_streamed, C89_end, C89_middleware, C89_error. False for status 205: Content-Length of data that is not sent (C89_refuted_end), or no length at all on a kept connection (C89_refuted_returned); false when a response middleware changes the status after the body is decided (C89_refuted_middleware). Handlers that call write or end themselves are the subject of C105, sendfile of C100."
  },
  {
   "property": "C90",
   "status": "partial",
   "theorems": [
    "Verif.C90_order",
    "Verif.C90_requests",
    "Verif.C90_pipeline",
    "Verif.C90_continue",
    "Verif.C90_refuted",
    "Verif.C90_refuted_continue",
    "Verif.C90_refuted_case"
   ],
   "note": "C90_order (order and completeness), C90_requests (which request each handler gets), C90_pipeline (what the client reads, composing C15, C52 and C89), C90_continue (the same with Expect: 100-continue, for a client that skips interim responses). For calm executions (Flow.Calm: bodies read, no segment half queued when a response ends, no refused head, 100 Continue sent at most once) in which handlers queue only while they run. False otherwise: C90_refuted, C90_refuted_continue; and for methods in lower case, C90_refuted_case."
  },
  {
   "property": "C91",
   "status": "partial",
   "theorems": [
    "Verif.C91_sound",
    "Verif.C91_partial",
    "Verif.C91_never",
    "Verif.C91_watched",
    "Verif.C91_refuted_late",
    "Verif.C91_refuted_missing",
    "Verif.C91_refuted_prefix",
    "Verif.C91_refuted_fail"
   ],
   "note": "C91_sound (only a change of a watched file reloads), C91_partial (a change does reload, for modules loaded at the first second with something to watch and files present at every second since), C91_watched, C91_never (what is not watched by then never reloads). False in general: C91_refuted_late, C91_refuted_missing, C91_refuted_prefix, C91_refuted_fail."
  },
  {
   "property": "C92",
   "status": "partial",
   "theorems": [
    "Verif.C92_order",
    "Verif.C92_clean",
    "Verif.C92_zero_partial",
    "Verif.C92_once_partial",
    "Verif.C92_ends_partial",
    "Verif.C92_hang",
    "Verif.C92_second",
    "Verif.C92_smooth",
    "Verif.C92_refuted_hang",
    "Verif.C92_refuted_twice",
    "Verif.C92_refuted_memory"
   ],
   "note": "C92_order, C92_clean (exit code 0), C92_once_partial, C92_zero_partial, C92_ends_partial (exactly when the process does not end), C92_hang, C92_second, C92_smooth. False in general: C92_refuted_hang (Ctrl-C, then a stop hook that raises), C92_refuted_twice and C92_refuted_memory (a stop hook that raises ConnectionResetError on reload or memory limit)."
  },
  {
   "property": "C93",
   "status": "proved",
   "theorems": [
    "Verif.C93_requests",
    "Verif.C93_answers",
    "Verif.C93_live",
    "Verif.C93_refuted_segment"
   ],
   "note": "C93_requests, C93_answers (with C89 and C90), C93_live (no deadlock). Hypotheses: Plain (on the requests), Fair (segments within one request, handlers that read their bodies and keep the connection, queue of body parts within its limit; no timers, half-close, upgrade). C93_refuted_segment shows that the condition on segments is needed when the earlier request has a body (a limitation that http_request.py:252 states)."
  },
  {
   "property": "C94",
   "status": "partial",
   "theorems": [
    "Verif.C94_exact",
    "Verif.C94_own_partial",
    "Verif.C94_first_partial",
    "Verif.C94_order",
    "Verif.C94_refuted_websocket",
    "Verif.C94_refuted_sse",
    "Verif.C94_refuted_wire"
   ],
   "note": "C94_exact: the objects are always those of the latest request that had them, which may be an earlier one (C94_refuted_websocket, C94_refuted_sse, C94_refuted_wire). C94_own_partial, C94_first_partial: right for requests with objects of their own, and on connections without earlier objects. C94_order: calls follow the order of the requests."
  },
  {
   "property": "C95",
   "status": "partial",
   "theorems": [
    "Verif.C95_connect",
    "Verif.C95_before",
    "Verif.C95_serves",
    "Verif.C95_close",
    "Verif.C95_cleanup",
    "Verif.C95_refuted_overlap",
    "Verif.C95_refuted_late"
   ],
   "note": "C95_connect, C95_before, C95_serves, C95_close, C95_cleanup. False: close hooks come after the connect hooks (C95_refuted_overlap), no handler is called after a close hook (C95_refuted_late)."
  },
  {
   "property": "C96",
   "status": "partial",
   "theorems": [
    "Verif.C96_stopped",
    "Verif.C96_all_partial",
    "Verif.C96_refuted_loop"
   ],
   "note": "C96_stopped for callables that add nothing to the set; C96_all_partial for others if the loop ends, which it need not (C96_refuted_loop)."
  },
  {
   "property": "C97",
   "status": "partial",
   "theorems": [
    "Verif.C97_queue",
    "Verif.C97_unqueued",
    "Verif.C97_calm_partial",
    "Verif.C97_bytes_partial",
    "Verif.C97_first",
    "Verif.C97_refuted_early"
   ],
   "note": "C97_queue (the queue, every schedule), C97_first (all bytes, first exchange of a connection), C97_unqueued (each end of a response may add to what waits). C97_calm_partial, C97_bytes_partial: any number of requests if all that was received is queued when a response ends. Otherwise false: C97_refuted_early, no bound at all."
  },
  {
   "property": "C98",
   "status": "partial",
   "theorems": [
    "Verif.C98_charset",
    "Verif.C98_agrees",
    "Verif.C98_page",
    "Verif.C98_white",
    "Verif.C98_names",
    "Verif.C98_reads",
    "Verif.C98_private",
    "Verif.C98_classes",
    "Verif.C98_silent",
    "Verif.C98_debug",
    "Verif.C98_debug_tags",
    "Verif.C98_debug_page",
    "Verif.C98_refuted_args",
    "Verif.C98_refuted_text",
    "Verif.C98_refuted_markup",
    "Verif.C98_refuted_declared"
   ],
   "note": "C98_agrees (every error handler), C98_page, C98_reads, C98_charset, C98_classes, C98_private, C98_debug, C98_debug_tags, C98_debug_page; C98_silent is the exact condition for the exceptions that are not answered (nothing sent, connection left open): C98_refuted_args, C98_refuted_text. C98_refuted_markup, C98_refuted_declared: arguments are not escaped in text/html, and the codec is not that of the response."
  },
  {
   "property": "C99",
   "status": "partial",
   "theorems": [
    "Verif.C99_tcp",
    "Verif.C99_tcp_stays",
    "Verif.C99_exclusive",
    "Verif.C99_refuted_exclusive",
    "Verif.C99_unix_partial",
    "Verif.C99_restart",
    "Verif.C99_unix_one",
    "Verif.C99_unix_lost",
    "Verif.C99_refuted_workers",
    "Verif.C99_refuted_race",
    "Verif.C99_file",
    "Verif.C99_refuted_empty",
    "Verif.C99_left"
   ],
   "note": "C99_tcp, C99_tcp_stays (SO_REUSEPORT, or one worker), C99_restart, C99_unix_partial (one worker at a path), C99_file. False otherwise: C99_refuted_workers (for every n, only the last worker is reached), C99_unix_one, C99_unix_lost, C99_refuted_race, C99_refuted_exclusive with C99_exclusive, C99_refuted_empty; C99_left: the socket file is never removed."
  },
  {
   "property": "C100",
   "status": "partial",
   "theorems": [
    "Verif.C100_whole",
    "Verif.C100_range",
    "Verif.C100_multi",
    "Verif.C100_head",
    "Verif.C100_current",
    "Verif.C100_resume",
    "Verif.C100_unsatisfiable",
    "Verif.C100_unit",
    "Verif.C100_refuted_cut",
    "Verif.C100_refuted_boundary",
    "Verif.C100_many",
    "Verif.C100_many_beyond"
   ],
   "note": "C100_whole, C100_range, C100_multi, C100_head, C100_current, C100_resume, C100_unsatisfiable, C100_unit, C100_many and C100_many_beyond (more than 101 ranges: 400 or 416, never a part): from the bytes of the request to what an independent client (Spec/Client, Spec/Download) reads. False: C100_refuted_cut (a range that ends behind the file is refused, not cut); C100_refuted_boundary (a boundary that occurs in the pieces). Not covered: files that change while they are sent."
  },
  {
   "property": "C101",
   "status": "partial",
   "theorems": [
    "Verif.C101_options",
    "Verif.C101_starts",
    "Verif.C101_command",
    "Verif.C101_bind",
    "Verif.C101_workers_partial",
    "Verif.C101_level_partial",
    "Verif.C101_loop",
    "Verif.C101_once_partial",
    "Verif.C101_refuted_workers",
    "Verif.C101_refuted_level",
    "Verif.C101_refuted_twice"
   ],
   "note": "C101_options (API), C101_starts, C101_command and C101_bind (from sys.argv to the options of the workers), C101_workers_partial, C101_level_partial, C101_once_partial. False: C101_refuted_workers (a worker_num given to listen is neither checked nor limited), C101_refuted_level (a log_level in lower case given to listen makes each worker fail), C101_refuted_twice (listen(port) and run(host, port) start one address twice). C101_loop: the event loop."
  },
  {
   "property": "C102",
   "status": "partial",
   "theorems": [
    "Verif.C102_named",
    "Verif.C102_default",
    "Verif.C102_served",
    "Verif.C102_object",
    "Verif.C102_refuted_package",
    "Verif.C102_refuted_colon",
    "Verif.C102_refuted_loaded",
    "Verif.C102_refuted_unnamed"
   ],
   "note": "C102_named, C102_default, C102_served, C102_object: paths are compared by what they denote (Spec/Launch). False: C102_refuted_package (package.module:attr imports the package), C102_refuted_colon, C102_refuted_loaded, C102_refuted_unnamed. Symbolic links and import hooks are not modelled."
  },
  {
   "property": "C103",
   "status": "partial",
   "theorems": [
    "Verif.C103_partial",
    "Verif.C103_refuted_nested",
    "Verif.C103_refuted_added",
    "Verif.C103_refuted_subclass",
    "Verif.C103_refuted_two",
    "Verif.C103_refuted_loaded",
    "Verif.C103_refuted_stacked",
    "Verif.C103_refuted_prefix",
    "Verif.C103_last",
    "Verif.C103_methods"
   ],
   "note": "C103_partial: any number of reloads for an application of one main module with functions from modules of its own, as long as no module that came into use by a reload is used after a later one. For every program, C103_last says which of several server objects is taken over and C103_methods what can be registered by a method. False otherwise: C103_refuted_nested and C103_refuted_added (the parent ends with PicklingError), C103_refuted_subclass, C103_refuted_two, C103_refuted_loaded (old or foreign routes), C103_refuted_stacked (two route decorators on a function: no start), C103_refuted_prefix. Programs are reduced to definitions, imports and registrations."
  },
  {
   "property": "C104",
   "status": "partial",
   "theorems": [
    "Verif.C104_early",
    "Verif.C104_delivered",
    "Verif.C104_ends",
    "Verif.C104_prompt",
    "Verif.C104_stalled",
    "Verif.C104_body",
    "Verif.C104_answer",
    "Verif.C104_sized",
    "Verif.C104_sized_after",
    "Verif.C104_cancelled",
    "Verif.C104_refuted_retry",
    "Verif.C104_refuted_lost",
    "Verif.C104_refuted_cancel",
    "Verif.C104_refuted_gone",
    "Verif.C104_refuted_sized"
   ],
   "note": "C104_early (every schedule), C104_delivered (accounting), C104_ends, C104_prompt, C104_stalled (exactly after keepalive_timeout), C104_body, C104_answer (408 and close), C104_cancelled (a cancelled read gives no data). False for handlers that catch the TimeoutError: a second read does not wait (C104_refuted_retry), an item that comes at the deadline is lost (C104_refuted_lost), a cancellation by app_handler_timeout looks the same and does not end the handler (C104_refuted_cancel), after the connection is lost the body seems to end (C104_refuted_gone), and sized reads give nothing any more, like at the end (C104_sized, C104_sized_after, C104_refuted_sized)."
  },
  {
   "property": "C105",
   "status": "partial",
   "theorems": [
    "Verif.C105_options",
    "Verif.C105_chunked",
    "Verif.C105_partial",
    "Verif.C105_sized",
    "Verif.C105_closed",
    "Verif.C105_bodyless",
    "Verif.C105_refuted_end",
    "Verif.C105_refuted_empty",
    "Verif.C105_refuted_none",
    "Verif.C105_refuted_returned",
    "Verif.C105_refuted_marks"
   ],
   "note": "C105_partial (non-empty writes, then end()), C105_chunked (exactly what is read, for any pieces: up to the first empty one; nothing if there is none), C105_sized (own Content-Length), C105_closed (neither), C105_bodyless (HEAD, 204, 304), C105_options (each piece keeps its options). False for end(data) behind a chunked write (C105_refuted_end), an empty write in the middle (C105_refuted_empty), return without end (C105_refuted_none), returned data (C105_refuted_returned), and buffer_min_size over four times buffer_size (C105_refuted_marks)."
  },
  {
   "property": "C106",
   "status": "partial",
   "theorems": [
    "Verif.C106_chunked",
    "Verif.C106_sized",
    "Verif.C106_length",
    "Verif.C106_closed",
    "Verif.C106_bodyless",
    "Verif.C106_error",
    "Verif.C106_cut",
    "Verif.C106_sequence",
    "Verif.C106_refuted_small",
    "Verif.C106_refuted_large",
    "Verif.C106_refuted_cut",
    "Verif.C106_refuted_open"
   ],
   "note": "C106_chunked, C106_length (with a right Content-Length), C106_sized (with any: exactly what is read), C106_closed (neither), C106_bodyless (HEAD, 204, 304), C106_sequence (a kept connection), C106_error (exception before the start), C106_cut (exception in the middle of a chunked response). False for a wrong Content-Length (C106_refuted_small, C106_refuted_large), for an exception in the middle of a response without length and chunks (C106_refuted_cut), and for an application that returns without its last body message (C106_refuted_open)."
  },
  {
   "property": "C107",
   "status": "partial",
   "theorems": [
    "Verif.C107_requests",
    "Verif.C107_answers",
    "Verif.C107_live",
    "Verif.C107_refuted_early"
   ],
   "note": "C107_requests, C107_answers, C107_live, for clients that wait (Fair with Patient, Polite). False for a client that sends the body at once, as RFC 9110 allows: C107_refuted_early (the next request is lost, and its bytes become the body of the one after it)."
  },
  {
   "property": "C108",
   "status": "partial",
   "theorems": [
    "Verif.C108_date",
    "Verif.C108_read",
    "Verif.C108_same",
    "Verif.C108_refuted_second",
    "Verif.C108_clean",
    "Verif.C108_modified",
    "Verif.C108_refuted_later",
    "Verif.C108_cookie",
    "Verif.C108_cookie_set",
    "Verif.C108_refuted_years"
   ],
   "note": "C108_date, C108_read, C108_same, C108_clean, C108_modified, C108_cookie, C108_cookie_set. False beyond: C108_refuted_years (before 1000 and after 9999 the text is no IMF-fixdate), C108_refuted_second (changes within a second keep the date), C108_refuted_later (a later If-Modified-Since gets the file, not 304)."
  },
  {
   "property": "C109",
   "status": "partial",
   "theorems": [
    "Verif.C109_runs",
    "Verif.C109_middlewares",
    "Verif.C109_events",
    "Verif.C109_routes",
    "Verif.C109_meant_partial",
    "Verif.C109_call",
    "Verif.C109_bound",
    "Verif.C109_order",
    "Verif.C109_spellings",
    "Verif.C109_refuted_stack",
    "Verif.C109_refuted_kwonly",
    "Verif.C109_refuted_code"
   ],
   "note": "C109_runs, C109_middlewares, C109_events, C109_routes, C109_call, C109_bound, C109_order, C109_spellings; the options are the stated ones if no function with options is decorated twice (C109_meant_partial). False otherwise: C109_refuted_stack (upper decorators lose the options, and with them websocket, sse and rate), C109_refuted_kwonly (defaults after * are no options), C109_refuted_code (handlers for other error codes are dropped silently)."
  },
  {
   "property": "C110",
   "status": "partial",
   "theorems": [
    "Verif.C110_requests_partial",
    "Verif.C110_answers_partial",
    "Verif.C110_live_partial",
    "Verif.C110_refuted_early",
    "Verif.C110_refuted_tail",
    "Verif.C110_refuted_dropped",
    "Verif.C110_refuted_count"
   ],
   "note": "C110_requests_partial, C110_answers_partial, C110_live_partial hold for all schedules if the next request comes after the server has reset the connection, and the handler of a chunked request ends when all bytes are taken and none is being queued. All three conditions are needed: C110_refuted_early (a request sent after the whole answer is swallowed), C110_refuted_tail and C110_refuted_dropped (the CRLF of the last chunk gets into the next body, or makes the next request be dropped without an answer), C110_refuted_count (bytes counted for the next request: its handler gets an empty body and its body is taken for a request)."
  },
  {
   "property": "C111",
   "status": "partial",
   "theorems": [
    "Verif.C111_exact",
    "Verif.C111_first_partial",
    "Verif.C111_refused_partial",
    "Verif.C111_refuted_dropped",
    "Verif.C111_refuted_stuck",
    "Verif.C111_keys",
    "Verif.C111_long",
    "Verif.C111_refuted_shift"
   ],
   "note": "Holds for the first head (C111_first_partial) and for refusals within the try (C111_refused_partial). False otherwise, in general form: C111_refuted_dropped (on a kept connection a head that is no request leaves no trace; C111_exact says which heads these are, C111_long: any request line over 8190 bytes, and any request behind an empty line), C111_refuted_stuck (the constructor raises; C111_keys: exactly for fields named _method or _url), C111_refuted_shift (answers shift by one). Timers are not part of this model: the keep-alive timer ends such connections later."
  },
  {
   "property": "C112",
   "status": "partial",
   "theorems": [
    "Verif.C112_length_partial",
    "Verif.C112_chunked_partial",
    "Verif.C112_bare_partial",
    "Verif.C112_refuted"
   ],
   "note": "C112_length_partial: bodies with a Content-Length, in full. C112_chunked_partial: chunked bodies, exactly when no segment ends just behind the data of a chunk; otherwise the request is refused. C112_bare_partial: without a body nothing is read, but the stream never ends (body() waits for keepalive_timeout). C112_refuted shows both exceptions. The client and the handlers are those of C110 (Fair); timers are not part of this model."
  },
  {
   "property": "C113",
   "status": "partial",
   "theorems": [
    "Verif.C113_once",
    "Verif.C113_order_partial",
    "Verif.C113_rest_partial",
    "Verif.C113_sized_partial",
    "Verif.C113_fuel",
    "Verif.C113_body",
    "Verif.C113_skips",
    "Verif.C113_leaves_out",
    "Verif.C113_end",
    "Verif.C113_refuted_chunked",
    "Verif.C113_refuted_framing",
    "Verif.C113_refuted_raw"
   ],
   "note": "C113_once: of a body with a Content-Length no byte is lost and none is given twice, whatever the calls. C113_order_partial, C113_rest_partial, C113_sized_partial: in order, and body() gives the rest, if the sized reads have left nothing over whenever an unsized call is made. C113_body: body() alone equals stream(), for every queue. C113_skips, C113_leaves_out: otherwise the order is lost, body() leaves bytes out and a later read waits for a timeout. C113_end: a loop `while not eof(): recv()` always ends by StopAsyncIteration. C113_refuted_chunked, C113_refuted_framing, C113_refuted_raw: for chunked bodies the mix loses content or takes content for framing. form() and files() are not part of the mix."
  },
  {
   "property": "C114",
   "status": "partial",
   "theorems": [
    "Verif.C114_found",
    "Verif.C114_get_partial",
    "Verif.C114_refuted_get",
    "Verif.C114_worker",
    "Verif.C114_kept",
    "Verif.C114_options",
    "Verif.C114_requests",
    "Verif.C114_own_partial",
    "Verif.C114_first_partial",
    "Verif.C114_refuted_options"
   ],
   "note": "C114_found, C114_worker, C114_kept: exact for all histories. C114_get_partial: context.get likewise unless a program has stored something under the name get (C114_refuted_get). C114_options, C114_requests: context.options holds for each name the value of the latest function with such an option on this connection, so an option of an earlier request shows through (C114_refuted_options); C114_own_partial, C114_first_partial: right for names that the function has, and on a fresh connection. Names that begin with two underscores are not modelled."
  },
  {
   "property": "C115",
   "status": "partial",
   "theorems": [
    "Verif.C115_browser_partial",
    "Verif.C115_entries",
    "Verif.C115_left",
    "Verif.C115_one",
    "Verif.C115_kept",
    "Verif.C115_lost",
    "Verif.C115_refuted_next",
    "Verif.C115_exact",
    "Verif.C115_two"
   ],
   "note": "C115_browser_partial: every control arrives with its name, file name, type and content for every segmentation, for names that are read as written (C76). The second half is false: C115_left proves that files() leaves the end of the body in the queue whenever the last piece lies within the last part's content and closing line, C115_kept and C115_lost that it stays there until a handler reads or a request without a body ends, and that the next handler that reads gets an empty body whatever its own; C115_refuted_next shows it on one connection. C115_one: nothing is left if the form comes in one piece. C115_entries: the entries length and type of a part. C115_exact: for every cut, whether the end is taken (takesEnd, Spec/FilesPieces); C115_two: of two pieces, it is left if and only if the first holds the first header."
  },
  {
   "property": "C116",
   "status": "partial",
   "theorems": [
    "Verif.C116_taken",
    "Verif.C116_chunked",
    "Verif.C116_chunked_iff",
    "Verif.C116_next",
    "Verif.C116_eof",
    "Verif.C116_body",
    "Verif.C116_left",
    "Verif.C116_over",
    "Verif.C116_refuted_next"
   ],
   "note": "False for sized reads: C116_left proves that reads whose sizes sum up to no more than the body return exactly those bytes and leave the end of the body in the queue, and nothing else if the sum is the Content-Length; C116_refuted_next shows the next request on the connection reading an empty body after read(content_length). It holds for body() (C116_body), for reads that ask for more than the body (C116_over), and whenever eof() is true (C116_eof). Chunked bodies: C116_chunked proves for every well-formed body and segmentation that body() takes the segments up to the one with the end of the last chunk's line and leaves all others in the queue, C116_chunked_iff when nothing is left, C116_taken that what is taken is complete, C116_next what the next handler reads then."
  },
  {
   "property": "C117",
   "status": "partial",
   "theorems": [
    "Verif.C117_same",
    "Verif.C117_body",
    "Verif.C117_again",
    "Verif.C117_exact",
    "Verif.C117_partial",
    "Verif.C117_fields_partial",
    "Verif.C117_peek",
    "Verif.C117_limit",
    "Verif.C117_other",
    "Verif.C117_refuted_peek"
   ],
   "note": "C117_same: in every state and for every framing, form() gives what parse_qs makes of what body() would return, and raises what body() would raise (for sizes over 2 and up to the limit); C117_body and C117_again: body() after form() returns what was parsed, a later form() the same fields, or {} after an error. C117_partial and C117_fields_partial: with only body() before it, form() gives the fields of the whole body. False after read() and recv(): C117_exact proves that the whole body is parsed exactly if these have returned nothing and hold nothing back; C117_peek and C117_refuted_peek: one byte read of a form in one piece and form() is empty. The limit holds only without body() before (C117_limit)."
  },
  {
   "property": "C118",
   "status": "proved",
   "theorems": [
    "Verif.C118_prompt",
    "Verif.C118_held",
    "Verif.C118_any",
    "Verif.C118_lost"
   ],
   "note": "C118_prompt for stream (the default) and C118_held for stream=False, for every prefix of what a response hands to send(). C118_any is for every request, with middlewares that answer, calls of write(), exceptions and error handlers, when nobody asks for data to be held back. C118_lost: with stream=False a generator that raises loses what was held back. The model's generators are finite lists of pieces."
  },
  {
   "property": "C119",
   "status": "proved",
   "theorems": [
    "Verif.C119_view",
    "Verif.C119_bounded",
    "Verif.C119_kicked",
    "Verif.C119_room",
    "Verif.C119_isolated",
    "Verif.C119_last",
    "Verif.C119_refuted_idle"
   ],
   "note": "C119_view carries what is proved about one connection (Model/Conn) to each of a worker; C119_bounded, C119_kicked, C119_room and C119_last are the statement; C119_refuted_idle proves its last sentence. What happens on a connection behind connection_lost is not part of this model."
  },
  {
   "property": "C120",
   "status": "partial",
   "theorems": [
    "Verif.C120_date_partial",
    "Verif.C120_refuted_recv",
    "Verif.C120_refuted_closing",
    "Verif.C120_memory",
    "Verif.C120_within",
    "Verif.C120_usage",
    "Verif.C120_other_systems"
   ],
   "note": "C120_date_partial: less than two seconds old while the worker serves, plus the lateness of the event loop and the time it stood still in recv; C120_refuted_recv shows that the latter is needed, C120_refuted_closing that the date is not set any more when the loop has ended, while responses may still be made. C120_memory, C120_within, C120_usage and C120_other_systems are the rest, in full."
  },
  {
   "property": "C121",
   "status": "partial",
   "theorems": [
    "Verif.C121_path",
    "Verif.C121_record",
    "Verif.C121_log",
    "Verif.C121_same",
    "Verif.C121_refuted_abort",
    "Verif.C121_refuted_text"
   ],
   "note": "C121_path, C121_record, C121_same and C121_log: proved for all paths, for exceptions whose class name has no colon; one line each if the text of the exception has no line break. C121_refuted_text: the text is written as it is, so one with a line break adds lines. C121_refuted_abort: if the response has begun, the path is not in the record, and a request for the path `abort` gives the same one."
  },
  {
   "property": "C122",
   "status": "partial",
   "theorems": [
    "Verif.C122_digest",
    "Verif.C122_base64",
    "Verif.C122_key",
    "Verif.C122_asgi_partial",
    "Verif.C122_native_partial",
    "Verif.C122_once",
    "Verif.C122_refuted_space"
   ],
   "note": "C122_digest, C122_base64, C122_key and C122_once: proved for all inputs. C122_asgi_partial and C122_native_partial: the accept line answers the value of the field as it was sent. False if white space follows the key (C122_refuted_space): the parser keeps it, and it is hashed with the key."
  }
 ]
}