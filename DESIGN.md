# A machine-checked model of nggit/tremolo

## Layout

* `lean/Verif/Py/*`     Python byte-string primitives (`find`, `split`, `replace`, `int`, `%d`, `%X`, ...) and dictionaries, with their laws.
* `lean/Verif/Model/*`  the model, function by function, each definition citing file and lines in /repo.
* `lean/Verif/Spec/*`   small specifications, written without using the model (RFC chunked decoding, SSE grammar, byte ranges, ...).
* `lean/Verif/Proofs/*` helper lemmas.
* `lean/Verif/Props/*`  the property theorems, one or more per property `Cxx`, with non-vacuity examples beside them.
* `properties.jsonl`    the properties (written by `tools/props.py`).
* `MANIFEST.json`       property -> status -> theorem names (`tools/manifest.py`, notes in `tools/status.py`).
* `seeded/`             wrong programs tried against the theorems: `roundN.py` are the edits, `LOG.jsonl` the results
  (`tools/seed.py` applies each edit to a copy of the model and rebuilds, `tools/seedlog.py` writes the log).
  Two edits of the last run are still noticed by no theorem: `onConnect` (`Context`) and `raises` (`WsTimer`); the log says what is missing.
  Rounds 40 and 43 were not run to the end: an edit in their files that has no line in the log was not tried.

Conventions: bytes are `List UInt8`; Python exceptions are values; a mutating method returns the new state (the response
methods form a state and exception monad); a Python `dict` is an association list in insertion order; a coroutine that
awaits the request queue is a function of the list of queue items still to come (`none` = the end marker `None`);
concurrency is a transition system `step`/`run` over events, and theorems hold for all event sequences. Event loops may
be given more freedom than asyncio has, never less.

## Naming

`Cxx_...` theorems belong to property `Cxx`. `Cxx_partial` proves a property under conditions that it names;
`Cxx_refuted_...` shows by a concrete run that the property does not hold as stated for the unchanged code. A property with
status `proved` holds as stated; for a property with status `partial` the note in MANIFEST.json says what is proved and what is false.

## What is modelled, and how the properties are proved

| module of `Model` | code | properties | proof shape |
|---|---|---|---|
| `HttpParser` | lib/http_parser.py (all of it) | C03, C04, C05, C06 | round trip; exact characterisation of `is_valid_request`; refutation for forged keys |
| `Head` | lib/http_protocol.py `data_received`, `_handle_request` up to the handler; `HTTPRequest.__init__` | C01, C02, C07, C17, C63 | induction over segments, decision logic |
| `Upload` | `put_to_queue` | C13, C14, C49 | induction over pieces |
| `BodyStream` | lib/request.py, `HTTPRequest.stream/recv/body/read` | C08, C09, C10, C11, C12, C62 | simulation against an RFC chunk grammar, loops with fuel that are proved to end |
| `Form`, `Files` | `HTTPRequest.form`, `files` | C54, C53 | all schedules of arrival and reading; simulation over pieces |
| `Continue` | 100-continue in `HTTPRequest`, `_send_data` | C18, C60, C61 | transition system |
| `Response` | lib/response.py, lib/http_response.py without sendfile, response flow of http_server.py, `handle_exception` | C19-C24, C27, C28, C29 | invariants over arbitrary programs of API calls |
| `Sendfile` | `HTTPResponse.sendfile` | C25, C26, C64 | arithmetic, induction on the file |
| `Text` | utils.py `html_escape`, sse.py, cookies, handlers.py `error_404`, `HTTPRequest.ip` | C34, C35, C44, C48 | grammars, decode after encode |
| `WebSocket` | lib/websocket.py | C30-C33 | RFC 6455 frames |
| `App`, `Regex` | tremolo.py registration, routing, middlewares, hooks, ports; http_server.py `headers_received` | C39-C43, C55, C56, C57 | decision logic, invariants over histories; a small backtracking matcher for the patterns |
| `Args` | utils.py `parse_args`, `__main__.py` | C58, C59 | induction over the command line |
| `Connections`, `Queue`, `Locks` | lib/connections.py, queue.py, locks.py | C36, C37, C38 | transition systems, all schedules |
| `Conn` | one connection of `HTTPProtocol`: segments, heads, handler, keep-alive, loss | C15, C16, C51, C52, C81 | transition system, all schedules |
| `Worker` | queues shared by the connections of a worker | C50 | transition system, all histories |
| `Timeout` | `handler_timeout` | C68 | transition system with a clock |
| `Timers` | lib/http_protocol.py:91-98, 126-139, 490-498 (`request_timeout`, `keepalive_timeout`; on top of `Conn`) | C79, C80 | invariants of a transition system with a clock |
| `SendLoop` | lib/http_protocol.py:408-464 (`_send_data`, watermarks, `resume_writing`, send timeout), with asyncio's write flow control | C82, C83 | invariants of a transition system with a clock |
| `Supervisor` | tremolo.py:700-804 (`run`: starting, visiting, answering, stopping) with tremolo.py:228 and 385-454 (the heartbeat of `_serve`) | C84, C85 | invariants of a transition system, a measure for replacing and for the shutdown |
| `NativeWs` | websocket.py:16-35, 108-128, 169-190 (calls of a native handler), http_server.py:85-122 and http_protocol.py:204-265 (how it ends) | C86, C87 | handlers as functions of what their calls gave; the session computed on frames as specification |
| `WsTimer` | websocket.py:108-128, 175-179 and request.py:30-52 with a clock | C88 | invariant over all executions; timers are urgent |
| (no model of its own) | `Spec/Client`: a client that reads responses as RFC 9112 says, applied to what the models `Response` and `Serve` send | C89 | status line, fields, and the length by status, chunks, Content-Length or close; the spec does not share code with the model |
| (no model of its own) | `Conn` with `Spec/Client`, `Spec/Stream` and `Spec/HttpParser`: a client with several requests, from its bytes to the responses it reads | C90 | invariant `Reply.J` relates the send queue to what each handler queued; alignment of the stream with the heads; C89 gives the delimited responses |
| tremolo.py 382-437, utils.py 16-19 | `Reload` | C91 | exact effect of one scan on the dictionary (`scanL_go`), then induction over the seconds |
| tremolo.py 227-522 (`_serve` without its loop, `_worker_stop`, `_stop`, `_worker`) | `WorkerLife` | C92 | invariant `WorkerLife.J` gives the log of hooks for each place of the task |
| (no model of its own) | `Conn` with `Spec/Client` | C93 | invariant `Serial.Phase`: a request is awaited, looked at, queued, handled or answered; gives the hypotheses `Calm` and `Own` of C15, C16, C90 for every schedule |
| http_server.py 17-122, 262-275 (calls and their arguments) | `Session` | C94, C95 | event transition system: tasks of connect hooks, handler, close hooks; every call in the trace with the calls before it |
| http_protocol.py 52-71, 506-537 | `Cleanup` | C96 | set of tasks as a list without duplicates; the loop as a relation, as `set.pop` takes any element |
| (no model of its own) | `Conn` with `Spec/Intake` | C97 | what waits in tasks, queue and head buffer, in every schedule; for open connections |
| http_protocol.py 198-265, http_exceptions.py, http_response.py 125-158, handlers.py 34-41 | `ErrorPage` (with `Response`) | C98 | Python text and its encodings; codecs other than UTF-8, Latin-1, ASCII and traceback lines are parameters; no lone surrogates |
| tremolo.py 227-238, 524-581, 700, 754-759 | `Sockets` | C99 | one address, Linux; one step per system call, what the kernel does with ports and paths is part of the model; other programs at the address are not |
| http_response.py 293-486, http_parser.py, http_server.py (composition) | `HttpParser`, `Sendfile`, `Response` with the clients `Spec/Client` and `Spec/Download` | C100 | the file does not change while it is sent; one handler that awaits `sendfile` and returns |
| tremolo.py 281-299, 327-364, 482-484, 595-712, __main__.py 90-99, posixpath | `Launch` (with `Args`, `App`) | C101, C102 | modules are abstract; POSIX paths; no symbolic links |
| tremolo.py 82-146, 583-593, 728-773, import and pickle of Python | `Rebind` | C103 | programs reduced to definitions, imports and registrations (routes, error handlers, middlewares, hooks) |
| request.py 30-52, http_request.py 136-167 (timeouts) | `Stall` | C104 | one reader; times are natural numbers |
| http_response.py 169-304 (write, end, close called by the handler) | `Written` | C105 | coroutines that return None; no exception between the calls |
| asgi_server.py 174-250 (send), what a client reads of it | `AsgiClient`, `ClientMono` | C106 | the model of C65/C66 read by the client of C89 |
| http_protocol.py 466-504, http_request.py 173-174 (a client that waits for 100 Continue) | `Sequential`, `SequentialExpect` | C107 | the schedules of C93, with interim responses |
| utils.py 48-50, http_response.py 87-91, 334-350, 466-467 (dates) | `Dates` | C108 | time.gmtime and strftime in the C locale as the proleptic Gregorian calendar; the clock is an input |
| tremolo.py 38-66, 83-194 (decorators) | `Register` | C109 | a function is its parameters and its identity; positional-only parameters not modelled |
| http_protocol.py 139-180, 366-404, 466-504 (chunked requests on a kept connection) | `Sequential`, `SequentialChunked` | C110 | the schedules of C93; chunks are decoded as in C09 |
| http_protocol.py 267-280, 420-436 (refused heads on a kept connection) | `Conn`, `Head`, `Dropped` | C111 | the schedules of C93 up to the refused head; timers left out |
| http_request.py 136-250 on a kept connection | `Conn`, `BodyStream`, `SequentialRead` | C112 | the schedules of C110; timers left out |
| http_request.py 136-167 (`body`, `read`, `recv`, `eof` mixed) | `ReadApi` | C113 | the queue holds all that will come; waiting for more is the timeout; sizes below -1 left out |
| contexts.py, http_server.py 59-66 and 116-120 | `Context` | C114 | names that begin with `__`, and programs that use `__dict__`, left out |
| http_request.py 377-400 (`info` of a part) and what `files` leaves in `queue[0]` | `FilesInfo` (with `Files`, `Params`, `Conn`) | C115 | handlers of `Conn` take items as `files` does by hypothesis, the two models are not run together |
| what `read`, `recv` and `body` leave in `queue[0]` | `ReadApi`, `Conn` | C116 | as for C115 |
| http_request.py 301-321 (`form` after other reads) | `FormApi` (on `ReadApi`, `Params`) | C117 | all of the body has arrived, so `body_size` is one number (its race with the handler is C54) |
| http_server.py 183-217 (what a generator's pieces wait for) | `Response` | C118 | generators are finite lists of pieces |
| tremolo.py 260-262, lib/http_protocol.py 466-508 (all connections of a worker and the table of kept ones) | `Pool` | C119 | each connection is that of `Conn`; nothing happens on a connection behind `connection_lost` |
| tremolo.py 385-454 (main loop: date, memory limit), utils.py 37-47 | `Clock` | C120 | times in milliseconds; a turn of the loop takes no time behind its sleep; `limit_memory` is an integer |
| lib/http_protocol.py 101-105, 198-214; tremolo.py 486-492 (log of exceptions) | `Log` | C121 | without `debug` (traceback); the time is given, as `logging` writes it; the level lets errors through |
| lib/websocket.py 25-30 (accept key) | `AcceptKey` | C122 | keys shorter than 2^60 bytes (every head is) |
| `Lifespan` | asgi_lifespan.py | C47 | transition system |
| `Asgi`, `AsgiReceive`, `AsgiWs` | asgi_server.py | C45, C46, C65, C66, C67, C69–C73 | reduction to the response model; induction over messages |
| `AsgiScope` | asgi_server.py:38-78, lib/http_request.py:71-125 (scope of the application; `asgi`, `root_path` and OSError of `getpeername` are left out) | C77, C78 | reduction to the parser's theorems |
| `Params`, `Py.Urllib` | lib/http_request.py:257-319, 384-388 (query, cookies, form fields, Content-Disposition) | C74–C76 | inversion of an encoding relation; induction over items |

Simplifications are named in the header of each module and beside the definitions. The important ones:

* Real time: timers are events that may happen at any time (`Timeout` and `Timers` have a clock; `Upload` adds up exact sleeping times
  where Python uses floats).
* TLS and signals are not modelled, sockets only in `Sockets`, the log only in `Log`, processes only in `Supervisor`; `transport.write` is taken to send what it is given.
* `hashlib.sha1` and `base64.b64encode` are written out in `Model/AcceptKey` and proved equal to FIPS 180-4 and RFC 4648; that Python's library computes
  the same is trusted. `os.urandom`, `time` and `mimetypes` are parameters or absent.
* `urllib.parse`: `quote`, `unquote_plus`, `parse_qsl` and `parse_qs` are modelled after CPython 3.11 (`Model.Text`, `Py.Urllib`; the latter was compared with the library on random inputs); `Files` takes of `parse_qsl` only the limit.
* `re`: literals, `.`, `^`, `$`, escapes, `(?:...)`, `*`, `+`, `?`, as `add_route` uses them; other patterns are abstract predicates.
* Data limits such as `max_queue_size` and the high-water marks of asyncio are left out where a comment says so.

## Trusted base

* The Lean 4.33 kernel. No module of Mathlib is imported; there are no axioms of our own, no `sorry`, no `native_decide`, no
  `bv_decide`. `decide +kernel` (evaluation by the kernel) is used for concrete witnesses and examples and for finite tables.
* The axioms `propext`, `Classical.choice` and `Quot.sound` at most; the list below says which theorem depends on which
  (made by `tools/axioms.py` from `#print axioms`).
* The correspondence between the Python text and the model, made by hand; each definition cites its lines.
* The semantics of CPython's `bytes`, `dict`, `int`, generators and asyncio tasks as described in the comments.

### Axioms of each theorem
<!-- axioms -->
* **none** (7): C01_boundary, C102_refuted_package, C102_refuted_colon, C102_refuted_loaded, C102_refuted_unnamed, C104_refuted_sized, C109_refuted_kwonly

* **propext** (128): C04_refuted_host, C06_refuted_forge, C09_refuted, C12_body, C12_no_partial, C15_refuted_body, C15_refuted_head, C16_progress_needs_tidy, C16_refuted, C22_refuted_middleware, C22_refuted_late, C22_refuted_upgrade, C22_refuted_after_end, C23_refused, C23_refuted_append, C23_refuted_error, C25_refuted_zero, C25_refuted_cut, C25_refuted_number, C28_sent, C28_websocket, C28_refuted, C29_refuted_http10, C29_refuted_204, C29_refuted_head, C29_refuted_none, C34_cr_injects, C38_refuted_timeout, C38_refuted_cancel, C38_refuted_orphan, C39_refuted_metachar, C41_refuted_history, C41_refuted_concurrent, C42_connect, C42_response_none, C45_refuted_truncated, C46_refuted_colon, C46_refuted_line, C47_failed, C47_received, C47_refuted_caught, C47_refuted_late, C47_refuted_cancelled, C47_refuted_shutdown, C51_refuted_two, C51_refuted_silent, C51_refuted_limit, C53_refuted_boundary, C53_refuted_epilogue, C53_refuted_preamble, C53_refuted_abandoned, C54_refuted_silent, C54_refuted_lost, C54_refuted_larger, C54_refuted_again, C54_refuted_pipelined, C61_refuted, C65_refuted_status, C66_refuted_426, C66_refuted_flag, C66_refuted_late, C67_refuted, C67_refuted_silent, C69_partial, C73_failed_after, C79_refuted_junk, C79_refuted_feeding, C79_refuted_refused, C80_refuted_continue, C80_refuted_open, C81_refuted_kept, C81_refuted_early, C84_refuted_replacing, C84_refuted_race, C85_refuted_start, C87_refuted_return, C89_refuted_end, C89_refuted_returned, C89_refuted_middleware, C90_refuted, C90_refuted_case, C92_refuted_twice, C92_refuted_memory, C93_refuted_segment, C94_refuted_websocket, C94_refuted_sse, C95_refuted_overlap, C95_refuted_late, C99_refuted_exclusive, C99_refuted_race, C99_refuted_empty, C99_left, C100_refuted_boundary, C101_refuted_workers, C101_refuted_level, C101_refuted_twice, C103_refuted_nested, C103_refuted_added, C103_refuted_subclass, C103_refuted_two, C103_refuted_loaded, C103_refuted_stacked, C103_refuted_prefix, C103_methods, C105_refuted_end, C105_refuted_empty, C105_refuted_none, C105_refuted_returned, C105_refuted_marks, C106_refuted_small, C106_refuted_large, C106_refuted_cut, C106_refuted_open, C107_refuted_early, C108_refuted_second, C109_call, C110_refuted_early, C110_refuted_tail, C110_refuted_dropped, C110_refuted_count, C111_refuted_shift, C113_refuted_chunked, C113_refuted_framing, C113_refuted_raw, C114_refuted_options, C115_refuted_next, C116_refuted_next, C118_lost

* **Quot.sound, propext** (192): C01_outcome, C01_fragmentation, C05_edits, C08_exact, C08_waits, C12_content_length, C12_retry, C13_declared, C13_undeclared, C13_within, C14_pieces, C18_order, C18_once, C18_limit, C18_admitted, C18_expect, C19_mutation, C24_stream, C24_closed, C25_refuted_empty, C34_refused, C35_quote, C35_cookie, C35_total, C36_bounded, C36_delete, C37_fifo, C37_delivered, C37_waiting, C37_partial, C37_refuted_lost, C37_refuted_spurious, C37_refuted_kill, C37_refuted_clear, C38_partial, C38_held_partial, C38_aborted, C38_gave_up, C38_unstarted, C40_dispatch, C40_one_handler, C41_partial, C41_sticky_partial, C42_request_pass, C42_request_stop, C42_response_pass, C42_response_stop, C42_close, C43_options, C44_safe, C44_unescape, C44_page, C45_none, C45_refuted_chunked, C45_chunked_taken, C45_refuted_zero, C47_partial, C47_starting, C47_only_reported, C47_reported, C47_tolerated, C47_complete, C47_decided, C47_shutdown_no_wait, C47_shutdown_ends, C47_raises, C47_ready_twice, C47_shutdown_waits, C47_shutdown_logged, C48_ip, C49_rate, C49_backpressure, C50_refuted_close, C50_refuted_taken, C50_refuted_read, C50_refuted_stuck, C50_refuted_task, C50_refuted_unseen, C52_order, C52_close, C53_sound, C53_ends, C54_never_larger, C54_raises, C54_ends, C54_again, C55_listen, C55_places, C55_options, C56_shape, C56_options, C57_hooks, C58_wellformed_partial, C58_bad_number, C59_refused, C60_refuted, C62_buffer, C62_size_line, C64_refuted, C64_refuted_length, C64_exact, C64_same_partial, C67_raises, C68_partial, C68_some, C68_no_escape, C68_upgraded, C68_refuted_asgi, C68_refuted_overlap, C69_refuted, C69_after_response, C73_failed, C73_failed_before, C80_refuted_forever, C82_order, C82_bounded, C82_cut, C83_wakes_partial, C83_reads_partial, C83_early, C83_deadline, C83_refuted_tls, C83_refuted_tls_cut, C84_one, C84_replaced_partial, C84_single, C84_refuted_silent, C84_codes, C85_heartbeat, C85_blocked_partial, C87_refuted_error, C90_refuted_continue, C91_partial, C91_never, C91_watched, C92_hang, C92_second, C92_smooth, C92_refuted_hang, C94_refuted_wire, C96_refuted_loop, C97_unqueued, C97_calm_partial, C97_refuted_early, C98_white, C99_tcp_stays, C99_exclusive, C99_unix_partial, C99_unix_one, C99_unix_lost, C99_refuted_workers, C99_file, C100_refuted_cut, C101_options, C101_starts, C101_level_partial, C101_loop, C101_once_partial, C104_sized, C104_sized_after, C104_refuted_retry, C104_refuted_lost, C104_refuted_cancel, C104_refuted_gone, C108_date, C108_clean, C108_refuted_later, C108_cookie, C108_cookie_set, C108_refuted_years, C109_bound, C109_spellings, C109_refuted_stack, C111_long, C112_refuted, C113_end, C114_kept, C114_options, C114_requests, C114_own_partial, C114_first_partial, C115_kept, C116_next, C118_any, C120_date_partial, C120_refuted_recv, C120_refuted_closing, C120_memory, C120_within, C120_other_systems, C121_path, C122_base64

* **Classical.choice, Quot.sound, propext** (382): C01_too_large, C01_independent, C02_bounded, C03_parse, C03_dictionary, C03_auto, C04_valid_iff, C04_sound_partial, C04_response_iff, C04_response_values, C05_roundtrip, C06_seen_exact, C06_request_line_partial, C07_framing, C07_refused, C07_accepts, C09_exact, C09_decode_partial, C09_refuted_internal, C10_done_complete, C10_terminates, C10_truncated, C10_cut, C11_read, C11_partition, C11_progress, C15_partial, C16_progress, C16_partial, C17_keepalive, C17_wire, C19_calls, C19_request, C20_streamed, C20_returned, C21_end, C21_middleware, C21_returned, C22_returned, C22_streamed, C22_end, C22_write, C23_request_partial, C25_many, C25_many_beyond, C25_parse, C25_unsatisfiable, C25_sound, C25_unit, C25_malformed, C25_single, C25_head, C25_multi, C25_refused, C26_whole, C26_head, C26_current, C27_end, C27_write, C27_returned, C27_streamed, C27_middleware, C28_error_partial, C28_status_partial, C29_returned, C29_streamed_partial, C29_upgrade, C29_end, C29_middleware, C29_close, C30_create, C30_recv_binary, C30_recv_text, C30_roundtrip, C31_refused_partial, C31_refused_large, C31_refuted, C32_ping, C32_pong, C32_close, C32_other, C33_complete_partial, C33_refuted_truncated, C33_refuted_fragment, C34_one_event, C36_present, C36_evicts_oldest, C36_no_spurious_eviction, C38_progress_partial, C39_found, C39_index, C39_only, C43_getoptions, C45_content_length_partial, C45_content_length_waits, C45_chunked_all, C46_partial, C46_lf, C46_once, C50_partial, C50_without_partial, C50_empty, C50_order, C51_partial, C51_heads, C51_locked, C53_files, C53_partial, C53_calls, C53_truncated, C53_odd, C53_boundary, C54_partial, C54_chunked_sound, C54_chunked_first, C56_routes, C58_unknown, C58_refuted, C59_bind, C61_ready, C63_request, C63_content_type, C65_partial, C66_chunked, C66_raw, C66_bodyless, C67_returns_partial, C70_partial, C70_refuted_close, C70_refuted_key, C71_partial, C71_close, C71_lost, C71_waits, C71_refuted_empty, C71_refuted_connect, C72_partial, C72_wire, C72_refuted_empty, C72_refuted_early, C73_close_partial, C73_refuted_reject, C73_refuted_client, C73_refuted_violation, C73_refuted_code, C74_query_partial, C74_form_partial, C74_limit, C74_refuted_limit, C74_refuted_blank, C74_refuted_raw, C75_one_partial, C75_many_partial, C75_none, C75_refuted_changed, C75_refuted_split, C75_refuted_blank, C76_partial, C76_refuted_changed, C76_refuted_cut, C76_refuted_utf8, C76_refuted_quotes, C77_http_partial, C77_forwarded, C77_refuted_utf8, C77_refuted_absolute, C77_refuted_scheme, C77_refuted_twice, C77_refuted_addresses, C77_refuted_space, C78_websocket_partial, C78_type, C78_refuted_loose, C78_refuted_upgrade, C78_refuted_space, C79_early, C79_partial, C80_deadline, C80_partial, C80_bounded_partial, C81_partial, C81_progress_partial, C81_kept, C84_serves, C84_shutdown_partial, C84_refuted_stop, C86_session, C86_handlers, C86_handshake, C86_echo, C87_ends_partial, C87_close, C87_refuted_reply, C87_refuted_text, C87_refuted_control, C88_expired_partial, C88_responsive, C88_bound, C88_fires, C88_spaced, C88_waiting, C88_pong, C88_session, C88_refuted_evicted, C88_refuted_slow, C88_refuted_busy, C89_returned, C89_streamed, C89_end, C89_middleware, C89_error, C90_order, C90_requests, C90_pipeline, C90_continue, C91_sound, C91_refuted_late, C91_refuted_missing, C91_refuted_prefix, C91_refuted_fail, C92_order, C92_clean, C92_zero_partial, C92_once_partial, C92_ends_partial, C93_requests, C93_answers, C93_live, C94_exact, C94_own_partial, C94_first_partial, C94_order, C95_connect, C95_before, C95_serves, C95_close, C95_cleanup, C96_stopped, C96_all_partial, C97_queue, C97_bytes_partial, C97_first, C98_charset, C98_agrees, C98_page, C98_names, C98_reads, C98_private, C98_classes, C98_silent, C98_debug, C98_debug_tags, C98_debug_page, C98_refuted_args, C98_refuted_text, C98_refuted_markup, C98_refuted_declared, C99_tcp, C99_restart, C100_whole, C100_range, C100_multi, C100_head, C100_current, C100_resume, C100_unsatisfiable, C100_unit, C100_many, C100_many_beyond, C101_command, C101_bind, C101_workers_partial, C102_named, C102_default, C102_served, C102_object, C103_partial, C103_last, C104_early, C104_delivered, C104_ends, C104_prompt, C104_stalled, C104_body, C104_answer, C104_cancelled, C105_options, C105_chunked, C105_partial, C105_sized, C105_closed, C105_bodyless, C106_chunked, C106_sized, C106_length, C106_closed, C106_bodyless, C106_error, C106_cut, C106_sequence, C107_requests, C107_answers, C107_live, C108_read, C108_same, C108_modified, C109_runs, C109_middlewares, C109_events, C109_routes, C109_meant_partial, C109_order, C109_refuted_code, C110_requests_partial, C110_answers_partial, C110_live_partial, C111_exact, C111_first_partial, C111_refused_partial, C111_refuted_dropped, C111_refuted_stuck, C111_keys, C112_length_partial, C112_chunked_partial, C112_bare_partial, C113_once, C113_order_partial, C113_rest_partial, C113_sized_partial, C113_fuel, C113_body, C113_skips, C113_leaves_out, C114_found, C114_get_partial, C114_refuted_get, C114_worker, C115_browser_partial, C115_entries, C115_left, C115_one, C115_lost, C115_exact, C115_two, C116_taken, C116_chunked, C116_chunked_iff, C116_eof, C116_body, C116_left, C116_over, C117_same, C117_body, C117_again, C117_exact, C117_partial, C117_fields_partial, C117_peek, C117_limit, C117_other, C117_refuted_peek, C118_prompt, C118_held, C119_view, C119_bounded, C119_kicked, C119_room, C119_isolated, C119_last, C119_refuted_idle, C120_usage, C121_record, C121_log, C121_same, C121_refuted_abort, C121_refuted_text, C122_digest, C122_key, C122_asgi_partial, C122_native_partial, C122_once, C122_refuted_space
<!-- end axioms -->

## Findings

The theorems named `Cxx_refuted_...` are defects of the code as it stands, or claims that its documentation suggests and that do
not hold. The ones with consequences outside of one request:

* C50: with close middlewares a descriptor is given out again while the old connection still has its queues: responses go to the
  wrong client, requests are read by the wrong handler, or the new connection hangs. Without close middlewares the same happens if the
  application sends from a task of its own. The check in `connection_made` looks at `queue[0]` twice.
* C06, C04: header fields named `_line`, `_method`, `_url`, `_version` replace the parsed request line.
* C15, C16, C61: an unread body is handled as the next request; pipelined segments are reordered.
* C23, C46: `append_header` does not refuse line feeds; ASGI names with a colon or `_line` get through.
* C64: the first file that `sendfile` opened on a connection is sent for every later request.
* C38: a lock that timed out does not keep others out, and releases the lock of another task.
* C41: a request for a regex route changes the routing table, and concurrent requests can delete routes.
* C45, C69: ASGI `receive` never ends a chunked body correctly, and raises TypeError after a disconnect.
* C54, C53: form limits are not enforced while data is arriving; epilogues and preambles break multipart parsing.
* C60: with `Expect: 100-continue` and `Connection: close` no response is sent.
* C70–C73: an ASGI application that rejects a WebSocket before accepting it makes the server send a WebSocket frame in place of an
  HTTP response; the client's close frame and its protocol violations are not answered; empty messages are lost in both directions.
* C81: a handshake on a connection that served a request before is answered with 101 and then closed (the send task treats the 101 as
  the end of a response); a segment that is being queued when the 101 is sent can be overtaken by the next segment.
* C83: over TLS, where `set_watermarks` was not called (WebSocket sessions), the send task waits for a `resume_writing` that asyncio
  never calls; the session is cut off after `keepalive_timeout` although the client has read everything.
* C84: the parent catches only BrokenPipeError when it answers pings. A worker that ends between `p.is_alive()` and `parent_conn.poll()` makes
  `recv()` raise EOFError (or ConnectionResetError), which ends the parent, and with it all answers: every worker then stands still in `recv()` after at
  most `2 * n` seconds. On shutdown a worker that has ended makes `send(0)` raise BrokenPipeError and the workers after it are never told to stop; so does a
  SIGTERM while a worker is being replaced, as `processes[i]` still has the closed pipe. A worker that ends before it sent its pid (a failing import in
  the spawned process, an unknown `loop`) makes the parent wait in `recv()` for ever, because the parent still holds `child_conn` itself.
* C85: `process_num` is 1 until the first answer, so the first wait lasts two seconds, while the parent comes to worker `i` after `i` seconds: with three
  workers or more, the event loop of the later ones stands still in `recv()` until the parent comes.
* C87: the client's close frame is not answered by a close frame (RFC 6455, 5.5.1): the connection is just closed. Neither does the client get one when the
  handler returns or fails (1011), or for a text that is not UTF-8 (1007). `ping` and `pong` send payloads of more than 125 bytes, `close` any code.
* C88: pings are sent only to connections in `_connections`; one that was pushed out by `keepalive_connections` others is dropped after `keepalive_timeout` of
  silence even if the client would have answered. Pings of the client are answered only while the handler is in `receive`.
* C89: a response with status 205 cannot be delimited by the client. `end` (request middlewares, error handlers) sends `Content-Length` of data that it then
  leaves out, so the client takes the next response on the connection as the body; a returned 205 has no length at all on a kept connection, so the client waits.
  The same happens when a response middleware sets 204 or 205 after the body was decided.
* C90: the method is upper-cased, so `head / HTTP/1.1` is answered as HEAD, without the body that a client (methods are case-sensitive) waits for.
* C90: a handler that begins to read the body twice before the send task runs sends `100 Continue` twice; the second marker counts as the
  end of the response, and the rest of the body is handled as a request while the handler runs (http_request.py:175-176).
* C91: only modules loaded at the first look are watched; a file missing at one look is forgotten; `startswith` without a separator leaves out `/srv/app/library.py` when `/srv/app/lib` is on `sys.path`.
* C92: after Ctrl-C, a stop hook that raises leaves the worker in `run_forever` for ever (`_stop` does not reach `loop.stop()`); on reload or memory limit `_worker_stop` is called inside the `try` of the ping loop, so that a hook that raises ConnectionResetError is called twice and the exit code is 0.
* C93: a segment with the end of a body and the next request: the next request is lost without a trace (`C93_refuted_segment`; http_request.py:252 says that this is not supported, but nothing is answered or closed).
* C94: `_server['websocket']` and `['sse']` are never removed: after a handshake that was answered with an ordinary response, every later handler of the
  connection gets the old WebSocket object; after an event stream, a POST to the same route gets the old SSE object and what it sends has no head.
* C95: if the client disconnects early, close hooks run while connect hooks still do, and handlers are called after close hooks were.
* C97: when a response ends, `_handle_keepalive` resumes reading although a segment of the body of that request may still wait to be queued; with handlers
  that return before the body has arrived the segments that wait are not bounded.
* C98: an HTTPException with an argument that is not a str (`raise BadRequest(exc)`), a message outside Latin-1 or an unknown charset raises inside
  `handle_exception`: the client gets nothing and the connection stays open. Without the debug option the arguments of an HTTPException go unescaped
  into a text/html page. A str returned by an error handler is encoded by the content type of the exception, not by the one the handler has set.
* C99: with a Unix socket only one worker is ever reached: each worker removes the socket file of the one before, even if they start one after the other;
  started at the same time two workers can leave nothing at the path. An empty file of someone else at the path is removed. `close_sock` never removes the
  socket file (`getsockname` comes after `close`). With `reuse_port=False` and two workers the second cannot listen, and renewing its socket ends the parent.
* C100: after `sendfile` a handler that returns `None` closes the connection even if the client asked to keep it (`close(keepalive=False)` in
  `_handle_response`); a range that ends behind the file is answered with 416, so clients that ask for a fixed block size cannot read small files.
* C101: `listen(..., log_level='info')` makes each worker of the address fail (`logging.info` is a function), and `listen(..., worker_num=0)`
  leaves an address without workers; `listen(8000)` with `run('127.0.0.1', 8000)` starts the address twice.
* C102: `package.module:app` imports `package` (`splitext` cuts at the dot); a file named like a loaded module (`json.py`) is never imported.
* C103: with `reload`, a handler that reaches the main module through two modules (`from a import g`, `from b import g`) ends the parent
  with PicklingError at the first reload; so does a second reload after a module came into use. Two `route` decorators on one function
  prevent the start. Subclasses of `Tremolo` and second server objects get the wrong routes after a reload
  (of several objects, those of the last name in the alphabet: `C103_last`).
* C104: a handler that catches the TimeoutError of a read cannot read on: the next read fails at once or loses data, sized reads
  return nothing (as at the end of the body), and after a disconnect the truncated body seems complete. The TimeoutError also stands
  for the cancellation by `app_handler_timeout`, which such a handler survives.
* C105: `response.end(data)` behind a `response.write` sends no last chunk, so the client never sees the end of the response; an empty
  `write` in the middle ends it early; a handler that writes and returns None or data leaves it without an end; a `buffer_min_size` of more
  than four times the `buffer_size` makes `write` fail (set_watermarks), with 500.
* C106: a Content-Length of the application is not checked: with one that is too small, on a kept connection, the rest of the body is read as
  the next response; an application that returns without its last body message leaves the response without an end and the connection open.
* C107: when a client sends the body of a request with `Expect: 100-continue` at once, the end of the response `100 Continue` makes the
  connection read again although the body is complete; a next request that comes before the handler has ended is queued as body and lost,
  and its bytes are the body of the request after it.
* C108: If-Modified-Since and If-Range are compared as texts with the date of the file, which has whole seconds: a file that changes twice in
  a second keeps its date (a stale copy counts as current, and a resumed download mixes two versions), and an If-Modified-Since later than
  the file's date gets the file again instead of 304.
* C109: when a function has several decorators, only the lowest sees its default parameters: a second route of a WebSocket handler
  (`websocket=None`) gives no WebSocket object, and `rate`, `status`, `content_type` do not count for it. Defaults of parameters after `*` never
  count. `@app.error(403)` registers nothing and says nothing.
* C110: the connection does not know where a chunked request body ends and reads on until it is reset. (1) A next request sent right after the whole
  answer, but before its end marker is handled, is swallowed as body, and turns up in front of a later body. (2) The CRLF after the `0` line, if it
  comes late, gets into the next body, or in front of the next head, which is then dropped without an answer on a connection that stays open.
  (3) A segment that is still being queued when the handler ends is counted for the next request (`put_to_queue` uses `self.request` after its
  sleep), so that request seems complete early: its handler sees an empty body and its body is parsed as a request (smuggling).
* C111: a head that is no request (no ` HTTP/`, a request line over 8190 bytes, an empty line before the request) closes a fresh connection, but on a
  kept one the previous request's keep-alive flag resets it instead: no answer, no close, and the answers of a pipelining client shift by one. A
  field named `_method` or `_url` makes the constructor raise outside the `try`: no answer, no close, nothing is read until a timer fires.
* C112: for a request without a body `b''` is queued, but no end (http_protocol.py:321-324), so a handler that calls `body()` or iterates `stream()`
  on a GET waits for `keepalive_timeout` seconds and then fails with a timeout.
* C113: after `read(n)` has left bytes in `_read_buf`, `read()` skips them and `body()` leaves them out; a later `read(m)` then waits for
  `keepalive_timeout`. On a chunked body `read(n)` followed by `body()` refuses well-formed bodies, or takes what is left of a chunk for the framing of
  the next one, because `body()` makes a second generator and the first one's buffer is lost. `while not request.eof(): await request.recv()` always
  raises StopAsyncIteration at the end.
* C114: `context.options` is updated for every middleware and handler and never cleared, so on a kept connection a handler finds the options of
  handlers of earlier requests in it. A program that stores something under the name `get` loses `context.get`; one that uses the names `ON_CONNECT` or
  `RESPONSE_SENDFILE_HANDLE` takes over what the server itself awaits or reads from.
* C115: `files()` returns at the closing line without asking the stream again, so after nearly every upload of more than one piece the end marker of the
  body stays in `queue[0]`. The next POST on that connection is given it: its handler reads an empty body, and its own body is read by the POST after it.
* C116: `read(n)` returns as soon as it has n bytes, so `read(content_length)` returns the whole body and leaves its end marker in `queue[0]`, with
  the same effect on the next POST as in C115. `body()` and a read of more than there is take the marker.
  Of a chunked body all is read only up to the segment with the line of the last chunk: segments that begin behind it are left in the queue
  (`C116_chunked_iff` says exactly when).
* C117: `form()` parses what is left of the body: a middleware that reads one byte of a form in one piece leaves no fields for the handler. After
  `body()`, a form over the limit gives `{}` without the error.
* C119: `keepalive_connections` limits the table of kept connections, not the connections: one that is pushed out of the table is told nothing and
  closed only at the end of its next response, so any number of idle connections may be open at once, until the keep-alive timeout of each.
* C120: `server_info['date']` is set once a second by the main loop only: after the worker has stood still in `recv()` responses have an old `Date` for
  up to a second, and once the loop has ended (stop, reload, memory limit) all responses made during shutdown have the `Date` of its end.
* C121: the text of an exception is logged as it is: if a handler raises with data of the client in it, line breaks of the client get into the log.
  The record of a response that had begun does not name the request (`abort: ...`).
* C122: white space behind the value of a field is kept by the parser, so a key sent with a space behind it is answered with the wrong text.
* C79, C80: a head that is no request leaves its keep-alive timer running, which later aborts the connection in the middle of another
  request; a request with `Expect: 100-continue` whose handler does not read the body leaves the connection open with no timer at all.
* C77, C78: the ASGI `path` is decoded as latin-1 in place of UTF-8; a URL in absolute form is given as path; the scheme is whatever
  X-Forwarded-Proto says, and a repeated X-Forwarded-Proto (or, in a handshake, Upgrade) makes the request fail with 500; `server` has
  four items on IPv6. A POST, or a request whose Connection field does not say `Upgrade`, is taken for a WebSocket handshake.
* C74–C76: fields with blank values are dropped; a query with more than 100 fields raises at the first access and is empty at the
  second; text that is not escaped is read as latin-1. Cookies and Content-Disposition are parsed as if they were queries: `+` becomes
  a space, `%41` becomes `A`, and `&` in a cookie or a file name begins another cookie or parameter (a file name `x&name=admin` renames
  the form field).
