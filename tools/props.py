#!/usr/bin/env python3
"""Regenerates /verif/properties.jsonl (the property list is kept here as data)."""
import json, os
P = []
def p(id, title, statement, quantifier, why, anchors):
    P.append(dict(id=id, title=title, statement=statement, quantifier=quantifier,
                  why_tests_cant=why, anchors=anchors))

p("C01", "Request-head detection does not depend on TCP fragmentation",
  "However the bytes of a request arrive in non-empty TCP segments, the server starts handling exactly when the first blank line (CRLF CRLF) has been received, exactly once, with all the bytes received so far and the position of that blank line; the accept/reject outcome equals that of receiving the same bytes in one segment, provided the head fits the configured client_max_header_size.",
  "all byte strings, all ways to cut them into segments, all header-size limits",
  "there are exponentially many segmentations of each of infinitely many inputs; tests send a handful",
  ["tremolo/lib/http_protocol.py: HTTPProtocol.data_received"])
p("C02", "Header memory is bounded and an oversized head never reaches a handler",
  "For every history of received segments, as long as the connection is still collecting a head it buffers at most client_max_header_size bytes, and a request is only ever handed to a handler if its head (up to the blank line) is at most client_max_header_size bytes; otherwise the connection is aborted.",
  "all segment histories, all limits",
  "the bound must hold after every prefix of every history",
  ["tremolo/lib/http_protocol.py: HTTPProtocol.data_received"])
p("C03", "Parsing a well-formed request head returns exactly its parts",
  "For every method, URL, version and list of header fields that are syntactically well formed, parsing 'METHOD SP URL SP HTTP/VERSION CRLF (Name: value CRLF)* CRLF body' yields is_request and is_valid_request, that method, URL, version, the header list in order with lower-cased names and unchanged values, and the body bytes.",
  "all methods, URLs, versions, header lists (within the line limits) and bodies",
  "quantifies over all field contents and counts",
  ["tremolo/lib/http_parser.py: ParseHeader.parse, getmethod, geturl, getversion, getheaders"])
p("C04", "A request is only 'valid' if every line obeys the limits and the grammar",
  "If parsing marks a request valid, then there are at most max_lines lines, none longer than max_line_size and none containing a bare LF, the first line is METHOD SP URL SP HTTP/x, every other line has a colon not preceded by a space, and an HTTP/1.1 request carries a Host field. A request that is not valid never reaches a route handler (it is answered by the 400 handler).",
  "all byte strings, all limits",
  "a universally quantified rejection property: all malformed inputs must be refused",
  ["tremolo/lib/http_parser.py: ParseHeader.parse", "tremolo/http_server.py: HTTPServer.headers_received", "tremolo/asgi_server.py: ASGIServer.headers_received"])
p("C05", "save() of a parsed head re-parses to the same head",
  "For every well-formed head, ParseHeader.save() after parse() produces bytes whose parse has the same start line, the same header list and the same body; remove() deletes exactly the named fields and append() adds fields at the end, and save() reflects this.",
  "all well-formed heads, bodies and edit sequences",
  "round trip over an infinite input space",
  ["tremolo/lib/http_parser.py: ParseHeader.save, remove, append, getheaders"])
p("C06", "Header fields cannot forge the request line",
  "The method, URL and HTTP version that the application sees come from the request line only; no header field sent by the client can change them.",
  "all requests and header fields",
  "security property over all header names",
  ["tremolo/lib/http_parser.py: ParseHeader.parse", "tremolo/lib/http_request.py: HTTPRequest.__init__"])
p("C07", "Ambiguous body framing is refused",
  "A request with a body is accepted for handling only if: a Content-Length field, when present, occurs once and is the canonical decimal representation of a number; Content-Length and chunked Transfer-Encoding are not both present; an HTTP/1.0 request has a Content-Length and no Transfer-Encoding. Every other body framing is refused with an error before any handler runs.",
  "all header sets and versions",
  "request-smuggling defence must hold for every header combination",
  ["tremolo/lib/http_protocol.py: HTTPProtocol._handle_request"])
p("C08", "A Content-Length body is delivered exactly",
  "For a request with Content-Length n whose body bytes arrive in any segments totalling at least n bytes, the application's body stream yields pieces whose concatenation is exactly the first n bytes, and then ends.",
  "all n, all bodies, all segmentations, all buffer sizes",
  "infinitely many segmentations and sizes",
  ["tremolo/lib/http_request.py: HTTPRequest.stream", "tremolo/lib/request.py: Request.recv", "tremolo/lib/http_protocol.py: HTTPProtocol.put_to_queue"])
p("C09", "A chunked body is decoded to its payload whatever the segmentation",
  "For every payload, every division of it into chunks (any hexadecimal size spelling, chunk extensions allowed) and every segmentation of the encoded bytes, the application's body stream yields exactly the payload.",
  "all payloads, chunkings and segmentations",
  "the failing segmentations are the ones a test on localhost never produces",
  ["tremolo/lib/http_request.py: HTTPRequest.stream (chunked branch)"])
p("C10", "A truncated or malformed chunked body is never reported as complete",
  "If the connection reaches end of input before the zero-size chunk has been received, or a chunk-size line is not a hexadecimal number, the body stream raises BadRequest; it ends normally only after a zero-size chunk line. It never loops forever on a finite input.",
  "all byte strings and segmentations, including malformed ones",
  "must hold for every malformed input",
  ["tremolo/lib/http_request.py: HTTPRequest.stream (chunked branch)"])
p("C11", "Sized reads partition the body",
  "For any segmentation of the body and any sequence of read(n)/recv(n) calls with n > 0, the returned pieces concatenated are a prefix of the body; each call returns exactly n bytes unless the body has ended, and eof() becomes true only when everything has been returned.",
  "all segmentations, all sequences of sizes",
  "every interleaving of sizes and segments",
  ["tremolo/lib/http_request.py: HTTPRequest.recv, read, eof"])
p("C12", "body() returns the complete body, once and again",
  "await request.body() returns the concatenation of all pieces of the body stream; calling it again returns the same bytes and does not block.",
  "all bodies and segmentations",
  "all inputs",
  ["tremolo/lib/http_request.py: HTTPRequest.body"])
p("C13", "Uploads are bounded by client_max_body_size",
  "If Content-Length exceeds client_max_body_size the application's body stream raises PayloadTooLarge before yielding a byte; for a body without Content-Length the server stops reading from the client as soon as the received body reaches client_max_body_size, and marks the connection for closing.",
  "all body sizes, segmentations and limits",
  "bound over all histories",
  ["tremolo/lib/http_request.py: HTTPRequest.stream", "tremolo/lib/http_protocol.py: HTTPProtocol.put_to_queue"])
p("C14", "Transfer through the internal queues neither loses, reorders nor duplicates bytes",
  "Data handed to the upload or download queue in one call is cut into pieces of at most buffer_size bytes whose concatenation, in queue order, is the data; if the queue ever exceeds max_queue_size entries the connection is aborted.",
  "all data, buffer sizes and queue limits",
  "all sizes incl. exact multiples of the buffer size",
  ["tremolo/lib/http_protocol.py: HTTPProtocol.put_to_queue", "tremolo/lib/response.py: Response.send"])
p("C15", "Requests on one connection are isolated",
  "On a keep-alive connection, the method/URL/headers/body that a handler sees depend only on the bytes of its own request: bytes of an earlier request's body are never delivered as the body of, or parsed as the head of, a later request.",
  "all sequences of requests on one connection and all handler behaviours (reading all, part or none of the body)",
  "requires every history of handler behaviours",
  ["tremolo/lib/http_protocol.py: HTTPProtocol._handle_keepalive, _handle_request, data_received"])
p("C16", "Pipelined body-less requests are served in order and none is lost",
  "If a client sends any number of body-less requests back to back (in one or several segments), and handlers do not read the body, each of them is handled once, in order.",
  "all numbers of requests, all segmentations",
  "unbounded pipelines",
  ["tremolo/lib/http_protocol.py: HTTPProtocol._handle_request, _handle_keepalive"])
p("C17", "Keep-alive is decided by the Connection header and the version",
  "A connection may be reused after a request iff the request has a Connection header whose comma-separated options do not include 'close' (any letter case, spaces ignored), or has no Connection header and is HTTP/1.1.",
  "all Connection header values and versions",
  "all header values",
  ["tremolo/lib/http_protocol.py: HTTPProtocol._handle_request"])
p("C18", "100-continue is sent at most once and only for acceptable bodies",
  "For a request expecting 100-continue, the interim response is emitted before the first body byte is read, never if Content-Length exceeds client_max_body_size (417 instead), and not again for that request once it has been processed.",
  "all Content-Length values and limits, all sequences of body reads",
  "history property",
  ["tremolo/lib/http_response.py: HTTPResponse.send_continue", "tremolo/lib/http_request.py: HTTPRequest.stream", "tremolo/lib/http_protocol.py: HTTPProtocol._handle_keepalive"])
p("C19", "At most one response head per request",
  "Whatever sequence of response API calls (set_status, set_header, write, end, close, ...) a handler, middleware or error path makes, at most one response head is emitted, it precedes all body bytes, and header mutation after it has been sent raises an error.",
  "all finite sequences of API calls",
  "unbounded call histories",
  ["tremolo/lib/http_response.py: HTTPResponse.write, end, headers, headers_sent"])
p("C20", "Streaming (chunked) responses are correctly framed",
  "For every finite sequence of byte strings yielded by a handler of an HTTP/1.1 GET request, the bytes put on the wire after the head are a valid chunked encoding whose decoding is the concatenation of the yielded pieces, terminated by exactly one zero-size chunk; empty yields do not terminate the response early.",
  "all sequences of yielded pieces, all buffering options (stream=True/False, buffer_size)",
  "all sequences and sizes",
  ["tremolo/http_server.py: HTTPServer._handle_response", "tremolo/lib/http_response.py: HTTPResponse.write", "tremolo/lib/response.py: Response.send, close"])
p("C21", "Content-Length of a complete response equals its body length",
  "Whenever the server itself emits a Content-Length for a handler or middleware that returns its data (response.end, or a returned body without chunked encoding), its value is the decimal length of the data, and the bytes after the head are exactly the data (or none for HEAD and no-content statuses).",
  "all data, statuses, versions, methods",
  "all data lengths",
  ["tremolo/lib/http_response.py: HTTPResponse.end", "tremolo/http_server.py: HTTPServer._handle_response"])
p("C22", "HEAD, 1xx, 204, 205 and 304 responses carry no body",
  "For a HEAD request, or a response status of 1xx, 204, 205 or 304, no body byte reaches the client, whether the handler returns data, yields data, or calls write/end, and whatever it yields.",
  "all handlers' outputs, statuses",
  "all sequences of outputs",
  ["tremolo/http_server.py: HTTPServer._handle_response", "tremolo/lib/http_response.py: HTTPResponse.write, end"])
p("C23", "Response splitting is impossible through the header API",
  "No value passed to set_header, set_status, set_content_type, set_cookie or append_header can add a line to the response head: a value containing LF is refused, and the emitted head has exactly one line per header set.",
  "all strings passed to the API",
  "security property over all strings",
  ["tremolo/lib/http_response.py: HTTPResponse.set_header, set_status, set_content_type, set_cookie, append_header", "tremolo/asgi_server.py: ASGIServer.send"])
p("C24", "Output coalescing preserves the byte stream",
  "For any sequence of send() calls with any throttle/buffer_min_size settings followed by close, the bytes queued for the client before the close marker are the concatenation of the data in call order.",
  "all sequences of calls and settings",
  "unbounded call sequences",
  ["tremolo/lib/response.py: Response.send, close, send_nowait"])
p("C25", "Range requests serve exactly the requested bytes",
  "For sendfile with a Range header: every range that is served satisfies 0 <= start <= end < file_size with size = end-start+1, Content-Range and Content-Length state it, and the bytes sent are file[start..end]; unsatisfiable ranges give 416 and malformed ones 400.",
  "all Range header values, file contents, buffer sizes",
  "all header strings x all file sizes",
  ["tremolo/lib/http_response.py: HTTPResponse.sendfile"])
p("C26", "sendfile without a range sends the whole file",
  "For every file content and buffer size > 0 the body bytes emitted are exactly the file content, Content-Length equals its size, and a matching If-Modified-Since yields 304 with no body.",
  "all contents, all buffer sizes",
  "all sizes incl. multiples of the buffer size",
  ["tremolo/lib/http_response.py: HTTPResponse.sendfile"])
p("C27", "The last status and content type set win",
  "For any sequence of set_status / set_content_type calls before the head is emitted, the emitted head carries the arguments of the last call of each (200 OK and text/html; charset=utf-8 if none).",
  "all call sequences",
  "unbounded call sequences, before and after the start line is fixed",
  ["tremolo/lib/http_response.py: HTTPResponse.set_status, get_status, set_content_type, get_content_type"])
p("C28", "Every handler failure ends in one error response or a closed connection",
  "If a handler raises: an HTTPException gives its own status code, a TimeoutError gives 408, any other exception gives 500, always with Connection: close and the connection is closed after it; if the head was already sent the connection is aborted instead and no second head is emitted.",
  "all exceptions, all prior response states",
  "all states in which the failure can happen",
  ["tremolo/lib/http_protocol.py: HTTPProtocol.handle_exception", "tremolo/lib/http_exceptions.py"])
p("C29", "The Connection header tells the truth",
  "If the final response head says 'Connection: close' the server closes the connection after that response, and if it says 'keep-alive' the server keeps it open for another request.",
  "all requests, handler kinds (return/yield), statuses, versions",
  "combination of all response paths",
  ["tremolo/http_server.py: HTTPServer._handle_response", "tremolo/lib/http_response.py: HTTPResponse.write, end", "tremolo/lib/http_protocol.py: HTTPProtocol._send_data"])
p("C30", "WebSocket frames round-trip",
  "For every payload shorter than 2^64 bytes, every masking key, text or binary, and every segmentation of the frame bytes, WebSocket.recv() on the bytes produced by create_frame() returns the payload and consumes exactly the frame.",
  "all payloads, lengths across the 125/126/65535/65536 boundaries, masks and segmentations",
  "infinite domain",
  ["tremolo/lib/websocket.py: WebSocket.create_frame, recv"])
p("C31", "WebSocket messages above ws_max_payload_size are refused",
  "A frame whose payload length exceeds ws_max_payload_size is refused with close code 1009 before its payload is read.",
  "all lengths and limits",
  "all lengths and limits",
  ["tremolo/lib/websocket.py: WebSocket.recv"])
p("C32", "WebSocket control frames are handled per protocol",
  "A ping of fewer than 126 bytes is answered by a pong with the same payload and is not delivered as a message; a pong is not delivered; a close frame raises WebSocketClientClosed with the peer's code (1005 if none); any other opcode closes with 1008.",
  "all payloads, opcodes",
  "all opcodes x payloads",
  ["tremolo/lib/websocket.py: WebSocket.recv, receive, pong"])
p("C33", "A message delivered by the WebSocket API was completely received",
  "receive() returns only messages that the peer sent completely: a connection that ends in the middle of a frame raises WebSocketClientClosed rather than returning a shortened message, and a fragmented message is not delivered as separate messages.",
  "all byte streams cut at any point",
  "every crash point inside a frame",
  ["tremolo/lib/websocket.py: WebSocket.recv"])
p("C34", "Server-Sent Events are framed so that one send is one event",
  "For every data without CR and every event/id without CR or LF, the bytes written by SSE.send parse (per the event-stream grammar) to exactly one event with that data (outer newlines stripped), event name, id and retry; an event or id containing LF is refused.",
  "all data, names, ids, retry values",
  "all strings",
  ["tremolo/lib/sse.py: SSE.send"])
p("C35", "Cookie values cannot break the Set-Cookie syntax",
  "For every value and path, set_cookie emits them percent-encoded using only unreserved characters (no ';', ',', space, CR, LF, quotes), the encoding decodes back to the value, and the resulting header line contains no LF.",
  "all strings",
  "all strings",
  ["tremolo/lib/http_response.py: HTTPResponse.set_cookie"])
p("C36", "The keep-alive table is bounded and evicts the oldest",
  "For every history of insertions and deletions, the table of keep-alive connections never exceeds maxlen entries, an insertion evicts only the oldest entry and only when the table is full and the key is new, and a just-inserted key is always present.",
  "all histories, all maxlen >= 1",
  "unbounded histories",
  ["tremolo/lib/connections.py: KeepAliveConnections"])
p("C37", "The connection queue is FIFO, loss-free and duplicate-free",
  "For every interleaving of put_nowait, get, get_nowait, waking and cancelling of getters, the items handed to consumers are, in order of hand-over, exactly a prefix of the items put, and no item is handed over twice; a getter that waits is only left waiting if there is no item for it.",
  "all schedules of any number of producers/consumers, including cancellations",
  "schedules",
  ["tremolo/lib/queue.py: Queue"])
p("C38", "ServerLock gives mutual exclusion",
  "Two tasks or workers are never both inside 'async with lock(name)' for the same name.",
  "all schedules of any number of tasks, including acquire timeouts",
  "schedules and timeouts",
  ["tremolo/lib/locks.py: ServerLock"])
p("C39", "A route registered for a literal path is found for every spelling of it",
  "After add_route(func, path) for a literal path, a request whose URL is any number (>=1) of slashes, the path, any number of trailing slashes and an optional query string is dispatched to a handler registered for that path's pattern, and a URL with a different path is not matched by it.",
  "all literal paths, slash counts and query strings",
  "infinite URL space; the routing key computed at registration must agree with the key computed at dispatch",
  ["tremolo/tremolo.py: Tremolo.add_route", "tremolo/http_server.py: HTTPServer.headers_received"])
p("C40", "Dispatch is total and runs exactly one handler",
  "For every route table and request, exactly one of: the 400 handler (invalid request), the first registered matching handler for the request's key, the last registered matching regex handler, or the 404 handler, is run.",
  "all route tables and requests",
  "all tables",
  ["tremolo/http_server.py: HTTPServer.headers_received"])
p("C41", "Routing does not depend on earlier requests",
  "The handler chosen for a URL depends only on the registered routes, not on which requests were served before or are being served concurrently.",
  "all request histories and interleavings",
  "histories",
  ["tremolo/http_server.py: HTTPServer.headers_received (promotion of regex routes)"])
p("C42", "Middleware order and short-circuit",
  "Request middlewares run in registration order and response middlewares in reverse order; the first one that returns a body ends processing: no later middleware and no handler runs. A connect/close middleware returning a true value stops the later ones.",
  "all middleware lists and results",
  "all lists",
  ["tremolo/http_server.py: HTTPServer.headers_received, _handle_response, _handle_middleware, _connection_made, _connection_lost"])
p("C43", "Handler options are resolved with fixed precedence",
  "The options a handler runs with are: options of the request middlewares override the route's own options, an earlier middleware overrides a later one, and rate/buffer_size default to the server's settings.",
  "all option dictionaries and middleware lists",
  "all dictionaries",
  ["tremolo/http_server.py: HTTPServer.headers_received, _handle_response"])
p("C44", "404 pages and escaped output are HTML-safe",
  "html_escape of any byte string contains none of < > \" and every & starts one of the four entities; unescaping it returns the original. The 404 page contains the requested path only in escaped form.",
  "all byte strings",
  "all byte strings",
  ["tremolo/utils.py: html_escape", "tremolo/handlers.py: error_404"])
p("C45", "An ASGI application receives exactly the request body",
  "The concatenation of the 'body' fields of the http.request messages up to and including the first one with more_body false equals the request body, and no http.disconnect is delivered before that while the client stays connected.",
  "all bodies, framings (none, Content-Length, chunked) and segmentations",
  "all segmentations",
  ["tremolo/asgi_server.py: ASGIServer.receive", "tremolo/lib/http_request.py: HTTPRequest.stream"])
p("C46", "An ASGI application cannot override server-managed headers or split the response",
  "For every header list in http.response.start, the emitted head has exactly one Date, one Server and at most one Transfer-Encoding line, all chosen by the server; a header name or value containing LF leads to an error response and none of the application's header is emitted.",
  "all header lists",
  "all header lists",
  ["tremolo/asgi_server.py: ASGIServer.send"])
p("C47", "ASGI lifespan outcome decides worker start-up",
  "Worker start-up fails iff the application reports lifespan.startup.failed; an application that raises, does not support lifespan, or times out is tolerated, and startup.complete lets it proceed.",
  "all sequences of lifespan events of the application",
  "all event sequences",
  ["tremolo/asgi_lifespan.py: ASGILifespan", "tremolo/tremolo.py: Tremolo._serve"])
p("C48", "The client address reported is the first forwarded address, else the peer",
  "request.ip is the part of the first X-Forwarded-For field (surrounding whitespace removed) before its first comma, or the peer address if that field is missing or blank.",
  "all header values and peers",
  "all strings",
  ["tremolo/lib/http_request.py: HTTPRequest.ip"])
p("C49", "Throughput throttling respects the configured rate",
  "The total delay inserted while queueing n bytes is at least n/rate seconds, for every n, buffer size and queue state.",
  "all data sizes, rates, buffer sizes, queue lengths",
  "all sizes",
  ["tremolo/lib/http_protocol.py: HTTPProtocol.put_to_queue"])
p("C50", "Connections never see each other's data",
  "Data written in response to a request on one connection is only ever written to that connection's transport, for every sequence of connects, disconnects and descriptor reuse in a worker.",
  "all histories of connections and descriptor reuse, with and without close middlewares",
  "needs every interleaving of disconnect, cleanup and reuse",
  ["tremolo/lib/http_protocol.py: HTTPProtocol.connection_made, connection_lost", "tremolo/http_server.py: HTTPServer.connection_lost, _connection_lost"])
p("C51", "One request at a time per connection",
  "While a request is being handled on a connection, no further head is parsed and no second handler is started on it; a new head is only looked for after the response has been completed with keep-alive.",
  "all event interleavings on a connection",
  "schedules",
  ["tremolo/lib/http_protocol.py: HTTPProtocol.data_received, _handle_keepalive, _send_data"])
p("C52", "Nothing is written after the connection is closed",
  "After the close marker of a non-keep-alive response has been processed, no further byte is written to the transport, and everything queued before it has been written in order.",
  "all queue contents and schedules",
  "schedules",
  ["tremolo/lib/http_protocol.py: HTTPProtocol._send_data, close"])
p("C53", "Multipart uploads are split into their parts whatever the segmentation",
  "For every list of parts whose contents do not contain the delimiter, and every segmentation of the multipart body, files() yields each part's content unchanged and in order, at most 'limit' of them; a body that ends before the closing delimiter raises BadRequest.",
  "all parts, boundaries and segmentations",
  "all segmentations",
  ["tremolo/lib/http_request.py: HTTPRequest.files"])
p("C54", "Form parsing enforces its limit",
  "request.form() raises ValueError as soon as the received body exceeds limit, parses nothing larger than limit, and returns the same result when called again.",
  "all bodies, limits, segmentations",
  "all bodies",
  ["tremolo/lib/http_request.py: HTTPRequest.form"])
p("C55", "Listening addresses are unique",
  "For every sequence of listen() calls, each (host, port) is registered at most once with the options of its first registration, and listen returns False exactly for repeats.",
  "all call sequences",
  "histories",
  ["tremolo/tremolo.py: Tremolo.listen"])
p("C56", "Registration of error and route handlers",
  "error(code) replaces exactly the handler of that code and keeps the others (unknown codes change nothing); registering '/' replaces the index handler; registering any other route never removes a previously registered route.",
  "all sequences of registrations",
  "histories",
  ["tremolo/tremolo.py: Tremolo.error, add_route, route"])
p("C57", "Worker hooks run in order",
  "worker_start hooks run in registration order and worker_stop hooks in reverse order, each stopping at the first that returns a true value.",
  "all hook lists and results",
  "all lists",
  ["tremolo/tremolo.py: Tremolo._serve, _worker_stop"])
p("C58", "Command-line options are recognised regardless of position",
  "Every recognised option on the command line sets its key to the value that follows it (numeric ones to its integer value), the last occurrence wins, and an unknown option or a non-numeric value terminates with an error.",
  "all argument vectors",
  "all vectors",
  ["tremolo/utils.py: parse_args", "tremolo/__main__.py"])
p("C59", "--bind listens on exactly the addresses it lists",
  "For every list of host:port, [IPv6]:port, :port and UNIX socket paths, --bind with their comma-joined texts registers exactly these addresses, each once, after those already registered, and unsets the host option. A list with an element that has a colon but no port number behind it is refused as a whole.",
  "all address lists",
  "infinite input space",
  ["tremolo/__main__.py: bind", "tremolo/tremolo.py: Tremolo.listen"])
p("C60", "A request expecting 100-continue gets its final response",
  "After the interim response, the response produced by the handler is delivered to the client before the connection is closed.",
  "all handlers, all interleavings of handler and send task, both Connection values",
  "the interim response and the final one travel through the same queue with the same end marker",
  ["tremolo/lib/http_response.py: HTTPResponse.send_continue", "tremolo/lib/http_protocol.py: HTTPProtocol._send_data, _handle_keepalive"])
p("C61", "After a request expecting 100-continue a kept connection accepts the next one",
  "When the final response of a keep-alive request expecting 100-continue has been sent, the connection is made ready for the next request, whether or not the handler read the body.",
  "all handlers, all interleavings of handler and send task",
  "history property",
  ["tremolo/lib/http_protocol.py: HTTPProtocol._handle_keepalive"])

p("C62", "Chunked parsing buffers a bounded amount",
  "While a chunked body is parsed, the bytes held in the line/chunk buffer never exceed four times the buffer size plus one received piece; a chunk-size line that does not end within four times the buffer size is refused.",
  "all byte streams, all segmentations, all buffer sizes",
  "unbounded input",
  ["tremolo/lib/http_request.py: HTTPRequest.stream"])
p("C63", "The request object reflects the head",
  "method (upper case), url, path, query string, version, host (X-Forwarded-Host first) and content type of the request object are those of the head that was parsed.",
  "all parsed heads",
  "unbounded inputs",
  ["tremolo/lib/http_request.py: HTTPRequest.__init__", "tremolo/lib/http_protocol.py: HTTPProtocol._handle_request"])
p("C64", "sendfile serves the file it was asked for",
  "On a connection with several sendfile calls, each response carries the content of the file whose path was passed to that call.",
  "all sequences of sendfile calls on a connection",
  "history property",
  ["tremolo/lib/http_response.py: HTTPResponse.sendfile"])

p("C65", "An ASGI response has the status and headers that the application gave",
  "The head sent for http.response.start has its status with the standard phrase, and for every header name that the server does not manage exactly the application's lines with that name, in order; the content type is the last one given, or the default.",
  "all statuses, header lists, later messages",
  "all header lists",
  ["tremolo/asgi_server.py: ASGIServer.send"])
p("C66", "ASGI body data is delivered exactly, with its framing",
  "For every sequence of http.response.body messages up to the last one, the bytes behind the head are the concatenation of their bodies, as a well-formed chunked body if the head says so and raw otherwise; a response that may not have a body has none, and nothing follows the end of the response on the connection.",
  "all sequences of body messages, all requests",
  "unbounded message sequences",
  ["tremolo/asgi_server.py: ASGIServer.send", "tremolo/lib/http_response.py: HTTPResponse.write"])
p("C67", "When an ASGI application ends, its response ends",
  "When the application's coroutine has ended, by returning or by an exception, an end marker has been queued or the connection has been aborted.",
  "all message sequences and ways to end",
  "unbounded message sequences",
  ["tremolo/asgi_server.py: ASGIServer.headers_received"])
p("C68", "A handler is cancelled by the timeout only when it has run too long",
  "The handler timeout cancels a handler only if that handler has been running for at least app_handler_timeout.",
  "all schedules of requests, handler ends and timers on a connection",
  "interleavings over time",
  ["tremolo/lib/http_protocol.py: HTTPProtocol.handler_timeout", "tremolo/lib/http_protocol.py: HTTPProtocol._handle_request"])

p("C69", "receive returns http.disconnect once the client is gone",
  "Every call of receive that is waiting when the client disconnects, and every later call, returns an http.disconnect message.",
  "all histories of calls, the end of the response and the disconnect",
  "interleavings",
  ["tremolo/asgi_server.py: ASGIServer.receive", "tremolo/asgi_server.py: ASGIServer.connection_lost"])
p("C70", "An ASGI websocket is accepted by one correct 101 head",
  "For every ASGI websocket.accept with any subprotocol and headers without LF, on a connection that is to be kept: exactly one head is sent, 101 Switching Protocols, with one Upgrade, one Connection: upgrade, one Sec-WebSocket-Accept, one Date, one Server and no Transfer-Encoding line, the chosen subprotocol, and the application's other headers in order; afterwards the connection is upgraded.",
  "for all header lists, subprotocols and keys, and any number of earlier receive calls",
  "The headers are chosen by the application and interact with the server's own; tests try a few.",
  ["tremolo/asgi_server.py:174-260", "tremolo/lib/websocket.py:25-35", "tremolo/lib/http_response.py"])
p("C71", "ASGI websocket.receive gives the client's messages, in order, exactly once",
  "For every sequence of frames of the client, every segmentation of their bytes and every interleaving with messages sent by the application, the events of receive are exactly the client's messages in order, followed by one disconnect with the code of its close frame, or 1005 if there is none.",
  "for all frame sequences, segmentations and interleavings of send and receive",
  "Segmentations and interleavings are unbounded.",
  ["tremolo/asgi_server.py:111-146", "tremolo/lib/websocket.py:37-128"])
p("C72", "ASGI websocket.send sends exactly one frame for each message, in order",
  "For every interleaving of send and receive in an open session, what is queued for the client is exactly one unmasked final frame for each message sent, with its kind and payload, in order, and answers to pings.",
  "for all message sequences, payload lengths and interleavings",
  "The length forms of frames and the interleavings with pings are unbounded.",
  ["tremolo/asgi_server.py:251-255", "tremolo/lib/websocket.py:130-185"])
p("C73", "An ASGI websocket session is closed once, with the right code",
  "However a session ends (websocket.close with any code, an exception of the application before or after the acceptance, a close frame or a protocol violation of the client), the client gets exactly one close frame with the right code, or an HTTP error before the acceptance, and nothing after it; the application gets websocket.disconnect.",
  "for all codes, exceptions, frames and later operations",
  "Ends of sessions are many and rarely tested.",
  ["tremolo/asgi_server.py:80-90", "tremolo/asgi_server.py:256-266", "tremolo/lib/websocket.py:82-106", "tremolo/lib/websocket.py:187-190"])
p("C74", "Fields of query strings and forms are decoded exactly",
  "For every list of names and values and every way of writing them as application/x-www-form-urlencoded (escapes of either case, + for space), request.query and request.form give for each name exactly its values in order.",
  "for all texts, all ways to write them, all numbers of items",
  "The ways to write a text are unbounded; tests try a few.",
  ["tremolo/lib/http_request.py:263-275", "tremolo/lib/http_request.py:315-319"])
p("C75", "Cookies come back as they were set",
  "For every list of cookies in one or several Cookie headers, request.cookies gives for each name exactly its values in order; a value set with set_cookie and sent back by a client is the text it was set to.",
  "for all names, values, attributes of Set-Cookie and numbers of headers",
  "Values are chosen by users and often contain separators; tests try a few.",
  ["tremolo/lib/http_request.py:277-299", "tremolo/lib/http_response.py:82-111"])
p("C76", "Names and file names of multipart parts are read as they were written",
  "For every list of parameters written into Content-Disposition as browsers do, each is read as it was.",
  "for all parameter lists and all names and values",
  "File names are chosen by users; tests try a few.",
  ["tremolo/lib/http_request.py:384-388"])
p("C77", "ASGI applications get the scope of the request that was sent",
  "For every accepted request that does not ask for a WebSocket, the http scope given to an ASGI application has the request's method in upper case, its HTTP version, raw path and query string, the percent-decoded path as UTF-8 text, the header fields in order with lower-cased names, the scheme of the connection and its two addresses.",
  "for all heads, connections and options",
  "All inputs; the fields interact (a repeated field, a forwarded scheme).",
  ["tremolo/asgi_server.py:48-78", "tremolo/lib/http_request.py:71-125"])
p("C78", "The websocket scope is given for handshakes only, with the offered subprotocols",
  "The scope has the type websocket if and only if the request is a WebSocket handshake (and WebSockets are enabled), and then has the scheme ws or wss and all subprotocols that the client offers in order.",
  "for all heads, with any number of subprotocols and fields",
  "All inputs.",
  ["tremolo/asgi_server.py:38-46", "tremolo/asgi_server.py:71-76", "tremolo/lib/http_parser.py:8-19"])
p("C79", "The idle timers abort only connections that waited their full time for a head",
  "A connection is aborted by the timers for a head only when the present wait has lasted request_timeout (first head) or keepalive_timeout (later ones), the head of the awaited request has not been handled, and no handler is running.",
  "for all schedules of segments, tasks, timers and the clock",
  "Depends on when futures are cancelled relative to other tasks; timing tests cover few schedules.",
  ["tremolo/lib/http_protocol.py:91-98", "tremolo/lib/http_protocol.py:126-139", "tremolo/lib/http_protocol.py:335-346", "tremolo/lib/http_protocol.py:488-498"])
p("C80", "A connection that waits too long for a head is closed",
  "Unless it is being closed, a connection has a running handler, or an unsent end of a response, or a running timer whose deadline is fixed when the wait begins: data that trickles in does not postpone it.",
  "for all schedules of segments, tasks, timers and the clock",
  "A liveness property over unbounded waiting.",
  ["tremolo/lib/http_protocol.py:91-98", "tremolo/lib/http_protocol.py:126-139", "tremolo/lib/http_protocol.py:466-504"])
p("C81", "A WebSocket session gets the bytes behind its handshake in order, and does not stall",
  "After the server has sent 101 for a handshake, the connection stays open; every byte that the client sends behind the head of the handshake reaches the handler once and in order, whatever the segmentation; and reading is never paused for ever. The same order holds for requests with interim responses (100-continue).",
  "for all schedules of segments, tasks and handlers",
  "Interleavings of the tasks that queue segments, the send task and the handler.",
  ["tremolo/lib/http_protocol.py:141-180", "tremolo/lib/http_protocol.py:356-404", "tremolo/lib/http_protocol.py:420-436", "tremolo/lib/http_protocol.py:466-504"])
p("C82", "What is sent to a slow client stays in order, and its buffer bounded",
  "The items of the send queue reach the socket in order, none twice and none left out, unless the connection is aborted; the transport's buffer never holds more than the high watermark and one item; the buffer is thrown away only by an abort, a lost connection, or a wait that timed out.",
  "for all schedules of queue, task, socket, watermarks and timer, with and without TLS",
  "Needs clients that read slowly in every possible pattern.",
  ["tremolo/lib/http_protocol.py:408-464"])
p("C83", "A writer that waits for a slow client goes on when the client has read, and gives up only after the timeout",
  "If more than the high watermark is unsent, the send task waits. It goes on once the client has read down to the low watermark, and writes the item it holds; the connection is aborted only if that took keepalive_timeout, and is aborted then.",
  "for all schedules of queue, task, socket, watermarks and timer, with and without TLS",
  "Lost wakeups depend on the interplay with the limits of the transport.",
  ["tremolo/lib/http_protocol.py:126-139", "tremolo/lib/http_protocol.py:408-464"])
p("C84", "The parent keeps the workers running, and an interrupt ends them all",
  "A worker is told to stop only after SIGTERM or Ctrl-C, and otherwise serves until something ends it; one that has ended is replaced when the parent next comes to it; after an interrupt the parent tells every worker in turn to stop, and all of them end.",
  "for all numbers of workers and all interleavings of the steps of the parent and of the workers",
  "Workers that end at the wrong moment are too rare to meet in a test.",
  ["tremolo/tremolo.py:227-228", "tremolo/tremolo.py:385-454", "tremolo/tremolo.py:700-804"])
p("C85", "Heartbeats are answered one for one, and do not hold up a worker",
  "Every ping of a worker is answered once, with the number of workers, and there is at most one ping without an answer; the event loop of a worker does not stand still in recv() waiting for an answer.",
  "for all numbers of workers and all interleavings of the steps of the parent and of the workers",
  "The wait depends on where the parent is in its round.",
  ["tremolo/tremolo.py:385-450", "tremolo/tremolo.py:726-794"])
p("C86", "A native WebSocket handler gets every message once and in order, and the client gets its frames",
  "In an open session the reads of the handler give exactly the client's messages, in order and each once; exactly the handler's frames and one pong for each ping go out, in order; the first read of async for sends the handshake.",
  "for all handlers (as functions of what their calls have given), all frames of the client and all segmentations of its bytes",
  "A handler can interleave reads and writes in any way, and the segmentation is up to the network.",
  ["tremolo/lib/websocket.py:16-128", "tremolo/lib/websocket.py:130-190", "tremolo/http_server.py:85-122"])
p("C87", "A WebSocket session ends with a close frame that says why",
  "However a session ends (silence, a violation, the client's close, the end or failure of the handler), the client gets one close frame with the code that RFC 6455 has for it.",
  "for all sessions and all ends of the client's stream",
  "Each end is a rare event; tests look at one or two.",
  ["tremolo/lib/websocket.py:37-128", "tremolo/lib/websocket.py:187-190", "tremolo/lib/http_protocol.py:204-265", "tremolo/http_server.py:117-122"])
p("C88", "An idle WebSocket client is pinged, and dropped only after keepalive_timeout without any data",
  "A session expires only when no byte has come for the whole keepalive_timeout and a ping in the middle of it stayed unanswered; no wait is longer; pings are at least half the time apart.",
  "for all executions: all arrivals, all calls of the handler, all moments of eviction",
  "Needs a clock and every interleaving of two timers with the arrival of data.",
  ["tremolo/lib/websocket.py:108-128", "tremolo/lib/websocket.py:175-185", "tremolo/lib/request.py:30-52", "tremolo/lib/http_protocol.py:466-477"])
p("C89", "A client can tell where each response ends",
  "A client that reads responses as RFC 9112 says finds the status, the fields and the body of what the handler, the middleware or the error handler answered, and its reading stops exactly where the response stops, whatever follows on a kept connection.",
  "for all handlers and middlewares of the model, all statuses, all data, all bytes that follow",
  "One wrong length shifts every later response of the connection; it shows only with kept connections and unusual statuses.",
  ["tremolo/lib/http_response.py:62-157", "tremolo/lib/http_response.py:200-330", "tremolo/http_server.py:146-260"])
p("C90", "A client that sends several requests on one connection reads the answers in the order of its requests",
  "The i-th handler started on a connection gets the i-th request (method, URL, body); the responses are written one behind the other, each complete before the next begins; a client that reads as RFC 9112 says gets the i-th handler's response as the answer to its i-th request.",
  "for all executions of the connection: all segmentations, all interleavings of the tasks, all requests, all delimited responses",
  "The order depends on five queues and tasks; pipelined requests in odd segments are not what test clients send.",
  ["tremolo/lib/http_protocol.py:166-203", "tremolo/lib/http_protocol.py:267-334", "tremolo/lib/http_protocol.py:420-505", "tremolo/lib/http_response.py:200-330"])
p("C91", "A change of the code reloads the worker",
  "With the option reload, the worker ends for a reload exactly when the file of a loaded module of the application changes.",
  "for all contents of sys.modules and of the file system at each second, all sys.path",
  "Which files are watched depends on the modules loaded in the first second and on files that come and go between two looks.",
  ["tremolo/tremolo.py:382-437", "tremolo/utils.py:16-19"])
p("C92", "A worker starts up and shuts down in order",
  "The start hooks are called in order before the server is created; whatever ends the worker, the server is closed first, then each stop hook is called once, in reverse order; then the process ends.",
  "for all numbers and results of hooks, all ways to end, Ctrl-C at any time",
  "Shutdown paths cross (reload, memory, broken pipe, Ctrl-C, exceptions in hooks); tests exercise one of them.",
  ["tremolo/tremolo.py:227-454", "tremolo/tremolo.py:456-522"])
p("C93", "A connection serves all its requests in every schedule",
  "A client that sends any number of HTTP/1.1 requests over one connection, none sharing a segment with another, to handlers that read the bodies of their requests, has each request handled once, in order, by a handler that reads exactly its body, reads the answers in that order, and is never left waiting by tasks of the server that wait for each other.",
  "for all requests and bodies, all segmentations of each, all interleavings of the tasks of a connection",
  "Whether the keep-alive reset, the pausing of the transport and the chained receive tasks fit together depends on the interleaving of four kinds of tasks over many requests; a test runs one.",
  ["tremolo/lib/http_protocol.py:146-180", "tremolo/lib/http_protocol.py:267-404", "tremolo/lib/http_protocol.py:415-504"])
p("C94", "A handler is given the WebSocket and SSE objects of its own request",
  "The websocket and sse arguments that a middleware, handler or close hook is given belong to the request that it is called for, and are there only for a request that asks for them on a route that offers them.",
  "for all requests on a connection, all interleavings of the tasks of the connection",
  "The arguments live in a dictionary of the connection that is never cleaned; a test that uses one connection per request never sees what is left over.",
  ["tremolo/http_server.py:17-23", "tremolo/http_server.py:59-122"])
p("C95", "The hooks of a connection run around its requests, and it is cleaned up once",
  "Connect hooks run once in order before any request of the connection is handled, up to the first that returns a true value, and no request is handled if one fails; close hooks run in reverse order when the connection is lost; then the connection is cleaned up, once, at the latest after the close timeout, and nothing is called for it afterwards.",
  "for all numbers and outcomes of hooks and middlewares, all requests, all times at which the connection is lost",
  "The hooks run in tasks of their own; what is called before what depends on when the client disconnects.",
  ["tremolo/http_server.py:25-57", "tremolo/http_server.py:262-275"])
p("C96", "When a connection is lost, what it has started is stopped",
  "Every task created for a connection that is not done is cancelled, and every callable put into context.tasks is called, exactly once when the connection is lost.",
  "for all histories of tasks and callables, all orders of the set",
  "The order in which a set is emptied is arbitrary, and tasks end at any time.",
  ["tremolo/lib/http_protocol.py:52-71", "tremolo/lib/http_protocol.py:506-537"])
p("C97", "What a connection holds of what its client sends is bounded",
  "While a connection is open, the items of its receive queue that carry bytes never exceed max_queue_size, and at most one received segment at a time waits to be queued, since reading is paused until it is; so the bytes held are bounded by the settings and the size of a segment, however fast the client sends and however slow the handler reads.",
  "for all segments, settings, handlers and interleavings of the tasks of a connection",
  "The bound concerns all schedules of readers and writers; a test has one, and a client that does not send faster than its handler reads.",
  ["tremolo/lib/http_protocol.py:139-180", "tremolo/lib/http_protocol.py:366-404", "tremolo/lib/http_protocol.py:466-504"])
p("C98", "What a client reads of an exception",
  "An exception that a handler raises before the head was sent is answered with the status and reason that belong to it and a page that a client decoding it by the declared charset reads as the text of the exception; exceptions that are not HTTPExceptions give away nothing of their text unless the debug option is on, and then traceback lines add no markup to the page.",
  "for all exceptions, texts, content types, error handlers and response states",
  "The texts come from applications and from other libraries; a test raises a few classes without arguments and compares the status.",
  ["tremolo/lib/http_protocol.py:198-265", "tremolo/lib/http_exceptions.py:4-107", "tremolo/lib/http_response.py:125-158", "tremolo/handlers.py:39-47"])
p("C99", "Every worker is reached at its address",
  "Every worker that listens can be reached by clients at the address of the server, and this stays so while other workers start, end and are restarted; creating the socket again never ends the parent.",
  "for all numbers of workers, kinds of address, things at the path and interleavings of the system calls of parent and workers",
  "What is reached depends on the order of bind, stat, unlink and listen of several processes; a test starts one worker once.",
  ["tremolo/tremolo.py:227-238", "tremolo/tremolo.py:524-581", "tremolo/tremolo.py:700", "tremolo/tremolo.py:754-759"])
p("C100", "A download gives the client exactly the bytes of the file",
  "From the bytes of a request, whole or with Range, If-Range, If-Modified-Since headers in any order and number, a client reads exactly the file, or exactly the pieces it asked for with their true positions, and can resume a download with the date it read before.",
  "for all legal request heads, files, buffer sizes, lists of up to 101 ranges within the file and, refused, of any greater length, boundaries that do not occur in the pieces and calls of the handler before sendfile",
  "Range arithmetic, multipart framing, chunking and the header dictionary have to agree for every file and list of ranges; a test checks a few ranges of one small file.",
  ["tremolo/lib/http_response.py:293-486", "tremolo/lib/http_parser.py:36-131"])
p("C101", "Each worker runs with the options that were given for its address",
  "Every option has, in each worker, the value given to listen for its address, else the value given to run or on the command line (the last occurrence), else the documented default; workers are started for every address that was given and for no other.",
  "for all lists of addresses with options, all arguments of run, all well-formed command lines with any order and repetition of options and any --bind list, any number of CPUs",
  "Four stages hand the options on (argument parser, listen, run, _serve), each with its own names and defaults; tests start a server with one set of options.",
  ["tremolo/tremolo.py:71-81", "tremolo/tremolo.py:227-364", "tremolo/tremolo.py:480-484", "tremolo/tremolo.py:595-712", "tremolo/__main__.py:11-99"])
p("C102", "The application that is served is the one that was named",
  "A text dir/module.py:attr, dir/module:attr or without attribute, and an object given to run, make the workers import the file that the text denotes from the working directory and serve that attribute of it, or fail.",
  "for all working directories, all paths (relative, with dots, doubled slashes), names, attributes and sets of modules present",
  "Path normalisation, splitting at colons and dots, and the import rules interact; tests use one path.",
  ["tremolo/tremolo.py:281-299", "tremolo/tremolo.py:611-625"])
p("C103", "After a reload the workers are given the routes, error handlers, middlewares and hooks of the changed program",
  "When a worker has ended for a reload, the parent runs the modules of the application again and starts the new worker with exactly the routes, error handlers, middlewares and worker hooks that the text of the main module now defines, in order, each with a function that the worker finds in the files; again and again, for any changes of the files.",
  "for all texts of the main module and of the modules it takes functions from, all sequences of changes of these files and all modules loaded besides",
  "The result depends on the order of sys.modules, on what remains of older versions in the namespaces and on the identity of functions at pickling; it shows only over several reloads with particular module graphs.",
  ["tremolo/tremolo.py:82-146", "tremolo/tremolo.py:583-593", "tremolo/tremolo.py:632-639", "tremolo/tremolo.py:728-773"])
p("C104", "A client that stops sending its body is answered 408 after keepalive_timeout, and only then",
  "While a handler reads the body, a read ends with TimeoutError only if no data came for keepalive_timeout; it then does end, and a handler that does not catch the exception has 408 sent and the connection closed. Data that comes in time is delivered, in order and completely; a timeout loses nothing, and a handler that reads again after it waits again and goes on where it was.",
  "for every keepalive_timeout, every schedule of items put into the queue, of the tasks and timers, of cancellations and of the loss of the connection, and every sequence of reads",
  "The timer, the task of queue.get and the handler are three parties whose steps may interleave in any order around the deadline; a test sees the common order only, with real waiting times.",
  ["tremolo/lib/request.py:30-52", "tremolo/lib/queue.py:17-36", "tremolo/lib/http_request.py:136-167", "tremolo/lib/http_protocol.py:188-196", "tremolo/lib/http_protocol.py:228-229"])
p("C105", "A client reads exactly what a handler writes itself",
  "When a handler sends its response with response.write, and ends it with response.end or response.close or by returning None, a client reads one response with the status and header lines asked for and with all the bytes written, in order, as its body.",
  "for every sequence of writes (data, chunked, rate and buffer options), every way to end, every status and header calls before, every request middleware that passes and every response middleware",
  "What the client reads depends on the framing of every write together with the way the handler ends; tests try a few combinations and read the bytes with a lenient client.",
  ["tremolo/lib/http_response.py:169-222", "tremolo/lib/http_response.py:224-304", "tremolo/http_server.py:115-136"])
p("C106", "A client reads exactly what an ASGI application sends",
  "When an ASGI application sends a response start and its body messages, a client reads one response with the status given, the application's header lines and, as its body, the bytes of the body messages in order; so for each of the requests of a kept connection. A client never takes a chunked response that an exception cut short for a complete one.",
  "for every status with a phrase, every list of header pairs without LF and with ordinary names, every list of body messages, every request method and version, and every sequence of responses on one connection",
  "The framing is chosen from the version, the application's own Content-Length, the server's flag that turns chunks off and the status together; tests look at single responses, and at the bytes rather than what a client makes of them.",
  ["tremolo/asgi_server.py:174-250", "tremolo/lib/http_response.py:181-304", "tremolo/lib/http_protocol.py:229-261"])
p("C107", "A client that waits for 100 Continue has every request handled and answered",
  "A client sends requests one after the other over a kept connection; some ask for 100 Continue, and their bodies are sent only after that response. Then in every schedule of the server's tasks the connection stays open, the i-th handler is that of the i-th request and reads exactly its body, the client reads the i-th answer for the i-th request (skipping interim responses), and when no task can go on the connection reads or a handler is at work, which can still send 100 Continue if the client waits for it.",
  "for every list of requests with and without Expect: 100-continue, every way of cutting them into segments, every schedule of the parsing, receiving, sending and handler tasks",
  "The response 100 Continue ends with the same marker as a final response; whether the connection is reset, keeps the body and reads again depends on the order in which the marker, the body and the handler's end come.",
  ["tremolo/lib/http_protocol.py:300-405", "tremolo/lib/http_protocol.py:420-504", "tremolo/lib/http_request.py:169-175", "tremolo/lib/http_response.py:169-188"])
p("C108", "Dates in responses are the IMF-fixdates of their instants",
  "For every instant from the year 1000 to 9999 the text of Date, Last-Modified and a cookie's expires is the IMF-fixdate (RFC 9110, 5.6.7) of that instant in UTC, with the right day of the week; a text denotes one instant only. So two modification times have the same date exactly if they lie in the same second, If-Modified-Since with the date of that second gives 304 and with another date the file, and a cookie's expires lies Max-Age seconds after now.",
  "for every instant in these years, every modification time in nanoseconds, every Max-Age, every request",
  "The calendar (leap years, centuries, month ends, weekdays, negative times) has far more cases than tests sample; equality of dates decides between 304 and 200, so it must be injective on seconds.",
  ["tremolo/utils.py:48-50", "tremolo/lib/http_response.py:82-111", "tremolo/lib/http_response.py:326-350", "tremolo/lib/http_response.py:455-486"])
p("C109", "Decorators register exactly what the program says",
  "A program registers functions with decorators (route, error, event, middleware, on_* with or without parentheses, stacked or not) and with add_route and add_middleware. It raises an exception exactly for unknown names, unreadable functions and misused hooks; otherwise every list of middlewares and hooks and the table of routes hold exactly the registered functions in the order of the program, each with the options its parameters state; a registered function is called like the original one; so the middlewares run in the order of the program (responses: in reverse).",
  "for every program of registrations, every function signature, every stack of decorators, every request",
  "Every decorator builds a wrapper and reads the parameters of what it is given; whether a stack of them keeps functions, options and order is a statement about all programs.",
  ["tremolo/tremolo.py:38-66", "tremolo/tremolo.py:83-194"])
p("C110", "A connection serves requests with chunked bodies one after the other",
  "A client sends any number of requests over one connection, some with Transfer-Encoding: chunked, none sharing a segment with another, and sends the next one when it has the answer. Every request gets its own handler in order, which receives exactly the bytes of that request's body, and the client reads the answers in order.",
  "for every list of requests, every cut of them into segments, every schedule of the tasks, every handler",
  "The connection does not parse chunks, so the end of a chunked body is only known to the handler; whether bytes, counts and queue entries of one request leak into the next depends on the interleaving of four tasks and the network.",
  ["tremolo/lib/http_protocol.py:139-180", "tremolo/lib/http_protocol.py:366-404", "tremolo/lib/http_protocol.py:466-504", "tremolo/lib/http_request.py:169-238"])
p("C111", "A head that the server refuses is answered, or ends the connection",
  "Whatever head a client sends on a connection that waits for one: if no handler is started for it, then the client gets an error answer, or the connection is closed; it is not left open without an answer, where a client that sends several requests takes the next answer for that to the refused one.",
  "for every history of requests on the connection, every schedule, every head",
  "A refused head takes one of six ways through _handle_request, and what its end marker does is decided by the request before it on the same connection; tests send bad heads on fresh connections.",
  ["tremolo/lib/http_protocol.py:267-280", "tremolo/lib/http_protocol.py:420-436", "tremolo/lib/http_protocol.py:466-504", "tremolo/lib/http_parser.py:64-114", "tremolo/lib/http_request.py:36-55"])
p("C112", "A handler on a kept connection reads the content of its own request, and then its end",
  "On a connection over which a client sends any number of requests, every handler that reads its body with stream() is given the content of its own request, all of it, and then the end of the stream: the bytes up to the Content-Length, the data of the chunks, or nothing if the request has no body.",
  "for all lists of requests, all bodies, all cuts into segments, all schedules of the tasks",
  "Queue, counting, reset and the two branches of stream() are tested apart and on fresh connections; that what one handler leaves never reaches another depends on the order of all tasks.",
  ["tremolo/lib/http_request.py:136-250", "tremolo/lib/request.py:30-52", "tremolo/lib/http_protocol.py:139-180", "tremolo/lib/http_protocol.py:321-334", "tremolo/lib/http_protocol.py:466-504"])
p("C113", "Mixed calls of recv, read and body lose nothing of the body and keep its order",
  "A handler may read its body with any mix of recv(), recv(n), read(), read(n) and body(): each byte of the body is given to it once and in order, eof() tells when all was read, and no call waits for what cannot come.",
  "for all bodies, all cuts into pieces, all sequences of calls",
  "Tests use one way of reading per request; the calls share a queue, a buffer and up to two generators, and what a call finds depends on all calls before.",
  ["tremolo/lib/http_request.py:136-167", "tremolo/lib/http_request.py:169-252", "tremolo/lib/request.py:30-52"])
p("C114", "What is stored in a context is found there, on that connection only",
  "A value stored in the context of a connection is found under its name by all later code for this connection and by no other connection; what is stored in the worker's context is found by all; options, tasks and queues cannot be replaced; context.options holds the options of the function that runs.",
  "for all histories of connections, requests, stores, reads and deletions",
  "Tests store and read one value in one request; whether values of earlier requests or of other connections show through depends on the whole history of a worker.",
  ["tremolo/lib/contexts.py:4-53", "tremolo/http_server.py:59-66", "tremolo/http_server.py:116-120", "tremolo/lib/http_protocol.py:39"])
p("C115", "A form with files arrives as the browser sent it, and leaves nothing behind",
  "For every form with files sent as browsers send it, however its body is cut into pieces, files() yields for every control its name, file name, type and content, in order; and when the handler has read all parts, nothing of the body is left in the queue for the next request on the connection.",
  "for all boundaries, controls, contents and segmentations; for all schedules of the connection after the upload",
  "Tests send small forms that arrive in one piece, where the end of the body happens to be taken; what is left depends on where the last piece begins and shows only in the next request with a body on the same connection.",
  ["tremolo/lib/http_request.py:323-419", "tremolo/lib/http_protocol.py:162-180", "tremolo/lib/http_protocol.py:466-504"])
p("C116", "A handler that has read its whole body leaves nothing of it behind",
  "When the calls of read(), recv() and body() have returned every byte of a request's body, the queue of the connection holds nothing of that body any more, so the next request starts with an empty queue.",
  "for all bodies with Content-Length, all segmentations and all sequences of calls",
  "The body that the handler reads is right in every test; what is left shows only in the next request with a body on the same connection, and depends on whether the handler asked for one byte more than there was.",
  ["tremolo/lib/http_request.py:136-167", "tremolo/lib/http_request.py:243-252", "tremolo/lib/http_protocol.py:162-180"])
p("C117", "form() gives the fields of the body, whatever else of the request was read",
  "form() returns the fields of the request's body, and body() its bytes, in whichever order and however often a handler calls them, and whatever it has read with read() and recv() before; a form over the limit raises an error.",
  "for all bodies, segmentations, sequences of calls, limits and states of the request",
  "Tests call form() once and first. What it returns after a middleware has looked at the body, and what body() returns after it, depends on what the earlier calls took, held back or left.",
  ["tremolo/lib/http_request.py:136-167", "tremolo/lib/http_request.py:301-321"])
p("C118", "What a generator yields is passed on before it is asked for more",
  "At every point of a streamed response that runs to its end, everything the generator has yielded so far is in the send queue of the connection, in order, with nothing held back; with stream=False no more than half the buffer size and one piece is held back, and a piece is queued only when at least half the buffer size was held back.",
  "for all generators, pieces, head calls, middlewares that pass, options, and all points of the response",
  "Clients of events streams depend on each piece being sent at once; tests read the whole response, where held-back pieces make no difference.",
  ["tremolo/http_server.py:183-217", "tremolo/lib/response.py:11-52"])
p("C119", "keepalive_connections pushes out the connection kept longest and closes it after its next response",
  "At no time are more than keepalive_connections connections of a worker in the table of kept ones; a connection leaves the table only when it is lost or, the table being full, as the one that has been in it longest when another enters; while no more connections are open than the option allows, each behaves as if it were alone; and a connection that was pushed out is closed at the next end of a response. The number of connections that are open and wait for another request is not bounded by the option.",
  "for all values of the option, all numbers of connections, and all interleavings of the events of all connections",
  "The order in which many connections of a worker enter and leave the table depends on the interleaving of all of them; tests of the option use a few connections one after the other.",
  ["tremolo/tremolo.py:260-262", "tremolo/lib/connections.py:4-20", "tremolo/lib/http_protocol.py:425-436", "tremolo/lib/http_protocol.py:466-504", "tremolo/lib/http_protocol.py:506-508"])
p("C120", "The Date of a response is current, and a worker over its memory limit ends",
  "The Date of a response is never later than the response and less than two seconds older, up to the lateness of the event loop. A worker ends because of limit_memory exactly when, in a second in which its code has not changed, the resident set in KiB is above the limit; while it serves, no sample was above it; without the option, or where there is no /proc, it does not end.",
  "for all times of all events, all lateness of the event loop, all durations of recv, all samples and limits, and all contents of statm",
  "Old dates appear only after the parent was slow to answer or while the worker shuts down; tests look at fresh servers. Tests of the limit use one large allocation.",
  ["tremolo/tremolo.py:322-325", "tremolo/tremolo.py:385-454", "tremolo/utils.py:37-47", "tremolo/lib/http_response.py:73-76"])
p("C121", "The log says which request failed, whatever the client sends",
  "The record of a request that failed before its response has begun names its path, in printable ASCII without spaces and colons, from which the path can be decoded, then the class and the text of the exception. Records of different requests can be told apart, and the log has exactly one line for each, so no path lets a client write a line of its own.",
  "for all bytes of the path, all classes and texts of exceptions and any number of failed requests",
  "A test asks for a few odd paths; the log can be forged by any one byte of a path that is left as it is.",
  ["tremolo/lib/http_protocol.py:101-105", "tremolo/lib/http_protocol.py:198-214", "tremolo/tremolo.py:486-492"])
p("C122", "A handshake is answered with the accept key of RFC 6455",
  "The head that answers a WebSocket handshake, through ASGI and natively, has one Sec-WebSocket-Accept line, and its value is the base64 text of the SHA-1 digest of the client's key followed by the fixed GUID: 28 bytes of the base64 alphabet, for whatever key the client sends.",
  "for all well-formed request heads with a key field, all keys, all headers and subprotocols that the application gives",
  "Tests use one or two fixed keys; the padding of the hash and of base64 depends on the length of the key, and a client chooses it.",
  ["tremolo/lib/websocket.py:25-35"])
out = os.path.join(os.path.dirname(os.path.abspath(__file__)), '..', 'properties.jsonl')
with open(out, 'w') as f:
    for x in P:
        f.write(json.dumps(x) + '\n')
print(len(P))
