{"id": "C01", "title": "Request-head detection does not depend on TCP fragmentation", "statement": "However the bytes of a request arrive in non-empty TCP segments, the server starts handling exactly when the first blank line (CRLF CRLF) has been received, exactly once, with all the bytes received so far and the position of that blank line; the accept/reject outcome equals that of receiving the same bytes in one segment, provided the head fits the configured client_max_header_size.", "quantifier": "all byte strings, all ways to cut them into segments, all header-size limits", "why_tests_cant": "there are exponentially many segmentations of each of infinitely many inputs; tests send a handful", "anchors": ["tremolo/lib/http_protocol.py: HTTPProtocol.data_received"]}
{"id": "C02", "title": "Header memory is bounded and an oversized head never reaches a handler", "statement": "For every history of received segments, as long as the connection is still collecting a head it buffers at most client_max_header_size bytes, and a request is only ever handed to a handler if its head (up to the blank line) is at most client_max_header_size bytes; otherwise the connection is aborted.", "quantifier": "all segment histories, all limits", "why_tests_cant": "the bound must hold after every prefix of every history", "anchors": ["tremolo/lib/http_protocol.py: HTTPProtocol.data_received"]}
{"id": "C03", "title": "Parsing a well-formed request head returns exactly its parts", "statement": "For every method, URL, version and list of header fields that are syntactically well formed, parsing 'METHOD SP URL SP HTTP/VERSION CRLF (Name: value CRLF)* CRLF body' yields is_request and is_valid_request, that method, URL, version, the header list in order with lower-cased names and unchanged values, and the body bytes.", "quantifier": "all methods, URLs, versions, header lists (within the line limits) and bodies", "why_tests_cant": "quantifies over all field contents and counts", "anchors": ["tremolo/lib/http_parser.py: ParseHeader.parse, getmethod, geturl, getversion, getheaders"]}
{"id": "C04", "title": "A request is only 'valid' if every line obeys the limits and the grammar", "statement": "If parsing marks a request valid, then there are at most max_lines lines, none longer than max_line_size and none containing a bare LF, the first line is METHOD SP URL SP HTTP/x, every other line has a colon not preceded by a space, and an HTTP/1.1 request carries a Host field. A request that is not valid never reaches a route handler (it is answered by the 400 handler).", "quantifier": "all byte strings, all limits", "why_tests_cant": "a universally quantified rejection property: all malformed inputs must be refused", "anchors": ["tremolo/lib/http_parser.py: ParseHeader.parse", "tremolo/http_server.py: HTTPServer.headers_received", "tremolo/asgi_server.py: ASGIServer.headers_received"]}
{"id": "C05", "title": "save() of a parsed head re-parses to the same head", "statement": "For every well-formed head, ParseHeader.save() after parse() produces bytes whose parse has the same start line, the same header list and the same body; remove() deletes exactly the named fields and append() adds fields at the end, and save() reflects this.", "quantifier": "all well-formed heads, bodies and edit sequences", "why_tests_cant": "round trip over an infinite input space", "anchors": ["tremolo/lib/http_parser.py: ParseHeader.save, remove, append, getheaders"]}
{"id": "C06", "title": "Header fields cannot forge the request line", "statement": "The method, URL and HTTP version that the application sees come from the request line only; no header field sent by the client can change them.", "quantifier": "all requests and header fields", "why_tests_cant": "security property over all header names", "anchors": ["tremolo/lib/http_parser.py: ParseHeader.parse", "tremolo/lib/http_request.py: HTTPRequest.__init__"]}
{"id": "C07", "title": "Ambiguous body framing is refused", "statement": "A request with a body is accepted for handling only if: a Content-Length field, when present, occurs once and is the canonical decimal representation of a number; Content-Length and chunked Transfer-Encoding are not both present; an HTTP/1.0 request has a Content-Length and no Transfer-Encoding. Every other body framing is refused with an error before any handler runs.", "quantifier": "all header sets and versions", "why_tests_cant": "request-smuggling defence must hold for every header combination", "anchors": ["tremolo/lib/http_protocol.py: HTTPProtocol._handle_request"]}
{"id": "C08", "title": "A Content-Length body is delivered exactly", "statement": "For a request with Content-Length n whose body bytes arrive in any segments totalling at least n bytes, the application's body stream yields pieces whose concatenation is exactly the first n bytes, and then ends.", "quantifier": "all n, all bodies, all segmentations, all buffer sizes", "why_tests_cant": "infinitely many segmentations and sizes", "anchors": ["tremolo/lib/http_request.py: HTTPRequest.stream", "tremolo/lib/request.py: Request.recv", "tremolo/lib/http_protocol.py: HTTPProtocol.put_to_queue"]}
{"id": "C09", "title": "A chunked body is decoded to its payload whatever the segmentation", "statement": "For every payload, every division of it into chunks (any hexadecimal size spelling, chunk extensions allowed) and every segmentation of the encoded bytes, the application's body stream yields exactly the payload.", "quantifier": "all payloads, chunkings and segmentations", "why_tests_cant": "the failing segmentations are the ones a test on localhost never produces", "anchors": ["tremolo/lib/http_request.py: HTTPRequest.stream (chunked branch)"]}
{"id": "C10", "title": "A truncated or malformed chunked body is never reported as complete", "statement": "If the connection reaches end of input before the zero-size chunk has been received, or a chunk-size line is not a hexadecimal number, the body stream raises BadRequest; it ends normally only after a zero-size chunk line. It never loops forever on a finite input.", "quantifier": "all byte strings and segmentations, including malformed ones", "why_tests_cant": "must hold for every malformed input", "anchors": ["tremolo/lib/http_request.py: HTTPRequest.stream (chunked branch)"]}
{"id": "C11", "title": "Sized reads partition the body", "statement": "For any segmentation of the body and any sequence of read(n)/recv(n) calls with n > 0, the returned pieces concatenated are a prefix of the body; each call returns exactly n bytes unless the body has ended, and eof() becomes true only when everything has been returned.", "quantifier": "all segmentations, all sequences of sizes", "why_tests_cant": "every interleaving of sizes and segments", "anchors": ["tremolo/lib/http_request.py: HTTPRequest.recv, read, eof"]}
{"id": "C12", "title": "body() returns the complete body, once and again", "statement": "await request.body() returns the concatenation of all pieces of the body stream; calling it again returns the same bytes and does not block.", "quantifier": "all bodies and segmentations", "why_tests_cant": "all inputs", "anchors": ["tremolo/lib/http_request.py: HTTPRequest.body"]}
{"id": "C13", "title": "Uploads are bounded by client_max_body_size", "statement": "If Content-Length exceeds client_max_body_size the application's body stream raises PayloadTooLarge before yielding a byte; for a body without Content-Length the server stops reading from the client as soon as the received body reaches client_max_body_size, and marks the connection for closing.", "quantifier": "all body sizes, segmentations and limits", "why_tests_cant": "bound over all histories", "anchors": ["tremolo/lib/http_request.py: HTTPRequest.stream", "tremolo/lib/http_protocol.py: HTTPProtocol.put_to_queue"]}
{"id": "C14", "title": "Transfer through the internal queues neither loses, reorders nor duplicates bytes", "statement": "Data handed to the upload or download queue in one call is cut into pieces of at most buffer_size bytes whose concatenation, in queue order, is the data; if the queue ever exceeds max_queue_size entries the connection is aborted.", "quantifier": "all data, buffer sizes and queue limits", "why_tests_cant": "all sizes incl. exact multiples of the buffer size", "anchors": ["tremolo/lib/http_protocol.py: HTTPProtocol.put_to_queue", "tremolo/lib/response.py: Response.send"]}
{"id": "C15", "title": "Requests on one connection are isolated", "statement": "On a keep-alive connection, the method/URL/headers/body that a handler sees depend only on the bytes of its own request: bytes of an earlier request's body are never delivered as the body of, or parsed as the head of, a later request.", "quantifier": "all sequences of requests on one connection and all handler behaviours (reading all, part or none of the body)", "why_tests_cant": "requires every history of handler behaviours", "anchors": ["tremolo/lib/http_protocol.py: HTTPProtocol._handle_keepalive, _handle_request, data_received"]}
{"id": "C16", "title": "Pipelined body-less requests are served in order and none is lost", "statement": "If a client sends any number of body-less requests back to back (in one or several segments), and handlers do not read the body, each of them is handled once, in order.", "quantifier": "all numbers of requests, all segmentations", "why_tests_cant": "unbounded pipelines", "anchors": ["tremolo/lib/http_protocol.py: HTTPProtocol._handle_request, _handle_keepalive"]}
{"id": "C17", "title": "Keep-alive is decided by the Connection header and the version", "statement": "A connection may be reused after a request iff the request has a Connection header whose comma-separated options do not include 'close' (any letter case, spaces ignored), or has no Connection header and is HTTP/1.1.", "quantifier": "all Connection header values and versions", "why_tests_cant": "all header values", "anchors": ["tremolo/lib/http_protocol.py: HTTPProtocol._handle_request"]}
{"id": "C18", "title": "100-continue is sent at most once and only for acceptable bodies", "statement": "For a request expecting 100-continue, the interim response is emitted before the first body byte is read, never if Content-Length exceeds client_max_body_size (417 instead), and not again for that request once it has been processed.", "quantifier": "all Content-Length values and limits, all sequences of body reads", "why_tests_cant": "history property", "anchors": ["tremolo/lib/http_response.py: HTTPResponse.send_continue", "tremolo/lib/http_request.py: HTTPRequest.stream", "tremolo/lib/http_protocol.py: HTTPProtocol._handle_keepalive"]}
{"id": "C19", "title": "At most one response head per request", "statement": "Whatever sequence of response API calls (set_status, set_header, write, end, close, ...) a handler, middleware or error path makes, at most one response head is emitted, it precedes all body bytes, and header mutation after it has been sent raises an error.", "quantifier": "all finite sequences of API calls", "why_tests_cant": "unbounded call histories", "anchors": ["tremolo/lib/http_response.py: HTTPResponse.write, end, headers, headers_sent"]}
{"id": "C20", "title": "Streaming (chunked) responses are correctly framed", "statement": "For every finite sequence of byte strings yielded by a handler of an HTTP/1.1 GET request, the bytes put on the wire after the head are a valid chunked encoding whose decoding is the concatenation of the yielded pieces, terminated by exactly one zero-size chunk; empty yields do not terminate the response early.", "quantifier": "all sequences of yielded pieces, all buffering options (stream=True/False, buffer_size)", "why_tests_cant": "all sequences and sizes", "anchors": ["tremolo/http_server.py: HTTPServer._handle_response", "tremolo/lib/http_response.py: HTTPResponse.write", "tremolo/lib/response.py: Response.send, close"]}
{"id": "C21", "title": "Content-Length of a complete response equals its body length", "statement": "Whenever the server itself emits a Content-Length for a handler or middleware that returns its data (response.end, or a returned body without chunked encoding), its value is the decimal length of the data, and the bytes after the head are exactly the data (or none for HEAD and no-content statuses).", "quantifier": "all data, statuses, versions, methods", "why_tests_cant": "all data lengths", "anchors": ["tremolo/lib/http_response.py: HTTPResponse.end", "tremolo/http_server.py: HTTPServer._handle_response"]}
{"id": "C22", "title": "HEAD, 1xx, 204, 205 and 304 responses carry no body", "statement": "For a HEAD request, or a response status of 1xx, 204, 205 or 304, no body byte reaches the client, whether the handler returns data, yields data, or calls write/end, and whatever it yields.", "quantifier": "all handlers' outputs, statuses", "why_tests_cant": "all sequences of outputs", "anchors": ["tremolo/http_server.py: HTTPServer._handle_response", "tremolo/lib/http_response.py: HTTPResponse.write, end"]}
{"id": "C23", "title": "Response splitting is impossible through the header API", "statement": "No value passed to set_header, set_status, set_content_type, set_cookie or append_header can add a line to the response head: a value containing LF is refused, and the emitted head has exactly one line per header set.", "quantifier": "all strings passed to the API", "why_tests_cant": "security property over all strings", "anchors": ["tremolo/lib/http_response.py: HTTPResponse.set_header, set_status, set_content_type, set_cookie, append_header", "tremolo/asgi_server.py: ASGIServer.send"]}
{"id": "C24", "title": "Output coalescing preserves the byte stream", "statement": "For any sequence of send() calls with any throttle/buffer_min_size settings followed by close, the bytes queued for the client before the close marker are the concatenation of the data in call order.", "quantifier": "all sequences of calls and settings", "why_tests_cant": "unbounded call sequences", "anchors": ["tremolo/lib/response.py: Response.send, close, send_nowait"]}
{"id": "C25", "title": "Range requests serve exactly the requested bytes", "statement": "For sendfile with a Range header: every range that is served satisfies 0 <= start <= end < file_size with size = end-start+1, Content-Range and Content-Length state it, and the bytes sent are file[start..end]; unsatisfiable ranges give 416 and malformed ones 400.", "quantifier": "all Range header values, file contents, buffer sizes", "why_tests_cant": "all header strings x all file sizes", "anchors": ["tremolo/lib/http_response.py: HTTPResponse.sendfile"]}
{"id": "C26", "title": "sendfile without a range sends the whole file", "statement": "For every file content and buffer size > 0 the body bytes emitted are exactly the file content, Content-Length equals its size, and a matching If-Modified-Since yields 304 with no body.", "quantifier": "all contents, all buffer sizes", "why_tests_cant": "all sizes incl. multiples of the buffer size", "anchors": ["tremolo/lib/http_response.py: HTTPResponse.sendfile"]}
{"id": "C27", "title": "The last status and content type set win", "statement": "For any sequence of set_status / set_content_type calls before the head is emitted, the emitted head carries the arguments of the last call of each (200 OK and text/html; charset=utf-8 if none).", "quantifier": "all call sequences", "why_tests_cant": "unbounded call sequences, before and after the start line is fixed", "anchors": ["tremolo/lib/http_response.py: HTTPResponse.set_status, get_status, set_content_type, get_content_type"]}
{"id": "C28", "title": "Every handler failure ends in one error response or a closed connection", "statement": "If a handler raises: an HTTPException gives its own status code, a TimeoutError gives 408, any other exception gives 500, always with Connection: close and the connection is closed after it; if the head was already sent the connection is aborted instead and no second head is emitted.", "quantifier": "all exceptions, all prior response states", "why_tests_cant": "all states in which the failure can happen", "anchors": ["tremolo/lib/http_protocol.py: HTTPProtocol.handle_exception", "tremolo/lib/http_exceptions.py"]}
{"id": "C29", "title": "The Connection header tells the truth", "statement": "If the final response head says 'Connection: close' the server closes the connection after that response, and if it says 'keep-alive' the server keeps it open for another request.", "quantifier": "all requests, handler kinds (return/yield), statuses, versions", "why_tests_cant": "combination of all response paths", "anchors": ["tremolo/http_server.py: HTTPServer._handle_response", "tremolo/lib/http_response.py: HTTPResponse.write, end", "tremolo/lib/http_protocol.py: HTTPProtocol._send_data"]}
{"id": "C30", "title": "WebSocket frames round-trip", "statement": "For every payload shorter than 2^64 bytes, every masking key, text or binary, and every segmentation of the frame bytes, WebSocket.recv() on the bytes produced by create_frame() returns the payload and consumes exactly the frame.", "quantifier": "all payloads, lengths across the 125/126/65535/65536 boundaries, masks and segmentations", "why_tests_cant": "infinite domain", "anchors": ["tremolo/lib/websocket.py: WebSocket.create_frame, recv"]}
{"id": "C31", "title": "WebSocket messages above ws_max_payload_size are refused", "statement": "A frame whose payload length exceeds ws_max_payload_size is refused with close code 1009 before its payload is read.", "quantifier": "all lengths and limits", "why_tests_cant": "all lengths and limits", "anchors": ["tremolo/lib/websocket.py: WebSocket.recv"]}
{"id": "C32", "title": "WebSocket control frames are handled per protocol", "statement": "A ping of fewer than 126 bytes is answered by a pong with the same payload and is not delivered as a message; a pong is not delivered; a close frame raises WebSocketClientClosed with the peer's code (1005 if none); any other opcode closes with 1008.", "quantifier": "all payloads, opcodes", "why_tests_cant": "all opcodes x payloads", "anchors": ["tremolo/lib/websocket.py: WebSocket.recv, receive, pong"]}
{"id": "C33", "title": "A message delivered by the WebSocket API was completely received", "statement": "receive() returns only messages that the peer sent completely: a connection that ends in the middle of a frame raises WebSocketClientClosed rather than returning a shortened message, and a fragmented message is not delivered as separate messages.", "quantifier": "all byte streams cut at any point", "why_tests_cant": "every crash point inside a frame", "anchors": ["tremolo/lib/websocket.py: WebSocket.recv"]}
{"id": "C34", "title": "Server-Sent Events are framed so that one send is one event", "statement": "For every data without CR and every event/id without CR or LF, the bytes written by SSE.send parse (per the event-stream grammar) to exactly one event with that data (outer newlines stripped), event name, id and retry; an event or id containing LF is refused.", "quantifier": "all data, names, ids, retry values", "why_tests_cant": "all strings", "anchors": ["tremolo/lib/sse.py: SSE.send"]}
{"id": "C35", "title": "Cookie values cannot break the Set-Cookie syntax", "statement": "For every value and path, set_cookie emits them percent-encoded using only unreserved characters (no ';', ',', space, CR, LF, quotes), the encoding decodes back to the value, and the resulting header line contains no LF.", "quantifier": "all strings", "why_tests_cant": "all strings", "anchors": ["tremolo/lib/http_response.py: HTTPResponse.set_cookie"]}
{"id": "C36", "title": "The keep-alive table is bounded and evicts the oldest", "statement": "For every history of insertions and deletions, the table of keep-alive connections never exceeds maxlen entries, an insertion evicts only the oldest entry and only when the table is full and the key is new, and a just-inserted key is always present.", "quantifier": "all histories, all maxlen >= 1", "why_tests_cant": "unbounded histories", "anchors": ["tremolo/lib/connections.py: KeepAliveConnections"]}
{"id": "C37", "title": "The connection queue is FIFO, loss-free and duplicate-free", "statement": "For every interleaving of put_nowait, get, get_nowait, waking and cancelling of getters, the items handed to consumers are, in order of hand-over, exactly a prefix of the items put, and no item is handed over twice; a getter that waits is only left waiting if there is no item for it.", "quantifier": "all schedules of any number of producers/consumers, including cancellations", "why_tests_cant": "schedules", "anchors": ["tremolo/lib/queue.py: Queue"]}
{"id": "C38", "title": "ServerLock gives mutual exclusion", "statement": "Two tasks or workers are never both inside 'async with lock(name)' for the same name.", "quantifier": "all schedules of any number of tasks, including acquire timeouts", "why_tests_cant": "schedules and timeouts", "anchors": ["tremolo/lib/locks.py: ServerLock"]}
{"id": "C39", "title": "A route registered for a literal path is found for every spelling of it", "statement": "After add_route(func, path) for a literal path, a request whose URL is any number (>=1) of slashes, the path, any number of trailing slashes and an optional query string is dispatched to a handler registered for that path's pattern, and a URL with a different path is not matched by it.", "quantifier": "all literal paths, slash counts and query strings", "why_tests_cant": "infinite URL space; the routing key computed at registration must agree with the key computed at dispatch", "anchors": ["tremolo/tremolo.py: Tremolo.add_route", "tremolo/http_server.py: HTTPServer.headers_received"]}
{"id": "C40", "title": "Dispatch is total and runs exactly one handler", "statement": "For every route table and request, exactly one of: the 400 handler (invalid request), the first registered matching handler for the request's key, the last registered matching regex handler, or the 404 handler, is run.", "quantifier": "all route tables and requests", "why_tests_cant": "all tables", "anchors": ["tremolo/http_server.py: HTTPServer.headers_received"]}
{"id": "C41", "title": "Routing does not depend on earlier requests", "statement": "The handler chosen for a URL depends only on the registered routes, not on which requests were served before or are being served concurrently.", "quantifier": "all request histories and interleavings", "why_tests_cant": "histories", "anchors": ["tremolo/http_server.py: HTTPServer.headers_received (promotion of regex routes)"]}
{"id": "C42", "title": "Middleware order and short-circuit", "statement": "Request middlewares run in registration order and response middlewares in reverse order; the first one that returns a body ends processing: no later middleware and no handler runs. A connect/close middleware returning a true value stops the later ones.", "quantifier": "all middleware lists and results", "why_tests_cant": "all lists", "anchors": ["tremolo/http_server.py: HTTPServer.headers_received, _handle_response, _handle_middleware, _connection_made, _connection_lost"]}
{"id": "C43", "title": "Handler options are resolved with fixed precedence", "statement": "The options a handler runs with are: options of the request middlewares override the route's own options, an earlier middleware overrides a later one, and rate/buffer_size default to the server's settings.", "quantifier": "all option dictionaries and middleware lists", "why_tests_cant": "all dictionaries", "anchors": ["tremolo/http_server.py: HTTPServer.headers_received, _handle_response"]}
{"id": "C44", "title": "404 pages and escaped output are HTML-safe", "statement": "html_escape of any byte string contains none of < > \" and every & starts one of the four entities; unescaping it returns the original. The 404 page contains the requested path only in escaped form.", "quantifier": "all byte strings", "why_tests_cant": "all byte strings", "anchors": ["tremolo/utils.py: html_escape", "tremolo/handlers.py: error_404"]}
{"id": "C45", "title": "An ASGI application receives exactly the request body", "statement": "The concatenation of the 'body' fields of the http.request messages up to and including the first one with more_body false equals the request body, and no http.disconnect is delivered before that while the client stays connected.", "quantifier": "all bodies, framings (none, Content-Length, chunked) and segmentations", "why_tests_cant": "all segmentations", "anchors": ["tremolo/asgi_server.py: ASGIServer.receive", "tremolo/lib/http_request.py: HTTPRequest.stream"]}
{"id": "C46", "title": "An ASGI application cannot override server-managed headers or split the response", "statement": "For every header list in http.response.start, the emitted head has exactly one Date, one Server and at most one Transfer-Encoding line, all chosen by the server; a header name or value containing LF leads to an error response and none of the application's header is emitted.", "quantifier": "all header lists", "why_tests_cant": "all header lists", "anchors": ["tremolo/asgi_server.py: ASGIServer.send"]}
{"id": "C47", "title": "ASGI lifespan outcome decides worker start-up", "statement": "Worker start-up fails iff the application reports lifespan.startup.failed; an application that raises, does not support lifespan, or times out is tolerated, and startup.complete lets it proceed.", "quantifier": "all sequences of lifespan events of the application", "why_tests_cant": "all event sequences", "anchors": ["tremolo/asgi_lifespan.py: ASGILifespan", "tremolo/tremolo.py: Tremolo._serve"]}
{"id": "C48", "title": "The client address reported is the first forwarded address, else the peer", "statement": "request.ip is the part of the first X-Forwarded-For field (surrounding whitespace removed) before its first comma, or the peer address if that field is missing or blank.", "quantifier": "all header values and peers", "why_tests_cant": "all strings", "anchors": ["tremolo/lib/http_request.py: HTTPRequest.ip"]}
{"id": "C49", "title": "Throughput throttling respects the configured rate", "statement": "The total delay inserted while queueing n bytes is at least n/rate seconds, for every n, buffer size and queue state.", "quantifier": "all data sizes, rates, buffer sizes, queue lengths", "why_tests_cant": "all sizes", "anchors": ["tremolo/lib/http_protocol.py: HTTPProtocol.put_to_queue"]}
{"id": "C50", "title": "Connections never see each other's data", "statement": "Data written in response to a request on one connection is only ever written to that connection's transport, for every sequence of connects, disconnects and descriptor reuse in a worker.", "quantifier": "all histories of connections and descriptor reuse, with and without close middlewares", "why_tests_cant": "needs every interleaving of disconnect, cleanup and reuse", "anchors": ["tremolo/lib/http_protocol.py: HTTPProtocol.connection_made, connection_lost", "tremolo/http_server.py: HTTPServer.connection_lost, _connection_lost"]}
{"id": "C51", "title": "One request at a time per connection", "statement": "While a request is being handled on a connection, no further head is parsed and no second handler is started on it; a new head is only looked for after the response has been completed with keep-alive.", "quantifier": "all event interleavings on a connection", "why_tests_cant": "schedules", "anchors": ["tremolo/lib/http_protocol.py: HTTPProtocol.data_received, _handle_keepalive, _send_data"]}
{"id": "C52", "title": "Nothing is written after the connection is closed", "statement": "After the close marker of a non-keep-alive response has been processed, no further byte is written to the transport, and everything queued before it has been written in order.", "quantifier": "all queue contents and schedules", "why_tests_cant": "schedules", "anchors": ["tremolo/lib/http_protocol.py: HTTPProtocol._send_data, close"]}
{"id": "C53", "title": "Multipart uploads are split into their parts whatever the segmentation", "statement": "For every list of parts whose contents do not contain the delimiter, and every segmentation of the multipart body, files() yields each part's content unchanged and in order, at most 'limit' of them; a body that ends before the closing delimiter raises BadRequest.", "quantifier": "all parts, boundaries and segmentations", "why_tests_cant": "all segmentations", "anchors": ["tremolo/lib/http_request.py: HTTPRequest.files"]}
{"id": "C54", "title": "Form parsing enforces its limit", "statement": "request.form() raises ValueError as soon as the received body exceeds limit, parses nothing larger than limit, and returns the same result when called again.", "quantifier": "all bodies, limits, segmentations", "why_tests_cant": "all bodies", "anchors": ["tremolo/lib/http_request.py: HTTPRequest.form"]}
{"id": "C55", "title": "Listening addresses are unique", "statement": "For every sequence of listen() calls, each (host, port) is registered at most once with the options of its first registration, and listen returns False exactly for repeats.", "quantifier": "all call sequences", "why_tests_cant": "histories", "anchors": ["tremolo/tremolo.py: Tremolo.listen"]}
{"id": "C56", "title": "Registration of error and route handlers", "statement": "error(code) replaces exactly the handler of that code and keeps the others (unknown codes change nothing); registering '/' replaces the index handler; registering any other route never removes a previously registered route.", "quantifier": "all sequences of registrations", "why_tests_cant": "histories", "anchors": ["tremolo/tremolo.py: Tremolo.error, add_route, route"]}
{"id": "C57", "title": "Worker hooks run in order", "statement": "worker_start hooks run in registration order and worker_stop hooks in reverse order, each stopping at the first that returns a true value.", "quantifier": "all hook lists and results", "why_tests_cant": "all lists", "anchors": ["tremolo/tremolo.py: Tremolo._serve, _worker_stop"]}
{"id": "C58", "title": "Command-line options are recognised regardless of position", "statement": "Every recognised option on the command line sets its key to the value that follows it (numeric ones to its integer value), the last occurrence wins, and an unknown option or a non-numeric value terminates with an error.", "quantifier": "all argument vectors", "why_tests_cant": "all vectors", "anchors": ["tremolo/utils.py: parse_args", "tremolo/__main__.py"]}
{"id": "C59", "title": "--bind listens on exactly the addresses it lists", "statement": "For every list of host:port, [IPv6]:port, :port and UNIX socket paths, --bind with their comma-joined texts registers exactly these addresses, each once, after those already registered, and unsets the host option. A list with an element that has a colon but no port number behind it is refused as a whole.", "quantifier": "all address lists", "why_tests_cant": "infinite input space", "anchors": ["tremolo/__main__.py: bind", "tremolo/tremolo.py: Tremolo.listen"]}
{"id": "C60", "title": "A request expecting 100-continue gets its final response", "statement": "After the interim response, the response produced by the handler is delivered to the client before the connection is closed.", "quantifier": "all handlers, all interleavings of handler and send task, both Connection values", "why_tests_cant": "the interim response and the final one travel through the same queue with the same end marker", "anchors": ["tremolo/lib/http_response.py: HTTPResponse.send_continue", "tremolo/lib/http_protocol.py: HTTPProtocol._send_data, _handle_keepalive"]}
{"id": "C61", "title": "After a request expecting 100-continue a kept connection accepts the next one", "statement": "When the final response of a keep-alive request expecting 100-continue has been sent, the connection is made ready for the next request, whether or not the handler read the body.", "quantifier": "all handlers, all interleavings of handler and send task", "why_tests_cant": "history property", "anchors": ["tremolo/lib/http_protocol.py: HTTPProtocol._handle_keepalive"]}
{"id": "C62", "title": "Chunked parsing buffers a bounded amount", "statement": "While a chunked body is parsed, the bytes held in the line/chunk buffer never exceed four times the buffer size plus one received piece; a chunk-size line that does not end within four times the buffer size is refused.", "quantifier": "all byte streams, all segmentations, all buffer sizes", "why_tests_cant": "unbounded input", "anchors": ["tremolo/lib/http_request.py: HTTPRequest.stream"]}
{"id": "C63", "title": "The request object reflects the head", "statement": "method (upper case), url, path, query string, version, host (X-Forwarded-Host first) and content type of the request object are those of the head that was parsed.", "quantifier": "all parsed heads", "why_tests_cant": "unbounded inputs", "anchors": ["tremolo/lib/http_request.py: HTTPRequest.__init__", "tremolo/lib/http_protocol.py: HTTPProtocol._handle_request"]}
{"id": "C64", "title": "sendfile serves the file it was asked for", "statement": "On a connection with several sendfile calls, each response carries the content of the file whose path was passed to that call.", "quantifier": "all sequences of sendfile calls on a connection", "why_tests_cant": "history property", "anchors": ["tremolo/lib/http_response.py: HTTPResponse.sendfile"]}
{"id": "C65", "title": "An ASGI response has the status and headers that the application gave", "statement": "The head sent for http.response.start has its status with the standard phrase, and for every header name that the server does not manage exactly the application's lines with that name, in order; the content type is the last one given, or the default.", "quantifier": "all statuses, header lists, later messages", "why_tests_cant": "all header lists", "anchors": ["tremolo/asgi_server.py: ASGIServer.send"]}
{"id": "C66", "title": "ASGI body data is delivered exactly, with its framing", "statement": "For every sequence of http.response.body messages up to the last one, the bytes behind the head are the concatenation of their bodies, as a well-formed chunked body if the head says so and raw otherwise; a response that may not have a body has none, and nothing follows the end of the response on the connection.", "quantifier": "all sequences of body messages, all requests", "why_tests_cant": "unbounded message sequences", "anchors": ["tremolo/asgi_server.py: ASGIServer.send", "tremolo/lib/http_response.py: HTTPResponse.write"]}
{"id": "C67", "title": "When an ASGI application ends, its response ends", "statement": "When the application's coroutine has ended, by returning or by an exception, an end marker has been queued or the connection has been aborted.", "quantifier": "all message sequences and ways to end", "why_tests_cant": "unbounded message sequences", "anchors": ["tremolo/asgi_server.py: ASGIServer.headers_received"]}
{"id": "C68", "title": "A handler is cancelled by the timeout only when it has run too long", "statement": "The handler timeout cancels a handler only if that handler has been running for at least app_handler_timeout.", "quantifier": "all schedules of requests, handler ends and timers on a connection", "why_tests_cant": "interleavings over time", "anchors": ["tremolo/lib/http_protocol.py: HTTPProtocol.handler_timeout", "tremolo/lib/http_protocol.py: HTTPProtocol._handle_request"]}
{"id": "C69", "title": "receive returns http.disconnect once the client is gone", "statement": "Every call of receive that is waiting when the client disconnects, and every later call, returns an http.disconnect message.", "quantifier": "all histories of calls, the end of the response and the disconnect", "why_tests_cant": "interleavings", "anchors": ["tremolo/asgi_server.py: ASGIServer.receive", "tremolo/asgi_server.py: ASGIServer.connection_lost"]}
{"id": "C70", "title": "An ASGI websocket is accepted by one correct 101 head", "statement": "For every ASGI websocket.accept with any subprotocol and headers without LF, on a connection that is to be kept: exactly one head is sent, 101 Switching Protocols, with one Upgrade, one Connection: upgrade, one Sec-WebSocket-Accept, one Date, one Server and no Transfer-Encoding line, the chosen subprotocol, and the application's other headers in order; afterwards the connection is upgraded.", "quantifier": "for all header lists, subprotocols and keys, and any number of earlier receive calls", "why_tests_cant": "The headers are chosen by the application and interact with the server's own; tests try a few.", "anchors": ["tremolo/asgi_server.py:174-260", "tremolo/lib/websocket.py:25-35", "tremolo/lib/http_response.py"]}
{"id": "C71", "title": "ASGI websocket.receive gives the client's messages, in order, exactly once", "statement": "For every sequence of frames of the client, every segmentation of their bytes and every interleaving with messages sent by the application, the events of receive are exactly the client's messages in order, followed by one disconnect with the code of its close frame, or 1005 if there is none.", "quantifier": "for all frame sequences, segmentations and interleavings of send and receive", "why_tests_cant": "Segmentations and interleavings are unbounded.", "anchors": ["tremolo/asgi_server.py:111-146", "tremolo/lib/websocket.py:37-128"]}
{"id": "C72", "title": "ASGI websocket.send sends exactly one frame for each message, in order", "statement": "For every interleaving of send and receive in an open session, what is queued for the client is exactly one unmasked final frame for each message sent, with its kind and payload, in order, and answers to pings.", "quantifier": "for all message sequences, payload lengths and interleavings", "why_tests_cant": "The length forms of frames and the interleavings with pings are unbounded.", "anchors": ["tremolo/asgi_server.py:251-255", "tremolo/lib/websocket.py:130-185"]}
{"id": "C73", "title": "An ASGI websocket session is closed once, with the right code", "statement": "However a session ends (websocket.close with any code, an exception of the application before or after the acceptance, a close frame or a protocol violation of the client), the client gets exactly one close frame with the right code, or an HTTP error before the acceptance, and nothing after it; the application gets websocket.disconnect.", "quantifier": "for all codes, exceptions, frames and later operations", "why_tests_cant": "Ends of sessions are many and rarely tested.", "anchors": ["tremolo/asgi_server.py:80-90", "tremolo/asgi_server.py:256-266", "tremolo/lib/websocket.py:82-106", "tremolo/lib/websocket.py:187-190"]}
{"id": "C74", "title": "Fields of query strings and forms are decoded exactly", "statement": "For every list of names and values and every way of writing them as application/x-www-form-urlencoded (escapes of either case, + for space), request.query and request.form give for each name exactly its values in order.", "quantifier": "for all texts, all ways to write them, all numbers of items", "why_tests_cant": "The ways to write a text are unbounded; tests try a few.", "anchors": ["tremolo/lib/http_request.py:263-275", "tremolo/lib/http_request.py:315-319"]}
{"id": "C75", "title": "Cookies come back as they were set", "statement": "For every list of cookies in one or several Cookie headers, request.cookies gives for each name exactly its values in order; a value set with set_cookie and sent back by a client is the text it was set to.", "quantifier": "for all names, values, attributes of Set-Cookie and numbers of headers", "why_tests_cant": "Values are chosen by users and often contain separators; tests try a few.", "anchors": ["tremolo/lib/http_request.py:277-299", "tremolo/lib/http_response.py:82-111"]}
{"id": "C76", "title": "Names and file names of multipart parts are read as they were written", "statement": "For every list of parameters written into Content-Disposition as browsers do, each is read as it was.", "quantifier": "for all parameter lists and all names and values", "why_tests_cant": "File names are chosen by users; tests try a few.", "anchors": ["tremolo/lib/http_request.py:384-388"]}
{"id": "C77", "title": "ASGI applications get the scope of the request that was sent", "statement": "For every accepted request that does not ask for a WebSocket, the http scope given to an ASGI application has the request's method in upper case, its HTTP version, raw path and query string, the percent-decoded path as UTF-8 text, the header fields in order with lower-cased names, the scheme of the connection and its two addresses.", "quantifier": "for all heads, connections and options", "why_tests_cant": "All inputs; the fields interact (a repeated field, a forwarded scheme).", "anchors": ["tremolo/asgi_server.py:48-78", "tremolo/lib/http_request.py:71-125"]}
{"id": "C78", "title": "The websocket scope is given for handshakes only, with the offered subprotocols", "statement": "The scope has the type websocket if and only if the request is a WebSocket handshake (and WebSockets are enabled), and then has the scheme ws or wss and all subprotocols that the client offers in order.", "quantifier": "for all heads, with any number of subprotocols and fields", "why_tests_cant": "All inputs.", "anchors": ["tremolo/asgi_server.py:38-46", "tremolo/asgi_server.py:71-76", "tremolo/lib/http_parser.py:8-19"]}
{"id": "C79", "title": "The idle timers abort only connections that waited their full time for a head", "statement": "A connection is aborted by the timers for a head only when the present wait has lasted request_timeout (first head) or keepalive_timeout (later ones), the head of the awaited request has not been handled, and no handler is running.", "quantifier": "for all schedules of segments, tasks, timers and the clock", "why_tests_cant": "Depends on when futures are cancelled relative to other tasks; timing tests cover few schedules.", "anchors": ["tremolo/lib/http_protocol.py:91-98", "tremolo/lib/http_protocol.py:126-139", "tremolo/lib/http_protocol.py:335-346", "tremolo/lib/http_protocol.py:488-498"]}
{"id": "C80", "title": "A connection that waits too long for a head is closed", "statement": "Unless it is being closed, a connection has a running handler, or an unsent end of a response, or a running timer whose deadline is fixed when the wait begins: data that trickles in does not postpone it.", "quantifier": "for all schedules of segments, tasks, timers and the clock", "why_tests_cant": "A liveness property over unbounded waiting.", "anchors": ["tremolo/lib/http_protocol.py:91-98", "tremolo/lib/http_protocol.py:126-139", "tremolo/lib/http_protocol.py:466-504"]}
{"id": "C81", "title": "A WebSocket session gets the bytes behind its handshake in order, and does not stall", "statement": "After the server has sent 101 for a handshake, the connection stays open; every byte that the client sends behind the head of the handshake reaches the handler once and in order, whatever the segmentation; and reading is never paused for ever. The same order holds for requests with interim responses (100-continue).", "quantifier": "for all schedules of segments, tasks and handlers", "why_tests_cant": "Interleavings of the tasks that queue segments, the send task and the handler.", "anchors": ["tremolo/lib/http_protocol.py:141-180", "tremolo/lib/http_protocol.py:356-404", "tremolo/lib/http_protocol.py:420-436", "tremolo/lib/http_protocol.py:466-504"]}
{"id": "C82", "title": "What is sent to a slow client stays in order, and its buffer bounded", "statement": "The items of the send queue reach the socket in order, none twice and none left out, unless the connection is aborted; the transport's buffer never holds more than the high watermark and one item; the buffer is thrown away only by an abort, a lost connection, or a wait that timed out.", "quantifier": "for all schedules of queue, task, socket, watermarks and timer, with and without TLS", "why_tests_cant": "Needs clients that read slowly in every possible pattern.", "anchors": ["tremolo/lib/http_protocol.py:408-464"]}
{"id": "C83", "title": "A writer that waits for a slow client goes on when the client has read, and gives up only after the timeout", "statement": "If more than the high watermark is unsent, the send task waits. It goes on once the client has read down to the low watermark, and writes the item it holds; the connection is aborted only if that took keepalive_timeout, and is aborted then.", "quantifier": "for all schedules of queue, task, socket, watermarks and timer, with and without TLS", "why_tests_cant": "Lost wakeups depend on the interplay with the limits of the transport.", "anchors": ["tremolo/lib/http_protocol.py:126-139", "tremolo/lib/http_protocol.py:408-464"]}
{"id": "C84", "title": "The parent keeps the workers running, and an interrupt ends them all", "statement": "A worker is told to stop only after SIGTERM or Ctrl-C, and otherwise serves until something ends it; one that has ended is replaced when the parent next comes to it; after an interrupt the parent tells every worker in turn to stop, and all of them end.", "quantifier": "for all numbers of workers and all interleavings of the steps of the parent and of the workers", "why_tests_cant": "Workers that end at the wrong moment are too rare to meet in a test.", "anchors": ["tremolo/tremolo.py:227-228", "tremolo/tremolo.py:385-454", "tremolo/tremolo.py:700-804"]}
{"id": "C85", "title": "Heartbeats are answered one for one, and do not hold up a worker", "statement": "Every ping of a worker is answered once, with the number of workers, and there is at most one ping without an answer; the event loop of a worker does not stand still in recv() waiting for an answer.", "quantifier": "for all numbers of workers and all interleavings of the steps of the parent and of the workers", "why_tests_cant": "The wait depends on where the parent is in its round.", "anchors": ["tremolo/tremolo.py:385-450", "tremolo/tremolo.py:726-794"]}
{"id": "C86", "title": "A native WebSocket handler gets every message once and in order, and the client gets its frames", "statement": "In an open session the reads of the handler give exactly the client's messages, in order and each once; exactly the handler's frames and one pong for each ping go out, in order; the first read of async for sends the handshake.", "quantifier": "for all handlers (as functions of what their calls have given), all frames of the client and all segmentations of its bytes", "why_tests_cant": "A handler can interleave reads and writes in any way, and the segmentation is up to the network.", "anchors": ["tremolo/lib/websocket.py:16-128", "tremolo/lib/websocket.py:130-190", "tremolo/http_server.py:85-122"]}
{"id": "C87", "title": "A WebSocket session ends with a close frame that says why", "statement": "However a session ends (silence, a violation, the client's close, the end or failure of the handler), the client gets one close frame with the code that RFC 6455 has for it.", "quantifier": "for all sessions and all ends of the client's stream", "why_tests_cant": "Each end is a rare event; tests look at one or two.", "anchors": ["tremolo/lib/websocket.py:37-128", "tremolo/lib/websocket.py:187-190", "tremolo/lib/http_protocol.py:204-265", "tremolo/http_server.py:117-122"]}
{"id": "C88", "title": "An idle WebSocket client is pinged, and dropped only after keepalive_timeout without any data", "statement": "A session expires only when no byte has come for the whole keepalive_timeout and a ping in the middle of it stayed unanswered; no wait is longer; pings are at least half the time apart.", "quantifier": "for all executions: all arrivals, all calls of the handler, all moments of eviction", "why_tests_cant": "Needs a clock and every interleaving of two timers with the arrival of data.", "anchors": ["tremolo/lib/websocket.py:108-128", "tremolo/lib/websocket.py:175-185", "tremolo/lib/request.py:30-52", "tremolo/lib/http_protocol.py:466-477"]}
{"id": "C89", "title": "A client can tell where each response ends", "statement": "A client that reads responses as RFC 9112 says finds the status, the fields and the body of what the handler, the middleware or the error handler answered, and its reading stops exactly where the response stops, whatever follows on a kept connection.", "quantifier": "for all handlers and middlewares of the model, all statuses, all data, all bytes that follow", "why_tests_cant": "One wrong length shifts every later response of the connection; it shows only with kept connections and unusual statuses.", "anchors": ["tremolo/lib/http_response.py:62-157", "tremolo/lib/http_response.py:200-330", "tremolo/http_server.py:146-260"]}
{"id": "C90", "title": "A client that sends several requests on one connection reads the answers in the order of its requests", "statement": "The i-th handler started on a connection gets the i-th request (method, URL, body); the responses are written one behind the other, each complete before the next begins; a client that reads as RFC 9112 says gets the i-th handler's response as the answer to its i-th request.", "quantifier": "for all executions of the connection: all segmentations, all interleavings of the tasks, all requests, all delimited responses", "why_tests_cant": "The order depends on five queues and tasks; pipelined requests in odd segments are not what test clients send.", "anchors": ["tremolo/lib/http_protocol.py:166-203", "tremolo/lib/http_protocol.py:267-334", "tremolo/lib/http_protocol.py:420-505", "tremolo/lib/http_response.py:200-330"]}
{"id": "C91", "title": "A change of the code reloads the worker", "statement": "With the option reload, the worker ends for a reload exactly when the file of a loaded module of the application changes.", "quantifier": "for all contents of sys.modules and of the file system at each second, all sys.path", "why_tests_cant": "Which files are watched depends on the modules loaded in the first second and on files that come and go between two looks.", "anchors": ["tremolo/tremolo.py:382-437", "tremolo/utils.py:16-19"]}
{"id": "C92", "title": "A worker starts up and shuts down in order", "statement": "The start hooks are called in order before the server is created; whatever ends the worker, the server is closed first, then each stop hook is called once, in reverse order; then the process ends.", "quantifier": "for all numbers and results of hooks, all ways to end, Ctrl-C at any time", "why_tests_cant": "Shutdown paths cross (reload, memory, broken pipe, Ctrl-C, exceptions in hooks); tests exercise one of them.", "anchors": ["tremolo/tremolo.py:227-454", "tremolo/tremolo.py:456-522"]}
{"id": "C93", "title": "A connection serves all its requests in every schedule", "statement": "A client that sends any number of HTTP/1.1 requests over one connection, none sharing a segment with another, to handlers that read the bodies of their requests, has each request handled once, in order, by a handler that reads exactly its body, reads the answers in that order, and is never left waiting by tasks of the server that wait for each other.", "quantifier": "for all requests and bodies, all segmentations of each, all interleavings of the tasks of a connection", "why_tests_cant": "Whether the keep-alive reset, the pausing of the transport and the chained receive tasks fit together depends on the interleaving of four kinds of tasks over many requests; a test runs one.", "anchors": ["tremolo/lib/http_protocol.py:146-180", "tremolo/lib/http_protocol.py:267-404", "tremolo/lib/http_protocol.py:415-504"]}
{"id": "C94", "title": "A handler is given the WebSocket and SSE objects of its own request", "statement": "The websocket and sse arguments that a middleware, handler or close hook is given belong to the request that it is called for, and are there only for a request that asks for them on a route that offers them.", "quantifier": "for all requests on a connection, all interleavings of the tasks of the connection", "why_tests_cant": "The arguments live in a dictionary of the connection that is never cleaned; a test that uses one connection per request never sees what is left over.", "anchors": ["tremolo/http_server.py:17-23", "tremolo/http_server.py:59-122"]}
{"id": "C95", "title": "The hooks of a connection run around its requests, and it is cleaned up once", "statement": "Connect hooks run once in order before any request of the connection is handled, up to the first that returns a true value, and no request is handled if one fails; close hooks run in reverse order when the connection is lost; then the connection is cleaned up, once, at the latest after the close timeout, and nothing is called for it afterwards.", "quantifier": "for all numbers and outcomes of hooks and middlewares, all requests, all times at which the connection is lost", "why_tests_cant": "The hooks run in tasks of their own; what is called before what depends on when the client disconnects.", "anchors": ["tremolo/http_server.py:25-57", "tremolo/http_server.py:262-275"]}
{"id": "C96", "title": "When a connection is lost, what it has started is stopped", "statement": "Every task created for a connection that is not done is cancelled, and every callable put into context.tasks is called, exactly once when the connection is lost.", "quantifier": "for all histories of tasks and callables, all orders of the set", "why_tests_cant": "The order in which a set is emptied is arbitrary, and tasks end at any time.", "anchors": ["tremolo/lib/http_protocol.py:52-71", "tremolo/lib/http_protocol.py:506-537"]}
{"id": "C97", "title": "What a connection holds of what its client sends is bounded", "statement": "While a connection is open, the items of its receive queue that carry bytes never exceed max_queue_size, and at most one received segment at a time waits to be queued, since reading is paused until it is; so the bytes held are bounded by the settings and the size of a segment, however fast the client sends and however slow the handler reads.", "quantifier": "for all segments, settings, handlers and interleavings of the tasks of a connection", "why_tests_cant": "The bound concerns all schedules of readers and writers; a test has one, and a client that does not send faster than its handler reads.", "anchors": ["tremolo/lib/http_protocol.py:139-180", "tremolo/lib/http_protocol.py:366-404", "tremolo/lib/http_protocol.py:466-504"]}
{"id": "C98", "title": "What a client reads of an exception", "statement": "An exception that a handler raises before the head was sent is answered with the status and reason that belong to it and a page that a client decoding it by the declared charset reads as the text of the exception; exceptions that are not HTTPExceptions give away nothing of their text unless the debug option is on, and then traceback lines add no markup to the page.", "quantifier": "for all exceptions, texts, content types, error handlers and response states", "why_tests_cant": "The texts come from applications and from other libraries; a test raises a few classes without arguments and compares the status.", "anchors": ["tremolo/lib/http_protocol.py:198-265", "tremolo/lib/http_exceptions.py:4-107", "tremolo/lib/http_response.py:125-158", "tremolo/handlers.py:39-47"]}
{"id": "C99", "title": "Every worker is reached at its address", "statement": "Every worker that listens can be reached by clients at the address of the server, and this stays so while other workers start, end and are restarted; creating the socket again never ends the parent.", "quantifier": "for all numbers of workers, kinds of address, things at the path and interleavings of the system calls of parent and workers", "why_tests_cant": "What is reached depends on the order of bind, stat, unlink and listen of several processes; a test starts one worker once.", "anchors": ["tremolo/tremolo.py:227-238", "tremolo/tremolo.py:524-581", "tremolo/tremolo.py:700", "tremolo/tremolo.py:754-759"]}
{"id": "C100", "title": "A download gives the client exactly the bytes of the file", "statement": "From the bytes of a request, whole or with Range, If-Range, If-Modified-Since headers in any order and number, a client reads exactly the file, or exactly the pieces it asked for with their true positions, and can resume a download with the date it read before.", "quantifier": "for all legal request heads, files, buffer sizes, lists of up to 101 ranges within the file and, refused, of any greater length, boundaries that do not occur in the pieces and calls of the handler before sendfile", "why_tests_cant": "Range arithmetic, multipart framing, chunking and the header dictionary have to agree for every file and list of ranges; a test checks a few ranges of one small file.", "anchors": ["tremolo/lib/http_response.py:293-486", "tremolo/lib/http_parser.py:36-131"]}
{"id": "C101", "title": "Each worker runs with the options that were given for its address", "statement": "Every option has, in each worker, the value given to listen for its address, else the value given to run or on the command line (the last occurrence), else the documented default; workers are started for every address that was given and for no other.", "quantifier": "for all lists of addresses with options, all arguments of run, all well-formed command lines with any order and repetition of options and any --bind list, any number of CPUs", "why_tests_cant": "Four stages hand the options on (argument parser, listen, run, _serve), each with its own names and defaults; tests start a server with one set of options.", "anchors": ["tremolo/tremolo.py:71-81", "tremolo/tremolo.py:227-364", "tremolo/tremolo.py:480-484", "tremolo/tremolo.py:595-712", "tremolo/__main__.py:11-99"]}
{"id": "C102", "title": "The application that is served is the one that was named", "statement": "A text dir/module.py:attr, dir/module:attr or without attribute, and an object given to run, make the workers import the file that the text denotes from the working directory and serve that attribute of it, or fail.", "quantifier": "for all working directories, all paths (relative, with dots, doubled slashes), names, attributes and sets of modules present", "why_tests_cant": "Path normalisation, splitting at colons and dots, and the import rules interact; tests use one path.", "anchors": ["tremolo/tremolo.py:281-299", "tremolo/tremolo.py:611-625"]}
{"id": "C103", "title": "After a reload the workers are given the routes, error handlers, middlewares and hooks of the changed program", "statement": "When a worker has ended for a reload, the parent runs the modules of the application again and starts the new worker with exactly the routes, error handlers, middlewares and worker hooks that the text of the main module now defines, in order, each with a function that the worker finds in the files; again and again, for any changes of the files.", "quantifier": "for all texts of the main module and of the modules it takes functions from, all sequences of changes of these files and all modules loaded besides", "why_tests_cant": "The result depends on the order of sys.modules, on what remains of older versions in the namespaces and on the identity of functions at pickling; it shows only over several reloads with particular module graphs.", "anchors": ["tremolo/tremolo.py:82-146", "tremolo/tremolo.py:583-593", "tremolo/tremolo.py:632-639", "tremolo/tremolo.py:728-773"]}
{"id": "C104", "title": "A client that stops sending its body is answered 408 after keepalive_timeout, and only then", "statement": "While a handler reads the body, a read ends with TimeoutError only if no data came for keepalive_timeout; it then does end, and a handler that does not catch the exception has 408 sent and the connection closed. Data that comes in time is delivered, in order and completely; a timeout loses nothing, and a handler that reads again after it waits again and goes on where it was.", "quantifier": "for every keepalive_timeout, every schedule of items put into the queue, of the tasks and timers, of cancellations and of the loss of the connection, and every sequence of reads", "why_tests_cant": "The timer, the task of queue.get and the handler are three parties whose steps may interleave in any order around the deadline; a test sees the common order only, with real waiting times.", "anchors": ["tremolo/lib/request.py:30-52", "tremolo/lib/queue.py:17-36", "tremolo/lib/http_request.py:136-167", "tremolo/lib/http_protocol.py:188-196", "tremolo/lib/http_protocol.py:228-229"]}
{"id": "C105", "title": "A client reads exactly what a handler writes itself", "statement": "When a handler sends its response with response.write, and ends it with response.end or response.close or by returning None, a client reads one response with the status and header lines asked for and with all the bytes written, in order, as its body.", "quantifier": "for every sequence of writes (data, chunked, rate and buffer options), every way to end, every status and header calls before, every request middleware that passes and every response middleware", "why_tests_cant": "What the client reads depends on the framing of every write together with the way the handler ends; tests try a few combinations and read the bytes with a lenient client.", "anchors": ["tremolo/lib/http_response.py:169-222", "tremolo/lib/http_response.py:224-304", "tremolo/http_server.py:115-136"]}
{"id": "C106", "title": "A client reads exactly what an ASGI application sends", "statement": "When an ASGI application sends a response start and its body messages, a client reads one response with the status given, the application's header lines and, as its body, the bytes of the body messages in order; so for each of the requests of a kept connection. A client never takes a chunked response that an exception cut short for a complete one.", "quantifier": "for every status with a phrase, every list of header pairs without LF and with ordinary names, every list of body messages, every request method and version, and every sequence of responses on one connection", "why_tests_cant": "The framing is chosen from the version, the application's own Content-Length, the server's flag that turns chunks off and the status together; tests look at single responses, and at the bytes rather than what a client makes of them.", "anchors": ["tremolo/asgi_server.py:174-250", "tremolo/lib/http_response.py:181-304", "tremolo/lib/http_protocol.py:229-261"]}
{"id": "C107", "title": "A client that waits for 100 Continue has every request handled and answered", "statement": "A client sends requests one after the other over a kept connection; some ask for 100 Continue, and their bodies are sent only after that response. Then in every schedule of the server's tasks the connection stays open, the i-th handler is that of the i-th request and reads exactly its body, the client reads the i-th answer for the i-th request (skipping interim responses), and when no task can go on the connection reads or a handler is at work, which can still send 100 Continue if the client waits for it.", "quantifier": "for every list of requests with and without Expect: 100-continue, every way of cutting them into segments, every schedule of the parsing, receiving, sending and handler tasks", "why_tests_cant": "The response 100 Continue ends with the same marker as a final response; whether the connection is reset, keeps the body and reads again depends on the order in which the marker, the body and the handler's end come.", "anchors": ["tremolo/lib/http_protocol.py:300-405", "tremolo/lib/http_protocol.py:420-504", "tremolo/lib/http_request.py:169-175", "tremolo/lib/http_response.py:169-188"]}
{"id": "C108", "title": "Dates in responses are the IMF-fixdates of their instants", "statement": "For every instant from the year 1000 to 9999 the text of Date, Last-Modified and a cookie's expires is the IMF-fixdate (RFC 9110, 5.6.7) of that instant in UTC, with the right day of the week; a text denotes one instant only. So two modification times have the same date exactly if they lie in the same second, If-Modified-Since with the date of that second gives 304 and with another date the file, and a cookie's expires lies Max-Age seconds after now.", "quantifier": "for every instant in these years, every modification time in nanoseconds, every Max-Age, every request", "why_tests_cant": "The calendar (leap years, centuries, month ends, weekdays, negative times) has far more cases than tests sample; equality of dates decides between 304 and 200, so it must be injective on seconds.", "anchors": ["tremolo/utils.py:48-50", "tremolo/lib/http_response.py:82-111", "tremolo/lib/http_response.py:326-350", "tremolo/lib/http_response.py:455-486"]}
{"id": "C109", "title": "Decorators register exactly what the program says", "statement": "A program registers functions with decorators (route, error, event, middleware, on_* with or without parentheses, stacked or not) and with add_route and add_middleware. It raises an exception exactly for unknown names, unreadable functions and misused hooks; otherwise every list of middlewares and hooks and the table of routes hold exactly the registered functions in the order of the program, each with the options its parameters state; a registered function is called like the original one; so the middlewares run in the order of the program (responses: in reverse).", "quantifier": "for every program of registrations, every function signature, every stack of decorators, every request", "why_tests_cant": "Every decorator builds a wrapper and reads the parameters of what it is given; whether a stack of them keeps functions, options and order is a statement about all programs.", "anchors": ["tremolo/tremolo.py:38-66", "tremolo/tremolo.py:83-194"]}
{"id": "C110", "title": "A connection serves requests with chunked bodies one after the other", "statement": "A client sends any number of requests over one connection, some with Transfer-Encoding: chunked, none sharing a segment with another, and sends the next one when it has the answer. Every request gets its own handler in order, which receives exactly the bytes of that request's body, and the client reads the answers in order.", "quantifier": "for every list of requests, every cut of them into segments, every schedule of the tasks, every handler", "why_tests_cant": "The connection does not parse chunks, so the end of a chunked body is only known to the handler; whether bytes, counts and queue entries of one request leak into the next depends on the interleaving of four tasks and the network.", "anchors": ["tremolo/lib/http_protocol.py:139-180", "tremolo/lib/http_protocol.py:366-404", "tremolo/lib/http_protocol.py:466-504", "tremolo/lib/http_request.py:169-238"]}
{"id": "C111", "title": "A head that the server refuses is answered, or ends the connection", "statement": "Whatever head a client sends on a connection that waits for one: if no handler is started for it, then the client gets an error answer, or the connection is closed; it is not left open without an answer, where a client that sends several requests takes the next answer for that to the refused one.", "quantifier": "for every history of requests on the connection, every schedule, every head", "why_tests_cant": "A refused head takes one of six ways through _handle_request, and what its end marker does is decided by the request before it on the same connection; tests send bad heads on fresh connections.", "anchors": ["tremolo/lib/http_protocol.py:267-280", "tremolo/lib/http_protocol.py:420-436", "tremolo/lib/http_protocol.py:466-504", "tremolo/lib/http_parser.py:64-114", "tremolo/lib/http_request.py:36-55"]}
{"id": "C112", "title": "A handler on a kept connection reads the content of its own request, and then its end", "statement": "On a connection over which a client sends any number of requests, every handler that reads its body with stream() is given the content of its own request, all of it, and then the end of the stream: the bytes up to the Content-Length, the data of the chunks, or nothing if the request has no body.", "quantifier": "for all lists of requests, all bodies, all cuts into segments, all schedules of the tasks", "why_tests_cant": "Queue, counting, reset and the two branches of stream() are tested apart and on fresh connections; that what one handler leaves never reaches another depends on the order of all tasks.", "anchors": ["tremolo/lib/http_request.py:136-250", "tremolo/lib/request.py:30-52", "tremolo/lib/http_protocol.py:139-180", "tremolo/lib/http_protocol.py:321-334", "tremolo/lib/http_protocol.py:466-504"]}
{"id": "C113", "title": "Mixed calls of recv, read and body lose nothing of the body and keep its order", "statement": "A handler may read its body with any mix of recv(), recv(n), read(), read(n) and body(): each byte of the body is given to it once and in order, eof() tells when all was read, and no call waits for what cannot come.", "quantifier": "for all bodies, all cuts into pieces, all sequences of calls", "why_tests_cant": "Tests use one way of reading per request; the calls share a queue, a buffer and up to two generators, and what a call finds depends on all calls before.", "anchors": ["tremolo/lib/http_request.py:136-167", "tremolo/lib/http_request.py:169-252", "tremolo/lib/request.py:30-52"]}
{"id": "C114", "title": "What is stored in a context is found there, on that connection only", "statement": "A value stored in the context of a connection is found under its name by all later code for this connection and by no other connection; what is stored in the worker's context is found by all; options, tasks and queues cannot be replaced; context.options holds the options of the function that runs.", "quantifier": "for all histories of connections, requests, stores, reads and deletions", "why_tests_cant": "Tests store and read one value in one request; whether values of earlier requests or of other connections show through depends on the whole history of a worker.", "anchors": ["tremolo/lib/contexts.py:4-53", "tremolo/http_server.py:59-66", "tremolo/http_server.py:116-120", "tremolo/lib/http_protocol.py:39"]}
{"id": "C115", "title": "A form with files arrives as the browser sent it, and leaves nothing behind", "statement": "For every form with files sent as browsers send it, however its body is cut into pieces, files() yields for every control its name, file name, type and content, in order; and when the handler has read all parts, nothing of the body is left in the queue for the next request on the connection.", "quantifier": "for all boundaries, controls, contents and segmentations; for all schedules of the connection after the upload", "why_tests_cant": "Tests send small forms that arrive in one piece, where the end of the body happens to be taken; what is left depends on where the last piece begins and shows only in the next request with a body on the same connection.", "anchors": ["tremolo/lib/http_request.py:323-419", "tremolo/lib/http_protocol.py:162-180", "tremolo/lib/http_protocol.py:466-504"]}
{"id": "C116", "title": "A handler that has read its whole body leaves nothing of it behind", "statement": "When the calls of read(), recv() and body() have returned every byte of a request's body, the queue of the connection holds nothing of that body any more, so the next request starts with an empty queue.", "quantifier": "for all bodies with Content-Length, all segmentations and all sequences of calls", "why_tests_cant": "The body that the handler reads is right in every test; what is left shows only in the next request with a body on the same connection, and depends on whether the handler asked for one byte more than there was.", "anchors": ["tremolo/lib/http_request.py:136-167", "tremolo/lib/http_request.py:243-252", "tremolo/lib/http_protocol.py:162-180"]}
{"id": "C117", "title": "form() gives the fields of the body, whatever else of the request was read", "statement": "form() returns the fields of the request's body, and body() its bytes, in whichever order and however often a handler calls them, and whatever it has read with read() and recv() before; a form over the limit raises an error.", "quantifier": "for all bodies, segmentations, sequences of calls, limits and states of the request", "why_tests_cant": "Tests call form() once and first. What it returns after a middleware has looked at the body, and what body() returns after it, depends on what the earlier calls took, held back or left.", "anchors": ["tremolo/lib/http_request.py:136-167", "tremolo/lib/http_request.py:301-321"]}
{"id": "C118", "title": "What a generator yields is passed on before it is asked for more", "statement": "At every point of a streamed response that runs to its end, everything the generator has yielded so far is in the send queue of the connection, in order, with nothing held back; with stream=False no more than half the buffer size and one piece is held back, and a piece is queued only when at least half the buffer size was held back.", "quantifier": "for all generators, pieces, head calls, middlewares that pass, options, and all points of the response", "why_tests_cant": "Clients of events streams depend on each piece being sent at once; tests read the whole response, where held-back pieces make no difference.", "anchors": ["tremolo/http_server.py:183-217", "tremolo/lib/response.py:11-52"]}
{"id": "C119", "title": "keepalive_connections pushes out the connection kept longest and closes it after its next response", "statement": "At no time are more than keepalive_connections connections of a worker in the table of kept ones; a connection leaves the table only when it is lost or, the table being full, as the one that has been in it longest when another enters; while no more connections are open than the option allows, each behaves as if it were alone; and a connection that was pushed out is closed at the next end of a response. The number of connections that are open and wait for another request is not bounded by the option.", "quantifier": "for all values of the option, all numbers of connections, and all interleavings of the events of all connections", "why_tests_cant": "The order in which many connections of a worker enter and leave the table depends on the interleaving of all of them; tests of the option use a few connections one after the other.", "anchors": ["tremolo/tremolo.py:260-262", "tremolo/lib/connections.py:4-20", "tremolo/lib/http_protocol.py:425-436", "tremolo/lib/http_protocol.py:466-504", "tremolo/lib/http_protocol.py:506-508"]}
{"id": "C120", "title": "The Date of a response is current, and a worker over its memory limit ends", "statement": "The Date of a response is never later than the response and less than two seconds older, up to the lateness of the event loop. A worker ends because of limit_memory exactly when, in a second in which its code has not changed, the resident set in KiB is above the limit; while it serves, no sample was above it; without the option, or where there is no /proc, it does not end.", "quantifier": "for all times of all events, all lateness of the event loop, all durations of recv, all samples and limits, and all contents of statm", "why_tests_cant": "Old dates appear only after the parent was slow to answer or while the worker shuts down; tests look at fresh servers. Tests of the limit use one large allocation.", "anchors": ["tremolo/tremolo.py:322-325", "tremolo/tremolo.py:385-454", "tremolo/utils.py:37-47", "tremolo/lib/http_response.py:73-76"]}
{"id": "C121", "title": "The log says which request failed, whatever the client sends", "statement": "The record of a request that failed before its response has begun names its path, in printable ASCII without spaces and colons, from which the path can be decoded, then the class and the text of the exception. Records of different requests can be told apart, and the log has exactly one line for each, so no path lets a client write a line of its own.", "quantifier": "for all bytes of the path, all classes and texts of exceptions and any number of failed requests", "why_tests_cant": "A test asks for a few odd paths; the log can be forged by any one byte of a path that is left as it is.", "anchors": ["tremolo/lib/http_protocol.py:101-105", "tremolo/lib/http_protocol.py:198-214", "tremolo/tremolo.py:486-492"]}
{"id": "C122", "title": "A handshake is answered with the accept key of RFC 6455", "statement": "The head that answers a WebSocket handshake, through ASGI and natively, has one Sec-WebSocket-Accept line, and its value is the base64 text of the SHA-1 digest of the client's key followed by the fixed GUID: 28 bytes of the base64 alphabet, for whatever key the client sends.", "quantifier": "for all well-formed request heads with a key field, all keys, all headers and subprotocols that the application gives", "why_tests_cant": "Tests use one or two fixed keys; the padding of the hash and of base64 depends on the length of the key, and a client chooses it.", "anchors": ["tremolo/lib/websocket.py:25-35"]}
