#!/usr/bin/env python3
# Generates properties.jsonl (kept in git so the list is easy to extend).
import json
P=[]
def p(title,statement,quantifier,why,anchors):
    P.append(dict(id="C%02d"%(len(P)+1),title=title,statement=statement,quantifier=quantifier,why_tests_cant=why,anchors=anchors))

p("UTF-8 checker accepts exactly RFC 3629",
  "cio_check_utf8 run from a freshly initialised checker reports CIO_UTF8_ACCEPT exactly for the byte strings that are concatenations of well-formed UTF-8 encodings of Unicode scalar values (no overlong forms, no surrogates, nothing above U+10FFFF), and reports CIO_UTF8_REJECT exactly for the strings that are not a prefix of any well-formed string.",
  "all byte strings of every length",
  "there are infinitely many byte strings and every one of the 256 bytes is special in some context",
  ["lib/src/utf8_checker.c:cio_check_utf8","lib/src/utf8_checker.c:UTF8D","lib/include/cio/utf8_checker.h"])
p("UTF-8 checking does not depend on chunking or alignment",
  "Feeding a byte string to the checker in any number of consecutive calls, each at any memory alignment, gives the same final verdict as one call on the whole string, and once a call has reported REJECT no later call reports anything else.",
  "all byte strings, all ways to cut them in chunks, all start addresses",
  "the number of cuts and alignments is unbounded",
  ["lib/src/utf8_checker.c:cio_check_utf8","lib/src/utf8_checker.c:decode","lib/src/utf8_checker.c:cio_utf8_init"])
p("WebSocket masking is the RFC 6455 byte-wise XOR",
  "cio_websocket_mask replaces byte i of the buffer by byte i XOR mask[i mod 4], for every buffer length and memory alignment, changes nothing outside the buffer, and applying it twice restores the buffer.",
  "all buffers, all masks, all start addresses",
  "word-wise masking has separate unaligned head, aligned middle and tail loops whose boundaries depend on address and length",
  ["lib/include/cio/websocket_masking.h:cio_websocket_mask","lib/include/cio/websocket_masking.h:cio_websocket_correct_mask"])
p("Masking of a write chain is continuous over its elements and chunks",
  "A payload given as a chain of buffers, or in several chunks of one frame, leaves the client masked exactly as the concatenated payload would be masked in one piece.",
  "all chains of buffers of all lengths, all masks, all sequences of chunks of a frame",
  "the rotation of the mask depends on every earlier element length modulo 4",
  ["lib/src/websocket.c:mask_write_buffer","lib/src/websocket.c:rotate_mask","lib/src/websocket.c:send_frame"])
p("Base64 encoding is invertible and correctly padded",
  "cio_b64_encode_buffer produces the RFC 4648 base64 encoding: 4*ceil(n/3) characters of the standard alphabet with the right '=' padding, and a standard decoder gets the input back.",
  "all byte strings",
  "unbounded input length and 2^(8n) contents",
  ["lib/src/base64.c:cio_b64_encode_buffer"])
p("SHA-1 equals FIPS 180 for any sequence of input calls",
  "sha1_reset, any sequence of sha1_input calls, then sha1_result gives the FIPS 180-4 SHA-1 digest of the concatenated input, for total lengths below 2^64 bits; input after the result is refused.",
  "all messages and all ways to cut them into input calls",
  "digest depends on every byte and on block-boundary handling at all lengths",
  ["lib/cio/sha1/sha1.c:sha1_input","lib/cio/sha1/sha1.c:sha1_result"])
p("Pseudo random bytes form one deterministic stream",
  "cio_random_get_bytes writes exactly the requested number of bytes, the bytes of consecutive calls are consecutive pieces of one stream fixed by the seed (how the requests are cut does not matter), and the generator state never loses its period-preserving odd increment.",
  "all seeds, all sequences of request sizes",
  "2^128 seeds and unbounded call sequences",
  ["lib/src/random.c:cio_random_get_bytes","lib/src/random.c:cio_random_seed_rng"])
p("Substring search finds the first occurrence",
  "cio_memmem returns the start of the first occurrence of the needle in the haystack, or NULL exactly when the needle does not occur; it never looks outside the haystack.",
  "all haystacks and needles",
  "overlapping partial matches and boundary lengths are unbounded",
  ["lib/src/platform/shared/string_memmem.c:cio_memmem"])
p("Byte order conversions are exact inverses",
  "cio_htobe16/32/64 applied to a value produce the big-endian byte sequence in memory and cio_be16/32/64toh invert them; the little-endian family likewise.",
  "all 16/32/64-bit values",
  "2^64 values",
  ["lib/src/platform/linux/endian.c","lib/include/cio/endian.h"])
p("A write buffer behaves like a sequence",
  "Under every history of head-init, queue-head, queue-tail, queue-before, queue-after, unlink, dequeue operations, a write buffer contains exactly the elements a plain sequence would contain, in that order, forwards and backwards; the element count and the total byte length always match; peek/dequeue/last return the ends of the sequence; emptiness is reported correctly.",
  "all operation histories on any number of elements and buffers",
  "the linked structure must stay consistent under every interleaving of operations",
  ["lib/include/cio/write_buffer.h"])
p("Splice and split move exactly the intended elements",
  "Splicing appends all elements of one write buffer, in order, to the end of the other and empties the first; splitting at an element moves exactly that element and the elements behind it to the end of the other buffer (splitting at the buffer itself moves everything); nothing is lost or duplicated and counts and byte totals of both buffers are right.",
  "all pairs of write buffers and all split positions",
  "boundary positions (empty list, last element) and unbounded lengths",
  ["lib/include/cio/write_buffer.h:cio_write_buffer_splice","lib/include/cio/write_buffer.h:cio_write_buffer_split_and_append"])
p("Buffered reads deliver the byte stream in order without loss or duplication",
  "Whatever the sizes in which the transport delivers bytes and whatever sequence of read_at_least / read_until / read_at_most calls the user issues, the concatenation of the data handed to the read handlers is a prefix of the received byte stream, and the undelivered rest is kept in the buffer; a read never overruns the buffer.",
  "all transport segmentations, buffer sizes and sequences of read requests and consumptions",
  "unbounded interleaving of transport chunks and read requests, buffer compaction at any fill level",
  ["lib/src/buffered_stream.c:run_read","lib/src/buffered_stream.c:fill_buffer","lib/include/cio/read_buffer.h"])
p("read_until stops exactly behind the first delimiter",
  "cio_buffered_stream_read_until calls its handler with the shortest prefix of the unread stream that ends with the delimiter; when the buffer is full without one, it reports CIO_MESSAGE_TOO_LONG; transport end and errors are reported.",
  "all streams, delimiters, segmentations",
  "the delimiter can be cut at any point over any number of transport reads",
  ["lib/src/buffered_stream.c:internal_read_until","lib/src/buffered_stream.c:cio_buffered_stream_read_until"])
p("read_at_least and read_at_most respect their limits",
  "read_at_least(n) calls its handler only when at least n unread bytes are buffered, is refused when n exceeds the buffer; read_at_most(n) delivers between 1 and n bytes, being the next bytes of the stream.",
  "all n, buffer sizes, streams and segmentations",
  "unbounded",
  ["lib/src/buffered_stream.c:internal_read_at_least","lib/src/buffered_stream.c:internal_read_max"])
p("A buffered write puts exactly the chain's bytes on the wire",
  "cio_buffered_stream_write transfers the concatenation of the chain's buffers to the transport, in order and once, however short each transport write is, and calls the write handler exactly once.",
  "all chains, all sequences of short-write sizes",
  "each transport write may stop after any byte of any element",
  ["lib/src/buffered_stream.c:cio_buffered_stream_write","lib/src/buffered_stream.c:handle_write","lib/src/buffered_stream.c:handle_partial_writes"])
p("A buffered write gives the chain back to the caller",
  "When the write handler runs, whether with success or with an error, the caller's write buffer contains again exactly the elements it contained when the write was issued.",
  "all chains, all sequences of short writes and errors",
  "every prefix of progress at which an error may occur",
  ["lib/src/buffered_stream.c:handle_write","lib/src/buffered_stream.c:cio_buffered_stream_write"])
p("Outgoing WebSocket frames are well-formed RFC 6455 frames",
  "For every opcode, fin flag, payload length and role, the header that precedes the payload decodes, by the RFC 6455 rules, to exactly that fin, opcode, payload length (in minimal length encoding) and, for clients only, the mask used on the payload.",
  "all payload lengths below 2^63, all opcodes, both roles, all masks",
  "length classes up to 2^63 and four header shapes",
  ["lib/src/websocket.c:send_frame"])
p("Incoming frames are parsed as RFC 6455 demands, independently of segmentation",
  "A byte stream that is a sequence of well-formed frames from the peer is delivered to the read handler as exactly these payloads (unmasked), with the right last-chunk and last-frame flags, in order, however the transport segments the stream.",
  "all frame sequences, payload lengths, masks, segmentations",
  "unbounded frame counts and payload sizes and segmentation points",
  ["lib/src/websocket.c:get_header","lib/src/websocket.c:get_payload","lib/src/websocket.c:handle_frame"])
p("Malformed frames fail the connection with the right status",
  "Reserved bits, unknown opcodes, fragmented or oversized control frames, wrong masking, non-minimal or too large lengths, a continuation without a start and a new start within a fragmented message each make the endpoint report a protocol error, send a close frame with the corresponding status and read no further message.",
  "all first/second header bytes, lengths, connection states",
  "all 2^16 headers in all states",
  ["lib/src/websocket.c:get_header","lib/src/websocket.c:get_first_length","lib/src/websocket.c:handle_fin","lib/src/websocket.c:get_mask_or_payload"])
p("Text messages handed to the user are valid UTF-8 iff accepted",
  "A text message is rejected with status 1007 exactly when its bytes are not well-formed UTF-8, whatever its fragmentation and however frames arrive in chunks.",
  "all text messages, all fragmentations and chunkings",
  "unbounded",
  ["lib/src/websocket.c:handle_text_frame"])
p("A ping is answered by one pong with the same payload",
  "Every received ping of up to 125 bytes is answered by a pong frame with identical application data, is reported to the control handler, and larger pings are refused.",
  "all ping payloads and connection states",
  "payload contents and interleavings with user writes",
  ["lib/src/websocket.c:handle_ping_frame","lib/src/websocket.c:cio_websocket_write_ping"])
p("Close frames carry only legal status codes",
  "A received close frame is accepted exactly if its body is empty or starts with a status code allowed on the wire (1000-1003, 1007-1011, 3000-4999) followed by a valid UTF-8 reason; otherwise the connection is failed with a protocol error.",
  "all close bodies",
  "2^16 codes times all reasons",
  ["lib/src/websocket.c:handle_close_frame","lib/src/websocket.c:is_invalid_status_code"])
p("The closing handshake ends the connection exactly once",
  "In every execution the close hook / transport close is called at most once, a close frame is sent at most once, and after a close frame has been sent or the connection failed no further data frames are sent.",
  "all interleavings of user close, peer close, errors, timeouts and pending writes",
  "schedules are unbounded",
  ["lib/src/websocket.c:close","lib/src/websocket.c:cio_websocket_close","lib/src/websocket.c:handle_error","lib/src/websocket.c:close_frame_written"])
p("Queued WebSocket writes are sent in order and each handler runs exactly once",
  "Messages, pings and pongs written while a frame is in flight are sent afterwards in the order they were queued and every accepted write gets exactly one completion callback, with an error if the connection is closed first.",
  "all histories of writes, completions and errors",
  "unbounded interleavings",
  ["lib/src/websocket.c:enqueue_job","lib/src/websocket.c:dequeue_job","lib/src/websocket.c:message_written","lib/src/websocket.c:abort_write_jobs"])
p("A request is routed to the most specific location",
  "An HTTP request path is dispatched to the registered location with the longest path that is a prefix of the request path ending at a path-segment boundary; 404 is answered exactly when there is none.",
  "all request paths and sets of registered locations",
  "unbounded paths and sets",
  ["lib/src/http_server.c:location_match","lib/src/http_server.c:find_location"])
p("Every HTTP request gets at most one response and the connection is freed once",
  "For every order of parser events, timeouts, response completions and errors: at most one response is started per request, the client structure is released exactly once and never used afterwards, and a keep-alive connection returns to reading the next request.",
  "all event orders",
  "unbounded schedules",
  ["lib/src/http_server.c:write_response","lib/src/http_server.c:response_written","lib/src/http_server.c:mark_to_be_closed","lib/src/http_server.c:client_timeout_handler"])
p("Upgrade requests are accepted exactly when the conditions checked after RFC 6455 hold",
  "The WebSocket location answers 101 exactly when the request is HTTP/1.1 or newer GET with Upgrade, a 24 character key (not beginning with NUL), version 13 and an acceptable subprotocol situation, and refuses it otherwise.",
  "all header sequences",
  "header fields can arrive in any order and number",
  ["lib/src/websocket_location_handler.c:handle_headers_complete","lib/src/websocket_location_handler.c:handle_field_value","lib/src/websocket_location_handler.c:check_http_version"])
p("Subprotocol negotiation picks a protocol both sides know",
  "The chosen subprotocol is one the server supports and that occurs as a complete token in the client's comma separated list; whitespace around tokens is ignored; none is chosen exactly when there is no common one.",
  "all header values and all supported lists",
  "unbounded strings",
  ["lib/src/websocket_location_handler.c:check_websocket_protocol","lib/src/websocket_location_handler.c:find_requested_sub_protocol"])
p("The handshake response proves knowledge of the key",
  "The Sec-WebSocket-Accept value sent is base64(SHA-1(key followed by the RFC 6455 GUID)), 28 characters.",
  "all keys",
  "2^192 keys",
  ["lib/src/websocket_location_handler.c:send_upgrade_response"])
p("A timer handler runs exactly once per arming",
  "Each successful arming of a timer leads to exactly one call of its handler, with success on expiry or CIO_OPERATION_ABORTED on cancel/close, under every order of arm, cancel, expiry and close; a cancelled timer never reports success.",
  "all histories of arm, cancel, expire, close",
  "unbounded histories including re-arming from handlers",
  ["lib/src/platform/linux/timer.c"])
p("Timeouts are converted exactly",
  "A timeout in nanoseconds is split in whole seconds and a nanosecond rest below 10^9 that together equal the requested time.",
  "all 64-bit nanosecond counts",
  "2^64 values",
  ["lib/src/platform/linux/timer.c:convert_timeout_to_itimerspec"])
p("The event loop never calls back a removed notifier",
  "Once a notifier has been removed from the loop no callback of it runs, even if it was removed by another callback while its own event was already fetched; every other fetched event is dispatched exactly once, in order.",
  "all batches of events and all sets of removals/registrations made by callbacks",
  "every subset of removals at every point of a batch",
  ["lib/src/platform/linux/epoll.c:cio_eventloop_run","lib/src/platform/linux/epoll.c:erase_pending_event","lib/src/platform/linux/epoll.c:cio_linux_eventloop_remove"])
p("A socket is closed exactly once and pending reads/writes are reported truthfully",
  "Closing a socket (with or without timeout) shuts it down, closes the descriptor and calls the close hook exactly once; read results report the exact bytes read, end of stream or the error.",
  "all histories of read, write, close, timeout and peer close",
  "schedules are unbounded",
  ["lib/src/platform/linux/socket.c"])
p("UART settings read back as they were set",
  "After setting parity, stop bits, data bits, flow control or baud rate, the getter reports that value and the other settings are unchanged.",
  "all previous terminal settings and all values, all sequences of settings",
  "2^32 flag words",
  ["lib/src/platform/linux/uart.c"])
p("HTTP response headers are well formed",
  "The status line and generated header fields of a response (Content-Length, Keep-Alive / Connection) state the actual status, the decimal byte length of the body and whether the connection is kept open.",
  "all status codes, body lengths, timeouts and keep-alive decisions",
  "unbounded numbers",
  ["lib/src/http_server.c:write_response","lib/src/http_server.c:get_response_statusline","lib/src/http_server.c:start_response_header"])
p("Invalid calls are refused without side effects",
  "Every API entry point that checks its arguments returns CIO_INVALID_ARGUMENT (or the documented error) for null or out of range arguments and then leaves the object unchanged and calls no handler.",
  "all argument combinations and object states",
  "all combinations of arguments in all states",
  ["lib/src/buffered_stream.c","lib/src/websocket.c","lib/src/http_server.c","lib/include/cio/read_buffer.h"])
p("Addresses are built within bounds",
  "Initialising a Unix or inet address accepts exactly representable inputs, stores them unchanged and never writes outside the address structure; abstract and file system Unix paths are distinguished.",
  "all path strings and lengths",
  "all lengths",
  ["lib/src/platform/linux/unix_address.c","lib/src/platform/shared/inet_address_impl.c"])
p("The last element of a write buffer is recognised",
  "cio_write_buffer_is_last_element answers true for the last element of a write buffer and false for every other element.",
  "all write buffers and elements",
  "all lengths and positions",
  ["lib/include/cio/write_buffer.h:cio_write_buffer_is_last_element"])
p("A pending buffered read is never forgotten",
  "Whenever the library is idle and the stream is open, a read that was accepted and not yet answered is outstanding at the transport, so that it will be answered when data, the end of the stream or an error arrives; it is never kept waiting although the buffered data would satisfy it.",
  "all read handlers, all histories of reads, deliveries and failures",
  "depends on which nested calls handlers make at which fill level of the buffer",
  ["lib/src/buffered_stream.c:run_read","lib/src/buffered_stream.c:fill_buffer","lib/src/buffered_stream.c:start_read"])
p("UART reads and writes report exactly what happened",
  "A read handler of a serial port is called exactly once for a read, the bytes handed to the handlers are the bytes that arrived, in order and without loss; the handler of a write is called exactly once for a write and told exactly the number of bytes the operating system accepted; a closed port is not used any more.",
  "all arrival patterns, all results of read(2) and write(2), all histories",
  "schedules and partial writes are unbounded",
  ["lib/src/platform/linux/uart.c:read_callback","lib/src/platform/linux/uart.c:stream_write","lib/src/platform/linux/uart.c:cio_uart_close"])
p("Opening a UART gives a raw port and leaks nothing on failure",
  "After a successful cio_uart_init the port transmits bytes unchanged (no line editing, echo, signals, translation or flow control) at 115200 baud without blocking, and parity, stop bits and data bits are as before; if cio_uart_init fails no descriptor stays open.",
  "all previous terminal settings, all failing system calls",
  "2^32 flag words",
  ["lib/src/platform/linux/uart.c:cio_uart_init"])
p("Accepting connections conserves descriptors and memory",
  "Whenever a listening socket wakes up, either there is no connection and nothing happens, or the accept handler is called once: with an error, and then the descriptor is closed and the client memory released, or with a new client whose descriptor is open and registered. At every moment of the life of an HTTP server the open descriptors are exactly those of its clients and of the server, every client is either being read or being closed, nothing is closed or released twice, and when all clients are gone nothing is left open.",
  "all answers of the operating system and of alloc_client at every call, all histories of arriving and ending connections",
  "every call may fail at every moment of a history of any length",
  ["lib/src/platform/linux/server_socket.c:accept_callback","lib/src/http_server.c:handle_accept","lib/src/platform/linux/socket.c:cio_linux_socket_init"])
p("Initialisation is all or nothing",
  "If initialising an event loop, timer, socket, server socket or HTTP server fails, or serving fails, no descriptor or registration is left behind, and a failed serve closes the server and calls the close hook once; if it succeeds, exactly the descriptors of the object are new, and destroying it leaves everything as it was.",
  "all answers of the operating system at every call",
  "every combination of failing calls",
  ["lib/src/platform/linux/epoll.c:cio_eventloop_init","lib/src/platform/linux/timer.c:cio_timer_init","lib/src/platform/linux/socket.c:cio_socket_init","lib/src/http_server.c:cio_http_server_init","lib/src/http_server.c:cio_http_server_serve"])
p("HTTP requests are understood independently of segmentation",
  "However the bytes of a connection are cut into packets, the HTTP parser gets every byte once and in order, each URL is handed to the location lookup once and completely, each header line reaches the handlers in one piece, and the body of a request ends where its Content-Length says.",
  "all sequences of requests on a connection, all ways to cut them into packets",
  "2^(n-1) segmentations of n bytes, unbounded request sequences",
  ["lib/src/http_server.c:parse","lib/src/http_server.c:on_headers_complete","lib/src/http_server.c:finish_request_line","lib/src/http_server.c:restart_read_request"])
p("What one WebSocket side sends is what the other side's application gets",
  "The frames one side sends before it closes form a sequence RFC 6455 allows (a message starts with its kind and goes on with continuation frames until the last one, control frames of at most 125 bytes in between but never inside a frame), and the application on the other side gets exactly the bytes of every message, in order, with the kind of message, the lengths and the end of each frame and message, and every ping and pong with its payload - whoever is the client, whatever the masks, and however the transport cuts the bytes into pieces.",
  "all sequences of calls, all payloads and their division into buffers and chunks, all masks, all segmentations of the byte stream, all answers of the transport",
  "unbounded message sequences, 2^32 masks per frame, 2^(n-1) segmentations",
  ["lib/src/websocket.c:send_frame","lib/src/websocket.c:cio_websocket_write_message_first_chunk","lib/src/websocket.c:message_written","lib/src/websocket.c:get_header","lib/src/websocket.c:get_payload"])
p("A close frame carries the caller's status code and reason, and the closing handshake brings them to both sides",
  "cio_websocket_close sends one close frame whose body is the given status code in network byte order followed by the given reason (as much of it as a control frame can hold, never more than the string, never a part of a character); the peer's application is told exactly this code and reason and the peer answers with the same, upon which the side that started closes; the closes the library itself sends are legal and are understood.",
  "all status codes, all reasons (also NULL and over-long ones), both roles, all masks and byte orders, all frames sent before in either direction, all segmentations of both byte streams",
  "2^16 codes times unbounded reasons times segmentations; the tests use short ASCII reasons",
  ["lib/src/websocket.c:prepare_close_job","lib/src/websocket.c:prepare_close_job_string","lib/src/websocket.c:cio_websocket_close","lib/src/websocket.c:handle_close_frame","lib/src/websocket.c:handle_error"])
p("A websocket drives its stream properly and never stalls",
  "A websocket on its buffered stream never consumes bytes that are not there, never asks for more than its read buffer can hold, never registers a second read while one is pending; and left to itself it always comes to rest: waiting for the transport, stopped (failed or closed by the peer), closed, or with the next move up to the application or to a pong being written. A failure of the transport is shown after everything that had arrived before it.",
  "every byte stream, every way the transport delivers it or fails, every delay of the application and of pongs",
  "the interleavings of deliveries, buffer compaction and application delays are unbounded",
  ["lib/src/websocket.c:get_header","lib/src/websocket.c:read_payload","lib/src/websocket.c:get_payload","lib/src/websocket.c:handled_read_error","lib/src/websocket.c:cio_websocket_read_message","lib/src/buffered_stream.c:run_read"])
p("Zephyr: the event loop calls every queued event once, in order",
  "On Zephyr, each event queued for a notifier leads to at most one call of its callback, in the order of queueing and never after the notifier was removed; none is lost and the loop goes on as long as there are events; after cio_eventloop_cancel no callback is called until cio_eventloop_run has returned, which it does, and for no other reason.",
  "all sequences of interrupts, events, removals, cancellations and runs",
  "interrupts arrive at any moment, histories are unbounded",
  ["lib/src/platform/zephyr/eventloop.c:cio_eventloop_run","lib/src/platform/zephyr/eventloop.c:cio_eventloop_cancel","lib/src/platform/zephyr/eventloop.c:cio_zephyr_eventloop_add_event"])
p("Zephyr: each arming of a timer is answered once and truthfully",
  "On Zephyr, for each successful arming of a timer the handler is called exactly once: with success after the time has passed, or with OPERATION_ABORTED at the moment the timer is cancelled or closed; when the close hook was called every arming is answered and nothing of the timer is left in the event loop; the time given in nanoseconds is converted to the next lower millisecond.",
  "all timeouts, all histories of arming, expiry, cancellation, closing (also from inside handlers)",
  "expiry interrupts interleave with every call",
  ["lib/src/platform/zephyr/timer.c:cio_timer_expires_from_now","lib/src/platform/zephyr/timer.c:cio_timer_cancel","lib/src/platform/zephyr/timer.c:cio_timer_close","lib/src/platform/zephyr/timer.c:expire"])
p("Zephyr: socket operations are answered once, truthfully and with all bytes in order",
  "On Zephyr, each read and each write started on a socket is answered at most once, with what the network stack reported for it, none is forgotten while the socket is open, a closed socket is not touched any more, and the bytes delivered to read handlers are the bytes of the packets, in order.",
  "all packets, failures and acknowledgements at any time, all histories of reads, writes and closing",
  "network callbacks interleave with every call",
  ["lib/src/platform/zephyr/socket.c:stream_read","lib/src/platform/zephyr/socket.c:stream_write","lib/src/platform/zephyr/socket.c:socket_close"])
p("Zephyr: every incoming connection is handed out or given back, once",
  "On Zephyr, each connection that arrives at a listening server socket is handed to the accept handler once or, without memory, given back to the network stack once; each failure is reported once; a closed server socket is not touched.",
  "all histories of arriving connections, failures, allocations and closing",
  "connections arrive at any time",
  ["lib/src/platform/zephyr/server_socket.c:accept_callback","lib/src/platform/zephyr/server_socket.c:socket_accept","lib/src/platform/zephyr/server_socket.c:socket_close"])
p("Zephyr: the entropy asked for is delivered or an error is returned",
  "On Zephyr, when cio_entropy_get_bytes reports success all bytes asked for come from the entropy driver and nothing behind them is touched; creating a socket fails exactly for an unspecified family or when the network stack fails.",
  "all lengths, all buffers, all answers of the driver",
  "2^64 lengths; drivers fail rarely",
  ["lib/src/platform/zephyr/random.c:cio_entropy_get_bytes","lib/src/platform/zephyr/socket_utils.c"])
p("Windows: the event loop calls every completed operation once, in order",
  "On Windows, each packet of the completion port leads to exactly one call of the callback it belongs to, in the order in which the packets were queued, successful or not; the loop goes on as long as it is not cancelled and returns only when it was; after cio_eventloop_cancel at most the one callback that is just being taken out is called (none if the thread of the loop cancelled), and the loop returns; initialisation leaves nothing behind if it fails.",
  "all sequences of packets queued by the kernel and by other threads, of cancellations by any thread and of runs",
  "packets and cancellations of other threads arrive at any moment, histories are unbounded",
  ["lib/src/platform/windows/iocp.c:cio_eventloop_run","lib/src/platform/windows/iocp.c:cio_eventloop_cancel","lib/src/platform/windows/iocp.c:cio_eventloop_init"])
p("Windows: each arming of a timer is answered once and truthfully",
  "On Windows, for each successful arming of a timer the handler is called exactly once: with success after the time has passed, or with OPERATION_ABORTED at the moment the timer is cancelled or closed before; the handler of a refused arming is never called; when the close hook was called every arming is answered and nothing of the timer is left in the timer queue or the event loop; a timeout in nanoseconds is converted to milliseconds without loss of more than one millisecond.",
  "all timeouts, all histories of arming, expiry in another thread, cancellation and closing (also from inside handlers)",
  "the thread of the timer pool interleaves with every call",
  ["lib/src/platform/windows/timer.c:cio_timer_expires_from_now","lib/src/platform/windows/timer.c:cio_timer_cancel","lib/src/platform/windows/timer.c:cio_timer_close","lib/src/platform/windows/timer.c:timer_callback"])
p("Windows: socket operations are answered once, truthfully and with all bytes in order, and closing completes",
  "On Windows, each read, write and connect started on a socket is answered at most once, with what winsock reported for it, none is forgotten while the socket is open; after cio_socket_close no handler is called any more, the descriptor is closed and the close hook called exactly once, and nothing of the socket is used afterwards; the bytes delivered to read handlers are the bytes received, in order.",
  "all results of the overlapped operations at any time and in any order, all histories of reads, writes, connects and closing (also from inside handlers)",
  "completions interleave with every call, histories are unbounded",
  ["lib/src/platform/windows/socket.c:stream_read","lib/src/platform/windows/socket.c:stream_write","lib/src/platform/windows/socket.c:cio_socket_connect","lib/src/platform/windows/socket.c:cio_socket_close","lib/src/platform/windows/socket.c:try_free"])
p("Windows: a server socket goes on accepting, hands out every connection once and loses no descriptor",
  "On Windows, from a successful cio_server_socket_accept until cio_server_socket_close a server socket goes on accepting, whatever happens to single connections; the accept handler is called exactly once for each of them, with a client on an open descriptor or with an error after the descriptor was closed; after cio_server_socket_close the handler is not called any more, the listening descriptor is closed and the close hook called, exactly once; each descriptor is closed once or given to a client.",
  "all results of winsock and of alloc_client at every call, all histories of arriving connections and of binding, accepting and closing",
  "connections arrive and calls fail at any moment of a history of any length",
  ["lib/src/platform/windows/server_socket.c:accept_callback","lib/src/platform/windows/server_socket.c:prepare_accept_socket","lib/src/platform/windows/server_socket.c:close_listen_socket","lib/src/platform/windows/server_socket.c:try_free"])
p("Windows: UART settings read back as they were set",
  "On Windows, after a successful call of a setter of a serial port (parity, stop bits, data bits, flow control, baud rate) the getter reports the new value and every other setting of the port is as it was; a failing or invalid call changes nothing and returns the operating system's error or INVALID_ARGUMENT; every value of the enumerations that Windows has a constant for is taken.",
  "all settings, all states of the port, all failures of the operating system, all histories of calls",
  "settings times states of the port times histories; failures of the operating system",
  ["lib/src/platform/windows/uart.c:cio_uart_set_parity","lib/src/platform/windows/uart.c:cio_uart_set_baud_rate","lib/src/platform/windows/uart.c:cio_uart_set_flow_control","lib/src/platform/windows/uart.c:set_comm_settings"])
p("Windows: opening a UART succeeds completely or leaves nothing behind",
  "On Windows, cio_uart_init succeeds exactly if every function of the operating system it uses does; then the port is at 115200 baud, 8N1, without flow control. If it fails the first error is returned, and every handle and every block of memory it got is given back exactly once.",
  "all combinations of failures of the operating system, all states of the port",
  "each of the nine functions can fail in every state",
  ["lib/src/platform/windows/uart.c:cio_uart_init"])
p("Windows: UART reads and writes are answered once, truthfully and with all bytes in order, and closing completes",
  "On Windows, each read and write started on a serial port is answered at most once, with what the operating system reported for it (errors as negative numbers), none is forgotten while the port is open; a write hands over exactly the bytes of the chain; after cio_uart_close no handler is called any more, the handle is closed and the close hook called exactly once, and nothing of the port or of a buffer is used after it was given back; the bytes delivered to read handlers are the bytes received, in order.",
  "all results of the overlapped operations at any time and in any order, all chains, all histories of reads, writes and closing",
  "completions interleave with every call, histories are unbounded",
  ["lib/src/platform/windows/uart.c:stream_read","lib/src/platform/windows/uart.c:stream_write","lib/src/platform/windows/uart.c:read_callback","lib/src/platform/windows/uart.c:write_callback","lib/src/platform/windows/uart.c:cio_uart_close"])
p("The entropy asked for is delivered or an error is returned",
  "On Linux and Windows, when cio_entropy_get_bytes reports success all bytes asked for come from the operating system's source and nothing behind them is touched; when it reports an error the buffer is unchanged.",
  "all lengths, all buffers, all answers of the source",
  "2^64 lengths; the source fails rarely",
  ["lib/src/platform/linux/random.c:cio_entropy_get_bytes","lib/src/platform/windows/random.c:cio_entropy_get_bytes"])
p("Bytes sent behind an upgrade request reach the WebSocket",
  "If a client sends its upgrade request and, without waiting for the answer, its first WebSocket frames, nothing of them is lost, changed or taken for HTTP: whatever the segmentation, the server handles the request, and the WebSocket then gets exactly the bytes behind the request, as if they had arrived later.",
  "all earlier requests of the connection, all upgrade requests, all frames behind it, all segmentations",
  "every split of the byte stream into segments; the early frame and the request share one read buffer",
  ["lib/src/http_server.c:parse","lib/src/http_server.c:on_headers_complete","lib/src/http_server.c:on_message_complete","lib/src/websocket_location_handler.c:response_written"])
p("Serial ports are found completely and without leaks",
  "cio_uart_get_ports puts the serial ports of the system into the array, in the order of the system and as many as fit, writes nothing behind them and reports their number; cio_uart_get_number_of_uarts is the number of elements that are needed for all of them. A port that cannot be examined does not hide the others. Afterwards no directory, registry key or memory is left open or allocated, and nothing is released twice.",
  "all systems (directory contents, registry contents), all array sizes, all failing system calls",
  "the number and names of ports and the failing calls are unbounded",
  ["lib/src/platform/linux/uart.c:cio_uart_get_ports","lib/src/platform/linux/uart.c:cio_uart_get_number_of_uarts","lib/src/platform/windows/uart.c:cio_uart_get_ports","lib/src/platform/windows/uart.c:get_string_value_from_registry","lib/src/platform/windows/uart.c:get_device_property"])
p("An error returned by a location handler ends the connection",
  "When a callback of a location handler returns CIO_HTTP_CB_ERROR, the client gets the response 400 or the connection is closed, and no callback of any location handler is called on this connection again and no further request is read from it.",
  "all callbacks, all histories before and after (events, responses inside or outside of callbacks, failing system calls)",
  "any interleaving of reads, timeouts, writes and user actions before and after the error",
  ["lib/src/http_server.c:parse","lib/src/http_server.c:on_message_complete","lib/src/http_server.c:on_url","lib/src/http_server.c:data_callback","lib/include/cio/http_location_handler.h:cio_http_cb_return"])
p("A location handler is told exactly the parts of the URL",
  "The handler for a request comes from the registered location with the longest path that serves the path of the URL (404 without one, 500 if the handler has no callback at all or no free function). Its callbacks for schema, host, port, path, query, fragment and the whole URL are called in this order, each at most once, only for parts that the URL has, with exactly the bytes of that part; the first one that writes a response or returns an error is the last one called.",
  "all URLs and results of parsing them, all sets of locations, all handlers, all behaviours of the callbacks",
  "all combinations of URL parts, handler callbacks and answers of the callbacks",
  ["lib/src/http_server.c:on_url","lib/src/http_server.c:call_url_parts_callback","lib/src/http_location_handler.c:cio_http_location_handler_no_callbacks","lib/src/http_location_handler.c:cio_http_location_handler_init"])
p("A buffered stream over a Linux socket delivers both byte streams",
  "With a buffered stream on a socket, what the application reads is what the peer sent, in order, without loss or repetition, and it is told of the end only when it has been given everything and the peer closed; other errors come from the operating system or mean that a message is longer than the buffer. What the peer gets is what the application's writes put on the wire, one after the other, complete if success is reported. The stream never uses the socket against its rules, no handler or memory is used after the close hook, and nothing gets stuck: pending reads and writes go on when the socket becomes readable or writable.",
  "all interleavings of arriving data, wake-ups, short and refused reads and writes, application calls and closing; all read handlers; all buffer sizes",
  "interplay of two components over unbounded histories of system call results",
  ["lib/src/buffered_stream.c:cio_buffered_stream_read_until","lib/src/buffered_stream.c:cio_buffered_stream_write","lib/src/buffered_stream.c:cio_buffered_stream_close","lib/src/platform/linux/socket.c:stream_read","lib/src/platform/linux/socket.c:stream_write","lib/src/platform/linux/socket.c:cio_socket_close"])
p("Two WebSockets connected over TCP: what one application sends, the other one gets",
  "Two WebSockets, each on a buffered stream on a Linux socket, the sockets connected to each other. Whatever the network, the operating systems and the applications do, the application of one side has at any time been shown a beginning of what the other side sent, nothing altered, repeated or out of order; when everything has arrived and was read, all of it; everything that has been written can arrive and be read without the sender doing anything more, even if the receiver's own writing is blocked; and if the connection ends normally, nothing has been lost before the end.",
  "all sequences of frames, all masks, all packets and delays of the network, all short reads and writes, all schedules of the two sides, all buffer sizes from 125 bytes",
  "two sides, each with several components and a network in between, over unbounded histories",
  ["lib/src/websocket.c:get_header","lib/src/websocket.c:get_payload","lib/src/websocket.c:send_frame","lib/src/buffered_stream.c:cio_buffered_stream_write","lib/src/buffered_stream.c:run_read","lib/src/platform/linux/socket.c:stream_read","lib/src/platform/linux/socket.c:stream_write","lib/src/platform/linux/socket.c:cio_socket_close"])
p("On Linux cancelling ends the event loop, and nothing else does",
  "cio_eventloop_run returns success only after cio_eventloop_cancel was called, and an error only if epoll_wait failed. After a cancellation, inside or outside of a callback, the loop fetches events at most once more and then returns success. A loop that was cancelled and has returned can be run again.",
  "all callbacks, all registrations, all reports of epoll_wait, all points of cancellation, any number of runs",
  "the cancellation may come at any point of any history",
  ["lib/src/platform/linux/epoll.c:cio_eventloop_cancel","lib/src/platform/linux/epoll.c:cio_eventloop_run","lib/src/platform/linux/epoll.c:cio_eventloop_init"])
p("A WebSocket that is being closed is given up in the end",
  "After cio_websocket_close was accepted the connection is closed and the close hook called at the latest when the close timer expires. After the peer's close frame, or after a failure, the close hook is called as soon as the transport has finished at most the writes that were queued and the close frame, and there is always such a write under way. A peer that stops reading cannot keep the connection open for ever.",
  "all interleavings of calls, frames, failures, completions of writes and timer expiries before and after the closing began",
  "progress over unbounded histories; that nothing more will happen cannot be observed by a test",
  ["lib/src/websocket.c:cio_websocket_close","lib/src/websocket.c:handle_close_frame","lib/src/websocket.c:handle_error","lib/src/websocket.c:close_timeout_handler","lib/src/websocket.c:response_close_frame_written"])
p("A message in several buffers is masked like one in a single buffer",
  "Masking a chain of buffers gives the same bytes as masking the concatenated payload with the key repeated from its first byte; the bytes outside the buffers are not touched, and the key that is left continues at the right place for the next chunk of the same frame.",
  "all chains of disjoint buffers of any number, lengths and addresses; all keys; all contents of the memory",
  "all lengths modulo the word size at all boundaries between buffers, at all alignments",
  ["lib/src/websocket.c:mask_write_buffer", "lib/include/cio/websocket_masking.h:cio_websocket_mask"])
p("No ill-formed text message is ever handed over completely",
  "Whatever a peer sends and however it is cut into pieces, every text message that a WebSocket hands to the application up to its last fragment is well-formed UTF-8 (RFC 3629); if the peer's stream contains a complete text message that is not, the connection fails with status code 1007.",
  "all byte streams, all segmentations, both roles, all schedules of the application asking for more, all read buffers from 125 bytes",
  "unbounded streams and all ways of cutting them",
  ["lib/src/websocket.c:handle_text_frame", "lib/src/websocket.c:get_payload", "lib/src/utf8_checker.c:cio_check_utf8"])
p("Binary messages, pings and pongs are received exactly as RFC 6455 says",
  "For a peer that sends no text, what the application is shown (messages, fragments, pings, pongs, closes, protocol errors) is exactly what RFC 6455 prescribes for the bytes of the stream, and it does not depend on how the bytes were cut into pieces; legal frames are delivered unaltered.",
  "all byte streams without text messages, all segmentations, both roles, all read buffers from 125 bytes, all schedules of the application asking for more",
  "unbounded streams and all ways of cutting them",
  ["lib/src/websocket.c:get_header", "lib/src/websocket.c:get_payload", "lib/src/websocket.c:get_mask_or_payload", "lib/src/websocket.c:get_length64"])
p("Status codes of received close frames are judged as RFC 6455 says",
  "A close frame without body, or with a legal status code and no reason, is accepted and answered with the same code; one with a body of one byte or with a status code that may not be sent makes the connection fail with 1002.",
  "all bodies of close frames, both byte orders of the machine",
  "65536 codes times all reasons",
  ["lib/src/websocket.c:handle_close_frame", "lib/src/websocket.c:is_invalid_status_code"])
p("Reading through a buffered stream on a Linux socket loses, repeats and alters nothing",
  "What the application has consumed, followed by what is in the read buffer, is at any time the beginning of what the peer sent. A read handler that is told of the end of the stream has been given every byte and the peer has closed; every other error it is told comes from the operating system, or the message asked for is longer than the buffer. The descriptor is closed once, the close hook is called at most once and only after the application closed the stream, and no memory is used after it.",
  "all applications, all arrivals of data, all results of the system calls, all buffer sizes, all points of closing",
  "unbounded histories of two components",
  ["lib/src/buffered_stream.c:cio_buffered_stream_read_until", "lib/src/buffered_stream.c:run_read", "lib/src/platform/linux/socket.c:stream_read", "lib/src/platform/linux/socket.c:cio_socket_close"])
p("The Linux event loop runs until it is cancelled",
  "cio_eventloop_run returns success only if cio_eventloop_cancel was called and an error only if epoll_wait failed. After a cancellation, from a callback or not, at most one more batch of events is fetched; then the loop returns success.",
  "all programs, callbacks, registrations and batches of events of fewer than 100 entries; operating systems that report the cancellation descriptor as readable exactly when it was written",
  "all points of cancellation in all histories",
  ["lib/src/platform/linux/epoll.c:cio_eventloop_run", "lib/src/platform/linux/epoll.c:cio_eventloop_cancel"])
p("Random bytes on Linux are complete",
  "cio_entropy_get_bytes on Linux reports success exactly if the operating system delivered entropy for the whole buffer; then every byte of the buffer comes from it. Otherwise the buffer is unchanged and the error of the operating system is returned.",
  "all buffers and lengths, all answers of getentropy",
  "all lengths, failures of the operating system",
  ["lib/src/platform/linux/random.c:cio_entropy_get_bytes"])
p("The list of serial ports on Linux is exact",
  "cio_uart_get_ports fills the array with the resolved paths of the symbolic links in the by-path directory, in their order, as many as fit, reports their number and leaves the rest of the array alone; an array of cio_uart_get_number_of_uarts elements is filled completely. Every directory that was opened is closed again, in case of errors as well.",
  "all contents of the directory, all lengths of names and paths the operating system can report, all array sizes, all contents of the buffers before",
  "all directories and failures",
  ["lib/src/platform/linux/uart.c:cio_uart_get_ports", "lib/src/platform/linux/uart.c:cio_uart_get_number_of_uarts"])
p("One response per request, and no callback behind it",
  "Between two responses on a connection the server has begun to read another request; after the response to a request none of the location handler's callbacks is called for that request any more.",
  "all requests, all behaviours of the location handlers, all segmentations, timeouts, errors and closes at any point",
  "unbounded histories of a connection",
  ["lib/src/http_server.c:write_response", "lib/src/http_server.c:restart_read_request", "lib/src/http_server.c:on_message_complete"])
p("An error of a location handler's callback is final",
  "When a callback of the location handler other than the one for the complete message returns an error, no callback of any location handler is called on that connection any more and no further request is read.",
  "all connections, all callbacks, all continuations after the error",
  "everything that may follow the error",
  ["lib/src/http_server.c:on_header_field_name", "lib/src/http_server.c:on_body", "lib/src/http_server.c:parse", "lib/src/http_server.c:notify_free_handler_and_close_stream"])
p("Opening a serial port on Windows succeeds exactly if the operating system does everything",
  "cio_uart_init succeeds exactly if all calls of the operating system do. Then one handle is open, no memory is held, the port is at 115200 baud, 8 data bits, no parity, one stop bit, no flow control, all other settings as before, and reads wait for data and writes for ever. Otherwise the error of the first call that failed is returned and the port is not usable.",
  "all combinations of failing calls, all settings of the port before",
  "all combinations of failures",
  ["lib/src/platform/windows/uart.c:cio_uart_init"])
p("The settings of a Linux serial port are told truthfully",
  "Each getter returns exactly the setting the terminal has, whatever the state of the terminal is, and an error otherwise; errors of the operating system are returned as they are, and a getter never reports success without a value. A setter that fails, or is given a value outside its enumeration, changes nothing.",
  "all terminal states (all flag words), all values, all failures of the system calls",
  "2^128 states of the flag words",
  ["lib/src/platform/linux/uart.c:cio_uart_get_parity", "lib/src/platform/linux/uart.c:cio_uart_get_baud_rate", "lib/src/platform/linux/uart.c:cio_uart_get_flow_control", "lib/src/platform/linux/uart.c:cio_uart_set_parity"])
p("Bytes on a Linux serial port",
  "What the read handlers were given, followed by what is waiting, is what arrived. The handler of a write is called at most once; with success, the number reported is the number of bytes the operating system took, and these are the first bytes of the chain. After the port was closed no handler is called and nothing is read or written.",
  "all programs, all arrivals, all results of the system calls, all chains of buffers",
  "unbounded histories",
  ["lib/src/platform/linux/uart.c:stream_read", "lib/src/platform/linux/uart.c:stream_write", "lib/src/platform/linux/uart.c:cio_uart_close"])
p("The HTTP parser gets the bytes of the connection in order",
  "However the bytes of a connection arrive, they are given to the parser in order, each byte exactly once, and no call of the parser is empty.",
  "all streams and all segmentations",
  "all segmentations of unbounded streams",
  ["lib/src/http_server.c:parse", "lib/src/http_server.c:finish_request_line", "lib/src/http_server.c:finish_bytes"])
p("The Zephyr event loop calls callbacks for queued events only, in their order",
  "A callback is called only for an event that was queued for it, at most once for each, in the order in which they were queued, and never for a notifier that has been removed, whatever threads, interrupts and callbacks do.",
  "all schedules of the producers of events and of the loop, all registrations and removals",
  "all interleavings",
  ["lib/src/platform/zephyr/eventloop.c:cio_eventloop_run", "lib/src/platform/zephyr/eventloop.c:cio_zephyr_eventloop_add_event", "lib/src/platform/zephyr/eventloop.c:cio_zephyr_eventloop_remove_event"])
p("Two WebSockets over TCP are safe",
  "On both sides of a connection, whatever the network, the operating systems and the applications do: streams are not used against their rules, no memory is used after it was given back, descriptors are closed and close hooks called at most once. The bytes received are a beginning of those the other side's operating system accepted, and all of them once they have been carried over and read; a side that is told of the end of the stream got all of them and the other side has closed.",
  "all schedules, all networks that keep the order, all applications on both sides, all read buffers from 125 bytes",
  "two sides with several components and a network, over unbounded histories",
  ["lib/src/buffered_stream.c:run_read", "lib/src/platform/linux/socket.c:stream_read", "lib/src/platform/linux/socket.c:cio_socket_close", "lib/src/websocket.c:get_header"])
p("Close frames are legal frames",
  "cio_websocket_close and the answer to a close frame put one well-formed close frame on the wire, masked for clients, whose body is the status code in network byte order and the reason (of which at most 123 bytes). The close frames that the library sends for errors of its own have legal codes and a complete text and are accepted by this library on the other side.",
  "all status codes and reasons, both roles, all masks, both byte orders, all contents of the memory behind the reason",
  "all lengths of reasons and all codes",
  ["lib/src/websocket.c:prepare_close_job", "lib/src/websocket.c:send_frame", "lib/src/websocket.c:handle_error", "lib/src/websocket.c:handle_close_frame"])
p("Accepted connections leave nothing behind",
  "When a connection is accepted either the application's handler gets a new client with its open and registered descriptors, or it is told an error and nothing has changed. At every moment of an HTTP server's life a served client holds its descriptor and three timers, a client being closed its descriptor and one timer, and there is nothing else; nothing is closed or released twice; a client being closed can complete that and is then released; without clients exactly the descriptors of the beginning are left.",
  "all histories of connections, timeouts, errors and closes, all failures of system calls and memory allocation",
  "unbounded histories with failures at every point",
  ["lib/src/platform/linux/server_socket.c:accept_callback", "lib/src/http_server.c:handle_accept", "lib/src/http_server.c:notify_free_handler_and_close_stream"])
p("Initialisation on Linux is all or nothing",
  "Initialising an event loop, a timer, a socket or a server socket and serving with an HTTP server either succeeds, with new open descriptors that are registered as needed, or leaves no descriptor and no registration behind; destroying the loop and closing the timer undo their initialisation exactly.",
  "all failures of any of the system calls, all states before",
  "failures at every point",
  ["lib/src/platform/linux/epoll.c:cio_eventloop_init", "lib/src/platform/linux/timer.c:cio_timer_init", "lib/src/platform/linux/socket.c:cio_socket_init", "lib/src/platform/linux/server_socket.c:cio_server_socket_init", "lib/src/http_server.c:cio_http_server_serve"])
p("Whether the connection goes on behind a response is what was promised",
  "After a response written when the header has been read, the connection goes on exactly if the request asks for it, neither the server nor an error before decided otherwise, and the status is none of 400, 408 and 500; it is closed behind the response otherwise and never before it. A second response to a request is refused and changes nothing. After an early response the connection is closed as soon as the header has been read exactly if the request asks for that.",
  "all requests, statuses, bodies and states of the server",
  "all combinations",
  ["lib/src/http_server.c:write_response", "lib/src/http_server.c:on_headers_complete"])
p("The subprotocol of a WebSocket is one that both sides know",
  "The subprotocol chosen is the first entry of the client's list that the server supports; the entries before it are tokens the server does not support. If all entries are tokens, one is chosen exactly if there is a common one, and the request is refused otherwise.",
  "all header values, all lists of names of the server",
  "all header values of any length",
  ["lib/src/websocket_location_handler.c:check_websocket_protocol", "lib/src/websocket_location_handler.c:find_requested_sub_protocol", "lib/src/websocket_location_handler.c:handle_word"])
p("Addresses are what the operating system is told",
  "Inet addresses are accepted with exactly 4 or 16 bytes, kept unchanged, and a socket address made of one is understood by the operating system as exactly that address and port. Path names of 1 to 107 characters and abstract names of at most 107 are understood as exactly these names; longer ones are refused and nothing is changed.",
  "all addresses, ports and names, all contents of the memory before and behind them",
  "all contents and lengths",
  ["lib/src/platform/shared/inet_address_impl.c:cio_init_inet_address", "lib/src/platform/shared/socket_address_impl.c:cio_init_inet_socket_address", "lib/src/platform/linux/unix_address.c:cio_init_uds_socket_address"])
p("The arguments of a WebSocket's read handler are consistent",
  "The read handler is told of every data frame in one or more chunks: frame_length, last_frame and is_binary are the same for all chunks of a frame, the lengths of the chunks add up to frame_length, last_chunk is set at exactly the chunk that completes the frame, and an empty chunk is reported only for an empty frame. Between the chunks of a frame the application is told nothing else but a final failure. is_binary is the same for all frames of a message.",
  "all byte streams, all segmentations, both roles, all read buffers from 125 bytes, all failures of the transport, all schedules of the application asking for more",
  "unbounded streams and all ways of cutting them",
  ["lib/src/websocket.c:get_payload", "lib/src/websocket.c:handle_binary_frame", "lib/src/websocket.c:handle_text_frame", "lib/src/websocket.c:get_header", "lib/src/websocket.c:cio_websocket_read_message"])
p("The Autobahn echo server sends back what it was sent",
  "The echo server of autobahn/ never writes outside its buffer of 10240 bytes, never sends bytes of that buffer it has not received, keeps the rules of the chunk-wise write functions (a first chunk opens a frame, continuation chunks add up to its announced length, nothing else is begun before), and what it has written is a beginning of the data frames it was shown: same bytes, lengths, fragmentation and type. Once the frames of a client that keeps to RFC 6455 have arrived, all of them have been written.",
  "all clients, all frames of any lengths, all segmentations, all initial contents of the buffer",
  "unbounded streams, frames below, at and beyond the size of the buffer",
  ["autobahn/autobahn_server.c:read_handler", "autobahn/autobahn_server.c:write_complete", "autobahn/autobahn_server.c:alloc_autobahn_handler"])
p("On Linux the event loop, the sockets and the timers fit together",
  "The event loop calls a socket or a timer only while it is open and has asked for the event, and never through a write callback that was not set; all calls sockets and timers make to the event loop are for objects that are registered with it (and registered once). The close timer of a socket runs exactly while the socket waits for its peer to close, is only used in ways the timer allows, is closed with the socket, and its expiry always finds a socket that waits for it.",
  "all schedules, all numbers of operations, all failures of the system calls, all behaviours of callbacks",
  "unbounded histories of reentrant callbacks across three modules",
  ["lib/src/platform/linux/epoll.c:cio_eventloop_run", "lib/src/platform/linux/epoll.c:cio_linux_eventloop_remove", "lib/src/platform/linux/socket.c:close_socket", "lib/src/platform/linux/socket.c:shutdown_socket", "lib/src/platform/linux/socket.c:close_timeout_handler", "lib/src/platform/linux/timer.c:cio_timer_close"])
p("A listening socket of the Linux port accounts for every connection",
  "Every connection the operating system hands to a listening socket is reported to the accept handler at once, with a client for that connection or with an error; when the library is idle it has either been handed over or been closed, exactly once. After cio_server_socket_close the handler is not called any more, and the descriptor is closed and the close hook called once. From a successful cio_server_socket_accept until cio_server_socket_close the socket goes on accepting, whatever became of the connections before, and no memory is used after the close hook.",
  "all schedules, all numbers of connections, all failures of accept, allocation and initialisation, all behaviours of the accept handler",
  "unbounded histories",
  ["lib/src/platform/linux/server_socket.c:accept_callback", "lib/src/platform/linux/server_socket.c:cio_server_socket_accept", "lib/src/platform/linux/server_socket.c:cio_server_socket_close", "lib/src/platform/linux/epoll.c:cio_linux_eventloop_add"])
p("A WebSocket frame that is too long for the platform is refused, not truncated",
  "On a platform whose size_t has fewer than 64 bits: the read handler is never shown a part of a frame whose length is not representable; frames that fit are received exactly as on a 64 bit platform; a data frame whose announced length exceeds SIZE_MAX makes the connection fail with status 1009 as soon as its length has arrived, after everything sent before has been shown and without anything of it being shown, unless the connection has failed before over a text message, as it would on a 64 bit platform.",
  "all values of SIZE_MAX from 65535, all byte streams, all segmentations, both roles",
  "unbounded streams; frames of more than 4 GiB and platforms with a 32 bit size_t are not in the test suite",
  ["lib/src/websocket.c:get_length64", "lib/src/websocket.c:get_payload", "lib/src/websocket.c:read_payload", "lib/src/websocket.c:get_first_length"])
p("An HTTP request takes bounded time",
  "A connection to the HTTP server is never in between two requests for longer than read_header_timeout + read_body_timeout + response_timeout (plus the delay of the event loop, once for each of the three timers): within that time the server is ready for the next request or closes the connection, however slowly the client sends or reads and whatever the location handler does; sending bytes now and then does not extend it. Conversely the timers for the request do not cut off a client that sends the header within read_header_timeout of the server being ready and the body within read_body_timeout of the end of the header. (For requests that do not ask for an upgrade, clients that do not send two requests in one go, and location handlers that can be allocated and do not close the client in the response-written callback; a socket that lingers has no response to write: the conditions of C26.)",
  "all timeouts, all delays of the event loop, all timed interleavings of data, header fields, callbacks, handler behaviour, failing timers and failing or delayed writes",
  "unbounded keep-alive histories with arbitrary times; tests use a fake timer and never wait",
  ["lib/src/http_server.c:restart_read_request", "lib/src/http_server.c:on_headers_complete", "lib/src/http_server.c:write_response", "lib/src/http_server.c:client_timeout_handler", "lib/src/http_server.c:handle_accept", "lib/src/http_server.c:on_message_complete"])
p("On Linux the event loop, the listening sockets and the serial ports fit together",
  "The event loop calls a listening socket only while it is open and accepts connections, and a serial port only while it is open; a write callback is called only if a write of an open serial port waits for it, never for a listening socket. The read callback of a serial port is well-defined exactly if the user has started a read before. All calls listening sockets and serial ports make to the event loop are for objects that are registered with it (and registered once).",
  "all schedules, all numbers of operations, all failures of the system calls, all behaviours of callbacks",
  "the loop, its callbacks and the objects have to agree for every interleaving of events, calls and failures; tests replace the loop by a fake",
  ["lib/src/platform/linux/epoll.c:cio_eventloop_run", "lib/src/platform/linux/server_socket.c:cio_server_socket_accept", "lib/src/platform/linux/server_socket.c:cio_server_socket_close", "lib/src/platform/linux/uart.c:cio_uart_close", "lib/src/platform/linux/uart.c:stream_write"])
p("The echo server of the examples sends back what it receives",
  "What a client of the echo server of examples/socket_ping_pong.c (and examples/linux/uds_socket_ping_pong.c) gets back is always a beginning of what it has sent; when the server waits for more and everything that arrived has been handed to it, every complete unit (six bytes) has been sent back exactly once, byte by byte, and fewer than six bytes have not. Whenever control is back in the event loop the server waits for the client, for the socket to become writable, has closed the connection, or a write has failed. It closes the connection exactly if it is told that the client has closed or that reading failed, uses stream and socket within their rules, and releases every connection that is over.",
  "all clients, all ways in which the data arrives and sendmsg takes it, all schedules, all failures of the operating system; any unit size and any read buffer at least as large",
  "the example is a program without tests; whether bytes are lost or doubled depends on how the operating system cuts the stream on both ways",
  ["examples/socket_ping_pong.c:server_handle_read", "examples/socket_ping_pong.c:server_handle_write", "examples/socket_ping_pong.c:handle_accept", "examples/linux/uds_socket_ping_pong.c:server_handle_read", "lib/src/buffered_stream.c:cio_buffered_stream_read_at_least", "lib/src/buffered_stream.c:cio_buffered_stream_write", "lib/src/platform/linux/socket.c:stream_read", "lib/src/platform/linux/socket.c:stream_write"])
p("A binary message comes back from the echo server as it was sent",
  "An application that sends binary messages (any number of messages, frames and chunks, with pings in between) over the client side of a WebSocket of this library to the echo server of autobahn/ is shown exactly the data frames it has sent: the same bytes in the same order, in frames of the same lengths with the same fragmentation, once everything has arrived and both sides wait for more. The server never writes beyond its buffer on the way, and its calls can always be turned into legal frames.",
  "all sequences of frames and payloads (below 2^64 bytes), all masks, both byte orders, all ways in which the bytes are cut and arrive on both ways, all states of memory, all read buffers of at least 125 bytes, pongs anywhere between the frames",
  "the path goes through two senders, two receivers and the server's buffer; the ways of cutting two byte streams are not enumerable",
  ["autobahn/autobahn_server.c:read_handler", "lib/src/websocket.c:send_frame", "lib/src/websocket.c:cio_websocket_write_message_first_chunk", "lib/src/websocket.c:cio_websocket_write_message_continuation_chunk", "lib/src/buffered_stream.c:cio_buffered_stream_read_at_least"])
p("The echo server of examples/socket_echo.c sends back what it receives",
  "What a client of the echo server of examples/socket_echo.c gets back is always a beginning of what it has sent; when the server waits for more and everything that arrived has been handed to it, the client has got back all of it. Whenever control is back in the event loop the server waits for the client, for the socket to become writable, or has closed the connection. It closes the connection exactly if the client has closed, and never uses memory of a released connection.",
  "all clients, all amounts of data, all ways in which the data arrives and sendmsg takes it, all schedules, all failures of the operating system; any size of the read buffer",
  "the example is a program without tests; it works for short sessions and fails after a certain number of bytes in total, and depending on how the operating system takes the data",
  ["examples/socket_echo.c:handle_read", "examples/socket_echo.c:handle_write", "examples/socket_echo.c:handle_accept", "examples/socket_echo.c:alloc_echo_client", "lib/src/platform/linux/socket.c:read_callback", "lib/src/buffered_stream.c:cio_buffered_stream_write", "lib/include/cio/read_buffer.h:cio_read_buffer_consume"])
p("An HTTP client reads exactly the answers the server gave, in order",
  "On a connection that is kept open, a client that reads one response after the other (status line, header fields, as many bytes of body as Content-Length says) reads the answers the request handlers gave, in the order in which they were given, each once and with the status, header fields and body given; whatever part of the bytes has arrived, it reads a beginning of them, all that have arrived completely.",
  "all sequences of answers, all statuses, header lines and bodies (below 10^10 bytes), all ways in which sendmsg takes the data and the socket becomes writable, all parts of the data that may have arrived",
  "needs all ways of cutting the responses into pieces; a test with short responses on a local connection never sees a partial sendmsg",
  ["lib/src/http_server.c:write_response", "lib/src/http_server.c:start_response_header", "lib/src/buffered_stream.c:cio_buffered_stream_write", "lib/src/buffered_stream.c:handle_partial_writes", "lib/src/platform/linux/socket.c:stream_write"])
p("The example WebSocket server answers a message, says good bye and closes, and gives up a connection whose pings fail",
  "The program examples/websocket_server.c answers a message with \"Hello World!\", then closes the connection with the reason \"Good Bye!\"; it notices when the peer closes; a connection whose ping cannot be written is closed; and the write buffers it hands to the library exist as long as the library uses them.",
  "all executions of the program on a connection: all messages, pings, close frames and failures of the peer, all moments at which the ping timer expires or fails, all ways in which a write is done at once, later, with an error or refused",
  "needs all interleavings of timer, peer and transport; on a local connection every write succeeds at once",
  ["examples/websocket_server.c:on_connect", "examples/websocket_server.c:send_ping", "examples/websocket_server.c:ping_written", "examples/websocket_server.c:write_complete", "examples/websocket_server.c:read_handler", "lib/src/websocket.c:cio_websocket_close", "lib/src/websocket.c:cio_websocket_write_ping"])
p("The periodic timer example fires six times, at least five seconds apart, and ends",
  "The program examples/periodic_timer.c, which arms its timer again from the timer's own handler, prints \"timer expired!\" at most six times, the first time at least five seconds after the start and then at least five seconds after the message before; it then closes the timer, stops the event loop and ends; until then the timer is always running; it never calls a handler that is not there or uses a closed timer.",
  "all executions of the program: all moments at which the timer expires (also before cio_timer_expires_from_now has returned), all failures of the operating system, signals at any time; every wait time other than 0 and every number of expirations",
  "a test would have to wait for real time and cannot make a timer expire inside the call that arms it, nor make that call fail in the handler",
  ["examples/periodic_timer.c:handle_timeout", "examples/periodic_timer.c:main", "lib/src/platform/linux/timer.c:cio_timer_expires_from_now", "lib/src/platform/linux/timer.c:timer_read", "lib/src/platform/linux/timer.c:cio_timer_close"])
p("The example HTTP server answers every request and keeps serving",
  "The program examples/http_server.c answers every complete request for its location at once with 200, at most one response per request, and never switches protocols; whatever clients send, and whenever they stop sending or close, the server goes on serving the others: the server socket is not shut down, nothing undefined happens, every connection is closed and released at most once and what was allocated for it is freed.",
  "all executions of the program: any number of connections, all orders of events, every sequence of callbacks of the parser, all timeouts, all failures of the operating system",
  "a test plays a few clients one after the other; it cannot interleave any number of clients with every failure of the operating system, nor reset a connection at every point",
  ["examples/http_server.c:dummy_on_message_complete", "examples/http_server.c:serve_error", "examples/http_server.c:http_server_closed", "lib/src/http_server.c:handle_server_error", "lib/src/http_server.c:write_response", "lib/src/http_server.c:cio_http_server_shutdown"])
p("A Linux listening socket hands over or closes every connection, and is closed once",
  "Every connection the operating system hands to a listening socket of the Linux port is reported to the accept handler at once, with a client for exactly that connection or with an error; whenever the library is idle it has either been handed over or been closed, exactly once. After cio_server_socket_close no handler is called and no connection taken any more, and the descriptor is closed once and the close hook called once.",
  "all schedules, all numbers of connections, all failures of accept, allocation and initialisation, all behaviours of the accept handler, also those that break the rules of C94",
  "a test cannot let allocation, initialisation and accept fail in every combination while the accept handler closes the server at every point",
  ["lib/src/platform/linux/server_socket.c:accept_callback", "lib/src/platform/linux/server_socket.c:cio_server_socket_accept", "lib/src/platform/linux/server_socket.c:cio_server_socket_close"])
p("The settings of a Windows serial port are told truthfully",
  "On Windows a getter of a serial port (parity, stop bits, data bits, baud rate) returns a value exactly if that is what the port is set to, and never success together with an error; a setter that does not return success has changed nothing; a valid value is taken, unless Windows has no constant for it, which is refused; an error of the operating system is returned, with its sign changed; invalid values are refused without any change.",
  "all settings, all states of the port, all failures of the operating system",
  "a test needs a port in every state and cannot make GetCommState and SetCommState fail on demand",
  ["lib/src/platform/windows/uart.c:cio_uart_set_parity", "lib/src/platform/windows/uart.c:cio_uart_get_parity", "lib/src/platform/windows/uart.c:cio_uart_set_baud_rate", "lib/src/platform/windows/uart.c:cio_uart_get_baud_rate", "lib/src/platform/windows/uart.c:cio_uart_set_num_data_bits", "lib/src/platform/windows/uart.c:cio_uart_set_num_stop_bits"])
p("The list of serial ports on Windows is exact",
  "On Windows cio_uart_get_ports puts the serial ports of the system into the array, in the order of the system and as many as fit, leaves the other elements alone and reports how many there are; cio_uart_get_number_of_uarts is the number of elements needed for all of them; a failure that concerns all ports (no memory, no list of devices) is returned as an error, with the array unchanged; the list of devices is released exactly as often as it was obtained.",
  "all lists of devices, all registry contents, all array sizes, all failing system calls",
  "a test has the ports of one machine and cannot make the registry fail at every point",
  ["lib/src/platform/windows/uart.c:cio_uart_get_ports", "lib/src/platform/windows/uart.c:cio_uart_get_number_of_uarts"])
p("The example HTTP server answers every complete request at once",
  "On every connection of the program examples/http_server.c each complete request for its location is answered with 200 before anything else happens on the connection, or the timer for the response could not be armed and the error callback is called; there is at most one response per request; and the program never switches protocols, whatever it is asked.",
  "all executions of the program: any number of connections, all orders of events, every sequence of callbacks of the parser, all timeouts, all failures of the operating system",
  "a test plays a few clients; it cannot interleave any number of clients with every failure of the operating system",
  ["examples/http_server.c:dummy_on_message_complete", "lib/src/http_server.c:on_message_complete", "lib/src/http_server.c:write_response"])
p("The periodic timer example never fires too early or too often",
  "The program examples/periodic_timer.c prints \"timer expired!\" at most six times, the first time at least five seconds after the start and then at least five seconds after the message before, never calls a handler that is not there and never uses a closed timer; with the last message the event loop is cancelled and the timer is neither registered nor running any more.",
  "all executions of the program: all moments at which the timer expires (also before cio_timer_expires_from_now has returned), all failures of the operating system, signals at any time; every wait time other than 0 and every number of expirations",
  "a test would have to wait for real time and cannot make a timer expire inside the call that arms it",
  ["examples/periodic_timer.c:handle_timeout", "lib/src/platform/linux/timer.c:cio_timer_expires_from_now", "lib/src/platform/linux/timer.c:timer_read"])
p("Binary messages, pings and pongs arrive at the other application exactly as they were sent",
  "If one side writes a legal sequence of binary messages (in any number of frames, each frame in one or more chunks; the chunks of a client but the last are multiples of four bytes), pings and pongs, the application on the other side, reading through its buffered stream, is shown a beginning of exactly that sequence - the bytes of each message, the lengths, the ends of frames and messages, the payloads of pings and pongs - at every time, followed by a failure only if the transport failed; and all of it when all bytes have arrived and it waits for more.",
  "all payloads and their division into buffers and chunks, all masks and random seeds, both directions, both byte orders of the machines, all divisions of the byte stream into packets, all sizes of the read buffer from 125 bytes on, all failures of the transport",
  "a test sends a few messages in a few packets; the claim is about every payload and every division",
  ["lib/src/websocket.c:send_frame", "lib/src/websocket.c:get_header", "lib/src/websocket.c:get_payload", "lib/src/buffered_stream.c:cio_buffered_stream_read_at_least"])
p("A WebSocket closed by its user is given up after ten seconds at the latest",
  "Whenever control is back in the event loop after cio_websocket_close was accepted and before the close hook was called, the close timer is running, and when it expires the close hook is called exactly once, whatever the peer and the transport did or did not do in between.",
  "all histories of calls, frames, failures, completions of writes and timer expiries without undefined behaviour, also those that break the rules of C23",
  "a test cannot enumerate all interleavings of peer, transport and user before and after the close",
  ["lib/src/websocket.c:cio_websocket_close", "lib/src/websocket.c:close_timeout_handler", "lib/src/websocket.c:handle_close_frame"])
p("The echo server of the ping-pong example keeps to the rules and is never stuck",
  "The server of examples/socket_ping_pong.c uses buffered stream and socket within their rules in all executions; whenever control is back in the event loop it waits for the client with less than one unit unanswered, waits for the socket to become writable, has closed the connection, or a write has failed; and it closes the connection exactly if it is told that the client has closed or that reading failed.",
  "all clients, all ways in which the data arrives and sendmsg takes it, all schedules, all failures of the operating system; any unit size and any read buffer at least as large",
  "a test cannot split the data in every way and interleave it with every short write and failure",
  ["examples/socket_ping_pong.c:server_handle_read", "examples/socket_ping_pong.c:server_handle_write", "examples/linux/uds_socket_ping_pong.c:server_handle_read"])
p("The echo server of examples/socket_echo.c is memory safe and never stuck",
  "The program examples/socket_echo.c never uses memory of a released connection and never hands more than its 128 byte buffer to the client per connection as long as sendmsg takes what it is given; whenever control is back in the event loop it waits for the client, waits for the socket to become writable, has closed the connection, or reading or writing has failed.",
  "all clients, all amounts of data, all schedules, all failures of the operating system; any size of the read buffer",
  "a test cannot split the data in every way and interleave it with every short write and failure",
  ["examples/socket_echo.c:handle_read", "examples/socket_echo.c:handle_write"])
p("The client of the ping-pong example sends its greeting and then back what it was sent",
  "At any time, what the client of examples/socket_ping_pong.c has sent is a beginning of HELLO followed by the bytes the server sent; whenever control is back in the event loop, the client is reading and all that arrived was read, it has sent HELLO and then exactly the complete messages it was sent; and when it has closed and nothing failed it has sent exactly max_pings messages (one if max_pings is 0).",
  "all servers, all ways in which the data arrives and sendmsg takes it, all schedules; any greeting, any max_pings, any read buffer at least as large as the greeting",
  "a test cannot split the data in every way and interleave it with every short write and failure",
  ["examples/socket_ping_pong.c:client_handle_read", "examples/socket_ping_pong.c:client_handle_write", "examples/socket_ping_pong.c:handle_connect"])
p("The client of the ping-pong example keeps to the rules, counts right and is never stuck without a reason",
  "The client uses buffered stream and socket within their rules in all executions; whenever control is back in the event loop it waits for the server with less than one message unanswered, waits for the socket to become writable, has closed the connection, or a write has failed; it never reads more than max_pings messages (one if max_pings is 0) and each has the length of HELLO; it closes when it is told that reading failed, and closes only then, or if a write failed, or after max_pings messages; and when it has closed and nothing failed it has read exactly max_pings messages (one if max_pings is 0) and was told that as many were written.",
  "all servers, all ways in which the data arrives and sendmsg takes it, all schedules, all failures of the operating system; any greeting, any max_pings, any read buffer at least as large as the greeting",
  "a test cannot split the data in every way and interleave it with every short write and failure",
  ["examples/socket_ping_pong.c:client_handle_read", "examples/socket_ping_pong.c:client_handle_write", "examples/socket_ping_pong.c:handle_connect", "examples/linux/uds_socket_ping_pong.c:client_handle_read"])
p("Client and server of the ping-pong example play to the end",
  "If client and server of examples/socket_ping_pong.c are connected by a network, everything that is ever sent in either direction is HELLO over and over and every successful read on either side gives HELLO; client and server never both wait for the other; and when both have started, nothing failed and nothing happens by itself any more, the client has read HELLO exactly max_pings times (once if max_pings is 0) and closed, and each side has sent HELLO exactly that often.",
  "all delays and fragmentations by the network, all schedules of the two programs, all ways in which sendmsg and recv deliver; any greeting but the empty one, any max_pings, any read buffers at least as large as the greeting",
  "a test cannot enumerate the interleavings of two programs and a network",
  ["examples/socket_ping_pong.c:client_handle_read", "examples/socket_ping_pong.c:server_handle_read", "examples/socket_ping_pong.c:main"])
p("Whatever happens, client and server of the ping-pong example exchange nothing but greetings, never wait for each other, and play to the end",
  "If client and server of examples/socket_ping_pong.c are connected by a network, then in every execution everything that is ever sent in either direction is HELLO over and over and every successful read on either side gives HELLO; client and server never both wait for the other; the server never closes before the client unless a read fails; and when both have started, no read or write failed and nothing happens by itself any more, the client has read HELLO exactly max_pings times (once if max_pings is 0) and closed, and each side has sent whole HELLOs, at least that many.",
  "all delays and fragmentations by the network, all schedules of the two programs, all ways in which sendmsg and recv deliver, also those that make the library send a message twice (C15); any greeting but the empty one, any max_pings, any read buffers at least as large as the greeting",
  "a test cannot enumerate the interleavings of two programs and a network",
  ["examples/socket_ping_pong.c:client_handle_read", "examples/socket_ping_pong.c:server_handle_read", "lib/src/buffered_stream.c:handle_partial_writes"])
p("The example WebSocket server pings regularly, one ping at a time",
  "On every connection of examples/websocket_server.c a ping is sent when and only when the running ping timer expires, and each expiry on an open connection sends exactly one ping, which the library does not refuse; a further ping is begun only after the one before was written successfully, so that at most one ping is unfinished at any time; and as long as timers can be armed and do not fail and the connection has neither failed nor been closed, the timer runs or the latest ping is still to be written.",
  "all events on the connection: what the peer sends, when timers expire and fail, how the transport takes writes",
  "a test sees a few connections for a few seconds, and an overlap of pings needs a slow transport",
  ["examples/websocket_server.c:send_ping", "examples/websocket_server.c:ping_written", "examples/websocket_server.c:on_connect"])
p("The example HTTP server stops only for a reason, shuts down once per reason and takes no client afterwards",
  "The program examples/http_server.c ends only if it was sent a signal, accepting a connection failed, or an error was reported for a connection; cio_http_server_shutdown is called exactly once for each of these and never otherwise, and the event loop is cancelled exactly if there was one; after the first of them no client is accepted any more; until then every client that connects gets its connection; and a signal ends the program at any time.",
  "all executions of the program: any number of clients, all orders of events, all failures, signals at any time",
  "a test cannot enumerate the orders in which signals, errors and clients come",
  ["examples/http_server.c:sighandler", "examples/http_server.c:serve_error", "examples/http_server.c:http_server_closed", "lib/src/http_server.c:cio_http_server_shutdown"])
p("A write through a buffered stream never loses, reorders or mixes bytes, and its handler is called exactly once",
  "What the peer of a buffered stream over a Linux socket gets is what the application's writes put on the wire, one after the other and nothing else; each write has at any time put a beginning of its bytes, or of two copies of its bytes, on the wire; if success is reported it is exactly the bytes or exactly two copies, and which of the two is determined by the first sendmsg alone; the handler of a write is called exactly once when the write is over and not before, except that it is not called at all, and nothing is written, if cio_buffered_stream_write itself returned the error.",
  "all buffer chains, all short, refused and failing writes, all interleavings with reads, arriving data and closing",
  "a test cannot enumerate how the operating system splits the writes of a chain and what happens in between",
  ["lib/src/buffered_stream.c:cio_buffered_stream_write", "lib/src/buffered_stream.c:handle_first_write", "lib/src/buffered_stream.c:handle_partial_writes", "lib/src/buffered_stream.c:handle_write"])
p("The echo server returns every unit in order, each once or twice, whatever the operating system does with its sends",
  "At any time, what a client of the echo server of examples/socket_ping_pong.c (and examples/linux/uds_socket_ping_pong.c) gets back are its own units (six bytes each) in the order in which it sent them, none left out and none changed, each once or twice, followed by a beginning of one or two copies of its next unit; when the server waits for more and everything that arrived has been handed to it, they are all complete units it has sent.",
  "all clients, all ways in which the data arrives and sendmsg takes it, all schedules and failures; any unit size and any read buffer at least as large",
  "a test cannot enumerate how the operating system splits and refuses sends",
  ["examples/socket_ping_pong.c:server_handle_read", "examples/socket_ping_pong.c:server_handle_write", "lib/src/buffered_stream.c:handle_first_write"])
p("The ping-pong client sends its greeting and then every message it got, in order, each once or twice, whatever the operating system does with its sends",
  "At any time, what the client of examples/socket_ping_pong.c has sent is its greeting and then the messages it was sent, in order, none left out and none changed, each once or twice, followed by a beginning of one or two copies of the next message; and if nothing failed, a client that has closed has sent exactly max_pings messages (one if max_pings is 0), the first of them the greeting, each once or twice.",
  "all servers, all ways in which the data arrives and sendmsg takes it, all schedules; any greeting, any max_pings, any read buffer at least as large as the greeting",
  "a test cannot enumerate how the operating system splits and refuses sends",
  ["examples/socket_ping_pong.c:client_handle_read", "examples/socket_ping_pong.c:client_handle_write", "examples/socket_ping_pong.c:handle_connect", "lib/src/buffered_stream.c:handle_first_write"])
p("An HTTP client never reads an answer that was not given, whatever part of the bytes has arrived",
  "On a connection that is kept open, whatever part of what the server has sent has arrived and however the operating system split the sends, a client that reads one response after the other reads a beginning of the answers the request handlers gave, in the order in which they were given, none left out, each with the status, header fields and body given, and each once or twice, which of the two depending on the first sendmsg of its write alone.",
  "all sequences of answers, all statuses, header lines and bodies (below 10^10 bytes), all ways in which sendmsg takes the data, all parts of the data that may have arrived; all writes but the last reported as successful",
  "a test cannot enumerate how the operating system splits the writes of a response and what has arrived",
  ["lib/src/http_server.c:write_response", "lib/src/buffered_stream.c:handle_first_write", "lib/src/buffered_stream.c:handle_partial_writes"])
p("The connect example reports one result, ends for a reason and closes its socket once",
  "The program examples/socket_connect.c is told the result of its connection attempt at most once, uses its socket without undefined behaviour until it closes it, comes to its end only if the attempt was answered or refused, a signal arrived or the event loop failed, goes on to its end as soon as the loop looks after an answer or a signal, fails exactly if connecting could not be begun or the loop failed, and closes its socket exactly once.",
  "all executions of the program: all answers of connect, epoll and the other system calls, all events, signals at any time",
  "a test cannot enumerate when answers, signals and the events of closing come",
  ["examples/socket_connect.c:handle_connect", "examples/socket_connect.c:main", "lib/src/platform/linux/socket.c:cio_socket_close", "lib/src/platform/linux/socket.c:cio_socket_connect"])
p("The two connects example: one client after the other, each greets once and closes, and the program ends for a reason",
  "In the program examples/socket_two_connects.c the second client is started only when, and as soon as, the first one has closed its socket and its close hook was called; each client makes at most one write, of the greeting, and closes its socket afterwards, at most once; a client that could not be connected sends nothing and closes; the server reads nothing but whole greetings, closes a connection exactly if it is told of its end or of an error, and when the write of a client was successful and the server is told of the end it has read the greeting exactly once; neither side is left behind: whenever control is back in the event loop it waits for something that makes it go on, or it has closed; and the event loop ends only after a signal, if the second client could not be started, or when the second client's socket was closed, and then it does end.",
  "all executions of both clients, the server and the program: all interleavings, all greetings, all answers of connect, sendmsg, recv and the other system calls within the rules of the operating system, all splittings of the data by the network, signals at any time",
  "a test cannot enumerate the interleavings of two connections, a server, timers and signals",
  ["examples/socket_two_connects.c:handle_connect", "examples/socket_two_connects.c:client_handle_write", "examples/socket_two_connects.c:client_socket_close_hook", "examples/socket_two_connects.c:second_client_socket_close_hook", "examples/socket_two_connects.c:server_handle_read", "examples/socket_two_connects.c:handle_accept"])
p("The UART ping-pong example plays, and gives back what it takes",
  "The program examples/uart_ping_pong.c finds its two ports by name exactly if they are there, sets up both clients and comes to its event loop if nothing fails; and whenever it returns it has destroyed the event loop, closed every port it has opened, exactly once, and freed all memory it took, nothing before it was taken and no port's memory while the port is open.",
  "all answers of everything the program calls: all numbers and names of ports, all failures",
  "a test would need a system call to fail in every place, and two serial ports",
  ["examples/uart_ping_pong.c:main", "examples/uart_ping_pong.c:detect_uart", "examples/uart_ping_pong.c:setup_uart", "examples/uart_ping_pong.c:setup_client"])
p("Exactly which messages between two WebSockets arrive twice",
  "Two WebSockets, each on a buffered stream on a Linux socket, the sockets connected to each other. Of whole binary messages, pings and pongs, each passed to the stream in one write, the application of the other side has at any time been shown a beginning of what was sent, in order, nothing altered or left out, each one once or twice; a message comes twice exactly if the first sendmsg for it accepted neither everything nor less than what comes before its last buffer; when everything written so far has arrived and was read, all of it has been shown; it can arrive and be read without the sender doing anything more; and if the connection ends normally, all of it has been shown before the end. Of messages in several frames the same holds for the frames, as far as the repeated ones keep to RFC 6455: after a repeated first or last frame of such a message the connection fails with status 1002. With text, when everything has arrived and was read, all of it has been shown exactly if the text, repetitions included, is well-formed UTF-8 as far as it goes and no piece read from the socket ends within a character of a final frame.",
  "all sequences of frames without a close frame, all masks, all packets and delays of the network, all short reads and writes, all schedules of the two sides, all buffer sizes from 125 bytes",
  "which messages are repeated depends on how many bytes each sendmsg accepts; a test sees a few of these numbers",
  ["lib/src/websocket.c:send_frame", "lib/src/websocket.c:get_header", "lib/src/buffered_stream.c:handle_first_write", "lib/src/buffered_stream.c:handle_partial_writes", "lib/src/platform/linux/socket.c:stream_write"])
#MORE
if __name__=="__main__":
    with open("/verif/properties.jsonl","w") as f:
        for x in P: f.write(json.dumps(x)+"\n")
    print(len(P))
