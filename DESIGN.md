# A Lean 4 model of gatzka/cio

## 1. Method

* `/repo/lib` is a C library for asynchronous I/O (event loop, timers, sockets, buffered
  streams, WebSocket, HTTP server, UART).  The model is written by hand from the source; each
  definition cites file and lines.  Nothing of the C code is executed here.
* Layout of `lean/Verif/`:
  * `X.lean` (or `X/Model.lean`) – the model of one translation unit, one Lean definition per C function
    where possible;
  * `X/Spec.lean` – a short independent specification (RFC grammar, list operations, ...);
  * `X/Lemmas.lean` – helper lemmas;
  * `X/Props.lean` – the property theorems, each with a non-vacuity `example`.
* Undefined behaviour of C (NULL dereference, out-of-bounds reads, use after free) is an explicit outcome
  in the model (`none`, `.ub`, or a dedicated `fault` flag) wherever the C code does not exclude it itself.
* Platform: the Linux port, LP64 (`size_t`, `uint_fast32_t` 64 bit, `uint_fast8_t`/`uint_fast16_t` 8/64 bit).

## 2. Per-property plan

| id | modelled | proof |
|----|----------|-------|
| C01 | `UTF8D` table verbatim, `decode`, `cio_check_utf8` | table walk related to RFC 3629 grammar by a state-language invariant, finite table facts by `decide +kernel` |
| C02 | pre/main/post loops with address parameter | induction, loops = one fold, append law; `Utf8.AnyMachine` for any word size |
| C03 | `cio_websocket_mask` on memory with an address, 8-byte words | loops = bytewise spec; `Masking.AnyMachine` for any word size and byte order, with the aligned accesses |
| C04 | `mask_write_buffer`, `rotate_mask`, `correct_mask`, chunks of `send_frame` | induction over the chain; the multi-chunk claim is false of the code (finding 3): negation + `_partial` |
| C05 | `cio_b64_encode_buffer` on lists | decode∘encode by strong induction |
| C06 | `sha1.c` on `BitVec 32`, context structure | refinement to FIPS-180 padding + compression spec |
| C07 | `random.c` PCG32 on `BitVec 64` | induction; append law |
| C08 | shared `cio_memmem` on lists | loop invariant |
| C09 | linux `endian.c` on little-endian memory | `BitVec` algebra |
| C10, C11 | pointer heap with `next`/`prev` links, all functions of `write_buffer.h` | representation predicate, refinement to lists |
| C12–C14 | `read_buffer.h` and read half of `buffered_stream.c`, transport as an oracle stream | step invariant, induction over runs |
| C15, C16 | write half of `buffered_stream.c` | induction over short writes; full claim false (findings 8, 9): negations + `_partial` |
| C17 | `send_frame` header construction | independent RFC 6455 decoder, round trip |
| C18, C19 | receive state machine of `websocket.c` over the buffered-stream contract | refinement to an RFC frame parser |
| C20 | `handle_text_frame` | full claim false (finding 2): negation + `_partial` |
| C21–C24 | control frames, close handshake, write-job queue | state-machine invariants; findings 1, 4–7; C21 (WsQueue/Pong*): invariant "answers sent followed by the answer still in the pong job = right answers to the pings that arrived", then the same for the bytes in `ping_buffer` |
| C25 | `location_match`, `find_location` | induction on the location list |
| C26 | lifecycle state machine of one HTTP client | invariants over event histories |
| C27–C29 | `websocket_location_handler.c` | scanners = token specification |
| C30, C31 | `timer.c` | state machine over histories; finding 12 |
| C32 | `epoll.c` | dispatch loop with callbacks as arbitrary operation lists |
| C33 | `socket.c` | state machine; finding 10 |
| C34 | `uart.c` setters/getters | `BitVec 32` case analysis; finding 11 |
| C35 | `write_response` | decimal rendering round trip |
| C36 | the checks at the start of 27 entry points, with NULL dereference as an outcome | case analysis over all argument combinations |
| C37 | `unix_address.c`, `inet_address_impl.c`, byte for byte | list arithmetic, byte order round trip |
| C38 | `cio_write_buffer_is_last_element` on the node heap | representation predicate; false as named (finding 15) |
| C39 | the pending read of `buffered_stream.c` | part of the step invariant of C12–C14 |
| C40 | `uart.c` I/O as a small-step machine | invariant over all moves; negations for findings 11, 24 |
| C41 | `cio_uart_init` on flag words | bitwise case analysis; finding 24 |
| C42, C43 | acquisition and failure paths of event loop, timer, socket, server socket, HTTP server; system calls answered arbitrarily | ledger of descriptors, registrations and memory, invariant by induction over histories |
| C44 | `parse`, `finish_*`, the read function chosen by them, with http_parser as a stream of callbacks | simulation of the segmented run by the unsegmented one; false in general (findings 30, 54) |
| C45 | composition of WsQueue, WsSend, Masking, WsRecv | legality of the sent sequence by invariant; header/payload round trip by induction over the frames; `WsStream/RoundTrip` carries the result through the receiver's buffered stream for every way the network cuts the bytes into packets |
| C46 | WsClose (`prepare_close_job`, `cio_websocket_close`, the answer of `handle_close_frame`), composed with WsSend and WsRecv | bytes of the buffer by extensionality; frame and handshake by composition with C17 and C22 |
| C47 (and C18–C21 over the real stream) | WsStream: the handlers of WsRecv run by the BufferedRead machine, with oracles for the delays of application and pongs | invariant: what has been shown plus what the bytes in the buffer still give is what WsRecv shows for the pieces delivered; measure for coming to rest |
| C48 | Zephyr/Loop: queue of ten messages, thread of the loop, interrupts at any point (also between the steps of a cancellation) | invariants over all histories, three strengths of rules |
| C49 | Zephyr/Timer: one timer, its kernel timer and its events in the queue, handlers as stack items | invariant linking the state with the history |
| C50 | Zephyr/Socket: one socket with its single notifier, reports of the network stack at any time | invariant with the operation under way as ghost; byte streams by a second invariant |
| C51 | Zephyr/Accept: one server socket, connections at any time | invariant with the connection under way as ghost |
| C52 | Zephyr/Misc | direct |
| C53 | Windows/Loop: completion port as a queue, packets and cancellations of other threads at any point | invariants over all histories |
| C54 | Windows/Timer: one timer, the timer queue, the thread of the pool between taking the timer out and posting the packet, handlers as stack items | invariant linking the state with the history |
| C55 | Windows/Socket: one socket, two `OVERLAPPED`s, results of winsock at any time, packets in any order | invariant per `OVERLAPPED` and over the history; byte streams by a second invariant |
| C56 | Windows/Accept: one server socket, descriptors numbered, connections and failures at any time | invariant with the descriptors in the hands of the server as ghost |
| C57 | Windows/Uart: the `DCB` as a record, each setter and getter, failures as parameters | case analysis over settings, induction over histories |
| C58 | Windows/Uart `init`: trace of what is done with memory and handle for every combination of failures | case analysis |
| C59 | Windows/UartIo: one port, two `OVERLAPPED`s, results at any time; the copy loop of the write | refinement to the machine of C55 |
| C60 | Windows/Misc: entropy functions of Linux and Windows over an arbitrary source | direct |
| C61 | HttpChunks/Upgrade (`parse` of a connection with an upgrade request and bytes behind it) and WsStream/Handover (the WebSocket starts on the same read buffer) | invariant over all segmentations, composed with C47 |
| C62 | Uart/Ports (Linux: directory, readlink, realpath as parameters, string functions on byte buffers), Windows/Ports (registry as parameter, trace of keys and memory) | induction over the entries, against a specification by `filter`/`take` |
| C63 | HttpLife (Error.lean): after the error the parser is dead, the request incomplete, and no parser callback on the stack | two invariants over all executions (without the rules of C26) |
| C64 | HttpUrl: `on_url` with the parsed URL as input, callbacks as an arbitrary function of all calls so far; `http_location_handler.c` | refinement to "the wanted calls up to the first that stops"; composed with C25 |
| C65 | StreamSocket: product of BufferedRead, BufferedWrite and the Linux Socket; the stream's `read_some`, `write_some` and `close` are the socket's moves, the socket's handler calls are the stream's events | invariant of the product (the socket is in a state reachable within its rules, what the stream received is what the socket delivered, outgoing bytes = wires of the writes); then the theorems of the parts |
| C66 | WsTcp: two sides, each a StreamSocket whose read handler is the WebSocket of WsStream, and a network that carries the bytes the operating system has accepted in order, in pieces, at any time | each side is an execution of StreamSocket and of WsStream (proper use of the stream is derived, not assumed); invariant of the network (what has arrived is a beginning of what was accepted, the end after everything); then the round trip of C45; progress by a measure on the bytes not read yet, using that legal frames never make a WebSocket stop |
| C67 | Epoll: the eventfd is notifier 0; what the operating system promises about it (`StopTruthful`) is a hypothesis on the log | every run is a sequence of rounds (one wait, then callbacks, by induction over the reports of epoll_wait), the loop stops exactly in the round that reports the eventfd; running again is refuted by an execution |
| C68 | WsQueue, as for C23; the observations are the accepted close, `on_error`, the close hook and the callbacks of the transport | closing by the user: invariant for all executions (timer armed or `close` on the stack); peer's close and failure: position of the close frame in the queue as a measure that each completion decreases; a third invariant shows that nothing but a completion ends these states |
| C69 | the models of the cited theorems (a part of an earlier row that holds without exception) | induction over the chain, key rotated by the length (`Masking.mask_write_buffer_correct`) |
| C70 | the models of the cited theorems (a part of an earlier row that holds without exception) | invariant relating the checker state to the open message (`WsRecv.text_messages_wellformed`, `WsRecv.illformed_text_rejected`, `WsStream.stream_texts_wellformed`) |
| C71 | the models of the cited theorems (a part of an earlier row that holds without exception) | simulation of the byte-wise specification (`WsRecv.binary_received_as_specified`, `WsRecv.binary_frames_delivered`, `WsStream.stream_binary_received`) |
| C72 | the models of the cited theorems (a part of an earlier row that holds without exception) | case analysis over the code ranges (`WsRecv.close_status_codes`) |
| C73 | the models of the cited theorems (a part of an earlier row that holds without exception) | product invariant of the two models (`StreamSocket.reads_what_peer_sent`, `StreamSocket.read_errors_truthful`, `StreamSocket.socket_used_properly`) |
| C74 | the models of the cited theorems (a part of an earlier row that holds without exception) | induction over the batches (`Epoll.returns_only_when_cancelled`, `Epoll.cancel_ends_loop`) |
| C75 | the models of the cited theorems (a part of an earlier row that holds without exception) | case analysis (`Entropy.linux_complete`, `Entropy.getentropy_honest`) |
| C76 | the models of the cited theorems (a part of an earlier row that holds without exception) | induction over the directory (`Uart.Ports.ports_exact`, `Uart.Ports.ports_found`, `Uart.Ports.number_exact`, `Uart.Ports.directory_closed`) |
| C77 | the models of the cited theorems (a part of an earlier row that holds without exception) | invariant over the history of a connection (`HttpLife.one_response_per_request`, `HttpLife.no_callback_after_response`) |
| C78 | the models of the cited theorems (a part of an earlier row that holds without exception) | invariant of the states behind the error (`HttpLife.error_is_final`) |
| C79 | the models of the cited theorems (a part of an earlier row that holds without exception) | case analysis over the calls (`Windows.Uart.init_success`, `Windows.Uart.init_failure`) |
| C80 | the models of the cited theorems (a part of an earlier row that holds without exception) | bit-vector case analysis over the masks (`Uart.getters_truthful`, `Uart.getter_errors`, `Uart.getter_errors_real`, `Uart.set_failed`, `Uart.invalid_refused`) |
| C81 | the models of the cited theorems (a part of an earlier row that holds without exception) | invariants over all histories (`Uart.Io.bytes_exact`, `Uart.Io.write_once`, `Uart.Io.closed_silent`, `Uart.Io.write_count_exact`) |
| C82 | the models of the cited theorems (a part of an earlier row that holds without exception) | induction over the run (`HttpChunks.bytes_in_order`) |
| C83 | the models of the cited theorems (a part of an earlier row that holds without exception) | invariant over all histories (`Zephyr.Loop.dispatched_in_order`) |
| C84 | the models of the cited theorems (a part of an earlier row that holds without exception) | product invariant (`WsTcp.both_sides_safe`, `WsTcp.received_is_sent`, `WsTcp.end_is_true`) |
| C85 | the models of the cited theorems (a part of an earlier row that holds without exception) | frame encoding lemmas (`WsClose.close_on_wire`, `WsClose.reply_on_wire`, `WsClose.own_closes_understood`) |
| C86 | the models of the cited theorems (a part of an earlier row that holds without exception) | invariant over all histories (`Resources.accept_hands_over_or_cleans_up`, `Resources.server_resources`, `Resources.nothing_left`, `Resources.closing_completes`) |
| C87 | the models of the cited theorems (a part of an earlier row that holds without exception) | case analysis over the answers (`Resources.eventloop_init_all_or_nothing`, `Resources.timer_init_all_or_nothing`, `Resources.socket_init_all_or_nothing`, `Resources.server_socket_init_all_or_nothing`, `Resources.serve_all_or_nothing`) |
| C88 | the models of the cited theorems (a part of an earlier row that holds without exception) | case analysis (`HttpResponse.keepalive_truthful`, `HttpResponse.second_response_refused`, `HttpResponse.early_response_closes`) |
| C89 | the models of the cited theorems (a part of an earlier row that holds without exception) | induction over the list (`WsHandshake.choose_spec`, `WsHandshake.protocol_search`, `WsHandshake.common_protocol`) |
| C90 | the models of the cited theorems (a part of an earlier row that holds without exception) | case analysis over the lengths (`Address.uds_file`, `Address.uds_abstract`, `Address.inet_exact`, `Address.inet_socket_address`, `Address.any_is_zero`) |
| C91 | `WsRecv`, `WsStream` | an acceptor of call sequences simulates the state machine; what it accepts is `Consistent` (`WsRecv.read_handler_arguments`, `WsStream.stream_read_handler_arguments`) |
| C92 | `Autobahn` on top of `WsStream` | invariant between buffer index, open frame and calls, over the consistent arguments of C91 (`Autobahn.echoes`, `Autobahn.frames_come_back`) |
| C93 | `Linux` (`Objects`, `CloseTimer`): the models of `epoll.c`, `socket.c` and `timer.c` run together | simulation: the log of the object determines the calls it makes to the loop; invariant between the registration in the loop and the state of the object (`Linux.socket_read_callback`, `Linux.socket_write_callback`, `Linux.socket_calls_legal`, `Linux.timer_read_callback`, `Linux.timer_no_write_callback`, `Linux.timer_calls_legal`, `Linux.CloseTimer.timer_as_socket_says`, `Linux.CloseTimer.timer_calls_possible`, `Linux.CloseTimer.expiry_expected`) |
| C94 | `Linux/Server`: small-step machine of `server_socket.c` with the registration in the loop | invariant over the log; negations by concrete runs (`Linux.Server.connections_accounted`, `Linux.Server.closed_once`, `Linux.Server.goes_on_accepting_partial`, `Linux.Server.second_accept_makes_deaf`, `Linux.Server.deaf_for_ever`, `Linux.Server.close_on_error_used`) |
| C95 | `WsRecv/Word`: the receiver with `SIZE_MAX` as a parameter | simulation by the 64 bit receiver up to the refusal; the stream continued with junk shows where the refusal happened (`WsRecv.lengths_fit`, `WsRecv.fitting_frames_as_before`, `WsRecv.fitting_frames_delivered`, `WsRecv.oversized_frame_refused`, `WsRecv.oversized_frame_refused_text`) |
| C96 | `HttpLife/Timed`: the connection of C26 with deadlines of both timers and a clock | invariant between deadlines, phase of the request and time; every step is ordinary, makes the server ready, or arms the timer for the body (`HttpLife.request_takes_bounded_time`, `HttpLife.request_not_cut_short`, `HttpLife.time_passes`, `HttpLife.idle_is_supervised`, `HttpLife.timeout_acts`, `HttpLife.example_slow_client`, `HttpLife.example_trickle`) |
| C97 | `Linux` (`Others`): the models of `epoll.c`, `server_socket.c` and `uart.c` run together | as C93: invariant between the registrations in the log of the loop and the state of the object (`Linux.uart_read_callback`, `Linux.uart_write_callback`, `Linux.uart_calls_legal`, `Linux.server_read_callback`, `Linux.server_no_write_callback`, `Linux.server_calls_legal`) |
| C98 | `Echo`: the program of the example over the product of buffered stream and Linux socket (`StreamSocket`) | invariant between the phase of the program and the stream; then C65 (`Echo.proper_user`, `Echo.echoes_partial`, `Echo.echoes_all_partial`, `Echo.at_rest`, `Echo.closes_on_error`, `Echo.bytes_echoed_twice`, `Echo.failed_write_forgotten`, `Echo.forgotten_connection`) |
| C99 | `WsSend`, `Masking`, `WsStream` on both ways and the program of autobahn_server.c (`Autobahn`) | composition of C45 (twice) and C92; `Sends` relates the server's calls and the frames of its library (`Autobahn.message_comes_back`) |
| C100 | `PlainEcho`: the program of the example over the model of the Linux socket and of buffered writing | invariant between the phase of the program, the read buffer, the writes and the socket (`PlainEcho.echoes_partial`, `PlainEcho.echoes_all_partial`, `PlainEcho.at_rest`, `PlainEcho.closes_partial`, `PlainEcho.memory_safe`, `PlainEcho.never_more_than_size`, `PlainEcho.full_buffer_is_end`, `PlainEcho.closed_after_128`, `PlainEcho.bytes_echoed_twice`, `PlainEcho.failure_forgotten`, `PlainEcho.forgotten_connection`) |
| C101 | `HttpResponse` composed with `StreamSocket`; the reader of the specification is an HTTP/1.1 reader after RFC 7230 | the reader does not depend on where the data ends (induction); exact effect of a buffered write; composition (`HttpTcp.client_reads_partial`, `HttpTcp.client_reads_exactly`, `HttpTcp.wrong_answer`, `HttpTcp.wrong_answer_reachable`, `HttpTcp.reply_is`, `HttpTcp.responses_prefix`) |
| C102 | `WsExample`: the program as a deterministic client of `WsQueue`; the environment chooses everything else | refinement to the rules of use of `WsQueue` (`Reach`), invariants over steps (`WsExample.message_answered`, `WsExample.at_most_one_hello_partial`, `WsExample.never_says_good_bye`, `WsExample.deaf_after_hello_partial`, `WsExample.never_closed_after_hello`, `WsExample.frozen`, `WsExample.kept_for_ever`, `WsExample.no_timer_no_service`, `WsExample.dangling_reachable`, `WsExample.not_dangling_partial`) |
| C103 | `Periodic`: the program over the model `Timer`, with a clock: the kernel lets a timer expire at its time or later | invariant over all steps; for the end, a continuation is built by induction on the messages that are left (`Periodic.messages_spaced`, `Periodic.last_message_ends`, `Periodic.finishes_partial`, `Periodic.never_idle_partial`, `Periodic.ends_only_when_done_partial`, `Periodic.arming_failed_hangs`, `Periodic.ends_with_open_timer`) |
| C104 | `HttpExample`: the program over the model `HttpLife`, any number of connections, with `on_error` and the shut-down of the server | invariants per connection lifted to the program by induction over its steps; for the negative part, a run built from an arbitrary state (`HttpExample.every_request_is_answered`, `HttpExample.never_upgrades`, `HttpExample.one_response_per_request`, `HttpExample.keeps_serving_partial`, `HttpExample.one_reset_stops_the_server`, `HttpExample.pipelining_stops_the_server`, `HttpExample.two_failures_shut_down_twice`, `HttpExample.one_failure_shuts_down_twice`, `HttpExample.slow_client_closed_twice`) |
| C105 | `Linux.Server` (C94) | invariant over all steps, no rule assumed (`Linux.Server.connections_accounted`, `Linux.Server.closed_once`, `Linux.Server.outcome_reported`) |
| C106 | `Windows.Uart` (C57) | case analysis over all settings, for every state of the port (`Windows.Uart.getters_truthful`, `Windows.Uart.getter_errors`, `Windows.Uart.set_failed`, `Windows.Uart.set_taken`, `Windows.Uart.errors_returned`, `Windows.Uart.invalid_refused`) |
| C107 | `Windows.Ports` (C62) | induction over the list of devices (`Windows.Ports.ports_exact`, `Windows.Ports.errors_reported`, `Windows.Ports.number_exact`, `Windows.Ports.list_destroyed`) |
| C108 | `HttpExample` (C104) | invariant of a connection, lifted to the program by induction over its steps (`HttpExample.every_request_is_answered`, `HttpExample.never_upgrades`, `HttpExample.one_response_per_request`) |
| C109 | `Periodic` (C103) | invariant over all steps (`Periodic.messages_spaced`, `Periodic.last_message_ends`) |
| C110 | `WsRoundTrip`, `WsStream` (C45) | the sender's bytes are decoded by the receiver's model: induction over frames; independence of segmentation by C71 (`WsRoundTrip.binary_round_trip`, `WsStream.binary_sent_is_seen`) |
| C111 | `WsQueue` (C23, C68) | invariant: asked to close and not closed implies the timer runs (`WsQueue.user_close_supervised`) |
| C112 | `Echo` (C98) | invariant of the program over `StreamSocket` (`Echo.proper_user`, `Echo.at_rest`, `Echo.closes_on_error`) |
| C113 | `PlainEcho` (C100) | invariant of the program over `Socket` and `BufferedWrite` (`PlainEcho.memory_safe`, `PlainEcho.at_rest`, `PlainEcho.never_more_than_size`) |
| C114 | `PingPong`: the client as a program over `StreamSocket` | invariant relating what was written, consumed and counted (`PingPong.sends_partial`, `PingPong.sends_all_partial`, `PingPong.finished_sent_partial`, `PingPong.greeting_sent_twice`, `PingPong.client_hangs`) |
| C115 | `PingPong` (C114) | the invariant of C114 (`PingPong.proper_user`, `PingPong.at_rest`, `PingPong.never_too_many`, `PingPong.closes_only`, `PingPong.closes_on_error`, `PingPong.finished`) |
| C116 | `PingPong.Together`: client, server and network | each side by its invariant (C98, C114); what one side got is a beginning of what the other sent (`PingPong.only_greetings_partial`, `PingPong.no_deadlock_partial`, `PingPong.server_stays`, `PingPong.finishes_partial`, `PingPong.greetings_doubled`) |
| C117 | `PingPong.Together` (C116) and C15 | every write puts the greeting on the wire once or twice; induction over the joint execution (`PingPong.only_greetings`, `PingPong.no_deadlock`, `PingPong.server_stays`, `PingPong.finishes`) |
| C118 | `WsExample` (C102) | an invariant over the events: every handler belongs to the call it was given with, the ping job is free while the timer runs (`WsExample.one_ping_at_a_time`, `WsExample.expiry_pings`, `WsExample.only_expiry_pings`, `WsExample.pings_go_on`) |
| C119 | `HttpExample` (C104) | accounting by induction over the execution; the log of a connection only grows (`HttpExample.shut_down_once_per_reason`, `HttpExample.ends_only_for_a_reason`, `HttpExample.no_client_after_shutdown`, `HttpExample.signal_ends`) |
| C120 | `BufferedWrite` and `StreamSocket` (C15, C65) | invariants over the answers of the transport, lifted to all executions of the composed system (`BufferedWrite.handler_exactly_once`, `StreamSocket.writes_exact`, `StreamSocket.all_successful_exact`) |
| C121 | `Echo` (C98) on `StreamSocket` | C120 applied to the invariant of C98; each write is one unit by induction (`Echo.echoes_once_or_twice`, `Echo.echoes_all_once_or_twice`, `Echo.asks_units`) |
| C122 | `PingPong` (C114) on `StreamSocket` | C120 applied to the invariant of C114 (`PingPong.sends_once_or_twice`, `PingPong.finished_once_or_twice`) |
| C123 | `HttpTcp` (C101) on `StreamSocket` | the pieces of which what was sent is a beginning, and the reader of the specification on them (`HttpTcp.client_reads_copies`, `HttpTcp.only_given_answers`, `HttpTcp.client_reads_exactly`) |
| C124 | `ConnectExample` on `Socket` (C33) | invariant of the program by induction over its steps (`ConnectExample.one_answer`, `ConnectExample.ends_only`, `ConnectExample.goes_on`, `ConnectExample.exit_status`, `ConnectExample.closes_once_partial`, `ConnectExample.answered_closes_twice`, `ConnectExample.descriptor_closed_twice`, `ConnectExample.descriptor_never_closed`) |
| C125 | `TwoConnects` on `StreamSocket` (C60-C65): both clients, the server's side of both connections, the network between them, the close hooks and the cancelling of the loop | invariants of client and server by induction over the joint executions; the network keeps what arrived a beginning of what was sent; the program's counters by induction over its executions (`TwoConnects.client_sends`, `TwoConnects.server_reads`, `TwoConnects.server_reads_all`, `TwoConnects.one_greeting_partial`, `TwoConnects.greeting_read_twice`, `TwoConnects.client_goes_on`, `TwoConnects.server_goes_on`, `TwoConnects.both_clients`, `TwoConnects.one_after_the_other`, `TwoConnects.ends_only`, `TwoConnects.does_end`) |
| C126 | `UartExample`: main and what it calls, as a function of all answers, up to the event loop | case distinction over the finitely many ways the program goes, each for all answers (`UartExample.detect_right`, `UartExample.gives_back_partial`, `UartExample.order`, `UartExample.crashes_when_all_is_well`, `UartExample.never_plays`, `UartExample.array_lost`) |
| C127 | as C66; `copies`: the frames, some of them twice, as a function of the frames and the writes | `StreamSocket.writes_exact` gives the bytes accepted as those of the repeated frames; these are again a legal sequence of frames, so that `binary_frames_delivered` applies to them (`WsTcp.binary_frames_exact`, `WsTcp.everything_can_arrive_exact`, `WsTcp.nothing_lost_before_end_exact`, `WsTcp.ping_seen_twice`, `WsTcp.fragments_exact`, `WsTcp.strict_of_legal`, `WsTcp.fragmented_message_lost`, `WsTcp.fragments_can_arrive`); with text the same by `WsStream.stream_received_iff` (`WsTcp.text_fragments_exact`, `WsTcp.text_seen_twice`) |

## 3. Trusted base

* Lean 4.33.0's kernel.
* The axioms `propext`, `Classical.choice`, `Quot.sound`; nothing else.  `AXIOMS.md` lists, per claimed theorem, which of these it uses (written by
  `tools/gen_axioms.py` from `#print axioms`).
* The faithfulness of the hand-written models to the C source.  Each definition cites the lines it models, each simplification is said in the comment of
  the definition or at the head of its `Model.lean`.
* What the models take as parameters or assume:
  * the operating system: every system call may succeed or fail arbitrarily (`Resources`, `Timer`, `Socket`, `Uart`), reports of `epoll_wait` are arbitrary lists of registered,
    ready notifiers (`Epoll`);
  * http_parser (not in the repository): the documented order of callbacks (`HttpLife`, `HttpChunks`);
  * libc: `memcpy`, `memmove`, `memcmp`, `snprintf`, `strtoull`, `cfsetspeed`, ... behave as documented; `memmem` of libc behaves like the portable one (C08);
  * user code: an arbitrary sequence of calls into the library, decided by the whole history; where a theorem needs the user to keep to rules of use, these are its
    hypotheses, and the theorem has the suffix `_partial` if the rule is not documented by the library;
  * the C compiler and the memory layout of x86-64 Linux.

## 4. What is modelled and what is not

| source | model | left out |
|--------|-------|----------|
| `lib/src/utf8_checker.c` | `Utf8` complete | |
| `lib/include/cio/websocket_masking.h`, masking helpers of `websocket.c` | `Masking` complete (`Masking.AnyMachine`: any word size and byte order) | |
| `lib/src/base64.c`, `lib/cio/sha1/sha1.c`, `lib/src/random.c` | `Base64`, `Sha1`, `Random` complete | entropy source |
| `lib/src/platform/shared/string_memmem.c`, `linux/endian.c` | `Memmem`, `Endian` complete | zephyr `endian.c` |
| `lib/include/cio/write_buffer.h` | `WriteBuffer` complete, as nodes in a heap | |
| `lib/include/cio/read_buffer.h`, `lib/src/buffered_stream.c` | `BufferedRead`, `BufferedWrite`, `StreamSocket` (the same on a Linux socket) | one read buffer per stream |
| `examples/socket_ping_pong.c` 100-180 | `Echo`: the server side as a program over `StreamSocket` | `main`, accepting |
| `examples/socket_ping_pong.c` 185-261 | `PingPong`: the client side as a program over `StreamSocket`; `PingPong.Together`: client, server and a reliable network | `main`, connecting |
| `examples/socket_echo.c` 45-148 | `PlainEcho`: complete, over `Socket` and `BufferedWrite` | `main`, signal handling |
| `examples/websocket_server.c` 60-233 | `WsExample`: the program of a connection over `WsQueue` | the HTTP part and `main` (252-367), what is printed |
| `examples/periodic_timer.c` 38-66, 93-105 | `Periodic`: the program over `Timer`, with a clock | `signal`, the messages on stderr, failure of `cio_eventloop_init`, `cio_timer_init`, `cio_eventloop_run` |
| `examples/http_server.c` 45-133, 153-189 | `HttpExample`: the program over `HttpLife`, with any number of connections and the shut-down in `on_error` | what is printed, failures before `cio_eventloop_run`, failures of `alloc_http_client` and of setting up an accepted connection |
| `examples/socket_connect.c` 48-64, 125-147 | `ConnectExample`: the program over the model `Socket`; closing again an object whose descriptor is closed | parsing of the arguments, failures before the socket is initialised, what is printed |
| `examples/socket_two_connects.c` 102-255, 355-366 | `TwoConnects`: both clients, the server's side of their connections (models `StreamSocket`), the network, the close hooks and the cancelling of the loop | setting up the server socket, accepting but for its delay, failures of `main` before the first `cio_socket_connect` has succeeded, what happens after the loop has ended, what is printed |
| `examples/uart_ping_pong.c` 117-312 | `UartExample`: `main`, `detect_uart` and the clients' streams, as a function of the answers of everything they call | what is printed; the handlers (69-115), which the program never comes to: they are those of socket_ping_pong.c without its counter |
| timers of `http_server.c` | `HttpLife.Timed`: deadlines and a clock over `HttpLife` | |
| `linux/epoll.c` with `server_socket.c`, `uart.c` | `Linux.Others` (as `Linux` for sockets and timers) | |
| `lib/src/websocket.c` | `WsSend` (frames out), `WsRecv` (frames in), `WsStream` (the same on the buffered stream), `WsQueue` (jobs, closing, errors), `WsRoundTrip` (composition), `WsTcp` (two WebSockets over TCP), `WsClose` (content of close frames) | see the heads of the models |
| `lib/src/websocket_location_handler.c` | `WsHandshake` complete | |
| `lib/src/http_server.c`, `http_location.c`, `http_location_handler.c` | `HttpLocation`, `HttpUrl`, `HttpResponse`, `HttpLife`, `HttpChunks`, `Resources` | the inside of http_parser |
| `lib/src/platform/linux/epoll.c`, `timer.c`, `socket.c`, `server_socket.c`, `socket_utils.c`, `uart.c` | `Epoll`, `Timer`, `Socket`, `Resources`, `Uart`; `Linux` runs loop, sockets and timers together and has the listening socket | |
| `lib/src/platform/linux/unix_address.c`, `shared/inet_address_impl.c`, `shared/socket_address_impl.c` | `Address` complete | |
| argument checks of the public functions | `Refuse` | |
| `lib/src/platform/zephyr/*.c` | `Zephyr` (`Loop`, `Timer`, `Socket`, `Accept`, `Misc`) | the network stack and kernel are modelled by the callbacks they make; `uart.c` does not exist there |
| `lib/src/platform/windows/iocp.c`, `timer.c`, `socket.c`, `server_socket.c` | `Windows` (`Loop`, `Timer`, `Socket`, `Accept`) | winsock and the kernel are modelled by the packets they queue; socket options; `string.c` |
| `lib/src/platform/windows/uart.c`, `random.c`, `endian.c` | `Windows` (`Uart`, `UartIo`, `Ports`, `Misc`) | the wide strings themselves: names are what the conversion returns |
| `autobahn/autobahn_server.c` | `Autobahn`: the read handler | signal handling, `main` |
| `examples/`, `tests/` | – | not part of the library |
| `lib/miniz` | – | third-party, not used by the modelled code |

## 5. Findings

Behaviour of the code that contradicts a property as a user would state it.  "(theorem)" names the Lean theorem that shows it on the model; the property is then proved with
the condition that excludes it, under the suffix `_partial`.

1. websocket.c 444-450, `handle_close_frame`: the length of the close reason is reduced twice, so the last two bytes of the reason are not checked, and a one-byte reason underflows (`invalid_reason_accepted`, `valid_reason_rejected`, `one_byte_reason_undefined`).
2. websocket.c 402-424, `handle_text_frame`: a piece that ends inside a character of a final frame is rejected, so acceptance depends on segmentation (`segmentation_matters`).
3. websocket.c 167-171: for further chunks of a frame the mask is advanced twice (`chunks_not_masked_as_whole`).
4. `write_jobs_popfront` removes the first chain element even for further chunks, which have no header element (`further_chunk_chain_lost`).
5. `message_written` sends a queued job with the size of the chain instead of the announced frame length (`announced_length_wrong`); a failing pong with a queued job dereferences NULL (`pong_failure_ub`).
6. An incoming ping overwrites the job of a pong the user has queued (`pong_handler_lost`), and the ping is then never answered (`ping_unanswered`); a ping between two chunks of a frame makes the pong go into the middle of the frame (`pong_within_frame`).
7. `cio_websocket_close`: if the timer cannot be armed, later closes are refused for ever; aborted jobs leave the header in the user's chain (`aborted_chain_keeps_header`).
8. buffered_stream.c `handle_partial_writes`: a short first write that ends in the last element duplicates the chain (theorem in `BufferedWrite.Props`).
9. `handle_partial_writes`, `handle_write`: if `write_some` fails synchronously the user's chain is not restored (theorem in `BufferedWrite.Props`).
10. socket.c `read_callback`: a spurious wake-up loses the read (`pending_read_lost`); `read_until_close_callback` does not register again (`peer_close_unnoticed`).
11. uart.c: the data bits are not cleared before they are set (`data_bits_not_cleared`), the count of a partial write is lost (`partial_write_forgotten`), `cio_uart_close` uses the port after the close hook (`hook_that_frees`).
12. timer.c: `cio_timer_cancel` calls the handler before clearing it (`rearm_in_aborted_handler_crashes`); a failing read of the timerfd keeps the handler (`read_error_called_twice`).
13. `write_response` returns 0 when arming the timer fails (`arming_failed`).
14. `handle_field_name` does not reset `current_header_field` for unknown names (harmless: the value is then looked at by the previous field's rule only if the name was unknown; see `other_fields_ignored`).
15. `cio_write_buffer_is_last_element` tests `prev` instead of `next` (theorem in `WriteBuffer.Props`).
16. buffered_stream.c: a read issued inside a handler told of an error is never started (theorem in `BufferedRead.Props`).
17. websocket.c accepts non-minimal lengths and 64-bit lengths with the top bit set; reserved opcodes are rejected only when the payload has arrived.
18. `handle_error` does not cancel the close timer: the stream is closed twice (`closed_twice`).
19. Data frames after a close frame (`message_after_close_frame`), close frame inside a frame by `handle_error`, second close accepted (`second_close_accepted`), pings while closing (`ping_while_closing`), handlers forgotten by a close (`close_forgets_handlers`), use after close (`use_after_close`).
20. A timeout of 0 never expires (`zero_timeout_never_expires`); re-arming drops the handler (`rearm_forgets_handler`); a failed arming is answered later all the same (`failed_arming_is_answered`).
21. Registering a location object twice loses earlier ones (`register_twice_forgets`).
22. Events that are only EPOLLERR/EPOLLHUP call no callback; the eventfd of `cio_eventloop_cancel` is never drained.
23. A close timer that expires while it is being armed is used after close (`timer_at_once_is_used_after_close`); a full read buffer is reported as end of stream (`full_buffer_reported_as_end`); a refused read stays set (`refused_read_stays`); a write replaces a pending connect (`write_forgets_connect`).
24. uart.c: descriptor leak in `cio_uart_init` (`init_leaks_descriptor`), read handler called again (`handler_called_again`), uninitialised read callback (`read_before_first_read`), 0 bytes reported as end (`no_data_is_end`).
25. unix_address.c: the empty path is read past its end (`uds_empty_string_overread`).
26. http_server.c: Content-Length lines of bodies of 10^10 bytes and more (`content_length_garbled`, `content_length_overread`); keep-alive announced and then closed (`keepalive_announced_then_closed`); 101 with Content-Length (`switching_has_content_length`); keep-alive seconds cut to 32 bits (`keepalive_wraps`).
27. websocket_location_handler.c: any value of Upgrade accepted (`any_upgrade_accepted`), repeated keys (`two_keys_accepted`), key not decoded (`key_not_decoded`), request without common subprotocol refused (`no_common_protocol_refused`), several subprotocol lines not joined (`protocol_lines_not_joined`), malformed rest of a list accepted (`malformed_rest_accepted`).
28. http_server.c, lifecycle: closing in the response-written callback (`close_in_written_callback_ub`), response timeout with lingering socket (`late_write_closes_twice`), failing handler allocation with delayed 500 (`failed_allocation_ub`), delayed 101 (`delayed_upgrade_lost`), upgrade offered to an ordinary location (`offered_upgrade_stops_reading`), pipelined request (`pipelined_handler_leaked`).
29. Accept errors call `free_client(NULL)` (`accept_error_frees_null`); `accept_callback` uses the server after its handler (`accept_uses_released_server`); `cio_http_server_init` leaks with fast open (`fastopen_failure_leaks`).
30. `remaining_content_length` is not reset between requests (`url_cut_in_two`, `url_depends_on_segmentation`).
31. `cio_websocket_location_handler_init` acts before `on_connect` is checked (`late_check`); entry points without any check are listed in the note of C36.
32. websocket.c 225-248: a reason of more than 123 bytes is cut even inside a character (`reason_cut_in_character`); the status code is not checked when closing (`illegal_code_sent`), and four of the codes of the public enum are refused by the receiving side (`offered_codes_refused`); closing with a reason of one character makes a peer that uses this library read out of bounds (`one_character_reason`).
33. zephyr/eventloop.c: an event queued by a callback while the queue of ten is full blocks the loop for ever (`full_queue_blocks`); an event queued by an interrupt between the purge and the stop message of `cio_eventloop_cancel` is called after the cancellation (`called_after_cancel`). The file includes "cio/cio_eventloop_impl.h", which does not exist in the repository.
34. zephyr/timer.c: a timer cancelled after its expiry interrupt is not told of the abort and later told success (`cancel_not_aborted`); closing then forgets the handler (`close_forgets_handler`); arming twice forgets the first handler (`rearm_forgets_handler`) or calls a null pointer (`rearm_calls_null`); cancelling the loop forgets expiries (`purge_forgets_handler`); closing in an aborted handler is undefined (`close_in_aborted_handler`); times below 1 ms are zero, times of 2^31 ms and more negative (`short_timeout_is_zero`, `long_timeout_is_negative`).
35. zephyr/socket.c: one notifier serves reading and writing, so a read and a write at the same time (which every websocket has) are mixed up (`read_and_write_mixed_up`); the rest of a packet longer than the buffer is lost (`rest_of_packet_lost`); a report queued before the close uses the closed socket (`closed_socket_used`); a short write is reported as a whole one (`short_write_reported_whole`); a status 0 is never answered (`zero_never_answered`).
36. zephyr/server_socket.c: two connections before the loop sees the first are mixed up (`two_connections_mixed_up`, `wrong_connection_dropped`); use after close (`closed_server_used`, `close_in_no_memory_handler`); a failed `net_context_accept` is reported as success (`failed_accept_succeeds`).
37. zephyr/random.c: lengths are cut to 16 bits (`entropy_truncated`), failures hidden (`entropy_failure_hidden`).
38. windows/iocp.c: a cancelled loop returns at once from every later `cio_eventloop_run` (`cancelled_for_ever`); the error of WSAStartup is returned as a positive number (`init_error_positive`).
39. windows/timer.c: the handler is not initialised, so closing or cancelling before the first arming calls a wild pointer (`close_before_arming`); closing after the expiry forgets the handler and leaves a packet for the closed timer (`close_forgets_handler`, `close_while_firing`); arming again forgets the handler or later calls NULL (`rearm_forgets_handler`, `rearm_calls_null`), and if it is refused the first arming is lost as well (`refused_rearm_forgets_handler`); a refused handler is called (`refused_handler_called`); using the timer in an aborted handler (`arm_in_aborted_handler`, `close_in_aborted_handler`); times below 1 ms and multiples of 2^32 ms are zero (`short_timeout_is_zero`, `long_timeout_is_zero`).
40. windows/socket.c: closing while a completed operation waits for the event loop calls its handler after the close and loses descriptor and hook (`completion_after_close`, `read_after_close`); closing while connecting likewise (`close_while_connecting`); ConnectEx succeeding at once (`connect_at_once`, `connect_at_once_closed`); write after a failed connect calls the connect handler (`write_after_failed_connect`); a full buffer is reported as end of stream (`full_buffer_reported_as_end`).
41. windows/server_socket.c: one failed accept (a client that resets early) ends the accepting for ever and the server can no longer be closed properly (`failure_ends_accepting`, `failure_loses_hook`); a failing next accept leaks the connection (`connection_lost`); a descriptor is closed twice after AcceptEx failed (`closed_twice`); closing with a connection waiting calls the handler after the close, never closes the listening descriptor, never calls the hook (`told_after_close`); closing a bound socket that does not accept never calls the hook (`close_bound`); accepting before binding succeeds and does nothing (`accept_before_bind`).
42. windows/uart.c: flow control is ignored with success (`flow_control_ignored`); every failure of `cio_uart_init` after CreateFileW frees the file name a second time (`late_failure_frees_twice`), a failing completion port closes the handle twice (`port_failure_closes_twice`); the buffer of a write is given back while the operation may be pending (`pending_write_reads_freed_memory`); errors of writes are positive (`positive_write_error`); a read without data for 49.7 days is reported as end of the stream (`no_data_is_end`); closing with a completed operation waiting as for sockets (`completion_after_close`); a refused write replaces the handler of the one under way (`refused_write_answered`); chains of 4 GiB are cut (`large_write_cut`).
43. windows/random.c: lengths are cut to 32 bits (`windows_truncated`). windows/endian.c: the big-endian branch does not compile.
44. http_server.c: after a request without Content-Length on a connection that is kept, the rest of the buffer is given to the parser in one piece, so an upgrade request that arrives together with the first frame is refused with 400 (`upgrade_refused`).
45. http_server.c `parse`: an upgrade request to a location that is no WebSocket: the parser stops at the end of the request and no further request is read, so later requests of the connection are not answered (by reading; not in the model).
46. uart.c: a second write while one waits forgets the handler of the first (`second_write_forgets`); closing with a waiting write never calls its handler (`close_forgets_write`).
47. linux/uart.c `cio_uart_get_ports`: one link that leads nowhere hides all ports (`one_dead_link_hides_all`); file systems that do not report the type of entries (`unknown_types_missed`).
48. windows/uart.c: memory of friendly names leaks (`friendly_name_leaks`); a name that cannot be converted closes its key twice (`key_closed_twice`); WideCharToMultiByte is given bytes instead of characters and reads behind the name (`name_overread`).
49. http_server.c `on_message_complete`: an error returned by the handler's callback for the complete message is lost when its response has been written: http_parser has consumed all bytes, so the connection goes on (`message_error_ignored`).
50. buffered_stream.c on a Linux socket: a write of one element that finds the send buffer of the socket full is sent twice and reported as success once (`one_element_sent_twice`): socket.c reports a writable socket as a successful write of 0 bytes, which buffered_stream.c takes for a write ending within the last element (finding 1 of the write half).
51. Between two WebSockets on TCP one short sendmsg is enough for an application to get a message twice that was sent once (`WsTcp.message_seen_twice`): the payload of the frame and its header are repeated by buffered_stream.c (finding 1 of the write half), which is a second, valid frame for the receiver. Which messages come twice is exactly known: `WsTcp.binary_frames_exact` (C127), with a ping that is answered twice in `WsTcp.ping_seen_twice`. A message in two frames whose first frame is repeated never arrives: the receiver takes the copy for a protocol error (`WsTcp.fragmented_message_lost`).
52. On Linux, as on Windows, an event loop that was cancelled can never be run again (`Epoll.cancelled_for_ever`, `no_second_run`): the eventfd written by `cio_eventloop_cancel` is never read, so that every later `cio_eventloop_run` returns success at once.
53. The closing handshake is supervised by a timer only if the user began it. After the peer's close frame or a failure of the connection a peer that does not read any more keeps the connection and its memory for ever (`failed_unsupervised`, `peer_closed_unsupervised`): the close hook waits for the close frame to be written, there is no timer, and `cio_websocket_close` is refused because the close job is in use.
54. http_server.c, the same stale `remaining_content_length` (finding 30) without any pipelining: after a GET request without Content-Length the server reads up to `SIZE_MAX` bytes instead of up to the next CRLF. If all bytes of a second GET request on the connection but its last arrive together, the final LF is never noticed and the request hangs until the timeout (`second_request_stuck`, for any two such requests); a header field can be cut in two as well (`header_cut_in_two`).
55. linux/server_socket.c with epoll.c: a second `cio_server_socket_accept` on a listening socket is refused with EEXIST, but `cio_linux_eventloop_add` has reset `registered_events` before `epoll_ctl` fails. The kernel goes on reporting the socket, the loop ignores it: no connection is accepted any more and the loop spins (`second_accept_makes_deaf`, `deaf_for_ever`). In addition, a `cio_server_socket_close` from an accept handler that is told that a client could not be initialised is followed by a read of the server socket its close hook may have freed (`close_on_error_used`).
56. examples/socket_ping_pong.c and uds_socket_ping_pong.c: `server_handle_write` returns without closing when it is told of an error, and the result of `cio_buffered_stream_write` is ignored. A connection on which `sendmsg` fails once is never closed, and nothing is read from it any more: memory and descriptor are lost (`failed_write_forgotten`, for all continuations). With the defect of C15 the server echoes bytes twice as soon as `sendmsg` does not take all six at once (`bytes_echoed_twice`).
57. examples/socket_echo.c: the read buffer handed to `read_some` is only ever advanced (`cio_read_buffer_consume` moves `fetch_ptr`, nothing resets it). After 128 bytes in total `read` is called with length 0, whose result 0 is taken as the end of the stream: the server prints "connection close by peer" and closes, although the client has not (`PlainEcho.never_more_than_size`, `full_buffer_is_end`, `closed_after_128`). Connections on which reading or writing fails are never closed (`failure_forgotten`).
58. http_server.c on buffered_stream.c: if the first `sendmsg` of a response ends within its last element (usually the body), the whole response is sent again (finding 1 of the write half). On a connection that is kept open the client takes the copy for the answer to its next request, and is one answer behind from then on (`HttpTcp.wrong_answer`, `wrong_answer_reachable`).
59. examples/websocket_server.c: all seven calls of `cio_websocket_close` pass `NULL` as handler; websocket.c 880-883 refuses that with CIO_INVALID_ARGUMENT. The program never closes a connection, "Good Bye!" is never sent (`WsExample.never_says_good_bye`).
60. examples/websocket_server.c: `cio_websocket_read_message` is called once, in `on_connect`. After the first piece of data nothing is read any more: further messages, pings, close frames and the end of the connection go unnoticed; the connection is never closed, also if every ping fails, and after a failed ping the timer is not armed again, so that the connection is kept for ever (`deaf_after_hello_partial`, `never_closed_after_hello`, `kept_for_ever`).
61. examples/websocket_server.c 109-114: the head of the ping's write buffer is a local variable of `send_ping`. If the write of the ping is not completed within the call (socket not writable, or another frame being written) the library uses it after the function has returned (`dangling_reachable`).
62. examples/websocket_server.c (by reading): `free_websocket_handler` closes `ping_timer`, which is initialised only in `on_connect`: if the handshake is refused, or `cio_timer_init` fails, `cio_timer_close` runs on uninitialised memory. If no timer can be had the connection is neither served nor closed (`no_timer_no_service`).
63. examples/periodic_timer.c 56-58: if arming the timer fails in the handler the program prints a message and waits for ever in the event loop, with nothing that could wake it (`Periodic.arming_failed_hangs`). 93-97 and every signal leave the timer open (`Periodic.ends_with_open_timer`).
64. examples/http_server.c 129-133: `on_error` shuts the whole server down, but the library calls it for failures of single connections: one client that connects and resets its connection stops the server for all (`HttpExample.one_reset_stops_the_server`, from every state); so does one that pipelines two requests (`HttpExample.pipelining_stops_the_server`: http_server.c 371-375 takes the unarmed timer for a server error). Two failures in the same round, or one whose response can not be supervised, close the descriptor of the server socket twice (`two_failures_shut_down_twice`, `one_failure_shuts_down_twice`). 131: the format "%server" prints the reason followed by "erver".
65. examples/http_server.c 53: the close timeout makes finding 28 (late write) reachable: a client that does not read its response is closed twice, and the late failure stops the server (`HttpExample.slow_client_closed_twice`).
66. examples/socket_ping_pong.c 201-211: with `max_pings` 0 one message is exchanged all the same (`PingPong.zero_view`), and 207 ignores the result of `cio_buffered_stream_write`: a client whose answer is refused neither closes nor reads, and as only its close hook cancels the event loop the program never ends (`PingPong.client_hangs`).
67. examples/socket_ping_pong.c (by reading): the client's close hook cancels the event loop; the server's side of the connection has not seen the end of the stream then, and its `struct echo_client` is never freed.
68. examples/socket_connect.c 57 and 143: `handle_connect` closes the socket, and `main` closes it again behind the event loop: a refused connection closes the descriptor (and that of the close timer) twice, after a successful one the loop is destroyed while the socket waits for its peer, so that it is never closed (`ConnectExample.answered_closes_twice`, `descriptor_closed_twice`, `descriptor_never_closed`).
69. examples/uart_ping_pong.c 275-290: the second UART is set up with `client1` again (148 and 281), whose pending read on the first one then belongs to a stream of the second; `client2.bs` is never initialised, and `cio_buffered_stream_write` on it (290) follows its NULL stream: whenever nothing fails the program crashes (`UartExample.crashes_when_all_is_well`), and it never comes to its event loop (`never_plays`). `detect_uart` does not free the array of ports when it has found its port (`array_lost`).
70. examples/socket_two_connects.c 341-361 (by reading): if setting the options of the first socket or `cio_socket_connect` fails, `main` closes that socket, and its close hook starts the second client although the event loop is never run; the loop is destroyed and the second socket never closed. And C12/C15 show here: if the send buffer is full when a client writes, the server reads the greeting twice (`TwoConnects.greeting_read_twice`); a server whose accept handler fails closes the server socket but not the accepted one (161-166).
