{
 "claims": [
  {
   "property": "C01",
   "status": "proved",
   "theorems": [
    "Cio.Utf8.check_utf8_correct",
    "Cio.Utf8.check_utf8_reject_sticky",
    "Cio.Utf8.AnyMachine.check_utf8_correct"
   ],
   "note": "RFC 3629 grammar, any bytes, any alignment; the last theorem is for machines of every word size"
  },
  {
   "property": "C02",
   "status": "proved",
   "theorems": [
    "Cio.Utf8.check_utf8_chunks",
    "Cio.Utf8.check_utf8_chunks_correct",
    "Cio.Utf8.AnyMachine.check_utf8_chunks"
   ],
   "note": ""
  },
  {
   "property": "C03",
   "status": "proved",
   "theorems": [
    "Cio.Masking.websocket_mask_correct",
    "Cio.Masking.websocket_mask_bytes",
    "Cio.Masking.websocket_mask_involutive",
    "Cio.Masking.websocket_mask_unmask",
    "Cio.Masking.correct_mask_correct",
    "Cio.Masking.AnyMachine.websocket_mask_correct",
    "Cio.Masking.AnyMachine.machines_agree",
    "Cio.Masking.AnyMachine.word_accesses_aligned",
    "Cio.Masking.AnyMachine.word_accesses_inside"
   ],
   "note": "AnyMachine: the same for machines of every word size (a multiple of four bytes) and both byte orders"
  },
  {
   "property": "C04",
   "status": "partial",
   "theorems": [
    "Cio.Masking.mask_write_buffer_correct",
    "Cio.Masking.chunks_masked_as_whole_partial",
    "Cio.Masking.chunks_not_masked_as_whole",
    "Cio.Masking.chunks_sent_exactly",
    "Cio.Masking.chunks_masked_as_whole_iff"
   ],
   "note": "masking of one chain is proved in full; the claim about several continuation chunks is false of the code (negation proved), the partial theorem covers the chunk lengths for which it holds; chunks_sent_exactly says what is sent in all cases and chunks_masked_as_whole_iff for which lengths it is right"
  },
  {
   "property": "C05",
   "status": "proved",
   "theorems": [
    "Cio.Base64.b64_encode_correct",
    "Cio.Base64.b64_encode_length",
    "Cio.Base64.b64_encode_injective"
   ],
   "note": ""
  },
  {
   "property": "C06",
   "status": "proved",
   "theorems": [
    "Cio.Sha1.sha1_correct",
    "Cio.Sha1.sha1_after_result"
   ],
   "note": ""
  },
  {
   "property": "C07",
   "status": "proved",
   "theorems": [
    "Cio.Random.random_get_bytes_correct",
    "Cio.Random.random_pieces",
    "Cio.Random.seed_inc_odd",
    "Cio.Random.seed_error",
    "Cio.Random.random_full_period",
    "Cio.Random.seeds_distinguished"
   ],
   "note": ""
  },
  {
   "property": "C08",
   "status": "proved",
   "theorems": [
    "Cio.Memmem.memmem_correct",
    "Cio.Memmem.isFirst_unique"
   ],
   "note": ""
  },
  {
   "property": "C09",
   "status": "proved",
   "theorems": [
    "Cio.Endian.htobe_memory",
    "Cio.Endian.htole_memory",
    "Cio.Endian.betoh_htobe",
    "Cio.Endian.htobe_betoh",
    "Cio.Endian.letoh_htole",
    "Cio.Endian.htole_letoh",
    "Cio.Endian.betoh_of_memory",
    "Cio.Windows.Endian.memory",
    "Cio.Windows.Endian.inverse"
   ],
   "note": "also for the Windows port (little endian)"
  },
  {
   "property": "C10",
   "status": "proved",
   "theorems": [
    "Cio.WB.exec_refines",
    "Cio.WB.write_buffer_histories"
   ],
   "note": ""
  },
  {
   "property": "C11",
   "status": "proved",
   "theorems": [
    "Cio.WB.exec_refines",
    "Cio.WB.write_buffer_histories",
    "Cio.WB.splice_ring",
    "Cio.WB.split_ring"
   ],
   "note": ""
  },
  {
   "property": "C38",
   "status": "partial",
   "theorems": [
    "Cio.WB.isLastElement_partial",
    "Cio.WB.isLastElement_wrong",
    "Cio.WB.isLastElement_first"
   ],
   "note": "false of the code for buffers of more than one element (negation proved): the function tests prev instead of next"
  },
  {
   "property": "C12",
   "status": "proved",
   "theorems": [
    "Cio.BufferedRead.read_stream_preserved",
    "Cio.BufferedRead.read_handler_sees_stream",
    "Cio.BufferedRead.read_handler_once",
    "Cio.BufferedRead.read_delivers_stream",
    "Cio.BufferedRead.new_buffer_empty"
   ],
   "note": "any handler behaviour, any delivery sizes"
  },
  {
   "property": "C13",
   "status": "proved",
   "theorems": [
    "Cio.BufferedRead.read_until_correct",
    "Cio.BufferedRead.read_error_truthful",
    "Cio.BufferedRead.read_waits_only_if_unsatisfied"
   ],
   "note": ""
  },
  {
   "property": "C14",
   "status": "proved",
   "theorems": [
    "Cio.BufferedRead.read_at_least_correct",
    "Cio.BufferedRead.read_at_most_correct",
    "Cio.BufferedRead.read_at_least_refused",
    "Cio.BufferedRead.read_waits_only_if_unsatisfied"
   ],
   "note": ""
  },
  {
   "property": "C39",
   "status": "partial",
   "theorems": [
    "Cio.BufferedRead.pending_read_under_way_partial",
    "Cio.BufferedRead.pending_read_may_be_forgotten",
    "Cio.BufferedRead.read_waits_only_if_unsatisfied"
   ],
   "note": "false of the code when a handler that was told of an error starts a new read (negation proved); proved for handlers that do not"
  },
  {
   "property": "C15",
   "status": "partial",
   "theorems": [
    "Cio.BufferedWrite.write_exactly_partial",
    "Cio.BufferedWrite.write_progress",
    "Cio.BufferedWrite.short_write_duplicates",
    "Cio.BufferedWrite.short_write_duplicates_always",
    "Cio.BufferedWrite.success_wire_partial",
    "Cio.BufferedWrite.wire_prefix_of_two",
    "Cio.BufferedWrite.OnHeap.heap_write_exactly_partial",
    "Cio.BufferedWrite.OnHeap.no_undefined_behaviour"
   ],
   "note": "false of the code when the first short write ends in the last element of the chain (negation proved, for one case and in general); proved otherwise; `success_wire_partial` states without exception what a successful write has put on the wire (one copy of the chain, or two in exactly that case)"
  },
  {
   "property": "C16",
   "status": "partial",
   "theorems": [
    "Cio.BufferedWrite.chain_given_back_partial",
    "Cio.BufferedWrite.chain_given_back_on_success_partial",
    "Cio.BufferedWrite.sync_error_keeps_elements",
    "Cio.BufferedWrite.OnHeap.heap_chain_given_back_partial",
    "Cio.BufferedWrite.OnHeap.heap_chain_given_back_on_success_partial"
   ],
   "note": "false of the code when a follow-up write_some fails by its return value (negation proved); proved otherwise"
  },
  {
   "property": "C17",
   "status": "proved",
   "theorems": [
    "Cio.WsSend.send_frame_server",
    "Cio.WsSend.send_frame_client"
   ],
   "note": "the frame length is the one announced by the caller; that a queued first chunk is sent with the announced length is part of C24"
  },
  {
   "property": "C18",
   "status": "partial",
   "theorems": [
    "Cio.WsStream.stream_refines",
    "Cio.WsStream.stream_binary_received",
    "Cio.WsStream.stream_received_partial",
    "Cio.WsStream.stream_frames_delivered",
    "Cio.WsRecv.frames_delivered_partial",
    "Cio.WsRecv.binary_frames_delivered",
    "Cio.WsRecv.binary_received_as_specified",
    "Cio.WsRecv.received_as_specified_partial",
    "Cio.WsRecv.received_as_specified_iff",
    "Cio.WsStream.stream_received_iff",
    "Cio.WsRecv.segmentation_matters"
   ],
   "note": "proved in full for binary messages, pings and pongs; with text the exact condition is proved (iff): well-formed text and no piece that ends inside a character of a final text frame (the unrestricted claim is false of the code, negation proved)"
  },
  {
   "property": "C19",
   "status": "partial",
   "theorems": [
    "Cio.WsStream.stream_malformed_fails_partial",
    "Cio.WsRecv.malformed_fails_partial",
    "Cio.WsRecv.reserved_opcode_fails",
    "Cio.WsRecv.nonminimal_length_accepted",
    "Cio.WsRecv.huge_length_accepted"
   ],
   "note": "every listed violation except non-minimal and 64-bit lengths with the top bit set, which the code accepts (proved)"
  },
  {
   "property": "C20",
   "status": "partial",
   "theorems": [
    "Cio.WsStream.stream_texts_wellformed",
    "Cio.WsRecv.text_messages_wellformed",
    "Cio.WsRecv.illformed_text_rejected",
    "Cio.WsRecv.received_as_specified_partial",
    "Cio.WsRecv.received_as_specified_iff",
    "Cio.WsStream.stream_received_iff",
    "Cio.WsRecv.segmentation_matters"
   ],
   "note": "no ill-formed message is ever handed over completely (in full); well-formed messages are accepted if and only if no piece ends inside a character of a final frame (negation of the unrestricted claim proved)"
  },
  {
   "property": "C21",
   "status": "partial",
   "theorems": [
    "Cio.WsQueue.pongs_answer_pings_partial",
    "Cio.WsQueue.pings_all_answered_partial",
    "Cio.WsQueue.one_ping_waits_partial",
    "Cio.WsQueue.no_ping_before_answer_written_partial",
    "Cio.WsQueue.pong_payloads_partial",
    "Cio.WsQueue.pong_payloads_all_partial",
    "Cio.WsQueue.ping_unanswered",
    "Cio.WsStream.stream_ping_answered",
    "Cio.WsRecv.ping_answered",
    "Cio.WsRecv.malformed_fails_partial"
   ],
   "note": "one pong per ping, in order, with the same bytes, for all executions in which no ping arrives while a pong of the user is waiting or being written; without that it is false of the code (ping_unanswered)"
  },
  {
   "property": "C22",
   "status": "partial",
   "theorems": [
    "Cio.WsRecv.close_status_codes",
    "Cio.WsRecv.close_handled_partial",
    "Cio.WsRecv.close_handled_iff",
    "Cio.WsRecv.close_frame_ends_reading",
    "Cio.WsRecv.close_not_handled",
    "Cio.WsRecv.one_byte_reason_undefined",
    "Cio.WsRecv.invalid_reason_accepted",
    "Cio.WsRecv.valid_reason_rejected"
   ],
   "note": "status codes in full; the check of the reason is wrong in the code (negations proved; close_handled_iff says for which bodies the claim holds)"
  },
  {
   "property": "C23",
   "status": "partial",
   "theorems": [
    "Cio.WsQueue.closed_at_most_once_partial",
    "Cio.WsQueue.one_close_frame_partial",
    "Cio.WsQueue.nothing_after_close_frame_partial",
    "Cio.WsQueue.no_ub_partial",
    "Cio.WsQueue.failure_closes",
    "Cio.WsQueue.closed_twice",
    "Cio.WsQueue.message_after_close_frame",
    "Cio.WsQueue.second_close_accepted",
    "Cio.WsQueue.ping_while_closing",
    "Cio.WsQueue.use_after_close"
   ],
   "note": "proved for executions that keep to the rules of use and do not fail after the user began to close; the statement is false without that (negations proved by concrete executions)"
  },
  {
   "property": "C24",
   "status": "partial",
   "theorems": [
    "Cio.WsQueue.tickets_in_order",
    "Cio.WsQueue.handler_at_most_once_partial",
    "Cio.WsQueue.every_write_completed_partial",
    "Cio.WsQueue.sent_in_order_partial",
    "Cio.WsQueue.success_was_sent_partial",
    "Cio.WsQueue.sent_is_accepted_partial",
    "Cio.WsQueue.chain_given_back_partial",
    "Cio.WsQueue.pong_handler_lost",
    "Cio.WsQueue.close_forgets_handlers",
    "Cio.WsQueue.pong_failure_ub",
    "Cio.WsQueue.announced_length_wrong",
    "Cio.WsQueue.further_chunk_chain_lost",
    "Cio.WsQueue.aborted_chain_keeps_header",
    "Cio.WsQueue.messages_without_gap_partial",
    "Cio.WsQueue.frames_legal_partial",
    "Cio.WsQueue.pong_within_frame"
   ],
   "note": "same conditions; after a close begun by the user handlers can be forgotten (negation proved)"
  },
  {
   "property": "C25",
   "status": "proved",
   "theorems": [
    "Cio.HttpLocation.routed_to_longest_match",
    "Cio.HttpLocation.serves_same_length",
    "Cio.HttpLocation.register_twice_forgets"
   ],
   "note": "distinct location objects; registering one object twice loses earlier ones (proved)"
  },
  {
   "property": "C32",
   "status": "proved",
   "theorems": [
    "Cio.Epoll.loop_as_specified",
    "Cio.Epoll.callbacks_due",
    "Cio.Epoll.removed_never_called"
   ],
   "note": "all callback behaviours, all reports of epoll_wait, any number of runs"
  },
  {
   "property": "C30",
   "status": "partial",
   "theorems": [
    "Cio.Timer.handler_at_most_once_partial",
    "Cio.Timer.arming_not_forgotten_partial",
    "Cio.Timer.closed_all_answered_partial",
    "Cio.Timer.expired_is_reported",
    "Cio.Timer.cancel_result_partial",
    "Cio.Timer.closed_after_hook",
    "Cio.Timer.zero_timeout_never_expires",
    "Cio.Timer.rearm_forgets_handler",
    "Cio.Timer.rearm_in_aborted_handler_crashes",
    "Cio.Timer.close_in_aborted_handler",
    "Cio.Timer.failed_arming_is_answered",
    "Cio.Timer.read_error_called_twice"
   ],
   "note": "proved for programs that arm with a non-zero time, one arming at a time, and do not use the timer inside a handler told of an abort; false of the code otherwise (negations proved)"
  },
  {
   "property": "C31",
   "status": "proved",
   "theorems": [
    "Cio.Timer.timeout_converted"
   ],
   "note": ""
  },
  {
   "property": "C33",
   "status": "partial",
   "theorems": [
    "Cio.Socket.closed_once_partial",
    "Cio.Socket.close_completes_partial",
    "Cio.Socket.close_immediate_partial",
    "Cio.Socket.reads_truthful_partial",
    "Cio.Socket.writes_truthful_partial",
    "Cio.Socket.read_not_forgotten_partial",
    "Cio.Socket.connect_result_partial",
    "Cio.Socket.connect_answered_partial",
    "Cio.Socket.write_result_partial",
    "Cio.Socket.read_error_reported_partial",
    "Cio.Socket.epoll_failure_told",
    "Cio.Socket.pending_read_lost",
    "Cio.Socket.peer_close_unnoticed",
    "Cio.Socket.timer_at_once_is_used_after_close",
    "Cio.Socket.full_buffer_reported_as_end",
    "Cio.Socket.refused_read_stays",
    "Cio.Socket.write_forgets_connect"
   ],
   "note": "proved for programs that stop using the socket after closing it, have one read and one write or connect at a time, read into buffers with room, and for an operating system without failing epoll_ctl, spurious wake-ups (only for read_not_forgotten_partial) and close timers that expire while they are armed; false of the code otherwise (negations proved)"
  },
  {
   "property": "C34",
   "status": "partial",
   "theorems": [
    "Cio.Uart.getters_truthful",
    "Cio.Uart.getter_errors",
    "Cio.Uart.getter_errors_real",
    "Cio.Uart.set_view_partial",
    "Cio.Uart.set_failed",
    "Cio.Uart.history_partial",
    "Cio.Uart.invalid_refused",
    "Cio.Uart.data_bits_not_cleared",
    "Cio.Uart.full_claim_false"
   ],
   "note": "proved for all flag words, all settings and all histories except lowering the number of data bits, for which the code is wrong (negation proved)"
  },
  {
   "property": "C40",
   "status": "partial",
   "theorems": [
    "Cio.Uart.Io.bytes_exact",
    "Cio.Uart.Io.write_once",
    "Cio.Uart.Io.write_answered_partial",
    "Cio.Uart.Io.closed_silent",
    "Cio.Uart.Io.second_write_forgets",
    "Cio.Uart.Io.close_forgets_write",
    "Cio.Uart.Io.read_once_partial",
    "Cio.Uart.Io.read_answered_partial",
    "Cio.Uart.Io.write_count_exact",
    "Cio.Uart.Io.write_failed_partial",
    "Cio.Uart.Io.read_result_reported_partial",
    "Cio.Uart.Io.write_error_returned",
    "Cio.Uart.Io.handler_called_again",
    "Cio.Uart.Io.read_before_first_read",
    "Cio.Uart.Io.hook_that_frees",
    "Cio.Uart.Io.partial_write_forgotten",
    "Cio.Uart.Io.no_data_is_end"
   ],
   "note": "proved for programs that always have a read pending and release the port only after closing; false of the code otherwise (negations proved)"
  },
  {
   "property": "C41",
   "status": "partial",
   "theorems": [
    "Cio.Uart.init_raw",
    "Cio.Uart.init_failed_partial",
    "Cio.Uart.init_leaks_descriptor"
   ],
   "note": "the descriptor stays open if tcgetattr fails (proved)"
  },
  {
   "property": "C37",
   "status": "partial",
   "theorems": [
    "Cio.Address.uds_file_partial",
    "Cio.Address.uds_abstract",
    "Cio.Address.uds_null",
    "Cio.Address.inet_exact",
    "Cio.Address.inet_socket_address",
    "Cio.Address.any_is_zero",
    "Cio.Address.inet_is_no_file",
    "Cio.Address.uds_empty_string_overread",
    "Cio.Address.uds_empty_string_picks_up_junk"
   ],
   "note": "in full except for the empty string as a Unix domain path, which the code reads past its end (proved)"
  },
  {
   "property": "C35",
   "status": "partial",
   "theorems": [
    "Cio.HttpResponse.response_wellformed_partial",
    "Cio.HttpResponse.keepalive_truthful",
    "Cio.HttpResponse.early_response_closes",
    "Cio.HttpResponse.second_response_refused",
    "Cio.HttpResponse.arming_failed",
    "Cio.HttpResponse.keepalive_header",
    "Cio.HttpResponse.keepalive_seconds_partial",
    "Cio.HttpResponse.content_length_garbled",
    "Cio.HttpResponse.content_length_overread",
    "Cio.HttpResponse.keepalive_announced_then_closed",
    "Cio.HttpResponse.switching_has_content_length",
    "Cio.HttpResponse.keepalive_wraps"
   ],
   "note": "in full for bodies below 10^10 bytes; false of the code for longer bodies, for responses written before the request's header was read and for timeouts of 2^32 seconds and more (negations proved)"
  },
  {
   "property": "C27",
   "status": "proved",
   "theorems": [
    "Cio.WsHandshake.handshake_exact",
    "Cio.WsHandshake.upgraded_iff",
    "Cio.WsHandshake.other_fields_ignored",
    "Cio.WsHandshake.response_not_sent",
    "Cio.WsHandshake.any_upgrade_accepted",
    "Cio.WsHandshake.two_keys_accepted",
    "Cio.WsHandshake.key_not_decoded"
   ],
   "note": "exactly as stated, for all requests; RFC 6455 conditions that the code does not check (the value of Upgrade, repeated keys, base64 of the key) are shown as deviations"
  },
  {
   "property": "C28",
   "status": "partial",
   "theorems": [
    "Cio.WsHandshake.protocol_search",
    "Cio.WsHandshake.choose_spec",
    "Cio.WsHandshake.common_protocol_partial",
    "Cio.WsHandshake.handshake_exact",
    "Cio.WsHandshake.no_common_protocol_refused",
    "Cio.WsHandshake.protocol_lines_not_joined",
    "Cio.WsHandshake.malformed_rest_accepted"
   ],
   "note": "the chosen subprotocol is the first common one; without a common one the request is refused instead of going on without (proved)"
  },
  {
   "property": "C29",
   "status": "proved",
   "theorems": [
    "Cio.WsHandshake.accept_value",
    "Cio.WsHandshake.handshake_exact"
   ],
   "note": "for all keys; the response is read back from the bytes sent"
  },
  {
   "property": "C26",
   "status": "partial",
   "theorems": [
    "Cio.HttpLife.one_response_per_request",
    "Cio.HttpLife.no_callback_after_response",
    "Cio.HttpLife.no_undefined_behaviour_partial",
    "Cio.HttpLife.closed_and_released_once_partial",
    "Cio.HttpLife.released_is_final_partial",
    "Cio.HttpLife.handlers_freed_at_most_once_partial",
    "Cio.HttpLife.callbacks_while_handler_lives_partial",
    "Cio.HttpLife.idle_is_supervised",
    "Cio.HttpLife.timeout_acts",
    "Cio.HttpLife.upgraded_is_left_alone",
    "Cio.HttpLife.example_keepalive",
    "Cio.HttpLife.example_async",
    "Cio.HttpLife.close_in_written_callback_ub",
    "Cio.HttpLife.late_write_closes_twice",
    "Cio.HttpLife.failed_allocation_ub",
    "Cio.HttpLife.delayed_upgrade_lost",
    "Cio.HttpLife.offered_upgrade_stops_reading",
    "Cio.HttpLife.pipelined_handler_leaked"
   ],
   "note": "one response per request and no callback behind it: all executions; the rest for executions in which the user does not close the client in the response-written callback, handlers can be allocated, no two requests are parsed in one go, and the socket does not linger while a response is being written; false of the code otherwise (negations proved)"
  },
  {
   "property": "C36",
   "status": "partial",
   "theorems": [
    "Cio.Refuse.invalid_refused_partial",
    "Cio.Refuse.valid_carried_out",
    "Cio.Refuse.checks_defined",
    "Cio.Refuse.late_check"
   ],
   "note": "all argument combinations of 27 entry points; cio_websocket_location_handler_init writes to its handler before it checks on_connect (proved late_check); entry points without checks (cio_socket_connect's handler, the UART getters' out pointer, cio_websocket_write_message_continuation_chunk, timers, cio_server_socket_accept's server) are outside of the claim"
  },
  {
   "property": "C42",
   "status": "partial",
   "theorems": [
    "Cio.Resources.accept_hands_over_or_cleans_up",
    "Cio.Resources.server_resources",
    "Cio.Resources.nothing_left",
    "Cio.Resources.closing_completes",
    "Cio.Resources.accept_error_frees_null",
    "Cio.Resources.accept_uses_released_server"
   ],
   "note": "proved in full for all answers of the operating system; but the HTTP server calls free_client(NULL) on every accept error, and a handler that destroys the server during an error makes accept_callback use it after it was released (both proved)"
  },
  {
   "property": "C43",
   "status": "partial",
   "theorems": [
    "Cio.Resources.eventloop_init_all_or_nothing",
    "Cio.Resources.timer_init_all_or_nothing",
    "Cio.Resources.socket_init_all_or_nothing",
    "Cio.Resources.server_socket_init_all_or_nothing",
    "Cio.Resources.serve_all_or_nothing",
    "Cio.Resources.server_init_partial",
    "Cio.Resources.fastopen_failure_leaks"
   ],
   "note": "in full except for cio_http_server_init with TCP fast open, which leaks the listening descriptor if fast open fails (proved)"
  },
  {
   "property": "C44",
   "status": "partial",
   "theorems": [
    "Cio.HttpChunks.bytes_in_order",
    "Cio.HttpChunks.lines_in_one_piece_partial",
    "Cio.HttpChunks.urls_complete_partial",
    "Cio.HttpChunks.urls_complete_waiting_partial",
    "Cio.HttpChunks.never_stuck_partial",
    "Cio.HttpChunks.url_cut_in_two",
    "Cio.HttpChunks.url_depends_on_segmentation",
    "Cio.HttpChunks.second_request_stuck",
    "Cio.HttpChunks.header_cut_in_two"
   ],
   "note": "byte order in full; lines and URLs in one piece as long as all earlier requests of the connection had a Content-Length field; false of the code otherwise because remaining_content_length is not reset (negation proved by concrete executions, and for every pair of GET requests by second_request_stuck); the parser itself is modelled by its callbacks"
  },
  {
   "property": "C45",
   "status": "partial",
   "theorems": [
    "Cio.WsRoundTrip.binary_round_trip",
    "Cio.WsRoundTrip.round_trip_partial",
    "Cio.WsQueue.frames_legal_partial",
    "Cio.WsRoundTrip.end_to_end_binary_partial",
    "Cio.WsRoundTrip.end_to_end_partial",
    "Cio.WsStream.binary_sent_is_seen",
    "Cio.WsStream.sent_is_seen_partial",
    "Cio.WsStream.queued_is_seen_partial",
    "Cio.WsQueue.pong_within_frame",
    "Cio.WsRecv.segmentation_matters",
    "Cio.Masking.chunks_not_masked_as_whole"
   ],
   "note": "every legal sequence of binary, ping and pong frames arrives as sent, for all masks and segmentations (a client's further chunks of a frame being multiples of 4 bytes, without that it is false: chunks_not_masked_as_whole); text if no piece ends inside a character (false otherwise: segmentation_matters); the queue only makes legal sequences, frames given in one call arrive end to end, also through the buffered stream with any packets the network delivers (binary_sent_is_seen, sent_is_seen_partial, queued_is_seen_partial)"
  },
  {
   "property": "C46",
   "status": "partial",
   "theorems": [
    "Cio.WsClose.close_on_wire",
    "Cio.WsClose.reply_on_wire",
    "Cio.WsClose.close_body_ok_iff",
    "Cio.WsClose.close_legal_partial",
    "Cio.WsClose.closing_handshake_partial",
    "Cio.WsClose.own_closes_understood",
    "Cio.WsClose.own_closes_codes",
    "Cio.WsClose.reason_cut_in_character",
    "Cio.WsClose.close_not_legal",
    "Cio.WsClose.illegal_code_sent",
    "Cio.WsClose.offered_codes_refused",
    "Cio.WsClose.one_character_reason"
   ],
   "note": "what is sent: in full; the handshake for reasons of at most 123 bytes that are empty or end with two ASCII characters; false of the code otherwise (a long reason is cut inside a character, the receiver's check of the reason is wrong, status codes the library offers are refused by it; negations proved)"
  },
  {
   "property": "C47",
   "status": "proved",
   "theorems": [
    "Cio.WsStream.stream_used_properly",
    "Cio.WsStream.stream_refines",
    "Cio.WsStream.comes_to_rest",
    "Cio.WsStream.rest_cases",
    "Cio.WsStream.no_reading_ahead"
   ],
   "note": "websocket.c and buffered_stream.c composed; read buffer of at least 125 bytes; reads are issued as cio_websocket_read_message is meant to be used (not while a read is pending)"
  },
  {
   "property": "C48",
   "status": "partial",
   "theorems": [
    "Cio.Zephyr.Loop.dispatched_in_order",
    "Cio.Zephyr.Loop.nothing_lost_partial",
    "Cio.Zephyr.Loop.loop_goes_on",
    "Cio.Zephyr.Loop.cancel_ends_loop_partial",
    "Cio.Zephyr.Loop.stuck_forever",
    "Cio.Zephyr.Loop.full_queue_blocks",
    "Cio.Zephyr.Loop.called_after_cancel"
   ],
   "note": "order and removal for all uses; nothing lost as long as there is room for an event in the queue of ten; cancellation without an interrupt in its middle; false of the code otherwise (negations proved)"
  },
  {
   "property": "C49",
   "status": "partial",
   "theorems": [
    "Cio.Zephyr.Timer.handler_at_most_once_partial",
    "Cio.Zephyr.Timer.arming_not_forgotten_partial",
    "Cio.Zephyr.Timer.closed_all_answered_partial",
    "Cio.Zephyr.Timer.cancel_aborts_partial",
    "Cio.Zephyr.Timer.timeout_converted_partial",
    "Cio.Zephyr.Timer.cancel_not_aborted",
    "Cio.Zephyr.Timer.close_forgets_handler",
    "Cio.Zephyr.Timer.rearm_forgets_handler",
    "Cio.Zephyr.Timer.rearm_calls_null",
    "Cio.Zephyr.Timer.purge_forgets_handler",
    "Cio.Zephyr.Timer.close_in_aborted_handler",
    "Cio.Zephyr.Timer.short_timeout_is_zero",
    "Cio.Zephyr.Timer.long_timeout_is_negative"
   ],
   "note": "proved for programs with one arming at a time that close the timer outside of aborted handlers and when every expiry is reported; times below 2^31 ms; false of the code otherwise (negations proved)"
  },
  {
   "property": "C50",
   "status": "partial",
   "theorems": [
    "Cio.Zephyr.Socket.answered_once_partial",
    "Cio.Zephyr.Socket.not_forgotten_partial",
    "Cio.Zephyr.Socket.bytes_in_order_partial",
    "Cio.Zephyr.Socket.read_and_write_mixed_up",
    "Cio.Zephyr.Socket.rest_of_packet_lost",
    "Cio.Zephyr.Socket.closed_socket_used",
    "Cio.Zephyr.Socket.short_write_reported_whole",
    "Cio.Zephyr.Socket.zero_never_answered"
   ],
   "note": "proved for one operation at a time (read or write), closing when no report is queued, and (bytes) packets that fit into the buffer; false of the code otherwise (negations proved)"
  },
  {
   "property": "C51",
   "status": "partial",
   "theorems": [
    "Cio.Zephyr.Accept.accepted_once_partial",
    "Cio.Zephyr.Accept.not_forgotten_partial",
    "Cio.Zephyr.Accept.waiting_is_handed_out_partial",
    "Cio.Zephyr.Accept.two_connections_mixed_up",
    "Cio.Zephyr.Accept.wrong_connection_dropped",
    "Cio.Zephyr.Accept.closed_server_used",
    "Cio.Zephyr.Accept.close_in_no_memory_handler",
    "Cio.Zephyr.Accept.failed_accept_succeeds"
   ],
   "note": "proved when connections arrive one at a time and the server is not closed between an arrival and its event; false of the code otherwise (negations proved)"
  },
  {
   "property": "C52",
   "status": "partial",
   "theorems": [
    "Cio.Zephyr.Misc.entropy_complete_partial",
    "Cio.Zephyr.Misc.entropy_truncated",
    "Cio.Zephyr.Misc.entropy_failure_hidden",
    "Cio.Zephyr.Misc.socket_create_result"
   ],
   "note": "below 65536 bytes with a driver that does not fail; false of the code otherwise (negations proved)"
  },
  {
   "property": "C53",
   "status": "proved",
   "theorems": [
    "Cio.Windows.Loop.dispatched_in_order",
    "Cio.Windows.Loop.loop_goes_on",
    "Cio.Windows.Loop.loop_never_stuck",
    "Cio.Windows.Loop.loop_waits_again",
    "Cio.Windows.Loop.returns_only_when_cancelled",
    "Cio.Windows.Loop.silent_after_cancel",
    "Cio.Windows.Loop.cancel_ends_loop",
    "Cio.Windows.Loop.init_all_or_nothing",
    "Cio.Windows.Loop.cancelled_for_ever",
    "Cio.Windows.Loop.init_error_positive"
   ],
   "note": "all histories; as on Linux a cancelled loop can never run again (cancelled_for_ever), and the error of WSAStartup is returned positive (init_error_positive)"
  },
  {
   "property": "C54",
   "status": "partial",
   "theorems": [
    "Cio.Windows.Timer.handler_at_most_once_partial",
    "Cio.Windows.Timer.arming_not_forgotten_partial",
    "Cio.Windows.Timer.closed_all_answered_partial",
    "Cio.Windows.Timer.cancel_result_partial",
    "Cio.Windows.Timer.timeout_converted_partial",
    "Cio.Windows.Timer.close_before_arming",
    "Cio.Windows.Timer.close_forgets_handler",
    "Cio.Windows.Timer.close_while_firing",
    "Cio.Windows.Timer.rearm_forgets_handler",
    "Cio.Windows.Timer.refused_rearm_forgets_handler",
    "Cio.Windows.Timer.rearm_calls_null",
    "Cio.Windows.Timer.refused_handler_called",
    "Cio.Windows.Timer.arm_in_aborted_handler",
    "Cio.Windows.Timer.close_in_aborted_handler",
    "Cio.Windows.Timer.short_timeout_is_zero",
    "Cio.Windows.Timer.long_timeout_is_zero"
   ],
   "note": "proved for programs with one arming at a time that use the timer outside of aborted handlers, do not close or cancel it before the first arming and close it when every expiry was reported; times below 2^32 ms; false of the code otherwise (negations proved)"
  },
  {
   "property": "C55",
   "status": "partial",
   "theorems": [
    "Cio.Windows.Socket.answered_once_partial",
    "Cio.Windows.Socket.read_not_forgotten_partial",
    "Cio.Windows.Socket.write_not_forgotten_partial",
    "Cio.Windows.Socket.connect_not_forgotten_partial",
    "Cio.Windows.Socket.close_completes_partial",
    "Cio.Windows.Socket.hook_is_last_partial",
    "Cio.Windows.Socket.bytes_in_order_partial",
    "Cio.Windows.Socket.completion_after_close",
    "Cio.Windows.Socket.read_after_close",
    "Cio.Windows.Socket.close_while_connecting",
    "Cio.Windows.Socket.connect_at_once",
    "Cio.Windows.Socket.connect_at_once_closed",
    "Cio.Windows.Socket.write_after_failed_connect",
    "Cio.Windows.Socket.full_buffer_reported_as_end",
    "Cio.Windows.Socket.two_reads",
    "Cio.Windows.Socket.write_while_connecting"
   ],
   "note": "proved for one read and one write or connect at a time, buffers with room, no write after a failed connect, ConnectEx that does not succeed at once, and closing when no connect is under way and no completed operation waits for the event loop; false of the code otherwise (negations proved)"
  },
  {
   "property": "C56",
   "status": "partial",
   "theorems": [
    "Cio.Windows.Accept.told_once_partial",
    "Cio.Windows.Accept.goes_on_partial",
    "Cio.Windows.Accept.not_forgotten_partial",
    "Cio.Windows.Accept.close_completes_partial",
    "Cio.Windows.Accept.no_descriptor_lost_partial",
    "Cio.Windows.Accept.close_bound",
    "Cio.Windows.Accept.failure_ends_accepting",
    "Cio.Windows.Accept.failure_loses_hook",
    "Cio.Windows.Accept.connection_lost",
    "Cio.Windows.Accept.closed_twice",
    "Cio.Windows.Accept.told_after_close",
    "Cio.Windows.Accept.accept_before_bind",
    "Cio.Windows.Accept.accept_twice"
   ],
   "note": "proved for accepting once after binding, no failing accept, setsockopt, WSASocketW or AcceptEx, and closing before binding or while accepting with no connection waiting for the event loop (alloc_client and the completion port may fail); false of the code otherwise (negations proved)"
  },
  {
   "property": "C57",
   "status": "partial",
   "theorems": [
    "Cio.Windows.Uart.getters_truthful",
    "Cio.Windows.Uart.getter_errors",
    "Cio.Windows.Uart.set_view_partial",
    "Cio.Windows.Uart.set_failed",
    "Cio.Windows.Uart.set_taken",
    "Cio.Windows.Uart.errors_returned",
    "Cio.Windows.Uart.history_partial",
    "Cio.Windows.Uart.invalid_refused",
    "Cio.Windows.Uart.flow_control_ignored",
    "Cio.Windows.Uart.full_claim_false"
   ],
   "note": "proved for everything except flow control, which is ignored with success (proved)"
  },
  {
   "property": "C58",
   "status": "partial",
   "theorems": [
    "Cio.Windows.Uart.init_success",
    "Cio.Windows.Uart.init_failure",
    "Cio.Windows.Uart.init_failure_clean_partial",
    "Cio.Windows.Uart.init_failure_closes",
    "Cio.Windows.Uart.late_failure_frees_twice",
    "Cio.Windows.Uart.port_failure_closes_twice"
   ],
   "note": "success and the returned error in full; cleaning up in full for failures up to CreateFileW; every later failure frees the file name a second time, and that of the completion port closes the handle twice (proved)"
  },
  {
   "property": "C59",
   "status": "partial",
   "theorems": [
    "Cio.Windows.UartIo.refines",
    "Cio.Windows.UartIo.answered_once_partial",
    "Cio.Windows.UartIo.write_gives_chain_partial",
    "Cio.Windows.UartIo.read_not_forgotten_partial",
    "Cio.Windows.UartIo.write_not_forgotten_partial",
    "Cio.Windows.UartIo.close_completes_partial",
    "Cio.Windows.UartIo.hook_is_last_partial",
    "Cio.Windows.UartIo.bytes_in_order_partial",
    "Cio.Windows.UartIo.pending_write_reads_freed_memory",
    "Cio.Windows.UartIo.positive_write_error",
    "Cio.Windows.UartIo.no_data_is_end",
    "Cio.Windows.UartIo.completion_after_close",
    "Cio.Windows.UartIo.two_reads",
    "Cio.Windows.UartIo.refused_write_answered",
    "Cio.Windows.UartIo.large_write_cut"
   ],
   "note": "proved (by refinement to the sockets of C55) for one read and one write at a time, buffers and chains below 4 GiB, WriteFile taking its bytes at once, and closing when no completed operation waits for the event loop; errors of writes are reported with the wrong sign; false of the code otherwise (negations proved)"
  },
  {
   "property": "C60",
   "status": "partial",
   "theorems": [
    "Cio.Entropy.linux_complete",
    "Cio.Entropy.getentropy_honest",
    "Cio.Entropy.windows_complete_partial",
    "Cio.Entropy.windows_truncated"
   ],
   "note": "Linux in full; Windows below 4 GiB, where the length is cut to 32 bits (negation proved)"
  },
  {
   "property": "C61",
   "status": "partial",
   "theorems": [
    "Cio.HttpChunks.behind_upgrade_untouched_partial",
    "Cio.HttpChunks.upgrade_reached_partial",
    "Cio.HttpChunks.upgrade_refused",
    "Cio.WsStream.frames_after_upgrade",
    "Cio.WsStream.frames_behind_upgrade_partial"
   ],
   "note": "HTTP parsing, hand-over and WebSocket reception composed; as long as all earlier requests of the connection carry a Content-Length (otherwise false: negation proved)"
  },
  {
   "property": "C62",
   "status": "partial",
   "theorems": [
    "Cio.Uart.Ports.ports_exact",
    "Cio.Uart.Ports.ports_found",
    "Cio.Uart.Ports.number_exact",
    "Cio.Uart.Ports.directory_closed",
    "Cio.Uart.Ports.no_directory",
    "Cio.Uart.Ports.one_dead_link_hides_all",
    "Cio.Uart.Ports.unknown_types_missed",
    "Cio.Windows.Ports.ports_exact",
    "Cio.Windows.Ports.errors_reported",
    "Cio.Windows.Ports.number_exact",
    "Cio.Windows.Ports.names_given_back_partial",
    "Cio.Windows.Ports.keys_closed_partial",
    "Cio.Windows.Ports.friendly_name_leaks",
    "Cio.Windows.Ports.key_closed_twice",
    "Cio.Windows.Ports.name_overread",
    "Cio.Windows.Ports.number_gives_back_partial",
    "Cio.Windows.Ports.list_destroyed",
    "Cio.Windows.Ports.released_once_partial",
    "Cio.Windows.Ports.name_memory_suffices",
    "Cio.Windows.Ports.friendly_overread"
   ],
   "note": "what is found: in full for Linux and Windows, except that one dead link hides all ports on Linux (negation proved); resources: in full for Linux; on Windows friendly names leak, keys may be closed twice and names are read beyond their end (negations proved)"
  },
  {
   "property": "C63",
   "status": "partial",
   "theorems": [
    "Cio.HttpLife.error_is_final",
    "Cio.HttpLife.error_answered_partial",
    "Cio.HttpLife.message_error_ignored"
   ],
   "note": "no rule needed for all callbacks but the one for the complete message; the answer is immediate where http_parser stops before the end of the data it was given; an error of the callback for the complete message is ignored if its response is written already (negation proved)"
  },
  {
   "property": "C64",
   "status": "proved",
   "theorems": [
    "Cio.HttpUrl.url_callbacks",
    "Cio.HttpUrl.url_routed",
    "Cio.HttpUrl.url_without_path",
    "Cio.HttpUrl.noCallbacks_iff",
    "Cio.HttpUrl.init_noCallbacks"
   ],
   "note": "http_parser_parse_url is an input"
  },
  {
   "property": "C65",
   "status": "partial",
   "theorems": [
    "Cio.StreamSocket.reads_what_peer_sent",
    "Cio.StreamSocket.read_errors_truthful",
    "Cio.StreamSocket.writes_reach_peer_partial",
    "Cio.StreamSocket.all_writes_successful_partial",
    "Cio.StreamSocket.socket_used_properly",
    "Cio.StreamSocket.never_stuck",
    "Cio.StreamSocket.waiting_read_gets_data_partial",
    "Cio.StreamSocket.pending_read_waits_partial",
    "Cio.StreamSocket.pending_write_waits",
    "Cio.StreamSocket.one_element_sent_twice",
    "Cio.StreamSocket.write_goes_on_after_close"
   ],
   "note": "buffered_stream.c and linux/socket.c composed; reading and the use of the socket in full; writes except those whose first sendmsg ends within, or must wait before, the last element with bytes (they are sent twice: negation proved); progress of reads without spurious wake-ups and with handlers that do not read on after errors (negations in C12 and C33); the application does not close a lingering stream while it writes (write_goes_on_after_close)"
  },
  {
   "property": "C66",
   "status": "partial",
   "theorems": [
    "Cio.WsTcp.both_sides_safe",
    "Cio.WsTcp.received_is_sent",
    "Cio.WsTcp.binary_messages_arrive_partial",
    "Cio.WsTcp.text_messages_arrive_partial",
    "Cio.WsTcp.queued_messages_arrive_partial",
    "Cio.WsTcp.everything_can_arrive_partial",
    "Cio.WsTcp.end_is_true",
    "Cio.WsTcp.nothing_lost_before_end_partial",
    "Cio.WsTcp.text_frames_exact_partial",
    "Cio.WsTcp.queued_frames_exact_partial",
    "Cio.WsTcp.queued_text_exact_partial",
    "Cio.WsTcp.message_seen_twice"
   ],
   "note": "websocket.c, buffered_stream.c and linux/socket.c of two sides composed over a network; binary messages, pings and pongs; text if no piece the socket delivers ends inside a character; not for writes whose first sendmsg ends within, or must wait before, the last element with bytes (a message can be seen twice: negation proved); that everything can arrive needs no spurious wake-ups and no failing system calls"
  },
  {
   "property": "C67",
   "status": "partial",
   "theorems": [
    "Cio.Epoll.returns_only_when_cancelled",
    "Cio.Epoll.cancel_ends_loop_partial",
    "Cio.Epoll.cancelled_for_ever",
    "Cio.Epoll.no_second_run"
   ],
   "note": "when and how the loop ends: in full (as long as epoll_wait has room for the eventfd among its 100 events); a cancelled loop can never run again, because the eventfd is never read (negation proved)"
  },
  {
   "property": "C68",
   "status": "partial",
   "theorems": [
    "Cio.WsQueue.user_close_supervised",
    "Cio.WsQueue.failure_ends_partial",
    "Cio.WsQueue.peer_close_ends_partial",
    "Cio.WsQueue.failed_unsupervised",
    "Cio.WsQueue.peer_closed_unsupervised"
   ],
   "note": "closing by the user: in full, for every execution; peer's close and failures: for executions that keep to the rules of C23 and as long as there is no undefined behaviour (negations in C23, C24); but no timer supervises these two, and cio_websocket_close is refused: the connection is held for as long as the transport does not finish its writes (proved for all such states: failed_unsupervised, peer_closed_unsupervised)"
  },
  {
   "property": "C69",
   "status": "proved",
   "theorems": [
    "Cio.Masking.mask_write_buffer_correct"
   ],
   "note": "the buffers are required to be disjoint"
  },
  {
   "property": "C70",
   "status": "proved",
   "theorems": [
    "Cio.WsRecv.text_messages_wellformed",
    "Cio.WsRecv.illformed_text_rejected",
    "Cio.WsStream.stream_texts_wellformed",
    "Cio.WsStream.stream_illformed_rejected"
   ],
   "note": "that well-formed text is never refused is C20"
  },
  {
   "property": "C71",
   "status": "proved",
   "theorems": [
    "Cio.WsRecv.binary_received_as_specified",
    "Cio.WsRecv.binary_frames_delivered",
    "Cio.WsStream.stream_binary_received"
   ],
   "note": "text messages: C18, C20"
  },
  {
   "property": "C72",
   "status": "proved",
   "theorems": [
    "Cio.WsRecv.close_status_codes"
   ],
   "note": "frames with a reason that is not UTF-8: C22"
  },
  {
   "property": "C73",
   "status": "proved",
   "theorems": [
    "Cio.StreamSocket.reads_what_peer_sent",
    "Cio.StreamSocket.read_errors_truthful",
    "Cio.StreamSocket.socket_used_properly"
   ],
   "note": "the operating system's byte stream is trusted to be one"
  },
  {
   "property": "C74",
   "status": "proved",
   "theorems": [
    "Cio.Epoll.returns_only_when_cancelled",
    "Cio.Epoll.cancel_ends_loop"
   ],
   "note": "running the loop again: C67"
  },
  {
   "property": "C75",
   "status": "proved",
   "theorems": [
    "Cio.Entropy.linux_complete",
    "Cio.Entropy.getentropy_honest"
   ],
   "note": "quality of the entropy is the operating system's"
  },
  {
   "property": "C76",
   "status": "proved",
   "theorems": [
    "Cio.Uart.Ports.ports_exact",
    "Cio.Uart.Ports.ports_found",
    "Cio.Uart.Ports.number_exact",
    "Cio.Uart.Ports.directory_closed"
   ],
   "note": "whether the links are serial ports is not checked by the code"
  },
  {
   "property": "C77",
   "status": "proved",
   "theorems": [
    "Cio.HttpLife.one_response_per_request",
    "Cio.HttpLife.no_callback_after_response"
   ],
   "note": ""
  },
  {
   "property": "C78",
   "status": "proved",
   "theorems": [
    "Cio.HttpLife.error_is_final"
   ],
   "note": "the callback for the complete message: C63"
  },
  {
   "property": "C79",
   "status": "proved",
   "theorems": [
    "Cio.Windows.Uart.init_success",
    "Cio.Windows.Uart.init_failure"
   ],
   "note": "leaks on failure: C58"
  },
  {
   "property": "C80",
   "status": "proved",
   "theorems": [
    "Cio.Uart.getters_truthful",
    "Cio.Uart.getter_errors",
    "Cio.Uart.getter_errors_real",
    "Cio.Uart.set_failed",
    "Cio.Uart.invalid_refused"
   ],
   "note": "what successful setters do: C34"
  },
  {
   "property": "C81",
   "status": "proved",
   "theorems": [
    "Cio.Uart.Io.bytes_exact",
    "Cio.Uart.Io.write_once",
    "Cio.Uart.Io.closed_silent",
    "Cio.Uart.Io.write_count_exact"
   ],
   "note": "progress: C40"
  },
  {
   "property": "C82",
   "status": "proved",
   "theorems": [
    "Cio.HttpChunks.bytes_in_order"
   ],
   "note": "lines in one piece: C44"
  },
  {
   "property": "C83",
   "status": "proved",
   "theorems": [
    "Cio.Zephyr.Loop.dispatched_in_order"
   ],
   "note": "the message queue of the operating system is trusted to be first in, first out"
  },
  {
   "property": "C84",
   "status": "proved",
   "theorems": [
    "Cio.WsTcp.both_sides_safe",
    "Cio.WsTcp.received_is_sent",
    "Cio.WsTcp.end_is_true"
   ],
   "note": "messages: C66"
  },
  {
   "property": "C85",
   "status": "proved",
   "theorems": [
    "Cio.WsClose.close_on_wire",
    "Cio.WsClose.reply_on_wire",
    "Cio.WsClose.own_closes_understood"
   ],
   "note": "cuts within a UTF-8 character: C46"
  },
  {
   "property": "C86",
   "status": "proved",
   "theorems": [
    "Cio.Resources.accept_hands_over_or_cleans_up",
    "Cio.Resources.server_resources",
    "Cio.Resources.nothing_left",
    "Cio.Resources.closing_completes"
   ],
   "note": ""
  },
  {
   "property": "C87",
   "status": "proved",
   "theorems": [
    "Cio.Resources.eventloop_init_all_or_nothing",
    "Cio.Resources.timer_init_all_or_nothing",
    "Cio.Resources.socket_init_all_or_nothing",
    "Cio.Resources.server_socket_init_all_or_nothing",
    "Cio.Resources.serve_all_or_nothing"
   ],
   "note": ""
  },
  {
   "property": "C88",
   "status": "proved",
   "theorems": [
    "Cio.HttpResponse.keepalive_truthful",
    "Cio.HttpResponse.second_response_refused",
    "Cio.HttpResponse.early_response_closes"
   ],
   "note": ""
  },
  {
   "property": "C89",
   "status": "proved",
   "theorems": [
    "Cio.WsHandshake.choose_spec",
    "Cio.WsHandshake.protocol_search",
    "Cio.WsHandshake.common_protocol"
   ],
   "note": ""
  },
  {
   "property": "C90",
   "status": "proved",
   "theorems": [
    "Cio.Address.uds_file",
    "Cio.Address.uds_abstract",
    "Cio.Address.inet_exact",
    "Cio.Address.inet_socket_address",
    "Cio.Address.any_is_zero"
   ],
   "note": "the empty path name: C37"
  },
  {
   "property": "C91",
   "status": "proved",
   "theorems": [
    "Cio.WsRecv.read_handler_arguments",
    "Cio.WsStream.stream_read_handler_arguments"
   ],
   "note": ""
  },
  {
   "property": "C92",
   "status": "proved",
   "theorems": [
    "Cio.Autobahn.echoes",
    "Cio.Autobahn.frames_come_back"
   ],
   "note": "the writes are the calls the application makes; what the library does with them is C17, C24 and C45; text whose pieces end within a character: C20"
  },
  {
   "property": "C93",
   "status": "proved",
   "theorems": [
    "Cio.Linux.socket_read_callback",
    "Cio.Linux.socket_write_callback",
    "Cio.Linux.socket_calls_legal",
    "Cio.Linux.timer_read_callback",
    "Cio.Linux.timer_no_write_callback",
    "Cio.Linux.timer_calls_legal",
    "Cio.Linux.CloseTimer.timer_as_socket_says",
    "Cio.Linux.CloseTimer.timer_calls_possible",
    "Cio.Linux.CloseTimer.expiry_expected"
   ],
   "note": "under the rules of use of the three models (C30, C32, C33)"
  },
  {
   "property": "C94",
   "status": "partial",
   "theorems": [
    "Cio.Linux.Server.connections_accounted",
    "Cio.Linux.Server.closed_once",
    "Cio.Linux.Server.outcome_reported",
    "Cio.Linux.Server.goes_on_accepting_partial",
    "Cio.Linux.Server.second_accept_makes_deaf",
    "Cio.Linux.Server.deaf_for_ever",
    "Cio.Linux.Server.close_on_error_used"
   ],
   "note": "the first two sentences hold without rules; the last one needs cio_server_socket_accept to be called once and the server not to be closed by a handler that is told of a failed connection. Without them it is false: a refused second accept leaves the socket deaf for ever (second_accept_makes_deaf, deaf_for_ever), and a close by such a handler lets the library read the freed server socket (close_on_error_used)"
  },
  {
   "property": "C95",
   "status": "proved",
   "theorems": [
    "Cio.WsRecv.lengths_fit",
    "Cio.WsRecv.fitting_frames_as_before",
    "Cio.WsRecv.fitting_frames_delivered",
    "Cio.WsRecv.oversized_frame_refused",
    "Cio.WsRecv.oversized_frame_refused_text"
   ],
   "note": "what the 64 bit receiver makes of text that is cut inside a character: C18, C20"
  },
  {
   "property": "C96",
   "status": "proved",
   "theorems": [
    "Cio.HttpLife.request_takes_bounded_time",
    "Cio.HttpLife.request_not_cut_short",
    "Cio.HttpLife.time_passes",
    "Cio.HttpLife.idle_is_supervised",
    "Cio.HttpLife.timeout_acts",
    "Cio.HttpLife.example_slow_client",
    "Cio.HttpLife.example_trickle"
   ],
   "note": "under the conditions listed in the statement (Obeys, asksUpgrade; cancelling a timer succeeds for request_not_cut_short); the bound is attained (example_slow_client); steps of the library and of handlers take no time except as delay of the event loop"
  },
  {
   "property": "C97",
   "status": "proved",
   "theorems": [
    "Cio.Linux.uart_read_callback",
    "Cio.Linux.uart_write_callback",
    "Cio.Linux.uart_calls_legal",
    "Cio.Linux.server_read_callback",
    "Cio.Linux.server_no_write_callback",
    "Cio.Linux.server_calls_legal"
   ],
   "note": "rule of use: no second accept on a socket that accepts (it answers EEXIST and makes the socket deaf, C94); closing a socket that is not in the loop is taken to find nothing"
  },
  {
   "property": "C98",
   "status": "partial",
   "theorems": [
    "Cio.Echo.proper_user",
    "Cio.Echo.echoes_partial",
    "Cio.Echo.echoes_all_partial",
    "Cio.Echo.at_rest",
    "Cio.Echo.closes_on_error",
    "Cio.Echo.bytes_echoed_twice",
    "Cio.Echo.failed_write_forgotten",
    "Cio.Echo.forgotten_connection"
   ],
   "note": "false of the code in two cases: if sendmsg does not take a unit at once the bytes are sent twice (`bytes_echoed_twice`, the defect of C15); a connection on which a write fails is never closed (`failed_write_forgotten`). The other claims are proved for all executions"
  },
  {
   "property": "C99",
   "status": "proved",
   "theorems": [
    "Cio.Autobahn.message_comes_back"
   ],
   "note": "between the sender's calls and the wire stand C24 (`send_frame`) and C17 (the order of frames in the queue, where the theorem assumes that pongs are queued between frames, not within one)"
  },
  {
   "property": "C100",
   "status": "partial",
   "theorems": [
    "Cio.PlainEcho.echoes_partial",
    "Cio.PlainEcho.echoes_all_partial",
    "Cio.PlainEcho.at_rest",
    "Cio.PlainEcho.closes_partial",
    "Cio.PlainEcho.memory_safe",
    "Cio.PlainEcho.never_more_than_size",
    "Cio.PlainEcho.full_buffer_is_end",
    "Cio.PlainEcho.closed_after_128",
    "Cio.PlainEcho.bytes_echoed_twice",
    "Cio.PlainEcho.failure_forgotten",
    "Cio.PlainEcho.forgotten_connection"
   ],
   "note": "false of the code in three cases: the read buffer is never emptied, so that the server sends back 128 bytes per connection at most and then takes the next byte as the end of the stream and closes (`never_more_than_size`, `full_buffer_is_end`, `closed_after_128`); if sendmsg does not take what was read at once it is sent twice (`bytes_echoed_twice`, the defect of C15); a connection on which reading or writing fails is never closed (`failure_forgotten`). The other claims are proved for all executions"
  },
  {
   "property": "C101",
   "status": "partial",
   "theorems": [
    "Cio.HttpTcp.client_reads_partial",
    "Cio.HttpTcp.client_reads_exactly",
    "Cio.HttpTcp.wrong_answer",
    "Cio.HttpTcp.wrong_answer_reachable",
    "Cio.HttpTcp.reply_is",
    "Cio.HttpTcp.responses_prefix"
   ],
   "note": "false of the code: if the first sendmsg of an answer ends within the last element of the response (usually the body), the whole response is sent a second time, and the client takes the copy for the answer to its next request (`wrong_answer`, reachable: `wrong_answer_reachable`). `client_reads_exactly` states without that exception what the client reads: each answer once or, in exactly that case, twice"
  },
  {
   "property": "C102",
   "status": "partial",
   "theorems": [
    "Cio.WsExample.message_answered",
    "Cio.WsExample.at_most_one_hello_partial",
    "Cio.WsExample.never_says_good_bye",
    "Cio.WsExample.deaf_after_hello_partial",
    "Cio.WsExample.never_closed_after_hello",
    "Cio.WsExample.frozen",
    "Cio.WsExample.kept_for_ever",
    "Cio.WsExample.no_timer_no_service",
    "Cio.WsExample.dangling_reachable",
    "Cio.WsExample.not_dangling_partial"
   ],
   "note": "false of the code but for the answer (`message_answered`): every call of cio_websocket_close in the program passes no handler and is refused, so it never begins to close (`never_says_good_bye`, all executions); after the first message it never reads again and notices nothing of the peer (`deaf_after_hello_partial`), the connection is never closed although every write may fail (`never_closed_after_hello`), and after a failed ping nothing ever happens again (`frozen`, `kept_for_ever`); the head of the ping's write buffer is a local variable of a function that has returned if the ping has to wait (`dangling_reachable`; `not_dangling_partial` if no write has to wait). The theorems with _partial suppose that the connection has not failed (on_error not called)"
  },
  {
   "property": "C103",
   "status": "partial",
   "theorems": [
    "Cio.Periodic.messages_spaced",
    "Cio.Periodic.last_message_ends",
    "Cio.Periodic.finishes_partial",
    "Cio.Periodic.never_idle_partial",
    "Cio.Periodic.ends_only_when_done_partial",
    "Cio.Periodic.arming_failed_hangs",
    "Cio.Periodic.ends_with_open_timer"
   ],
   "note": "number and distance of the messages, the close after the last one and the absence of undefined behaviour hold in all executions; that the program comes to its end (`finishes_partial`: from every state it can; `never_idle_partial`: the timer is always running) and ends only when done is proved for executions in which the operating system does not fail (and no signal comes). Without that it is false: if arming fails in the handler the program hangs for ever with an open timer (`arming_failed_hangs`), and a signal or a failure of the first arming ends it without closing the timer (`ends_with_open_timer`)"
  },
  {
   "property": "C104",
   "status": "partial",
   "theorems": [
    "Cio.HttpExample.every_request_is_answered",
    "Cio.HttpExample.never_upgrades",
    "Cio.HttpExample.one_response_per_request",
    "Cio.HttpExample.keeps_serving_partial",
    "Cio.HttpExample.one_reset_stops_the_server",
    "Cio.HttpExample.pipelining_stops_the_server",
    "Cio.HttpExample.two_failures_shut_down_twice",
    "Cio.HttpExample.one_failure_shuts_down_twice",
    "Cio.HttpExample.slow_client_closed_twice"
   ],
   "note": "that every request is answered at once (or the timer for the response can not be armed, and `on_error` is called), with at most one response, holds in all executions. That the server keeps serving is proved if the operating system does what it is asked to do at once, no client resets its connection, and no request arrives together with the end of the one before. Without that it is false: from every state of the running program a single client that connects and resets its connection stops the whole server (`one_reset_stops_the_server`), and so does one that pipelines (`pipelining_stops_the_server`); the server socket can be closed twice (`two_failures_shut_down_twice`, `one_failure_shuts_down_twice`) and a client that does not read can make the server close its connection twice (`slow_client_closed_twice`)"
  },
  {
   "property": "C105",
   "status": "proved",
   "theorems": [
    "Cio.Linux.Server.connections_accounted",
    "Cio.Linux.Server.closed_once",
    "Cio.Linux.Server.outcome_reported"
   ],
   "note": "the part of C94 that holds without any rule"
  },
  {
   "property": "C106",
   "status": "proved",
   "theorems": [
    "Cio.Windows.Uart.getters_truthful",
    "Cio.Windows.Uart.getter_errors",
    "Cio.Windows.Uart.set_failed",
    "Cio.Windows.Uart.set_taken",
    "Cio.Windows.Uart.errors_returned",
    "Cio.Windows.Uart.invalid_refused"
   ],
   "note": "the part of C57 that holds without exception"
  },
  {
   "property": "C107",
   "status": "proved",
   "theorems": [
    "Cio.Windows.Ports.ports_exact",
    "Cio.Windows.Ports.errors_reported",
    "Cio.Windows.Ports.number_exact",
    "Cio.Windows.Ports.list_destroyed"
   ],
   "note": "the part of C62 about Windows that holds without exception"
  },
  {
   "property": "C108",
   "status": "proved",
   "theorems": [
    "Cio.HttpExample.every_request_is_answered",
    "Cio.HttpExample.never_upgrades",
    "Cio.HttpExample.one_response_per_request"
   ],
   "note": "the part of C104 that holds without exception"
  },
  {
   "property": "C109",
   "status": "proved",
   "theorems": [
    "Cio.Periodic.messages_spaced",
    "Cio.Periodic.last_message_ends"
   ],
   "note": "the part of C103 that holds without exception"
  },
  {
   "property": "C110",
   "status": "proved",
   "theorems": [
    "Cio.WsRoundTrip.binary_round_trip",
    "Cio.WsStream.binary_sent_is_seen"
   ],
   "note": "the part of C45 that holds without exception (each frame's bytes as `cio_websocket_write_message_*` produces them, see C17; the queue is C24)"
  },
  {
   "property": "C111",
   "status": "proved",
   "theorems": [
    "Cio.WsQueue.user_close_supervised"
   ],
   "note": "the part of C68 that holds for every execution; undefined behaviour is excluded in the hypothesis because the C standard promises nothing after it (C23, C24 say when it can happen)"
  },
  {
   "property": "C112",
   "status": "proved",
   "theorems": [
    "Cio.Echo.proper_user",
    "Cio.Echo.at_rest",
    "Cio.Echo.closes_on_error"
   ],
   "note": "the part of C98 that holds without exception"
  },
  {
   "property": "C113",
   "status": "proved",
   "theorems": [
    "Cio.PlainEcho.memory_safe",
    "Cio.PlainEcho.at_rest",
    "Cio.PlainEcho.never_more_than_size"
   ],
   "note": "the part of C100 that holds without exception"
  },
  {
   "property": "C114",
   "status": "partial",
   "theorems": [
    "Cio.PingPong.sends_partial",
    "Cio.PingPong.sends_all_partial",
    "Cio.PingPong.finished_sent_partial",
    "Cio.PingPong.greeting_sent_twice",
    "Cio.PingPong.client_hangs"
   ],
   "note": "false in general: a send that ends within a message, or finds the socket's buffer full at once, sends the message twice (`greeting_sent_twice`, the bug of C12), and a client whose answer is refused by sendmsg waits for ever (`client_hangs`); proved for all other executions"
  },
  {
   "property": "C115",
   "status": "proved",
   "theorems": [
    "Cio.PingPong.proper_user",
    "Cio.PingPong.at_rest",
    "Cio.PingPong.never_too_many",
    "Cio.PingPong.closes_only",
    "Cio.PingPong.closes_on_error",
    "Cio.PingPong.finished"
   ],
   "note": "the part of C114 that holds without exception"
  },
  {
   "property": "C116",
   "status": "partial",
   "theorems": [
    "Cio.PingPong.only_greetings_partial",
    "Cio.PingPong.no_deadlock_partial",
    "Cio.PingPong.server_stays",
    "Cio.PingPong.finishes_partial",
    "Cio.PingPong.greetings_doubled"
   ],
   "note": "false in general because of the bug of C12: a send that ends within a message, or finds the buffer full at once, doubles it (`greetings_doubled`); proved for all other executions; the network is reliable and keeps the order, connection set-up and main are not modelled"
  },
  {
   "property": "C117",
   "status": "proved",
   "theorems": [
    "Cio.PingPong.only_greetings",
    "Cio.PingPong.no_deadlock",
    "Cio.PingPong.server_stays",
    "Cio.PingPong.finishes"
   ],
   "note": "the part of C116 that holds without exception: a doubled message is a whole one"
  },
  {
   "property": "C118",
   "status": "proved",
   "theorems": [
    "Cio.WsExample.one_ping_at_a_time",
    "Cio.WsExample.expiry_pings",
    "Cio.WsExample.only_expiry_pings",
    "Cio.WsExample.pings_go_on"
   ],
   "note": "a ping that failed is 'still to be written' for ever: the program does not ping again then (C102, Finding 60); expiry_pings is stated for executions without undefined behaviour (that there is none on a connection that has not failed: C07)"
  },
  {
   "property": "C119",
   "status": "proved",
   "theorems": [
    "Cio.HttpExample.shut_down_once_per_reason",
    "Cio.HttpExample.ends_only_for_a_reason",
    "Cio.HttpExample.no_client_after_shutdown",
    "Cio.HttpExample.signal_ends"
   ],
   "note": "what the second shutdown does to the descriptor of the server socket is Finding 64 (C104)"
  },
  {
   "property": "C120",
   "status": "proved",
   "theorems": [
    "Cio.BufferedWrite.handler_exactly_once",
    "Cio.StreamSocket.writes_exact",
    "Cio.StreamSocket.all_successful_exact"
   ],
   "note": "the part of C15 and C65 about writing that holds without exception; that two copies are wrong is their negation"
  },
  {
   "property": "C121",
   "status": "proved",
   "theorems": [
    "Cio.Echo.echoes_once_or_twice",
    "Cio.Echo.echoes_all_once_or_twice",
    "Cio.Echo.asks_units"
   ],
   "note": "the part of C98 about the bytes sent back that holds without exception; that a unit may come twice is the negation in C98"
  },
  {
   "property": "C122",
   "status": "proved",
   "theorems": [
    "Cio.PingPong.sends_once_or_twice",
    "Cio.PingPong.finished_once_or_twice"
   ],
   "note": "the part of C114 that holds without exception; that a message may come twice is the negation in C114"
  },
  {
   "property": "C123",
   "status": "proved",
   "theorems": [
    "Cio.HttpTcp.client_reads_copies",
    "Cio.HttpTcp.only_given_answers",
    "Cio.HttpTcp.client_reads_exactly"
   ],
   "note": "the part of C101 that holds without exception; that the second copy is wrong is the negation in C101"
  },
  {
   "property": "C124",
   "status": "partial",
   "theorems": [
    "Cio.ConnectExample.one_answer",
    "Cio.ConnectExample.ends_only",
    "Cio.ConnectExample.goes_on",
    "Cio.ConnectExample.exit_status",
    "Cio.ConnectExample.closes_once_partial",
    "Cio.ConnectExample.answered_closes_twice",
    "Cio.ConnectExample.descriptor_closed_twice",
    "Cio.ConnectExample.descriptor_never_closed"
   ],
   "note": "everything but the last clause in full; whenever the attempt was answered the socket is closed twice (`answered_closes_twice`, all executions), which closes the descriptor twice (`descriptor_closed_twice`) or not at all (`descriptor_never_closed`); without an answer it is closed once"
  },
  {
   "property": "C125",
   "status": "partial",
   "theorems": [
    "Cio.TwoConnects.client_sends",
    "Cio.TwoConnects.server_reads",
    "Cio.TwoConnects.server_reads_all",
    "Cio.TwoConnects.one_greeting_partial",
    "Cio.TwoConnects.greeting_read_twice",
    "Cio.TwoConnects.client_goes_on",
    "Cio.TwoConnects.server_goes_on",
    "Cio.TwoConnects.both_clients",
    "Cio.TwoConnects.one_after_the_other",
    "Cio.TwoConnects.ends_only",
    "Cio.TwoConnects.does_end"
   ],
   "note": "everything in full but `exactly once`: if the first `sendmsg` of the client does not take the whole greeting (but reaches the last element), the server reads it twice (`server_reads_all` says exactly when, `greeting_read_twice` shows such a run of the whole program); for the other executions `one_greeting_partial`. The premises about the two sides are those of C60-C66 (`Allowed`): epoll_ctl does not fail, the close timer does not expire while it is armed"
  },
  {
   "property": "C126",
   "status": "partial",
   "theorems": [
    "Cio.UartExample.detect_right",
    "Cio.UartExample.gives_back_partial",
    "Cio.UartExample.order",
    "Cio.UartExample.crashes_when_all_is_well",
    "Cio.UartExample.never_plays",
    "Cio.UartExample.array_lost",
    "Cio.UartExample.plays_if_set_up"
   ],
   "note": "finding the ports, the loop, the ports, and the copies are as claimed in all executions; it is false that the program plays: if nothing fails it calls a function of the stream of a client that it never set up (`crashes_when_all_is_well`: exactly then), so that it never comes to its event loop (`never_plays`); and the array of a successful `detect_uart` is lost (`array_lost`); with the one argument corrected it would play (`plays_if_set_up`)"
  },
  {
   "property": "C127",
   "status": "proved",
   "theorems": [
    "Cio.WsTcp.binary_frames_exact",
    "Cio.WsTcp.everything_can_arrive_exact",
    "Cio.WsTcp.nothing_lost_before_end_exact",
    "Cio.WsTcp.ping_seen_twice",
    "Cio.WsTcp.fragments_exact",
    "Cio.WsTcp.fragments_can_arrive",
    "Cio.WsTcp.text_fragments_exact",
    "Cio.WsTcp.text_seen_twice",
    "Cio.WsTcp.no_failure_if_early",
    "Cio.WsTcp.strict_of_legal",
    "Cio.WsTcp.copies_once_or_twice",
    "Cio.WsTcp.fragmented_message_lost"
   ],
   "note": "the first three for whole messages; `fragments_exact` for messages in several frames: a repeated first or last frame makes the receiver fail with 1002, the message is lost (`fragmented_message_lost`); no condition on what sendmsg accepts (compare C66); `ping_seen_twice` is a run that meets all hypotheses, with one frame seen once and one twice; text: `text_fragments_exact` says exactly when (iff) everything arrives as RFC 6455 says, `text_seen_twice` is a run that meets its hypotheses"
  }
 ]
}