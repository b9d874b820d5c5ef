# Axioms of the claimed theorems (`#print axioms`, written by tools/gen_axioms.py)

## no axioms

* Cio.Memmem.isFirst_unique
* Cio.Address.any_is_zero
* Cio.WsClose.offered_codes_refused
* Cio.Zephyr.Socket.read_and_write_mixed_up
* Cio.Zephyr.Socket.closed_socket_used
* Cio.Zephyr.Socket.short_write_reported_whole
* Cio.Zephyr.Misc.entropy_truncated
* Cio.Zephyr.Misc.entropy_failure_hidden
* Cio.Windows.Loop.init_error_positive
* Cio.Windows.Uart.getter_errors
* Cio.Windows.Uart.flow_control_ignored
* Cio.Windows.Uart.init_failure_closes
* Cio.Windows.Uart.late_failure_frees_twice
* Cio.Windows.Uart.port_failure_closes_twice
* Cio.Entropy.linux_complete
* Cio.Entropy.windows_truncated
* Cio.HttpUrl.init_noCallbacks
* Cio.WsTcp.strict_of_legal

## propext

* Cio.BufferedRead.new_buffer_empty
* Cio.BufferedRead.read_at_least_refused
* Cio.BufferedRead.pending_read_may_be_forgotten
* Cio.WsQueue.ping_unanswered
* Cio.WsQueue.closed_twice
* Cio.WsQueue.message_after_close_frame
* Cio.WsQueue.second_close_accepted
* Cio.WsQueue.ping_while_closing
* Cio.WsQueue.use_after_close
* Cio.WsQueue.close_forgets_handlers
* Cio.WsQueue.pong_failure_ub
* Cio.WsQueue.announced_length_wrong
* Cio.WsQueue.further_chunk_chain_lost
* Cio.WsQueue.aborted_chain_keeps_header
* Cio.WsQueue.pong_within_frame
* Cio.HttpLocation.serves_same_length
* Cio.HttpLocation.register_twice_forgets
* Cio.Timer.zero_timeout_never_expires
* Cio.Timer.rearm_forgets_handler
* Cio.Timer.rearm_in_aborted_handler_crashes
* Cio.Timer.close_in_aborted_handler
* Cio.Timer.failed_arming_is_answered
* Cio.Timer.read_error_called_twice
* Cio.Socket.epoll_failure_told
* Cio.Socket.timer_at_once_is_used_after_close
* Cio.Socket.full_buffer_reported_as_end
* Cio.Socket.refused_read_stays
* Cio.Socket.write_forgets_connect
* Cio.Uart.Io.closed_silent
* Cio.Uart.Io.second_write_forgets
* Cio.Uart.Io.close_forgets_write
* Cio.Uart.Io.write_error_returned
* Cio.Uart.Io.handler_called_again
* Cio.Uart.Io.read_before_first_read
* Cio.Uart.Io.hook_that_frees
* Cio.Uart.Io.partial_write_forgotten
* Cio.Uart.Io.no_data_is_end
* Cio.Address.uds_null
* Cio.Address.uds_empty_string_overread
* Cio.HttpResponse.early_response_closes
* Cio.HttpLife.example_keepalive
* Cio.HttpLife.example_async
* Cio.HttpLife.close_in_written_callback_ub
* Cio.HttpLife.late_write_closes_twice
* Cio.HttpLife.failed_allocation_ub
* Cio.HttpLife.delayed_upgrade_lost
* Cio.HttpLife.offered_upgrade_stops_reading
* Cio.HttpLife.pipelined_handler_leaked
* Cio.Refuse.late_check
* Cio.Zephyr.Loop.called_after_cancel
* Cio.Zephyr.Timer.cancel_not_aborted
* Cio.Zephyr.Timer.close_forgets_handler
* Cio.Zephyr.Timer.rearm_forgets_handler
* Cio.Zephyr.Timer.rearm_calls_null
* Cio.Zephyr.Timer.purge_forgets_handler
* Cio.Zephyr.Timer.close_in_aborted_handler
* Cio.Zephyr.Timer.short_timeout_is_zero
* Cio.Zephyr.Timer.long_timeout_is_negative
* Cio.Zephyr.Socket.rest_of_packet_lost
* Cio.Zephyr.Socket.zero_never_answered
* Cio.Zephyr.Accept.two_connections_mixed_up
* Cio.Zephyr.Accept.wrong_connection_dropped
* Cio.Zephyr.Accept.closed_server_used
* Cio.Zephyr.Accept.close_in_no_memory_handler
* Cio.Zephyr.Accept.failed_accept_succeeds
* Cio.Zephyr.Misc.socket_create_result
* Cio.Windows.Timer.close_before_arming
* Cio.Windows.Timer.close_forgets_handler
* Cio.Windows.Timer.close_while_firing
* Cio.Windows.Timer.rearm_forgets_handler
* Cio.Windows.Timer.refused_rearm_forgets_handler
* Cio.Windows.Timer.rearm_calls_null
* Cio.Windows.Timer.refused_handler_called
* Cio.Windows.Timer.arm_in_aborted_handler
* Cio.Windows.Timer.close_in_aborted_handler
* Cio.Windows.Timer.short_timeout_is_zero
* Cio.Windows.Timer.long_timeout_is_zero
* Cio.Windows.Socket.completion_after_close
* Cio.Windows.Socket.read_after_close
* Cio.Windows.Socket.close_while_connecting
* Cio.Windows.Socket.connect_at_once
* Cio.Windows.Socket.connect_at_once_closed
* Cio.Windows.Socket.write_after_failed_connect
* Cio.Windows.Socket.full_buffer_reported_as_end
* Cio.Windows.Socket.two_reads
* Cio.Windows.Socket.write_while_connecting
* Cio.Windows.Uart.set_view_partial
* Cio.Windows.Uart.set_failed
* Cio.Windows.Uart.set_taken
* Cio.Windows.Uart.errors_returned
* Cio.Windows.Uart.history_partial
* Cio.Windows.Uart.invalid_refused
* Cio.Windows.Uart.full_claim_false
* Cio.Windows.Uart.init_failure_clean_partial
* Cio.Windows.UartIo.pending_write_reads_freed_memory
* Cio.Windows.UartIo.no_data_is_end
* Cio.Windows.UartIo.completion_after_close
* Cio.Windows.UartIo.two_reads
* Cio.Windows.UartIo.refused_write_answered
* Cio.Entropy.getentropy_honest
* Cio.Entropy.windows_complete_partial
* Cio.Uart.Ports.no_directory
* Cio.Windows.Ports.errors_reported
* Cio.Windows.Ports.friendly_name_leaks
* Cio.Windows.Ports.key_closed_twice
* Cio.Windows.Ports.name_memory_suffices
* Cio.HttpLife.message_error_ignored
* Cio.HttpUrl.noCallbacks_iff
* Cio.StreamSocket.write_goes_on_after_close
* Cio.Linux.Server.outcome_reported
* Cio.Linux.Server.close_on_error_used
* Cio.HttpLife.example_slow_client
* Cio.HttpLife.example_trickle
* Cio.PlainEcho.bytes_echoed_twice
* Cio.WsExample.dangling_reachable
* Cio.HttpExample.two_failures_shut_down_twice
* Cio.HttpExample.one_failure_shuts_down_twice
* Cio.HttpExample.slow_client_closed_twice
* Cio.BufferedWrite.handler_exactly_once

## propext, Classical.choice, Quot.sound

* Cio.Utf8.check_utf8_correct
* Cio.Utf8.check_utf8_reject_sticky
* Cio.Utf8.AnyMachine.check_utf8_correct
* Cio.Utf8.check_utf8_chunks
* Cio.Utf8.check_utf8_chunks_correct
* Cio.Utf8.AnyMachine.check_utf8_chunks
* Cio.Masking.websocket_mask_correct
* Cio.Masking.websocket_mask_bytes
* Cio.Masking.websocket_mask_involutive
* Cio.Masking.websocket_mask_unmask
* Cio.Masking.AnyMachine.websocket_mask_correct
* Cio.Masking.AnyMachine.machines_agree
* Cio.Masking.mask_write_buffer_correct
* Cio.Masking.chunks_masked_as_whole_partial
* Cio.Masking.chunks_sent_exactly
* Cio.Masking.chunks_masked_as_whole_iff
* Cio.Base64.b64_encode_correct
* Cio.Base64.b64_encode_length
* Cio.Base64.b64_encode_injective
* Cio.Sha1.sha1_correct
* Cio.Sha1.sha1_after_result
* Cio.Random.random_full_period
* Cio.Random.seeds_distinguished
* Cio.Memmem.memmem_correct
* Cio.WB.exec_refines
* Cio.WB.write_buffer_histories
* Cio.WB.splice_ring
* Cio.WB.split_ring
* Cio.WB.isLastElement_partial
* Cio.WB.isLastElement_wrong
* Cio.WB.isLastElement_first
* Cio.BufferedRead.read_stream_preserved
* Cio.BufferedRead.read_handler_sees_stream
* Cio.BufferedRead.read_handler_once
* Cio.BufferedRead.read_delivers_stream
* Cio.BufferedRead.read_until_correct
* Cio.BufferedRead.read_error_truthful
* Cio.BufferedRead.read_waits_only_if_unsatisfied
* Cio.BufferedRead.read_at_least_correct
* Cio.BufferedRead.read_at_most_correct
* Cio.BufferedRead.pending_read_under_way_partial
* Cio.BufferedWrite.write_exactly_partial
* Cio.BufferedWrite.write_progress
* Cio.BufferedWrite.success_wire_partial
* Cio.BufferedWrite.wire_prefix_of_two
* Cio.BufferedWrite.OnHeap.heap_write_exactly_partial
* Cio.BufferedWrite.OnHeap.no_undefined_behaviour
* Cio.BufferedWrite.chain_given_back_partial
* Cio.BufferedWrite.chain_given_back_on_success_partial
* Cio.BufferedWrite.OnHeap.heap_chain_given_back_partial
* Cio.BufferedWrite.OnHeap.heap_chain_given_back_on_success_partial
* Cio.WsSend.send_frame_server
* Cio.WsSend.send_frame_client
* Cio.WsStream.stream_refines
* Cio.WsStream.stream_binary_received
* Cio.WsStream.stream_received_partial
* Cio.WsStream.stream_frames_delivered
* Cio.WsRecv.frames_delivered_partial
* Cio.WsRecv.binary_frames_delivered
* Cio.WsRecv.binary_received_as_specified
* Cio.WsRecv.received_as_specified_partial
* Cio.WsRecv.received_as_specified_iff
* Cio.WsStream.stream_received_iff
* Cio.WsStream.stream_malformed_fails_partial
* Cio.WsRecv.malformed_fails_partial
* Cio.WsRecv.reserved_opcode_fails
* Cio.WsStream.stream_texts_wellformed
* Cio.WsRecv.text_messages_wellformed
* Cio.WsRecv.illformed_text_rejected
* Cio.WsQueue.no_ping_before_answer_written_partial
* Cio.WsQueue.pong_payloads_partial
* Cio.WsQueue.pong_payloads_all_partial
* Cio.WsStream.stream_ping_answered
* Cio.WsRecv.ping_answered
* Cio.WsRecv.close_status_codes
* Cio.WsRecv.close_handled_partial
* Cio.WsRecv.close_handled_iff
* Cio.WsRecv.close_frame_ends_reading
* Cio.WsRecv.close_not_handled
* Cio.WsRecv.one_byte_reason_undefined
* Cio.WsRecv.invalid_reason_accepted
* Cio.WsRecv.valid_reason_rejected
* Cio.WsQueue.messages_without_gap_partial
* Cio.WsQueue.frames_legal_partial
* Cio.HttpLocation.routed_to_longest_match
* Cio.Epoll.loop_as_specified
* Cio.Epoll.callbacks_due
* Cio.Epoll.removed_never_called
* Cio.Socket.closed_once_partial
* Cio.Socket.close_completes_partial
* Cio.Socket.close_immediate_partial
* Cio.Socket.reads_truthful_partial
* Cio.Socket.writes_truthful_partial
* Cio.Socket.read_not_forgotten_partial
* Cio.Socket.connect_result_partial
* Cio.Socket.connect_answered_partial
* Cio.Socket.write_result_partial
* Cio.Socket.read_error_reported_partial
* Cio.Uart.init_raw
* Cio.HttpResponse.response_wellformed_partial
* Cio.HttpResponse.keepalive_truthful
* Cio.HttpResponse.second_response_refused
* Cio.HttpResponse.arming_failed
* Cio.HttpResponse.keepalive_header
* Cio.HttpResponse.keepalive_seconds_partial
* Cio.HttpResponse.content_length_garbled
* Cio.HttpResponse.content_length_overread
* Cio.HttpResponse.keepalive_announced_then_closed
* Cio.HttpResponse.switching_has_content_length
* Cio.HttpResponse.keepalive_wraps
* Cio.WsHandshake.handshake_exact
* Cio.WsHandshake.upgraded_iff
* Cio.WsHandshake.other_fields_ignored
* Cio.WsHandshake.response_not_sent
* Cio.WsHandshake.any_upgrade_accepted
* Cio.WsHandshake.two_keys_accepted
* Cio.WsHandshake.key_not_decoded
* Cio.WsHandshake.protocol_search
* Cio.WsHandshake.choose_spec
* Cio.WsHandshake.common_protocol_partial
* Cio.WsHandshake.no_common_protocol_refused
* Cio.WsHandshake.protocol_lines_not_joined
* Cio.WsHandshake.malformed_rest_accepted
* Cio.WsHandshake.accept_value
* Cio.HttpLife.no_undefined_behaviour_partial
* Cio.HttpLife.closed_and_released_once_partial
* Cio.HttpLife.released_is_final_partial
* Cio.HttpLife.handlers_freed_at_most_once_partial
* Cio.HttpLife.callbacks_while_handler_lives_partial
* Cio.HttpLife.idle_is_supervised
* Cio.HttpLife.timeout_acts
* Cio.Refuse.invalid_refused_partial
* Cio.Refuse.checks_defined
* Cio.Resources.server_resources
* Cio.Resources.nothing_left
* Cio.Resources.closing_completes
* Cio.Resources.eventloop_init_all_or_nothing
* Cio.HttpChunks.bytes_in_order
* Cio.HttpChunks.urls_complete_waiting_partial
* Cio.HttpChunks.never_stuck_partial
* Cio.HttpChunks.url_cut_in_two
* Cio.HttpChunks.url_depends_on_segmentation
* Cio.HttpChunks.second_request_stuck
* Cio.HttpChunks.header_cut_in_two
* Cio.WsRoundTrip.binary_round_trip
* Cio.WsRoundTrip.round_trip_partial
* Cio.WsRoundTrip.end_to_end_binary_partial
* Cio.WsRoundTrip.end_to_end_partial
* Cio.WsStream.binary_sent_is_seen
* Cio.WsStream.sent_is_seen_partial
* Cio.WsStream.queued_is_seen_partial
* Cio.WsClose.close_on_wire
* Cio.WsClose.reply_on_wire
* Cio.WsClose.closing_handshake_partial
* Cio.WsClose.own_closes_understood
* Cio.WsClose.own_closes_codes
* Cio.WsClose.reason_cut_in_character
* Cio.WsClose.close_not_legal
* Cio.WsClose.illegal_code_sent
* Cio.WsClose.one_character_reason
* Cio.WsStream.stream_used_properly
* Cio.WsStream.comes_to_rest
* Cio.WsStream.rest_cases
* Cio.WsStream.no_reading_ahead
* Cio.Zephyr.Loop.cancel_ends_loop_partial
* Cio.Zephyr.Timer.handler_at_most_once_partial
* Cio.Zephyr.Timer.arming_not_forgotten_partial
* Cio.Zephyr.Timer.closed_all_answered_partial
* Cio.Zephyr.Timer.cancel_aborts_partial
* Cio.Zephyr.Timer.timeout_converted_partial
* Cio.Zephyr.Socket.answered_once_partial
* Cio.Zephyr.Socket.not_forgotten_partial
* Cio.Zephyr.Socket.bytes_in_order_partial
* Cio.Zephyr.Accept.accepted_once_partial
* Cio.Zephyr.Accept.not_forgotten_partial
* Cio.Zephyr.Accept.waiting_is_handed_out_partial
* Cio.Windows.Loop.dispatched_in_order
* Cio.Windows.Loop.loop_goes_on
* Cio.Windows.Loop.loop_never_stuck
* Cio.Windows.Loop.loop_waits_again
* Cio.Windows.Loop.returns_only_when_cancelled
* Cio.Windows.Loop.silent_after_cancel
* Cio.Windows.Loop.cancel_ends_loop
* Cio.Windows.Loop.cancelled_for_ever
* Cio.Windows.Timer.cancel_result_partial
* Cio.Windows.Timer.timeout_converted_partial
* Cio.Windows.Socket.answered_once_partial
* Cio.Windows.Socket.read_not_forgotten_partial
* Cio.Windows.Socket.write_not_forgotten_partial
* Cio.Windows.Socket.connect_not_forgotten_partial
* Cio.Windows.Socket.close_completes_partial
* Cio.Windows.Socket.hook_is_last_partial
* Cio.Windows.Socket.bytes_in_order_partial
* Cio.Windows.Accept.told_once_partial
* Cio.Windows.Accept.goes_on_partial
* Cio.Windows.Accept.not_forgotten_partial
* Cio.Windows.Accept.close_completes_partial
* Cio.Windows.Accept.no_descriptor_lost_partial
* Cio.Windows.Uart.init_success
* Cio.Windows.UartIo.refines
* Cio.Windows.UartIo.answered_once_partial
* Cio.Windows.UartIo.read_not_forgotten_partial
* Cio.Windows.UartIo.write_not_forgotten_partial
* Cio.Windows.UartIo.close_completes_partial
* Cio.Windows.UartIo.hook_is_last_partial
* Cio.Windows.UartIo.bytes_in_order_partial
* Cio.HttpChunks.behind_upgrade_untouched_partial
* Cio.HttpChunks.upgrade_reached_partial
* Cio.HttpChunks.upgrade_refused
* Cio.WsStream.frames_after_upgrade
* Cio.WsStream.frames_behind_upgrade_partial
* Cio.Uart.Ports.unknown_types_missed
* Cio.Windows.Ports.names_given_back_partial
* Cio.Windows.Ports.number_gives_back_partial
* Cio.Windows.Ports.released_once_partial
* Cio.HttpUrl.url_callbacks
* Cio.HttpUrl.url_routed
* Cio.HttpUrl.url_without_path
* Cio.StreamSocket.reads_what_peer_sent
* Cio.StreamSocket.read_errors_truthful
* Cio.StreamSocket.writes_reach_peer_partial
* Cio.StreamSocket.all_writes_successful_partial
* Cio.StreamSocket.socket_used_properly
* Cio.StreamSocket.never_stuck
* Cio.StreamSocket.waiting_read_gets_data_partial
* Cio.StreamSocket.pending_read_waits_partial
* Cio.StreamSocket.pending_write_waits
* Cio.WsTcp.both_sides_safe
* Cio.WsTcp.received_is_sent
* Cio.WsTcp.binary_messages_arrive_partial
* Cio.WsTcp.text_messages_arrive_partial
* Cio.WsTcp.queued_messages_arrive_partial
* Cio.WsTcp.everything_can_arrive_partial
* Cio.WsTcp.end_is_true
* Cio.WsTcp.nothing_lost_before_end_partial
* Cio.WsTcp.text_frames_exact_partial
* Cio.WsTcp.queued_frames_exact_partial
* Cio.WsTcp.queued_text_exact_partial
* Cio.Epoll.returns_only_when_cancelled
* Cio.Epoll.cancel_ends_loop_partial
* Cio.Epoll.cancelled_for_ever
* Cio.WsQueue.failure_ends_partial
* Cio.WsQueue.peer_close_ends_partial
* Cio.WsQueue.peer_closed_unsupervised
* Cio.WsStream.stream_illformed_rejected
* Cio.Epoll.cancel_ends_loop
* Cio.WsHandshake.common_protocol
* Cio.WsRecv.read_handler_arguments
* Cio.WsStream.stream_read_handler_arguments
* Cio.Autobahn.echoes
* Cio.Autobahn.frames_come_back
* Cio.Linux.socket_read_callback
* Cio.Linux.socket_write_callback
* Cio.Linux.timer_read_callback
* Cio.Linux.timer_no_write_callback
* Cio.Linux.Server.connections_accounted
* Cio.Linux.Server.closed_once
* Cio.Linux.Server.goes_on_accepting_partial
* Cio.WsRecv.lengths_fit
* Cio.WsRecv.fitting_frames_as_before
* Cio.WsRecv.fitting_frames_delivered
* Cio.WsRecv.oversized_frame_refused
* Cio.WsRecv.oversized_frame_refused_text
* Cio.HttpLife.request_takes_bounded_time
* Cio.HttpLife.request_not_cut_short
* Cio.HttpLife.time_passes
* Cio.Linux.uart_read_callback
* Cio.Linux.uart_write_callback
* Cio.Linux.server_read_callback
* Cio.Linux.server_no_write_callback
* Cio.Echo.proper_user
* Cio.Echo.echoes_partial
* Cio.Echo.echoes_all_partial
* Cio.Echo.at_rest
* Cio.Echo.closes_on_error
* Cio.Echo.failed_write_forgotten
* Cio.Echo.forgotten_connection
* Cio.Autobahn.message_comes_back
* Cio.PlainEcho.echoes_partial
* Cio.PlainEcho.echoes_all_partial
* Cio.PlainEcho.at_rest
* Cio.PlainEcho.closes_partial
* Cio.PlainEcho.memory_safe
* Cio.PlainEcho.never_more_than_size
* Cio.PlainEcho.full_buffer_is_end
* Cio.PlainEcho.failure_forgotten
* Cio.PlainEcho.forgotten_connection
* Cio.HttpTcp.client_reads_partial
* Cio.HttpTcp.client_reads_exactly
* Cio.HttpTcp.wrong_answer
* Cio.HttpTcp.wrong_answer_reachable
* Cio.HttpTcp.reply_is
* Cio.WsExample.message_answered
* Cio.WsExample.at_most_one_hello_partial
* Cio.WsExample.deaf_after_hello_partial
* Cio.WsExample.never_closed_after_hello
* Cio.WsExample.frozen
* Cio.WsExample.kept_for_ever
* Cio.WsExample.not_dangling_partial
* Cio.Periodic.last_message_ends
* Cio.Periodic.finishes_partial
* Cio.Periodic.never_idle_partial
* Cio.Periodic.ends_only_when_done_partial
* Cio.Periodic.arming_failed_hangs
* Cio.HttpExample.keeps_serving_partial
* Cio.HttpExample.one_reset_stops_the_server
* Cio.HttpExample.pipelining_stops_the_server
* Cio.PingPong.sends_partial
* Cio.PingPong.sends_all_partial
* Cio.PingPong.finished_sent_partial
* Cio.PingPong.client_hangs
* Cio.PingPong.proper_user
* Cio.PingPong.at_rest
* Cio.PingPong.never_too_many
* Cio.PingPong.closes_only
* Cio.PingPong.closes_on_error
* Cio.PingPong.finished
* Cio.PingPong.only_greetings_partial
* Cio.PingPong.no_deadlock_partial
* Cio.PingPong.server_stays
* Cio.PingPong.finishes_partial
* Cio.PingPong.only_greetings
* Cio.PingPong.no_deadlock
* Cio.PingPong.finishes
* Cio.WsExample.one_ping_at_a_time
* Cio.WsExample.expiry_pings
* Cio.WsExample.only_expiry_pings
* Cio.WsExample.pings_go_on
* Cio.HttpExample.shut_down_once_per_reason
* Cio.HttpExample.ends_only_for_a_reason
* Cio.HttpExample.no_client_after_shutdown
* Cio.StreamSocket.writes_exact
* Cio.StreamSocket.all_successful_exact
* Cio.Echo.echoes_once_or_twice
* Cio.Echo.echoes_all_once_or_twice
* Cio.Echo.asks_units
* Cio.PingPong.sends_once_or_twice
* Cio.PingPong.finished_once_or_twice
* Cio.HttpTcp.client_reads_copies
* Cio.HttpTcp.only_given_answers
* Cio.TwoConnects.client_sends
* Cio.TwoConnects.server_reads
* Cio.TwoConnects.server_reads_all
* Cio.TwoConnects.one_greeting_partial
* Cio.TwoConnects.greeting_read_twice
* Cio.TwoConnects.client_goes_on
* Cio.TwoConnects.server_goes_on
* Cio.TwoConnects.both_clients
* Cio.TwoConnects.one_after_the_other
* Cio.TwoConnects.ends_only
* Cio.TwoConnects.does_end
* Cio.WsTcp.binary_frames_exact
* Cio.WsTcp.everything_can_arrive_exact
* Cio.WsTcp.nothing_lost_before_end_exact
* Cio.WsTcp.ping_seen_twice
* Cio.WsTcp.fragments_exact
* Cio.WsTcp.fragments_can_arrive
* Cio.WsTcp.text_fragments_exact
* Cio.WsTcp.text_seen_twice
* Cio.WsTcp.no_failure_if_early
* Cio.WsTcp.copies_once_or_twice
* Cio.WsTcp.fragmented_message_lost

## propext, Quot.sound

* Cio.Masking.correct_mask_correct
* Cio.Masking.AnyMachine.word_accesses_aligned
* Cio.Masking.AnyMachine.word_accesses_inside
* Cio.Masking.chunks_not_masked_as_whole
* Cio.Random.random_get_bytes_correct
* Cio.Random.random_pieces
* Cio.Random.seed_inc_odd
* Cio.Random.seed_error
* Cio.Endian.htobe_memory
* Cio.Endian.htole_memory
* Cio.Endian.betoh_htobe
* Cio.Endian.htobe_betoh
* Cio.Endian.letoh_htole
* Cio.Endian.htole_letoh
* Cio.Endian.betoh_of_memory
* Cio.Windows.Endian.memory
* Cio.Windows.Endian.inverse
* Cio.BufferedWrite.short_write_duplicates
* Cio.BufferedWrite.short_write_duplicates_always
* Cio.BufferedWrite.sync_error_keeps_elements
* Cio.WsRecv.segmentation_matters
* Cio.WsRecv.nonminimal_length_accepted
* Cio.WsRecv.huge_length_accepted
* Cio.WsQueue.pongs_answer_pings_partial
* Cio.WsQueue.pings_all_answered_partial
* Cio.WsQueue.one_ping_waits_partial
* Cio.WsQueue.closed_at_most_once_partial
* Cio.WsQueue.one_close_frame_partial
* Cio.WsQueue.nothing_after_close_frame_partial
* Cio.WsQueue.no_ub_partial
* Cio.WsQueue.failure_closes
* Cio.WsQueue.tickets_in_order
* Cio.WsQueue.handler_at_most_once_partial
* Cio.WsQueue.every_write_completed_partial
* Cio.WsQueue.sent_in_order_partial
* Cio.WsQueue.success_was_sent_partial
* Cio.WsQueue.sent_is_accepted_partial
* Cio.WsQueue.chain_given_back_partial
* Cio.WsQueue.pong_handler_lost
* Cio.Timer.handler_at_most_once_partial
* Cio.Timer.arming_not_forgotten_partial
* Cio.Timer.closed_all_answered_partial
* Cio.Timer.expired_is_reported
* Cio.Timer.cancel_result_partial
* Cio.Timer.closed_after_hook
* Cio.Timer.timeout_converted
* Cio.Socket.pending_read_lost
* Cio.Socket.peer_close_unnoticed
* Cio.Uart.getters_truthful
* Cio.Uart.getter_errors
* Cio.Uart.getter_errors_real
* Cio.Uart.set_view_partial
* Cio.Uart.set_failed
* Cio.Uart.history_partial
* Cio.Uart.invalid_refused
* Cio.Uart.data_bits_not_cleared
* Cio.Uart.full_claim_false
* Cio.Uart.Io.bytes_exact
* Cio.Uart.Io.write_once
* Cio.Uart.Io.write_answered_partial
* Cio.Uart.Io.read_once_partial
* Cio.Uart.Io.read_answered_partial
* Cio.Uart.Io.write_count_exact
* Cio.Uart.Io.write_failed_partial
* Cio.Uart.Io.read_result_reported_partial
* Cio.Uart.init_failed_partial
* Cio.Uart.init_leaks_descriptor
* Cio.Address.uds_file_partial
* Cio.Address.uds_abstract
* Cio.Address.inet_exact
* Cio.Address.inet_socket_address
* Cio.Address.inet_is_no_file
* Cio.Address.uds_empty_string_picks_up_junk
* Cio.HttpLife.one_response_per_request
* Cio.HttpLife.no_callback_after_response
* Cio.HttpLife.upgraded_is_left_alone
* Cio.Refuse.valid_carried_out
* Cio.Resources.accept_hands_over_or_cleans_up
* Cio.Resources.accept_error_frees_null
* Cio.Resources.accept_uses_released_server
* Cio.Resources.timer_init_all_or_nothing
* Cio.Resources.socket_init_all_or_nothing
* Cio.Resources.server_socket_init_all_or_nothing
* Cio.Resources.serve_all_or_nothing
* Cio.Resources.server_init_partial
* Cio.Resources.fastopen_failure_leaks
* Cio.HttpChunks.lines_in_one_piece_partial
* Cio.HttpChunks.urls_complete_partial
* Cio.WsClose.close_body_ok_iff
* Cio.WsClose.close_legal_partial
* Cio.Zephyr.Loop.dispatched_in_order
* Cio.Zephyr.Loop.nothing_lost_partial
* Cio.Zephyr.Loop.loop_goes_on
* Cio.Zephyr.Loop.stuck_forever
* Cio.Zephyr.Loop.full_queue_blocks
* Cio.Zephyr.Misc.entropy_complete_partial
* Cio.Windows.Loop.init_all_or_nothing
* Cio.Windows.Timer.handler_at_most_once_partial
* Cio.Windows.Timer.arming_not_forgotten_partial
* Cio.Windows.Timer.closed_all_answered_partial
* Cio.Windows.Accept.close_bound
* Cio.Windows.Accept.failure_ends_accepting
* Cio.Windows.Accept.failure_loses_hook
* Cio.Windows.Accept.connection_lost
* Cio.Windows.Accept.closed_twice
* Cio.Windows.Accept.told_after_close
* Cio.Windows.Accept.accept_before_bind
* Cio.Windows.Accept.accept_twice
* Cio.Windows.Uart.getters_truthful
* Cio.Windows.Uart.init_failure
* Cio.Windows.UartIo.write_gives_chain_partial
* Cio.Windows.UartIo.positive_write_error
* Cio.Windows.UartIo.large_write_cut
* Cio.Uart.Ports.ports_exact
* Cio.Uart.Ports.ports_found
* Cio.Uart.Ports.number_exact
* Cio.Uart.Ports.directory_closed
* Cio.Uart.Ports.one_dead_link_hides_all
* Cio.Windows.Ports.ports_exact
* Cio.Windows.Ports.number_exact
* Cio.Windows.Ports.keys_closed_partial
* Cio.Windows.Ports.name_overread
* Cio.Windows.Ports.list_destroyed
* Cio.Windows.Ports.friendly_overread
* Cio.HttpLife.error_is_final
* Cio.HttpLife.error_answered_partial
* Cio.StreamSocket.one_element_sent_twice
* Cio.WsTcp.message_seen_twice
* Cio.Epoll.no_second_run
* Cio.WsQueue.user_close_supervised
* Cio.WsQueue.failed_unsupervised
* Cio.Address.uds_file
* Cio.Linux.socket_calls_legal
* Cio.Linux.timer_calls_legal
* Cio.Linux.CloseTimer.timer_as_socket_says
* Cio.Linux.CloseTimer.timer_calls_possible
* Cio.Linux.CloseTimer.expiry_expected
* Cio.Linux.Server.second_accept_makes_deaf
* Cio.Linux.Server.deaf_for_ever
* Cio.Linux.uart_calls_legal
* Cio.Linux.server_calls_legal
* Cio.Echo.bytes_echoed_twice
* Cio.PlainEcho.closed_after_128
* Cio.HttpTcp.responses_prefix
* Cio.WsExample.never_says_good_bye
* Cio.WsExample.no_timer_no_service
* Cio.Periodic.messages_spaced
* Cio.Periodic.ends_with_open_timer
* Cio.HttpExample.every_request_is_answered
* Cio.HttpExample.never_upgrades
* Cio.HttpExample.one_response_per_request
* Cio.PingPong.greeting_sent_twice
* Cio.PingPong.greetings_doubled
* Cio.HttpExample.signal_ends
* Cio.ConnectExample.one_answer
* Cio.ConnectExample.ends_only
* Cio.ConnectExample.goes_on
* Cio.ConnectExample.exit_status
* Cio.ConnectExample.closes_once_partial
* Cio.ConnectExample.answered_closes_twice
* Cio.ConnectExample.descriptor_closed_twice
* Cio.ConnectExample.descriptor_never_closed
* Cio.UartExample.detect_right
* Cio.UartExample.gives_back_partial
* Cio.UartExample.order
* Cio.UartExample.crashes_when_all_is_well
* Cio.UartExample.never_plays
* Cio.UartExample.array_lost
* Cio.UartExample.plays_if_set_up
