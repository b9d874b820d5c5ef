#!/usr/bin/env python3
"""Writes /verif/MANIFEST.json."""
import json, os
C = []
def claim(p, status, ths, note=""):
    C.append({"property": p, "status": status, "theorems": ths, "note": note})
U="Cio.Utf8."; M="Cio.Masking."; B="Cio.Base64."; S="Cio.Sha1."; R="Cio.Random."; E="Cio.Endian."
claim("C01","proved",[U+"check_utf8_correct",U+"check_utf8_reject_sticky",U+"AnyMachine.check_utf8_correct"],"RFC 3629 grammar, any bytes, any alignment; the last theorem is for machines of every word size")
claim("C02","proved",[U+"check_utf8_chunks",U+"check_utf8_chunks_correct",U+"AnyMachine.check_utf8_chunks"])
claim("C03","proved",[M+"websocket_mask_correct",M+"websocket_mask_bytes",M+"websocket_mask_involutive",M+"websocket_mask_unmask",M+"correct_mask_correct"]+[M+"AnyMachine."+x for x in "websocket_mask_correct machines_agree word_accesses_aligned word_accesses_inside".split()],"AnyMachine: the same for machines of every word size (a multiple of four bytes) and both byte orders")
claim("C04","partial",[M+"mask_write_buffer_correct",M+"chunks_masked_as_whole_partial",M+"chunks_not_masked_as_whole",M+"chunks_sent_exactly",M+"chunks_masked_as_whole_iff"],
 "masking of one chain is proved in full; the claim about several continuation chunks is false of the code (negation proved), the partial theorem covers the chunk lengths for which it holds; chunks_sent_exactly says what is sent in all cases and chunks_masked_as_whole_iff for which lengths it is right")
claim("C05","proved",[B+"b64_encode_correct",B+"b64_encode_length",B+"b64_encode_injective"])
claim("C06","proved",[S+"sha1_correct",S+"sha1_after_result"])
claim("C07","proved",[R+"random_get_bytes_correct",R+"random_pieces",R+"seed_inc_odd",R+"seed_error",R+"random_full_period",R+"seeds_distinguished"])
claim("C08","proved",["Cio.Memmem.memmem_correct","Cio.Memmem.isFirst_unique"])
claim("C09","proved",[E+"htobe_memory",E+"htole_memory",E+"betoh_htobe",E+"htobe_betoh",E+"letoh_htole",E+"htole_letoh",E+"betoh_of_memory","Cio.Windows.Endian.memory","Cio.Windows.Endian.inverse"],"also for the Windows port (little endian)")
W="Cio.WB."
claim("C10","proved",[W+"exec_refines",W+"write_buffer_histories"])
claim("C11","proved",[W+"exec_refines",W+"write_buffer_histories",W+"splice_ring",W+"split_ring"])
claim("C38","partial",[W+"isLastElement_partial",W+"isLastElement_wrong",W+"isLastElement_first"],"false of the code for buffers of more than one element (negation proved): the function tests prev instead of next")
BR="Cio.BufferedRead."
claim("C12","proved",[BR+"read_stream_preserved",BR+"read_handler_sees_stream",BR+"read_handler_once",BR+"read_delivers_stream",BR+"new_buffer_empty"],"any handler behaviour, any delivery sizes")
claim("C13","proved",[BR+"read_until_correct",BR+"read_error_truthful",BR+"read_waits_only_if_unsatisfied"])
claim("C14","proved",[BR+"read_at_least_correct",BR+"read_at_most_correct",BR+"read_at_least_refused",BR+"read_waits_only_if_unsatisfied"])
claim("C39","partial",[BR+"pending_read_under_way_partial",BR+"pending_read_may_be_forgotten",BR+"read_waits_only_if_unsatisfied"],"false of the code when a handler that was told of an error starts a new read (negation proved); proved for handlers that do not")
BW="Cio.BufferedWrite."
claim("C15","partial",[BW+"write_exactly_partial",BW+"write_progress",BW+"short_write_duplicates",BW+"short_write_duplicates_always",BW+"success_wire_partial",BW+"wire_prefix_of_two",BW+"OnHeap.heap_write_exactly_partial",BW+"OnHeap.no_undefined_behaviour"],"false of the code when the first short write ends in the last element of the chain (negation proved, for one case and in general); proved otherwise; `success_wire_partial` states without exception what a successful write has put on the wire (one copy of the chain, or two in exactly that case)")
claim("C16","partial",[BW+"chain_given_back_partial",BW+"chain_given_back_on_success_partial",BW+"sync_error_keeps_elements",BW+"OnHeap.heap_chain_given_back_partial",BW+"OnHeap.heap_chain_given_back_on_success_partial"],"false of the code when a follow-up write_some fails by its return value (negation proved); proved otherwise")
claim("C17","proved",["Cio.WsSend.send_frame_server","Cio.WsSend.send_frame_client"],"the frame length is the one announced by the caller; that a queued first chunk is sent with the announced length is part of C24")
WR="Cio.WsRecv."
WS="Cio.WsStream."
claim("C18","partial",[WS+"stream_refines",WS+"stream_binary_received",WS+"stream_received_partial",WS+"stream_frames_delivered",WR+"frames_delivered_partial",WR+"binary_frames_delivered",WR+"binary_received_as_specified",WR+"received_as_specified_partial",WR+"received_as_specified_iff",WS+"stream_received_iff",WR+"segmentation_matters"],
 "proved in full for binary messages, pings and pongs; with text the exact condition is proved (iff): well-formed text and no piece that ends inside a character of a final text frame (the unrestricted claim is false of the code, negation proved)")
claim("C19","partial",[WS+"stream_malformed_fails_partial",WR+"malformed_fails_partial",WR+"reserved_opcode_fails",WR+"nonminimal_length_accepted",WR+"huge_length_accepted"],
 "every listed violation except non-minimal and 64-bit lengths with the top bit set, which the code accepts (proved)")
claim("C20","partial",[WS+"stream_texts_wellformed",WR+"text_messages_wellformed",WR+"illformed_text_rejected",WR+"received_as_specified_partial",WR+"received_as_specified_iff",WS+"stream_received_iff",WR+"segmentation_matters"],
 "no ill-formed message is ever handed over completely (in full); well-formed messages are accepted if and only if no piece ends inside a character of a final frame (negation of the unrestricted claim proved)")
claim("C21","partial",["Cio.WsQueue.pongs_answer_pings_partial","Cio.WsQueue.pings_all_answered_partial","Cio.WsQueue.one_ping_waits_partial","Cio.WsQueue.no_ping_before_answer_written_partial","Cio.WsQueue.pong_payloads_partial","Cio.WsQueue.pong_payloads_all_partial","Cio.WsQueue.ping_unanswered",WS+"stream_ping_answered",WR+"ping_answered",WR+"malformed_fails_partial"],"one pong per ping, in order, with the same bytes, for all executions in which no ping arrives while a pong of the user is waiting or being written; without that it is false of the code (ping_unanswered)")
claim("C22","partial",[WR+"close_status_codes",WR+"close_handled_partial",WR+"close_handled_iff",WR+"close_frame_ends_reading",WR+"close_not_handled",WR+"one_byte_reason_undefined",WR+"invalid_reason_accepted",WR+"valid_reason_rejected"],
 "status codes in full; the check of the reason is wrong in the code (negations proved; close_handled_iff says for which bodies the claim holds)")
WQ="Cio.WsQueue."
claim("C23","partial",[WQ+x for x in "closed_at_most_once_partial one_close_frame_partial nothing_after_close_frame_partial no_ub_partial failure_closes closed_twice message_after_close_frame second_close_accepted ping_while_closing use_after_close".split()],
 "proved for executions that keep to the rules of use and do not fail after the user began to close; the statement is false without that (negations proved by concrete executions)")
claim("C24","partial",[WQ+x for x in "tickets_in_order handler_at_most_once_partial every_write_completed_partial sent_in_order_partial success_was_sent_partial sent_is_accepted_partial chain_given_back_partial pong_handler_lost close_forgets_handlers pong_failure_ub announced_length_wrong further_chunk_chain_lost aborted_chain_keeps_header messages_without_gap_partial frames_legal_partial pong_within_frame".split()],
 "same conditions; after a close begun by the user handlers can be forgotten (negation proved)")
claim("C25","proved",["Cio.HttpLocation.routed_to_longest_match","Cio.HttpLocation.serves_same_length","Cio.HttpLocation.register_twice_forgets"],"distinct location objects; registering one object twice loses earlier ones (proved)")
claim("C32","proved",["Cio.Epoll.loop_as_specified","Cio.Epoll.callbacks_due","Cio.Epoll.removed_never_called"],"all callback behaviours, all reports of epoll_wait, any number of runs")
T="Cio.Timer."
claim("C30","partial",[T+x for x in "handler_at_most_once_partial arming_not_forgotten_partial closed_all_answered_partial expired_is_reported cancel_result_partial closed_after_hook zero_timeout_never_expires rearm_forgets_handler rearm_in_aborted_handler_crashes close_in_aborted_handler failed_arming_is_answered read_error_called_twice".split()],"proved for programs that arm with a non-zero time, one arming at a time, and do not use the timer inside a handler told of an abort; false of the code otherwise (negations proved)")
claim("C31","proved",[T+"timeout_converted"])
S="Cio.Socket."
claim("C33","partial",[S+x for x in "closed_once_partial close_completes_partial close_immediate_partial reads_truthful_partial writes_truthful_partial read_not_forgotten_partial connect_result_partial connect_answered_partial write_result_partial read_error_reported_partial epoll_failure_told pending_read_lost peer_close_unnoticed timer_at_once_is_used_after_close full_buffer_reported_as_end refused_read_stays write_forgets_connect".split()],"proved for programs that stop using the socket after closing it, have one read and one write or connect at a time, read into buffers with room, and for an operating system without failing epoll_ctl, spurious wake-ups (only for read_not_forgotten_partial) and close timers that expire while they are armed; false of the code otherwise (negations proved)")
U="Cio.Uart."
claim("C34","partial",[U+x for x in "getters_truthful getter_errors getter_errors_real set_view_partial set_failed history_partial invalid_refused data_bits_not_cleared full_claim_false".split()],"proved for all flag words, all settings and all histories except lowering the number of data bits, for which the code is wrong (negation proved)")
claim("C40","partial",[U+"Io."+x for x in "bytes_exact write_once write_answered_partial closed_silent second_write_forgets close_forgets_write read_once_partial read_answered_partial write_count_exact write_failed_partial read_result_reported_partial write_error_returned handler_called_again read_before_first_read hook_that_frees partial_write_forgotten no_data_is_end".split()],"proved for programs that always have a read pending and release the port only after closing; false of the code otherwise (negations proved)")
claim("C41","partial",[U+x for x in "init_raw init_failed_partial init_leaks_descriptor".split()],"the descriptor stays open if tcgetattr fails (proved)")
A="Cio.Address."
claim("C37","partial",[A+x for x in "uds_file_partial uds_abstract uds_null inet_exact inet_socket_address any_is_zero inet_is_no_file uds_empty_string_overread uds_empty_string_picks_up_junk".split()],"in full except for the empty string as a Unix domain path, which the code reads past its end (proved)")
H="Cio.HttpResponse."
claim("C35","partial",[H+x for x in "response_wellformed_partial keepalive_truthful early_response_closes second_response_refused arming_failed keepalive_header keepalive_seconds_partial content_length_garbled content_length_overread keepalive_announced_then_closed switching_has_content_length keepalive_wraps".split()],"in full for bodies below 10^10 bytes; false of the code for longer bodies, for responses written before the request's header was read and for timeouts of 2^32 seconds and more (negations proved)")
W="Cio.WsHandshake."
claim("C27","proved",[W+x for x in "handshake_exact upgraded_iff other_fields_ignored response_not_sent any_upgrade_accepted two_keys_accepted key_not_decoded".split()],"exactly as stated, for all requests; RFC 6455 conditions that the code does not check (the value of Upgrade, repeated keys, base64 of the key) are shown as deviations")
claim("C28","partial",[W+x for x in "protocol_search choose_spec common_protocol_partial handshake_exact no_common_protocol_refused protocol_lines_not_joined malformed_rest_accepted".split()],"the chosen subprotocol is the first common one; without a common one the request is refused instead of going on without (proved)")
claim("C29","proved",[W+"accept_value",W+"handshake_exact"],"for all keys; the response is read back from the bytes sent")
L="Cio.HttpLife."
claim("C26","partial",[L+x for x in "one_response_per_request no_callback_after_response no_undefined_behaviour_partial closed_and_released_once_partial released_is_final_partial handlers_freed_at_most_once_partial callbacks_while_handler_lives_partial idle_is_supervised timeout_acts upgraded_is_left_alone example_keepalive example_async close_in_written_callback_ub late_write_closes_twice failed_allocation_ub delayed_upgrade_lost offered_upgrade_stops_reading pipelined_handler_leaked".split()],"one response per request and no callback behind it: all executions; the rest for executions in which the user does not close the client in the response-written callback, handlers can be allocated, no two requests are parsed in one go, and the socket does not linger while a response is being written; false of the code otherwise (negations proved)")
claim("C36","partial",["Cio.Refuse."+x for x in "invalid_refused_partial valid_carried_out checks_defined late_check".split()],"all argument combinations of 27 entry points; cio_websocket_location_handler_init writes to its handler before it checks on_connect (proved late_check); entry points without checks (cio_socket_connect's handler, the UART getters' out pointer, cio_websocket_write_message_continuation_chunk, timers, cio_server_socket_accept's server) are outside of the claim")
R="Cio.Resources."
claim("C42","partial",[R+x for x in "accept_hands_over_or_cleans_up server_resources nothing_left closing_completes accept_error_frees_null accept_uses_released_server".split()],"proved in full for all answers of the operating system; but the HTTP server calls free_client(NULL) on every accept error, and a handler that destroys the server during an error makes accept_callback use it after it was released (both proved)")
claim("C43","partial",[R+x for x in "eventloop_init_all_or_nothing timer_init_all_or_nothing socket_init_all_or_nothing server_socket_init_all_or_nothing serve_all_or_nothing server_init_partial fastopen_failure_leaks".split()],"in full except for cio_http_server_init with TCP fast open, which leaks the listening descriptor if fast open fails (proved)")
X="Cio.HttpChunks."
claim("C44","partial",[X+x for x in "bytes_in_order lines_in_one_piece_partial urls_complete_partial urls_complete_waiting_partial never_stuck_partial url_cut_in_two url_depends_on_segmentation second_request_stuck header_cut_in_two".split()],"byte order in full; lines and URLs in one piece as long as all earlier requests of the connection had a Content-Length field; false of the code otherwise because remaining_content_length is not reset (negation proved by concrete executions, and for every pair of GET requests by second_request_stuck); the parser itself is modelled by its callbacks")
RT="Cio.WsRoundTrip."
claim("C45","partial",[RT+"binary_round_trip",RT+"round_trip_partial",WQ+"frames_legal_partial",RT+"end_to_end_binary_partial",RT+"end_to_end_partial",WS+"binary_sent_is_seen",WS+"sent_is_seen_partial",WS+"queued_is_seen_partial",WQ+"pong_within_frame",WR+"segmentation_matters","Cio.Masking.chunks_not_masked_as_whole"],"every legal sequence of binary, ping and pong frames arrives as sent, for all masks and segmentations (a client's further chunks of a frame being multiples of 4 bytes, without that it is false: chunks_not_masked_as_whole); text if no piece ends inside a character (false otherwise: segmentation_matters); the queue only makes legal sequences, frames given in one call arrive end to end, also through the buffered stream with any packets the network delivers (binary_sent_is_seen, sent_is_seen_partial, queued_is_seen_partial)")
claim("C46","partial",["Cio.WsClose."+x for x in "close_on_wire reply_on_wire close_body_ok_iff close_legal_partial closing_handshake_partial own_closes_understood own_closes_codes reason_cut_in_character close_not_legal illegal_code_sent offered_codes_refused one_character_reason".split()],"what is sent: in full; the handshake for reasons of at most 123 bytes that are empty or end with two ASCII characters; false of the code otherwise (a long reason is cut inside a character, the receiver's check of the reason is wrong, status codes the library offers are refused by it; negations proved)")
claim("C47","proved",[WS+"stream_used_properly",WS+"stream_refines",WS+"comes_to_rest",WS+"rest_cases",WS+"no_reading_ahead"],"websocket.c and buffered_stream.c composed; read buffer of at least 125 bytes; reads are issued as cio_websocket_read_message is meant to be used (not while a read is pending)")
Z="Cio.Zephyr."
claim("C48","partial",[Z+"Loop."+x for x in "dispatched_in_order nothing_lost_partial loop_goes_on cancel_ends_loop_partial stuck_forever full_queue_blocks called_after_cancel".split()],"order and removal for all uses; nothing lost as long as there is room for an event in the queue of ten; cancellation without an interrupt in its middle; false of the code otherwise (negations proved)")
claim("C49","partial",[Z+"Timer."+x for x in "handler_at_most_once_partial arming_not_forgotten_partial closed_all_answered_partial cancel_aborts_partial timeout_converted_partial cancel_not_aborted close_forgets_handler rearm_forgets_handler rearm_calls_null purge_forgets_handler close_in_aborted_handler short_timeout_is_zero long_timeout_is_negative".split()],"proved for programs with one arming at a time that close the timer outside of aborted handlers and when every expiry is reported; times below 2^31 ms; false of the code otherwise (negations proved)")
claim("C50","partial",[Z+"Socket."+x for x in "answered_once_partial not_forgotten_partial bytes_in_order_partial read_and_write_mixed_up rest_of_packet_lost closed_socket_used short_write_reported_whole zero_never_answered".split()],"proved for one operation at a time (read or write), closing when no report is queued, and (bytes) packets that fit into the buffer; false of the code otherwise (negations proved)")
claim("C51","partial",[Z+"Accept."+x for x in "accepted_once_partial not_forgotten_partial waiting_is_handed_out_partial two_connections_mixed_up wrong_connection_dropped closed_server_used close_in_no_memory_handler failed_accept_succeeds".split()],"proved when connections arrive one at a time and the server is not closed between an arrival and its event; false of the code otherwise (negations proved)")
claim("C52","partial",[Z+"Misc."+x for x in "entropy_complete_partial entropy_truncated entropy_failure_hidden socket_create_result".split()],"below 65536 bytes with a driver that does not fail; false of the code otherwise (negations proved)")
Wi="Cio.Windows."
claim("C53","proved",[Wi+"Loop."+x for x in "dispatched_in_order loop_goes_on loop_never_stuck loop_waits_again returns_only_when_cancelled silent_after_cancel cancel_ends_loop init_all_or_nothing cancelled_for_ever init_error_positive".split()],"all histories; as on Linux a cancelled loop can never run again (cancelled_for_ever), and the error of WSAStartup is returned positive (init_error_positive)")
claim("C54","partial",[Wi+"Timer."+x for x in "handler_at_most_once_partial arming_not_forgotten_partial closed_all_answered_partial cancel_result_partial timeout_converted_partial close_before_arming close_forgets_handler close_while_firing rearm_forgets_handler refused_rearm_forgets_handler rearm_calls_null refused_handler_called arm_in_aborted_handler close_in_aborted_handler short_timeout_is_zero long_timeout_is_zero".split()],"proved for programs with one arming at a time that use the timer outside of aborted handlers, do not close or cancel it before the first arming and close it when every expiry was reported; times below 2^32 ms; false of the code otherwise (negations proved)")
claim("C55","partial",[Wi+"Socket."+x for x in "answered_once_partial read_not_forgotten_partial write_not_forgotten_partial connect_not_forgotten_partial close_completes_partial hook_is_last_partial bytes_in_order_partial completion_after_close read_after_close close_while_connecting connect_at_once connect_at_once_closed write_after_failed_connect full_buffer_reported_as_end two_reads write_while_connecting".split()],"proved for one read and one write or connect at a time, buffers with room, no write after a failed connect, ConnectEx that does not succeed at once, and closing when no connect is under way and no completed operation waits for the event loop; false of the code otherwise (negations proved)")
claim("C56","partial",[Wi+"Accept."+x for x in "told_once_partial goes_on_partial not_forgotten_partial close_completes_partial no_descriptor_lost_partial close_bound failure_ends_accepting failure_loses_hook connection_lost closed_twice told_after_close accept_before_bind accept_twice".split()],"proved for accepting once after binding, no failing accept, setsockopt, WSASocketW or AcceptEx, and closing before binding or while accepting with no connection waiting for the event loop (alloc_client and the completion port may fail); false of the code otherwise (negations proved)")
claim("C57","partial",[Wi+"Uart."+x for x in "getters_truthful getter_errors set_view_partial set_failed set_taken errors_returned history_partial invalid_refused flow_control_ignored full_claim_false".split()],"proved for everything except flow control, which is ignored with success (proved)")
claim("C58","partial",[Wi+"Uart."+x for x in "init_success init_failure init_failure_clean_partial init_failure_closes late_failure_frees_twice port_failure_closes_twice".split()],"success and the returned error in full; cleaning up in full for failures up to CreateFileW; every later failure frees the file name a second time, and that of the completion port closes the handle twice (proved)")
claim("C59","partial",[Wi+"UartIo."+x for x in "refines answered_once_partial write_gives_chain_partial read_not_forgotten_partial write_not_forgotten_partial close_completes_partial hook_is_last_partial bytes_in_order_partial pending_write_reads_freed_memory positive_write_error no_data_is_end completion_after_close two_reads refused_write_answered large_write_cut".split()],"proved (by refinement to the sockets of C55) for one read and one write at a time, buffers and chains below 4 GiB, WriteFile taking its bytes at once, and closing when no completed operation waits for the event loop; errors of writes are reported with the wrong sign; false of the code otherwise (negations proved)")
claim("C60","partial",["Cio.Entropy."+x for x in "linux_complete getentropy_honest windows_complete_partial windows_truncated".split()],"Linux in full; Windows below 4 GiB, where the length is cut to 32 bits (negation proved)")
claim("C61","partial",[X+x for x in "behind_upgrade_untouched_partial upgrade_reached_partial upgrade_refused".split()]+[WS+"frames_after_upgrade",WS+"frames_behind_upgrade_partial"],"HTTP parsing, hand-over and WebSocket reception composed; as long as all earlier requests of the connection carry a Content-Length (otherwise false: negation proved)")
claim("C62","partial",["Cio.Uart.Ports."+x for x in "ports_exact ports_found number_exact directory_closed no_directory one_dead_link_hides_all unknown_types_missed".split()]+[Wi+"Ports."+x for x in "ports_exact errors_reported number_exact names_given_back_partial keys_closed_partial friendly_name_leaks key_closed_twice name_overread number_gives_back_partial list_destroyed released_once_partial name_memory_suffices friendly_overread".split()],"what is found: in full for Linux and Windows, except that one dead link hides all ports on Linux (negation proved); resources: in full for Linux; on Windows friendly names leak, keys may be closed twice and names are read beyond their end (negations proved)")
claim("C63","partial",[L+x for x in "error_is_final error_answered_partial message_error_ignored".split()],"no rule needed for all callbacks but the one for the complete message; the answer is immediate where http_parser stops before the end of the data it was given; an error of the callback for the complete message is ignored if its response is written already (negation proved)")
UR="Cio.HttpUrl."
claim("C64","proved",[UR+x for x in "url_callbacks url_routed url_without_path noCallbacks_iff init_noCallbacks".split()],"http_parser_parse_url is an input")
SS="Cio.StreamSocket."
claim("C65","partial",[SS+x for x in "reads_what_peer_sent read_errors_truthful writes_reach_peer_partial all_writes_successful_partial socket_used_properly never_stuck waiting_read_gets_data_partial pending_read_waits_partial pending_write_waits one_element_sent_twice write_goes_on_after_close".split()],"buffered_stream.c and linux/socket.c composed; reading and the use of the socket in full; writes except those whose first sendmsg ends within, or must wait before, the last element with bytes (they are sent twice: negation proved); progress of reads without spurious wake-ups and with handlers that do not read on after errors (negations in C12 and C33); the application does not close a lingering stream while it writes (write_goes_on_after_close)")
WT="Cio.WsTcp."
claim("C66","partial",[WT+x for x in "both_sides_safe received_is_sent binary_messages_arrive_partial text_messages_arrive_partial queued_messages_arrive_partial everything_can_arrive_partial end_is_true nothing_lost_before_end_partial text_frames_exact_partial queued_frames_exact_partial queued_text_exact_partial message_seen_twice".split()],"websocket.c, buffered_stream.c and linux/socket.c of two sides composed over a network; binary messages, pings and pongs; text if no piece the socket delivers ends inside a character; not for writes whose first sendmsg ends within, or must wait before, the last element with bytes (a message can be seen twice: negation proved); that everything can arrive needs no spurious wake-ups and no failing system calls")
claim("C67","partial",["Cio.Epoll."+x for x in "returns_only_when_cancelled cancel_ends_loop_partial cancelled_for_ever no_second_run".split()],"when and how the loop ends: in full (as long as epoll_wait has room for the eventfd among its 100 events); a cancelled loop can never run again, because the eventfd is never read (negation proved)")
claim("C68","partial",[WQ+x for x in "user_close_supervised failure_ends_partial peer_close_ends_partial failed_unsupervised peer_closed_unsupervised".split()],"closing by the user: in full, for every execution; peer's close and failures: for executions that keep to the rules of C23 and as long as there is no undefined behaviour (negations in C23, C24); but no timer supervises these two, and cio_websocket_close is refused: the connection is held for as long as the transport does not finish its writes (proved for all such states: failed_unsupervised, peer_closed_unsupervised)")
claim("C69","proved",["Cio.Masking.mask_write_buffer_correct"],"the buffers are required to be disjoint")
claim("C70","proved",["Cio.WsRecv.text_messages_wellformed", "Cio.WsRecv.illformed_text_rejected", "Cio.WsStream.stream_texts_wellformed", "Cio.WsStream.stream_illformed_rejected"],"that well-formed text is never refused is C20")
claim("C71","proved",["Cio.WsRecv.binary_received_as_specified", "Cio.WsRecv.binary_frames_delivered", "Cio.WsStream.stream_binary_received"],"text messages: C18, C20")
claim("C72","proved",["Cio.WsRecv.close_status_codes"],"frames with a reason that is not UTF-8: C22")
claim("C73","proved",["Cio.StreamSocket.reads_what_peer_sent", "Cio.StreamSocket.read_errors_truthful", "Cio.StreamSocket.socket_used_properly"],"the operating system's byte stream is trusted to be one")
claim("C74","proved",["Cio.Epoll.returns_only_when_cancelled", "Cio.Epoll.cancel_ends_loop"],"running the loop again: C67")
claim("C75","proved",["Cio.Entropy.linux_complete", "Cio.Entropy.getentropy_honest"],"quality of the entropy is the operating system's")
claim("C76","proved",["Cio.Uart.Ports.ports_exact", "Cio.Uart.Ports.ports_found", "Cio.Uart.Ports.number_exact", "Cio.Uart.Ports.directory_closed"],"whether the links are serial ports is not checked by the code")
claim("C77","proved",["Cio.HttpLife.one_response_per_request", "Cio.HttpLife.no_callback_after_response"],"")
claim("C78","proved",["Cio.HttpLife.error_is_final"],"the callback for the complete message: C63")
claim("C79","proved",["Cio.Windows.Uart.init_success", "Cio.Windows.Uart.init_failure"],"leaks on failure: C58")
claim("C80","proved",["Cio.Uart.getters_truthful", "Cio.Uart.getter_errors", "Cio.Uart.getter_errors_real", "Cio.Uart.set_failed", "Cio.Uart.invalid_refused"],"what successful setters do: C34")
claim("C81","proved",["Cio.Uart.Io.bytes_exact", "Cio.Uart.Io.write_once", "Cio.Uart.Io.closed_silent", "Cio.Uart.Io.write_count_exact"],"progress: C40")
claim("C82","proved",["Cio.HttpChunks.bytes_in_order"],"lines in one piece: C44")
claim("C83","proved",["Cio.Zephyr.Loop.dispatched_in_order"],"the message queue of the operating system is trusted to be first in, first out")
claim("C84","proved",["Cio.WsTcp.both_sides_safe", "Cio.WsTcp.received_is_sent", "Cio.WsTcp.end_is_true"],"messages: C66")
claim("C85","proved",["Cio.WsClose.close_on_wire", "Cio.WsClose.reply_on_wire", "Cio.WsClose.own_closes_understood"],"cuts within a UTF-8 character: C46")
claim("C86","proved",["Cio.Resources.accept_hands_over_or_cleans_up", "Cio.Resources.server_resources", "Cio.Resources.nothing_left", "Cio.Resources.closing_completes"],"")
claim("C87","proved",["Cio.Resources.eventloop_init_all_or_nothing", "Cio.Resources.timer_init_all_or_nothing", "Cio.Resources.socket_init_all_or_nothing", "Cio.Resources.server_socket_init_all_or_nothing", "Cio.Resources.serve_all_or_nothing"],"")
claim("C88","proved",["Cio.HttpResponse.keepalive_truthful", "Cio.HttpResponse.second_response_refused", "Cio.HttpResponse.early_response_closes"],"")
claim("C89","proved",["Cio.WsHandshake.choose_spec", "Cio.WsHandshake.protocol_search", "Cio.WsHandshake.common_protocol"],"")
claim("C90","proved",["Cio.Address.uds_file", "Cio.Address.uds_abstract", "Cio.Address.inet_exact", "Cio.Address.inet_socket_address", "Cio.Address.any_is_zero"],"the empty path name: C37")
claim("C91","proved",["Cio.WsRecv.read_handler_arguments", "Cio.WsStream.stream_read_handler_arguments"],"")
claim("C92","proved",["Cio.Autobahn.echoes", "Cio.Autobahn.frames_come_back"],"the writes are the calls the application makes; what the library does with them is C17, C24 and C45; text whose pieces end within a character: C20")
claim("C93","proved",["Cio.Linux.socket_read_callback", "Cio.Linux.socket_write_callback", "Cio.Linux.socket_calls_legal", "Cio.Linux.timer_read_callback", "Cio.Linux.timer_no_write_callback", "Cio.Linux.timer_calls_legal", "Cio.Linux.CloseTimer.timer_as_socket_says", "Cio.Linux.CloseTimer.timer_calls_possible", "Cio.Linux.CloseTimer.expiry_expected"],"under the rules of use of the three models (C30, C32, C33)")
claim("C94","partial",["Cio.Linux.Server.connections_accounted", "Cio.Linux.Server.closed_once", "Cio.Linux.Server.outcome_reported", "Cio.Linux.Server.goes_on_accepting_partial", "Cio.Linux.Server.second_accept_makes_deaf", "Cio.Linux.Server.deaf_for_ever", "Cio.Linux.Server.close_on_error_used"],"the first two sentences hold without rules; the last one needs cio_server_socket_accept to be called once and the server not to be closed by a handler that is told of a failed connection. Without them it is false: a refused second accept leaves the socket deaf for ever (second_accept_makes_deaf, deaf_for_ever), and a close by such a handler lets the library read the freed server socket (close_on_error_used)")
claim("C95","proved",["Cio.WsRecv.lengths_fit", "Cio.WsRecv.fitting_frames_as_before", "Cio.WsRecv.fitting_frames_delivered", "Cio.WsRecv.oversized_frame_refused", "Cio.WsRecv.oversized_frame_refused_text"],"what the 64 bit receiver makes of text that is cut inside a character: C18, C20")
claim("C96","proved",["Cio.HttpLife.request_takes_bounded_time", "Cio.HttpLife.request_not_cut_short", "Cio.HttpLife.time_passes", "Cio.HttpLife.idle_is_supervised", "Cio.HttpLife.timeout_acts", "Cio.HttpLife.example_slow_client", "Cio.HttpLife.example_trickle"],"under the conditions listed in the statement (Obeys, asksUpgrade; cancelling a timer succeeds for request_not_cut_short); the bound is attained (example_slow_client); steps of the library and of handlers take no time except as delay of the event loop")
claim("C97","proved",["Cio.Linux.uart_read_callback", "Cio.Linux.uart_write_callback", "Cio.Linux.uart_calls_legal", "Cio.Linux.server_read_callback", "Cio.Linux.server_no_write_callback", "Cio.Linux.server_calls_legal"],"rule of use: no second accept on a socket that accepts (it answers EEXIST and makes the socket deaf, C94); closing a socket that is not in the loop is taken to find nothing")
claim("C98","partial",["Cio.Echo.proper_user", "Cio.Echo.echoes_partial", "Cio.Echo.echoes_all_partial", "Cio.Echo.at_rest", "Cio.Echo.closes_on_error", "Cio.Echo.bytes_echoed_twice", "Cio.Echo.failed_write_forgotten", "Cio.Echo.forgotten_connection"],"false of the code in two cases: if sendmsg does not take a unit at once the bytes are sent twice (`bytes_echoed_twice`, the defect of C15); a connection on which a write fails is never closed (`failed_write_forgotten`). The other claims are proved for all executions")
claim("C99","proved",["Cio.Autobahn.message_comes_back"],"between the sender's calls and the wire stand C24 (`send_frame`) and C17 (the order of frames in the queue, where the theorem assumes that pongs are queued between frames, not within one)")
claim("C100","partial",["Cio.PlainEcho.echoes_partial", "Cio.PlainEcho.echoes_all_partial", "Cio.PlainEcho.at_rest", "Cio.PlainEcho.closes_partial", "Cio.PlainEcho.memory_safe", "Cio.PlainEcho.never_more_than_size", "Cio.PlainEcho.full_buffer_is_end", "Cio.PlainEcho.closed_after_128", "Cio.PlainEcho.bytes_echoed_twice", "Cio.PlainEcho.failure_forgotten", "Cio.PlainEcho.forgotten_connection"],"false of the code in three cases: the read buffer is never emptied, so that the server sends back 128 bytes per connection at most and then takes the next byte as the end of the stream and closes (`never_more_than_size`, `full_buffer_is_end`, `closed_after_128`); if sendmsg does not take what was read at once it is sent twice (`bytes_echoed_twice`, the defect of C15); a connection on which reading or writing fails is never closed (`failure_forgotten`). The other claims are proved for all executions")
claim("C101","partial",["Cio.HttpTcp.client_reads_partial", "Cio.HttpTcp.client_reads_exactly", "Cio.HttpTcp.wrong_answer", "Cio.HttpTcp.wrong_answer_reachable", "Cio.HttpTcp.reply_is", "Cio.HttpTcp.responses_prefix"],"false of the code: if the first sendmsg of an answer ends within the last element of the response (usually the body), the whole response is sent a second time, and the client takes the copy for the answer to its next request (`wrong_answer`, reachable: `wrong_answer_reachable`). `client_reads_exactly` states without that exception what the client reads: each answer once or, in exactly that case, twice")
claim("C102","partial",["Cio.WsExample.message_answered", "Cio.WsExample.at_most_one_hello_partial", "Cio.WsExample.never_says_good_bye", "Cio.WsExample.deaf_after_hello_partial", "Cio.WsExample.never_closed_after_hello", "Cio.WsExample.frozen", "Cio.WsExample.kept_for_ever", "Cio.WsExample.no_timer_no_service", "Cio.WsExample.dangling_reachable", "Cio.WsExample.not_dangling_partial"],"false of the code but for the answer (`message_answered`): every call of cio_websocket_close in the program passes no handler and is refused, so it never begins to close (`never_says_good_bye`, all executions); after the first message it never reads again and notices nothing of the peer (`deaf_after_hello_partial`), the connection is never closed although every write may fail (`never_closed_after_hello`), and after a failed ping nothing ever happens again (`frozen`, `kept_for_ever`); the head of the ping's write buffer is a local variable of a function that has returned if the ping has to wait (`dangling_reachable`; `not_dangling_partial` if no write has to wait). The theorems with _partial suppose that the connection has not failed (on_error not called)")
claim("C103","partial",["Cio.Periodic.messages_spaced", "Cio.Periodic.last_message_ends", "Cio.Periodic.finishes_partial", "Cio.Periodic.never_idle_partial", "Cio.Periodic.ends_only_when_done_partial", "Cio.Periodic.arming_failed_hangs", "Cio.Periodic.ends_with_open_timer"],"number and distance of the messages, the close after the last one and the absence of undefined behaviour hold in all executions; that the program comes to its end (`finishes_partial`: from every state it can; `never_idle_partial`: the timer is always running) and ends only when done is proved for executions in which the operating system does not fail (and no signal comes). Without that it is false: if arming fails in the handler the program hangs for ever with an open timer (`arming_failed_hangs`), and a signal or a failure of the first arming ends it without closing the timer (`ends_with_open_timer`)")
claim("C104","partial",["Cio.HttpExample.every_request_is_answered", "Cio.HttpExample.never_upgrades", "Cio.HttpExample.one_response_per_request", "Cio.HttpExample.keeps_serving_partial", "Cio.HttpExample.one_reset_stops_the_server", "Cio.HttpExample.pipelining_stops_the_server", "Cio.HttpExample.two_failures_shut_down_twice", "Cio.HttpExample.one_failure_shuts_down_twice", "Cio.HttpExample.slow_client_closed_twice"],"that every request is answered at once (or the timer for the response can not be armed, and `on_error` is called), with at most one response, holds in all executions. That the server keeps serving is proved if the operating system does what it is asked to do at once, no client resets its connection, and no request arrives together with the end of the one before. Without that it is false: from every state of the running program a single client that connects and resets its connection stops the whole server (`one_reset_stops_the_server`), and so does one that pipelines (`pipelining_stops_the_server`); the server socket can be closed twice (`two_failures_shut_down_twice`, `one_failure_shuts_down_twice`) and a client that does not read can make the server close its connection twice (`slow_client_closed_twice`)")
claim("C105","proved",["Cio.Linux.Server.connections_accounted", "Cio.Linux.Server.closed_once", "Cio.Linux.Server.outcome_reported"],"the part of C94 that holds without any rule")
claim("C106","proved",["Cio.Windows.Uart.getters_truthful", "Cio.Windows.Uart.getter_errors", "Cio.Windows.Uart.set_failed", "Cio.Windows.Uart.set_taken", "Cio.Windows.Uart.errors_returned", "Cio.Windows.Uart.invalid_refused"],"the part of C57 that holds without exception")
claim("C107","proved",["Cio.Windows.Ports.ports_exact", "Cio.Windows.Ports.errors_reported", "Cio.Windows.Ports.number_exact", "Cio.Windows.Ports.list_destroyed"],"the part of C62 about Windows that holds without exception")
claim("C108","proved",["Cio.HttpExample.every_request_is_answered", "Cio.HttpExample.never_upgrades", "Cio.HttpExample.one_response_per_request"],"the part of C104 that holds without exception")
claim("C109","proved",["Cio.Periodic.messages_spaced", "Cio.Periodic.last_message_ends"],"the part of C103 that holds without exception")
claim("C110","proved",["Cio.WsRoundTrip.binary_round_trip", "Cio.WsStream.binary_sent_is_seen"],"the part of C45 that holds without exception (each frame's bytes as `cio_websocket_write_message_*` produces them, see C17; the queue is C24)")
claim("C111","proved",["Cio.WsQueue.user_close_supervised"],"the part of C68 that holds for every execution; undefined behaviour is excluded in the hypothesis because the C standard promises nothing after it (C23, C24 say when it can happen)")
claim("C112","proved",["Cio.Echo.proper_user", "Cio.Echo.at_rest", "Cio.Echo.closes_on_error"],"the part of C98 that holds without exception")
claim("C113","proved",["Cio.PlainEcho.memory_safe", "Cio.PlainEcho.at_rest", "Cio.PlainEcho.never_more_than_size"],"the part of C100 that holds without exception")
claim("C114","partial",["Cio.PingPong.sends_partial", "Cio.PingPong.sends_all_partial", "Cio.PingPong.finished_sent_partial", "Cio.PingPong.greeting_sent_twice", "Cio.PingPong.client_hangs"],"false in general: a send that ends within a message, or finds the socket's buffer full at once, sends the message twice (`greeting_sent_twice`, the bug of C12), and a client whose answer is refused by sendmsg waits for ever (`client_hangs`); proved for all other executions")
claim("C115","proved",["Cio.PingPong.proper_user", "Cio.PingPong.at_rest", "Cio.PingPong.never_too_many", "Cio.PingPong.closes_only", "Cio.PingPong.closes_on_error", "Cio.PingPong.finished"],"the part of C114 that holds without exception")
claim("C116","partial",["Cio.PingPong.only_greetings_partial", "Cio.PingPong.no_deadlock_partial", "Cio.PingPong.server_stays", "Cio.PingPong.finishes_partial", "Cio.PingPong.greetings_doubled"],"false in general because of the bug of C12: a send that ends within a message, or finds the buffer full at once, doubles it (`greetings_doubled`); proved for all other executions; the network is reliable and keeps the order, connection set-up and main are not modelled")
claim("C117","proved",["Cio.PingPong.only_greetings", "Cio.PingPong.no_deadlock", "Cio.PingPong.server_stays", "Cio.PingPong.finishes"],"the part of C116 that holds without exception: a doubled message is a whole one")
claim("C118","proved",["Cio.WsExample.one_ping_at_a_time", "Cio.WsExample.expiry_pings", "Cio.WsExample.only_expiry_pings", "Cio.WsExample.pings_go_on"],"a ping that failed is 'still to be written' for ever: the program does not ping again then (C102, Finding 60); expiry_pings is stated for executions without undefined behaviour (that there is none on a connection that has not failed: C07)")
claim("C119","proved",["Cio.HttpExample.shut_down_once_per_reason", "Cio.HttpExample.ends_only_for_a_reason", "Cio.HttpExample.no_client_after_shutdown", "Cio.HttpExample.signal_ends"],"what the second shutdown does to the descriptor of the server socket is Finding 64 (C104)")
claim("C120","proved",["Cio.BufferedWrite.handler_exactly_once", "Cio.StreamSocket.writes_exact", "Cio.StreamSocket.all_successful_exact"],"the part of C15 and C65 about writing that holds without exception; that two copies are wrong is their negation")
claim("C121","proved",["Cio.Echo.echoes_once_or_twice", "Cio.Echo.echoes_all_once_or_twice", "Cio.Echo.asks_units"],"the part of C98 about the bytes sent back that holds without exception; that a unit may come twice is the negation in C98")
claim("C122","proved",["Cio.PingPong.sends_once_or_twice", "Cio.PingPong.finished_once_or_twice"],"the part of C114 that holds without exception; that a message may come twice is the negation in C114")
claim("C123","proved",["Cio.HttpTcp.client_reads_copies", "Cio.HttpTcp.only_given_answers", "Cio.HttpTcp.client_reads_exactly"],"the part of C101 that holds without exception; that the second copy is wrong is the negation in C101")
claim("C124","partial",["Cio.ConnectExample.one_answer", "Cio.ConnectExample.ends_only", "Cio.ConnectExample.goes_on", "Cio.ConnectExample.exit_status", "Cio.ConnectExample.closes_once_partial", "Cio.ConnectExample.answered_closes_twice", "Cio.ConnectExample.descriptor_closed_twice", "Cio.ConnectExample.descriptor_never_closed"],"everything but the last clause in full; whenever the attempt was answered the socket is closed twice (`answered_closes_twice`, all executions), which closes the descriptor twice (`descriptor_closed_twice`) or not at all (`descriptor_never_closed`); without an answer it is closed once")
claim("C125","partial",["Cio.TwoConnects.client_sends", "Cio.TwoConnects.server_reads", "Cio.TwoConnects.server_reads_all", "Cio.TwoConnects.one_greeting_partial", "Cio.TwoConnects.greeting_read_twice", "Cio.TwoConnects.client_goes_on", "Cio.TwoConnects.server_goes_on", "Cio.TwoConnects.both_clients", "Cio.TwoConnects.one_after_the_other", "Cio.TwoConnects.ends_only", "Cio.TwoConnects.does_end"],"everything in full but `exactly once`: if the first `sendmsg` of the client does not take the whole greeting (but reaches the last element), the server reads it twice (`server_reads_all` says exactly when, `greeting_read_twice` shows such a run of the whole program); for the other executions `one_greeting_partial`. The premises about the two sides are those of C60-C66 (`Allowed`): epoll_ctl does not fail, the close timer does not expire while it is armed")
claim("C126","partial",["Cio.UartExample.detect_right", "Cio.UartExample.gives_back_partial", "Cio.UartExample.order", "Cio.UartExample.crashes_when_all_is_well", "Cio.UartExample.never_plays", "Cio.UartExample.array_lost", "Cio.UartExample.plays_if_set_up"],"finding the ports, the loop, the ports, and the copies are as claimed in all executions; it is false that the program plays: if nothing fails it calls a function of the stream of a client that it never set up (`crashes_when_all_is_well`: exactly then), so that it never comes to its event loop (`never_plays`); and the array of a successful `detect_uart` is lost (`array_lost`); with the one argument corrected it would play (`plays_if_set_up`)")
claim("C127","proved",["Cio.WsTcp.binary_frames_exact", "Cio.WsTcp.everything_can_arrive_exact", "Cio.WsTcp.nothing_lost_before_end_exact", "Cio.WsTcp.ping_seen_twice", "Cio.WsTcp.fragments_exact", "Cio.WsTcp.fragments_can_arrive", "Cio.WsTcp.text_fragments_exact", "Cio.WsTcp.text_seen_twice", "Cio.WsTcp.no_failure_if_early", "Cio.WsTcp.strict_of_legal", "Cio.WsTcp.copies_once_or_twice", "Cio.WsTcp.fragmented_message_lost"],"the first three for whole messages; `fragments_exact` for messages in several frames: a repeated first or last frame makes the receiver fail with 1002, the message is lost (`fragmented_message_lost`); no condition on what sendmsg accepts (compare C66); `ping_seen_twice` is a run that meets all hypotheses, with one frame seen once and one twice; text: `text_fragments_exact` says exactly when (iff) everything arrives as RFC 6455 says, `text_seen_twice` is a run that meets its hypotheses")
#MORE
json.dump({"claims": C}, open(os.path.join(os.path.dirname(__file__), "..", "MANIFEST.json"), "w"), indent=1)
