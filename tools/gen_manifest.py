#!/usr/bin/env python3
"""Writes MANIFEST.json. Claims are listed here by hand."""
import json, os
claims = []
def c(prop, status, theorems, note):
    claims.append({"property": prop, "status": status,
                   "theorems": ["Mctp." + t for t in theorems], "note": note})

c("C01", "proved", ["C01_reassembly_sound"], "Every delivery of a multi-packet message from a non-null source is the content of an uninterrupted run of its stream (null source: C04).")
c("C02", "proved", ["C02_reassembly_complete"], "")
c("C03", "proved", ["C03_noninterference", "C03_streams_isolated", "C03_exact_refinement"], "Noninterference between two arbitrary histories, and refinement of the endpoint to the ideal reassembler.")
c("C04", "partial", ["C04_null_source_leak", "C04_null_source_harmless_partial"], "The property is false of the code: witness of a leak. Proved: null-source packets never disturb other sources' messages.")
c("C05", "partial", ["C05_tag_owner_not_separated","C05_in_turn_partial"], "The property is false of the code (tag owner is not part of the context key): witness. Proved (_partial): a message whose packets are not interleaved with packets of the other owner is delivered once, with its own tag-owner bit, whatever came before. Missing: interleaved messages that differ in the tag-owner bit only (refuted).")
c("C06", "proved", ["C06_sequence_error_drops"], "")
c("C07", "proved", ["C07_loss_detected", "C07_loss_of_four_undetectable"], "")
c("C08", "proved", ["C08_length_error_drops"], "")
c("C09", "proved", ["C09_start_restarts"], "")
c("C10", "proved", ["C10_sixteen"], "Stated on runs of the code, through the ideal reassembler it refines.")
c("C11", "proved", ["C11_size_limit", "C11_size_limit_configured"], "")
c("C12", "partial", ["C12_limit_accepts_partial", "C12_small_limit_refuses_all", "C12_limit_not_usable"], "The property is false of the code: witnesses. Proved: messages up to half of a limit of at least 4096 are accepted.")
c("C13", "proved", ["C13_address_filter"], "")
c("C14", "proved", ["C14_single_packet_delivered"], "")
c("C15", "proved", ["C15_runt_ignored"], "")
c("C16", "proved", ["C16_control_dispatch"], "")
c("C17", "partial", ["C17_control_args_swapped", "C17_control_args_partial"], "The property is false of the code (arguments swapped in core.c:462): witness.")
c("C18", "proved", ["C18_fragmentation", "C18_accepts"], "")
c("C19", "proved", ["C19_receive_messages", "C19_round_trip"], "")
c("C20", "proved", ["C20_invalid_refused"], "")
c("C21", "partial", ["C21_success_accepted_partial", "C21_no_bus_reports_success"], "False without a registered bus: witness. Proved for a registered endpoint.")
c("C22", "proved", ["C22_ideal_transmitter", "C22_fifo"], "")
c("C23", "proved", ["C23_gating"], "")
c("C24", "proved", ["C24_oversized_skipped"], "")
c("C25", "proved", ["C25_capture_complete", "C25_every_packet_arrives"], "")
c("C26", "proved", ["C26_ideal_bridge", "C26_message_forwarded"], "Refinement of the bridge to the ideal bridge, and what it means for one message.")
c("C27", "partial", ["C27_busses_mixed", "C27_one_bus_partial"], "The property is false of the code (the bus is not part of the context key): witness.")
c("C28", "proved", ["C28_endpoint_safe", "C28_bridge_safe"], "Under the calls' preconditions (packet fits the binding's buffer, sizes do not overflow).")
c("C29", "partial", ["C29_double_free", "C29_queued_packet_leaked", "C29_reregister_partial"], "The property is false of the code in every reachable state (double free).")
c("C30", "partial", ["C30_failed_growth_double_free", "C30_failed_growth_use_after_free", "C30_failures_harmless_partial"], "False when growing an existing buffer fails; proved for every other failure.")
c("C31", "partial", ["C31_transmit_null_deref", "C31_register_unusable", "C31_bridge_reports_partial"], "The property is false of the code, for every failure at the given points.")
c("C32", "proved", ["C32_registration_undone"], "")
c("C33", "partial", ["C33_push_pop_partial", "C33_push_overflow", "C33_alloc_areas"], "False for lengths that overflow size_t; proved for all others.")
c("C34", "partial", ["C34_capacity_partial", "C34_area_beyond_storage"], "False for bindings with header space and requests in the header-sized gap; proved for all others.")
c("C35", "proved", ["C35_fcs_is_rfc1662"], "")
c("C36", "proved", ["C36_burst", "C36_odd", "C36_two", "C36_two_bytes"], "")
c("C37", "proved", ["C37_crc32", "C37_burst", "C37_four_bytes", "C37_two", "C37_one"], "")
c("C38", "proved", ["C38_round_trip"], "")
c("C39", "proved", ["C39_chunking", "C39_read", "C39_interleaving"], "")
c("C40", "proved", ["C40_only_valid_frames"], "")
c("C41", "proved", ["C41_total", "C40_only_valid_frames"], "Allocations succeed (an allocation failure fails an assertion, see DESIGN.md).")
c("C42", "proved", ["C42_resynchronises"], "141 bytes other than the flag; the bound is shown to be tight.")
c("C43", "proved", ["C43_corruption_detected"], "")
c("C44", "partial", ["C44_refuted", "C44_valid_streams_partial", "C44_leak_count"], "The property is false of the code (an invalid frame leaks its buffer): witness. Proved for streams of valid frames, and the exact number of lost buffers for all streams.")
c("C45", "proved", ["C45_writes_frame", "C45_zero_write_loops"], "For a write function that makes progress or fails; one that returns 0 for ever makes the call loop for ever.")
c("C46", "proved", ["C46_in_bounds", "C46_long_packet_truncated"], "")
c("C47", "proved", ["C47_end_to_end", "C47_every_message"], "C47_every_message: the receiver's limit is 4096 times a power of two (the default is); then exactly the messages up to the limit arrive, and the others do no harm. C47_end_to_end: any limit, messages of at most half of it.")
c("C48", "proved", ["C48_negotiate", "C48_supported", "C48_bmc"], "")
c("C49", "proved", ["C49_accepted", "C49_used"], "")
c("C50", "partial", ["C50_published", "C50_start_partial", "C50_aborts"], "False for MTUs in the last bytes of the 32-bit range (the process aborts): witness. Proved for all others.")
c("C51", "proved", ["C51_agree", "C51_before", "LinkDemo.linked"], "BMC and host together, every interleaving of their accesses on a common KCS device and window (Spec/Link.lean); accessors do not fail, the host's allocations succeed. The handshake is not assumed: whenever the host has a version, both agree. The MTU is the host's request, which must not exceed the BMC's limit (C52).")
c("C52", "partial", ["C52_refused", "LinkDemo.C52_refuted", "C51_agree"], "False: a host that requests more than the BMC's limit is never registered (-EINVAL from its start), proved for all MTUs, with a concrete witness. Proved (C51_agree): every host that does register obtains exactly its MTU.")
c("C53", "proved", ["C53_bounds"], "")
c("C54", "proved", ["C54_one_holder", "C54_no_race", "LinkDemo.linked"], "Every interleaving of the accesses of both sides, at every intermediate access. Block accesses to the window are atomic; the link starts from reset and accessors do not fail; the host's allocations succeed.")
c("C55", "proved", ["C55_exactly_once", "LinkDemo.linked"], "As C54. 'Accepted' are the packets for which the binding's tx returned 0.")
c("C56", "proved", ["C56_corrupt", "C56_delivered_intact"], "")
c("C57", "partial", ["C57_once_partial", "C57_duplicated", "C57_changed"], "False: a packet whose KCS command failed is written and announced twice, and on version 3 the second copy contains the checksum of the first. Proved: without KCS failures each accepted packet is written exactly once, in order, unchanged.")
c("C58", "partial", ["C58_handed_back_partial", "C58_lost"], "False when the announced length is invalid (the buffer is never handed back): proved for every such case. Proved for all other packets.")
c("C59", "proved", ["C59_disciplined", "C59_write", "C59_read", "C59_retry"], "")
c("C60", "proved", ["C60_unfit_harmless"], "")
c("C61", "partial", ["C61_stopped_partial", "C61_unnoticed", "C61_unfit_unnoticed", "C61_reopened"], "False: the loss is not noticed without a command in the data register or with one that does not fit; and the command 0 re-opens a host's channel. Proved for polls that read a dummy or fitting command, until Channel-Active is shown or the command 0 is read.")
c("C62", "partial", ["C62_handshake_partial", "C62_unnoticed"], "False: a restart between two polls is not noticed. Proved when the host has seen BMC-ready clear.")
c("C63", "proved", ["C63_one_in_flight"], "")
c("C64", "proved", ["C64_refused"], "")
c("C73", "partial", ["C73_bmc", "C73_host_partial", "C73_host_crashes_status", "C73_host_crashes_command", "C73_host_crashes_positive"], "Proved for the BMC against every host. False for the host: a BMC that shows an active channel without being ready, or sends the command 0x00, crashes it (witnesses). Proved for the host against a BMC that does neither, with KCS reads that report failures by negative numbers, and an MTU below 2^32-12.")
c("C69", "partial", ["C69_record_partial", "C69_refuted"], "False of the code: the last byte of every record of the message capture is uninitialised. Proved: every other byte of the record.")
c("C70", "proved", ["C70_packet_record", "C70_capture_file", "C70_run"], "")
c("C71", "proved", ["C71_same_as_malloc", "C71_hook_calls"], "")
c("C72", "proved", ["C72_log_filter", "C72_log_faults"], "")
c("C65", "partial", ["C65_only_partial", "C65_forward_partial", "C65_short", "C65_refuted"], "False of the code: messages of type 0 are also forwarded to clients that have not registered (witness). Proved: otherwise exactly the clients registered for the type, and messages shorter than a type byte go to nobody.")
c("C66", "partial", ["C66_removal_partial", "C66_refuted", "C66_refuted_history"], "False of the code: the pass skips the client after each removed one (witness, also as a history of the daemon). Proved: active clients are kept in order, and all inactive ones are removed when no two inactive clients are adjacent.")
c("C67", "proved", ["C67_route"], "")
c("C68", "partial", ["C68_polls_partial", "C68_refuted"], "False of the code: a removal inside a delivery does not mark the clients as changed, and the next poll uses the old array (witness). Proved: exact as long as no delivery to a client has failed (and the uninitialised variable is read as false).")
c("C74", "proved", ["C74_serial", "C74_astlpc"], "For the serial binding (allocations succeed) and the astlpc binding of a BMC.")
c("C75", "proved", ["C75_reason", "C75_books"], "Assumes the operating system never returns an open descriptor from accept().")
c("C76", "partial", ["C76_reads_partial", "C76_refuted"], "False of the code, by the stale poll array of C68 (witness: an idle client is disconnected). Proved as long as no delivery to a client has failed (and the uninitialised variable is read as false).")
c("C77", "partial", ["C77_disconnect_partial", "C77_refuted"], "False of the code for a client that leaves before registering: it is reported for ever and never closed. Proved for a registered client.")
c("C78", "partial", ["C78_stop_partial", "C78_refuted"], "False of the code: one failing accept() ends the daemon (witness). Proved: only that, or a failing binding, ends it.")
c("C79", "proved", ["C79_linked_list"], "Refinement of the pointer-level queue (Model/TxQueue.lean) to the list of Model/Core.lean; calls meet their preconditions and allocations succeed as in C28.")
c("C80", "partial", ["C80_bmc_partial", "C80_host_partial", "C80_message_partial", "C80_refuted"], "False with protocol version 1: a BMC whose MTU is larger than the agreed buffers goes on forming larger packets, and messages that were accepted are dropped (witness). Proved for versions 2 and 3 (sizes and bounds for all versions); the host's side assumes a BMC that never shows an active channel without being ready and never sends the command 0.")
c("C81", "proved", ["C81_nothing_dropped", "C81_bmc_to_host", "C81_host_to_bmc", "C81_every_message_to_host", "C81_every_message_to_bmc", "LinkDemo.linked2", "ForeignDemo.linked3"], "Setting of C54/C55 (accessors do not fail on the link, both sides start from reset, block accesses to the window are atomic, the host's allocations succeed); C81_host_to_bmc also assumes the BMC's allocations succeed. Messages are addressed to the other side, at most half its message size limit, and that side keeps its limit and callback; a message without content is sent in no packets and so not delivered. LinkDemo.linked2 is a two-sided execution with crossing messages meeting the hypotheses; ForeignDemo.linked3 one in which a message goes to an endpoint that is not there. The every_message theorems drop the conditions on the messages, for a receiver's limit of 4096 times a power of two (the default is) and packets of at most 4096 bytes: exactly the messages to the receiver, with content and up to the limit, arrive.")
c("C82", "proved", ["C82_calls_in_callbacks"], "Allocations succeed and calls meet their preconditions, as in C28. Calls other than mctp_message_tx and mctp_set_* from a callback (receiving, registering, destroying) are not covered.")
c("C83", "proved", ["C83_responder"], "The binding leaves the packets alone (KeepsPacket, as in C22) and was enabled when the bus was registered; the packet size is not changed during the history.")
c("C84", "partial", ["C84_single_packet_partial", "C84_other_streams_partial", "C84_whole_history_partial", "C84_use_after_free", "C84_message_lost"], "False of the code for messages reassembled from several packets if packets of the same stream are received in the callback: the storage may be reallocated under the callback, and a message begun inside the callback is thrown away (witnesses). Proved for messages of one packet, and for messages of several packets while packets of other streams are received; for one callback in any state, and for whole histories in which every callback does so; the callbacks of the messages received inside a callback are taken to make no calls.")
c("C85", "partial", ["C85_disabled_partial", "C85_refuted"], "False of the code while transmission is enabled: the packet being offered is offered again and freed, then used (witness). Proved for a binding that disables transmission before it lets the message be sent.")
c("C86", "partial", ["C86_created", "C86_holds", "C86_failed_partial", "C86_returns", "C86_mapping_leaks", "C86_destroy_leaks", "C86_wrong_allocator"], "False of the code: the mapping leaks when the KCS device cannot be opened, destroy closes and unmaps nothing, and a failed call uses free() on a block of a configured allocator. Proved: the result in all cases and what is held, and that the other failures leave nothing behind.")
c("C87", "proved", ["C87_window"], "For reserved memory not larger than the 28-bit firmware address space.")
c("C88", "partial", ["C88_inside_partial", "C88_outside"], "False of the code for reserved memory of less than 1 MiB: the first access is before the mapping. Proved for 1 MiB and more.")
c("C89", "partial", ["C89_nothing_missed", "C89_input_read", "C89_output_written", "C89_packet_waits"], "False of the code while a command is deferred: only POLLOUT is asked for, so a packet of the host does not wake the program (witness). Proved: everything else. The readiness of the device file (POLLIN: input present, POLLOUT: output register empty) is an assumption about the driver.")
c("C90", "partial", ["C90_init", "C90_opened_partial", "C90_unreported", "C90_nothing_written", "C90_read", "C90_given", "C90_destroy_leaks"], "False of the code: a failed open is not reported, a failed allocation crashes, destroy does not close the device. Proved: the rest.")
c("C91", "partial", ["C91_core_unchanged", "C91_polls_partial", "C91_crash", "C91_host_crash", "C91_otherwise"], "False of the code: when the host asks for a channel, polling an astlpc binding whose registration failed dereferences NULL (every such case), and mctp-demux-daemon does poll it. Proved: the core is unchanged, and the polls are harmless for any number of polls as long as the host does not ask for a channel. For a host that polls although there was no BMC: the first byte from the BMC crashes the poll (C91_host_crash). C91_otherwise: where the poll of the unregistered binding returns, it does what the poll of a registered one does.")
c("C92", "proved", ["C92_status_unread", "C92_data_unread", "C92_command_written"], "The parts on reading assume no deferred command (with one, C92_command_written and C59_retry describe the accesses before).")
c("C93", "proved", ["C93_all_delivered", "C93_all_messages", "C93_every_message"], "With the hardware model of C54/C55 (Spec/Link.lean); all allocations of both sides succeed; for the messages, the conditions of C81. The every_message theorem drops the conditions on the messages, for a receiver's limit of 4096 times a power of two (the default is) and packets of at most 4096 bytes: exactly the messages to the receiver, with content and up to the limit, arrive.")
c("C94", "partial", ["C94_refuted", "C94_channel_up_partial"], "False for the host: C94_refuted gives, for every number of rounds, an execution in which the host still refuses every message (it read the status before, and the data register after the BMC set up the channel). What holds: C94_channel_up_partial, the BMC accepts messages, and the host does once the BMC has sent it a packet. Hardware model of C54/C55.")
c("C95", "partial", ["C95_copies_partial", "C95_finishes_partial", "C95_refuted"], "False of the program: it is the only reader of the socket it writes to, and with an input that is always ready it writes more per iteration than it reads, so that for every capacity of the socket it ends up waiting for itself (C95_refuted). Proved: it never faults, never writes anything but the first part of the input, has copied everything when it ends (C95_copies_partial), and gets there if the socket holds 16 bytes per byte of input (C95_finishes_partial).")
c("C96", "proved", ["C96_prints"], "Allocations succeed; the bytes handed to write() are the output (short writes on stdout are only reported by the program).")
c("C97", "partial", ["C97_loop", "C97_status_partial", "C97_unnoticed", "C97_deaf", "C97_refuted"], "False of the code: the result of mctp_register_bus is ignored; without memory for the bus the daemon starts and the first client message dereferences NULL (C97_unnoticed, C97_refuted), and with a device that refuses to start it runs without a bus and drops every message silently (C97_deaf). Proved for the steps whose results are looked at: the loop is entered exactly if they succeed, and the exit status.")
c("C98", "proved", ["C98_cleanup", "C98_safe_serial", "C98_safe_astlpc"], "Allocations of the library succeed; a failed astlpc registration is C91. The pcap handle of a capture whose dump file cannot be opened is not closed before the exit (not part of the claim).")
c("C99", "partial", ["C99_honoured_partial", "C99_no_binding", "C99_short_eid", "C99_short_socket", "C99_eid_range", "C99_large_eid", "C99_number", "C99_not_a_number"], "False of the code: -e crashes whatever follows (the option string gives it no argument), -s FILE loses the file and takes it for the binding, and an EID that is not a number is taken for 0, and one above 255 is accepted and then differs between bus and daemon. Proved: every command line with long options, -b, -v and EIDs up to 255. getopt_long and atoi are modelled after the C library (no abbreviated long names).")
c("C100", "proved", ["C100_farewell"], "A failed registration is C91 and C97.")
c("C101", "proved", ["C101_relay", "C101_client", "C101_arrivals"], "The operating system does not hand out a descriptor that is still open (FreshAccept). That a client which has not registered counts as registered for type 0 is the defect of C65.")
c("C102", "proved", ["C102_two_daemons", "C102_every_message"], "C102_every_message has no condition on the messages (limit 65536, as the daemon's). The line does not lose or change bytes (what happens then is C43-C46) and A's write function does not fail (see C47).")
c("C103", "partial", ["C103_from_clients_partial", "C103_refuted"], "False of the code: only the messages from clients are recorded, rx_message does not call capture_socket (witness). Proved: one record per message from a client (with one more, uninitialised byte, C69).")
c("C104", "proved", ["C104_to_host", "C104_from_host", "C104_every_message_to_host", "C104_every_message_from_host"], "Setting of C54/C55 and C81 (accessors do not fail on the link, both sides start from reset, block accesses atomic, allocations succeed as stated). Messages to other EIDs, or of more than half the receiver's message size limit, are excluded by hypothesis in C104_to_host and C104_from_host. The every_message theorems drop the conditions on the messages, for a receiver's limit of 4096 times a power of two (the default is) and packets of at most 4096 bytes: exactly the messages to the receiver, with content and up to the limit, arrive. Messages of clients before the channel is set up are refused by the core (ENXIO).")
c("C105", "proved", ["C105_file_and_line", "C105_both_ends"], "Serial binding; the write function does not fail (see C47), the library's allocations succeed, the clock works. Incoming packets of 4 bytes (no content) are dropped by the core before they are captured.")
c("C106", "proved", ["C106_local"], "Allocations succeed. Command lines in the forms of C99_honoured_partial.")
c("C107", "proved", ["C107_refused", "C107_serial", "C107_astlpc"], "Allocations succeed; the serial device takes what is written (see C47); the astlpc registration succeeds (see C91). Command lines in the forms of C99_honoured_partial.")
c("C108", "partial", ["C108_settled_partial", "C108_refuted", "C108_refuted_two"], "False of the code: a client that hangs up before it has registered is marked but not removed, and the daemon spins until another client connects or fails (shown for any number of rounds); of two neighbours that fail in one round one stays (C66). Proved for every history in which at most one client at a time has failed and none hangs up before registering.")
c("C109", "proved", ["C109_captures_agree", "C109_outgoing", "C109_daemon", "C109_daemon_off", "CaptureDemo.linked3"], "Setting of C54/C55 (accessors do not fail on the link, both sides start from reset, block accesses atomic, the host's allocations succeed). The capture handler is set right after mctp_register_bus (the daemon sets it just before, with the same effect: nothing is sent in between) and not taken away; the file needs a working clock and memory.")
c("C110", "proved", ["C110_retry", "C110_no_bmc"], "The memory for the bus is there at each attempt (without it n_busses stays 1 and the next attempt fails an assertion, C97_unnoticed). Values above 0 from the start (a device accessor returning a positive error) count as success in the code and are not part of the last clause.")
c("C111", "proved", ["C111_to_host", "C111_from_host", "C111_every_message_to_host", "C111_every_message_from_host", "C111_captured"], "OnLink: the joint trace has the accesses of the process up to its farewell (C107). The host's memory allocations succeed; messages of at most half its limit in C111_to_host and C111_from_host. The every_message theorems drop the conditions on the messages, for a receiver's limit of 4096 times a power of two (the default is) and packets of at most 4096 bytes: exactly the messages to the receiver, with content and up to the limit, arrive. The device lets the registration succeed (as in C107).")
c("C112", "proved", ["C112_all_arrive"], "Memory allocations of both sides succeed; messages of at most half the limit; the process is running. WholeWake: a poll() of the daemon's loop reports the device between two moments of the execution; rounds bounded by 4*packets + 15 (C93).")
c("C113", "proved", ["C113_messages", "C113_captures"], "The line does not lose or change bytes, the device takes what is written (see C47), allocations succeed. given: the bytes of the reads before the process is signalled. Command lines in the forms of C99_honoured_partial. The sender's EID is not 0.")
c("C114", "partial", ["C114_settled_partial", "LinkCloseDemo.C114_refuted", "LinkCloseDemo.bmc_end"], "False: mctp_astlpc_kcs_set_status overwrites the output register with the dummy value even if the host has not read the command there (C114_refuted, for every number of later polls). Proved: closing works after every history, at most the last accepted packet is missing when both sides are between calls, none if mctp_astlpc_tx_done holds, and the host keeps what it has.")
c("C115", "partial", ["C115_unasked_partial", "C115_refused_partial", "C115_refuted"], "False of the code: when the layout of the buffers is refused, the protocol stays the negotiated one, so that the next transmit-begin is served: the packet in the receive buffer (of the initial layout) is delivered (C115_refuted). Proved for a BMC not asked since its registration, and for a refusal since there is no common version.")
c("C116", "partial", ["C116_unagreed_partial", "C116_refuted"], "False of the code: the host finalises the channel whenever it has no version yet, and hands its receive buffer over if the header has a negotiated version, without looking at Channel-Active (C116_refuted). Proved: nothing is received before a negotiated version of 1..3 has been read from the header.")
c("C117", "partial", ["C117_bmc", "C117_host_partial", "C117_refuted"], "Proved in full for the BMC. False for a host that reads the command 0 from the data register: it runs the BMC's channel initialisation, and writes the negotiated version and the status register (C117_refuted). Proved for every host that has not read the command 0.")
c("C118", "partial", ["C118_bmc", "C118_host_partial", "C118_refuted"], "Proved in full for the BMC. False for a host that reads the command 0 from the data register: it answers with the BMC's dummy value 255 (C118_refuted). Proved for every host that has not read the command 0.")
#END
json.dump({"claims": claims}, open(os.path.join(os.path.dirname(__file__), "..", "MANIFEST.json"), "w"), indent=1)
