{
 "claims": [
  {
   "property": "C01",
   "status": "proved",
   "theorems": [
    "Mctp.C01_reassembly_sound"
   ],
   "note": "Every delivery of a multi-packet message from a non-null source is the content of an uninterrupted run of its stream (null source: C04)."
  },
  {
   "property": "C02",
   "status": "proved",
   "theorems": [
    "Mctp.C02_reassembly_complete"
   ],
   "note": ""
  },
  {
   "property": "C03",
   "status": "proved",
   "theorems": [
    "Mctp.C03_noninterference",
    "Mctp.C03_streams_isolated",
    "Mctp.C03_exact_refinement"
   ],
   "note": "Noninterference between two arbitrary histories, and refinement of the endpoint to the ideal reassembler."
  },
  {
   "property": "C04",
   "status": "partial",
   "theorems": [
    "Mctp.C04_null_source_leak",
    "Mctp.C04_null_source_harmless_partial"
   ],
   "note": "The property is false of the code: witness of a leak. Proved: null-source packets never disturb other sources' messages."
  },
  {
   "property": "C05",
   "status": "partial",
   "theorems": [
    "Mctp.C05_tag_owner_not_separated",
    "Mctp.C05_in_turn_partial"
   ],
   "note": "The property is false of the code (tag owner is not part of the context key): witness. Proved (_partial): a message whose packets are not interleaved with packets of the other owner is delivered once, with its own tag-owner bit, whatever came before. Missing: interleaved messages that differ in the tag-owner bit only (refuted)."
  },
  {
   "property": "C06",
   "status": "proved",
   "theorems": [
    "Mctp.C06_sequence_error_drops"
   ],
   "note": ""
  },
  {
   "property": "C07",
   "status": "proved",
   "theorems": [
    "Mctp.C07_loss_detected",
    "Mctp.C07_loss_of_four_undetectable"
   ],
   "note": ""
  },
  {
   "property": "C08",
   "status": "proved",
   "theorems": [
    "Mctp.C08_length_error_drops"
   ],
   "note": ""
  },
  {
   "property": "C09",
   "status": "proved",
   "theorems": [
    "Mctp.C09_start_restarts"
   ],
   "note": ""
  },
  {
   "property": "C10",
   "status": "proved",
   "theorems": [
    "Mctp.C10_sixteen"
   ],
   "note": "Stated on runs of the code, through the ideal reassembler it refines."
  },
  {
   "property": "C11",
   "status": "proved",
   "theorems": [
    "Mctp.C11_size_limit",
    "Mctp.C11_size_limit_configured"
   ],
   "note": ""
  },
  {
   "property": "C12",
   "status": "partial",
   "theorems": [
    "Mctp.C12_limit_accepts_partial",
    "Mctp.C12_small_limit_refuses_all",
    "Mctp.C12_limit_not_usable"
   ],
   "note": "The property is false of the code: witnesses. Proved: messages up to half of a limit of at least 4096 are accepted."
  },
  {
   "property": "C13",
   "status": "proved",
   "theorems": [
    "Mctp.C13_address_filter"
   ],
   "note": ""
  },
  {
   "property": "C14",
   "status": "proved",
   "theorems": [
    "Mctp.C14_single_packet_delivered"
   ],
   "note": ""
  },
  {
   "property": "C15",
   "status": "proved",
   "theorems": [
    "Mctp.C15_runt_ignored"
   ],
   "note": ""
  },
  {
   "property": "C16",
   "status": "proved",
   "theorems": [
    "Mctp.C16_control_dispatch"
   ],
   "note": ""
  },
  {
   "property": "C17",
   "status": "partial",
   "theorems": [
    "Mctp.C17_control_args_swapped",
    "Mctp.C17_control_args_partial"
   ],
   "note": "The property is false of the code (arguments swapped in core.c:462): witness."
  },
  {
   "property": "C18",
   "status": "proved",
   "theorems": [
    "Mctp.C18_fragmentation",
    "Mctp.C18_accepts"
   ],
   "note": ""
  },
  {
   "property": "C19",
   "status": "proved",
   "theorems": [
    "Mctp.C19_receive_messages",
    "Mctp.C19_round_trip"
   ],
   "note": ""
  },
  {
   "property": "C20",
   "status": "proved",
   "theorems": [
    "Mctp.C20_invalid_refused"
   ],
   "note": ""
  },
  {
   "property": "C21",
   "status": "partial",
   "theorems": [
    "Mctp.C21_success_accepted_partial",
    "Mctp.C21_no_bus_reports_success"
   ],
   "note": "False without a registered bus: witness. Proved for a registered endpoint."
  },
  {
   "property": "C22",
   "status": "proved",
   "theorems": [
    "Mctp.C22_ideal_transmitter",
    "Mctp.C22_fifo"
   ],
   "note": ""
  },
  {
   "property": "C23",
   "status": "proved",
   "theorems": [
    "Mctp.C23_gating"
   ],
   "note": ""
  },
  {
   "property": "C24",
   "status": "proved",
   "theorems": [
    "Mctp.C24_oversized_skipped"
   ],
   "note": ""
  },
  {
   "property": "C25",
   "status": "proved",
   "theorems": [
    "Mctp.C25_capture_complete",
    "Mctp.C25_every_packet_arrives"
   ],
   "note": ""
  },
  {
   "property": "C26",
   "status": "proved",
   "theorems": [
    "Mctp.C26_ideal_bridge",
    "Mctp.C26_message_forwarded"
   ],
   "note": "Refinement of the bridge to the ideal bridge, and what it means for one message."
  },
  {
   "property": "C27",
   "status": "partial",
   "theorems": [
    "Mctp.C27_busses_mixed",
    "Mctp.C27_one_bus_partial"
   ],
   "note": "The property is false of the code (the bus is not part of the context key): witness."
  },
  {
   "property": "C28",
   "status": "proved",
   "theorems": [
    "Mctp.C28_endpoint_safe",
    "Mctp.C28_bridge_safe"
   ],
   "note": "Under the calls' preconditions (packet fits the binding's buffer, sizes do not overflow)."
  },
  {
   "property": "C29",
   "status": "partial",
   "theorems": [
    "Mctp.C29_double_free",
    "Mctp.C29_queued_packet_leaked",
    "Mctp.C29_reregister_partial"
   ],
   "note": "The property is false of the code in every reachable state (double free)."
  },
  {
   "property": "C30",
   "status": "partial",
   "theorems": [
    "Mctp.C30_failed_growth_double_free",
    "Mctp.C30_failed_growth_use_after_free",
    "Mctp.C30_failures_harmless_partial"
   ],
   "note": "False when growing an existing buffer fails; proved for every other failure."
  },
  {
   "property": "C31",
   "status": "partial",
   "theorems": [
    "Mctp.C31_transmit_null_deref",
    "Mctp.C31_register_unusable",
    "Mctp.C31_bridge_reports_partial"
   ],
   "note": "The property is false of the code, for every failure at the given points."
  },
  {
   "property": "C32",
   "status": "proved",
   "theorems": [
    "Mctp.C32_registration_undone"
   ],
   "note": ""
  },
  {
   "property": "C33",
   "status": "partial",
   "theorems": [
    "Mctp.C33_push_pop_partial",
    "Mctp.C33_push_overflow",
    "Mctp.C33_alloc_areas"
   ],
   "note": "False for lengths that overflow size_t; proved for all others."
  },
  {
   "property": "C34",
   "status": "partial",
   "theorems": [
    "Mctp.C34_capacity_partial",
    "Mctp.C34_area_beyond_storage"
   ],
   "note": "False for bindings with header space and requests in the header-sized gap; proved for all others."
  },
  {
   "property": "C35",
   "status": "proved",
   "theorems": [
    "Mctp.C35_fcs_is_rfc1662"
   ],
   "note": ""
  },
  {
   "property": "C36",
   "status": "proved",
   "theorems": [
    "Mctp.C36_burst",
    "Mctp.C36_odd",
    "Mctp.C36_two",
    "Mctp.C36_two_bytes"
   ],
   "note": ""
  },
  {
   "property": "C37",
   "status": "proved",
   "theorems": [
    "Mctp.C37_crc32",
    "Mctp.C37_burst",
    "Mctp.C37_four_bytes",
    "Mctp.C37_two",
    "Mctp.C37_one"
   ],
   "note": ""
  },
  {
   "property": "C38",
   "status": "proved",
   "theorems": [
    "Mctp.C38_round_trip"
   ],
   "note": ""
  },
  {
   "property": "C39",
   "status": "proved",
   "theorems": [
    "Mctp.C39_chunking",
    "Mctp.C39_read",
    "Mctp.C39_interleaving"
   ],
   "note": ""
  },
  {
   "property": "C40",
   "status": "proved",
   "theorems": [
    "Mctp.C40_only_valid_frames"
   ],
   "note": ""
  },
  {
   "property": "C41",
   "status": "proved",
   "theorems": [
    "Mctp.C41_total",
    "Mctp.C40_only_valid_frames"
   ],
   "note": "Allocations succeed (an allocation failure fails an assertion, see DESIGN.md)."
  },
  {
   "property": "C42",
   "status": "proved",
   "theorems": [
    "Mctp.C42_resynchronises"
   ],
   "note": "141 bytes other than the flag; the bound is shown to be tight."
  },
  {
   "property": "C43",
   "status": "proved",
   "theorems": [
    "Mctp.C43_corruption_detected"
   ],
   "note": ""
  },
  {
   "property": "C44",
   "status": "partial",
   "theorems": [
    "Mctp.C44_refuted",
    "Mctp.C44_valid_streams_partial",
    "Mctp.C44_leak_count"
   ],
   "note": "The property is false of the code (an invalid frame leaks its buffer): witness. Proved for streams of valid frames, and the exact number of lost buffers for all streams."
  },
  {
   "property": "C45",
   "status": "proved",
   "theorems": [
    "Mctp.C45_writes_frame",
    "Mctp.C45_zero_write_loops"
   ],
   "note": "For a write function that makes progress or fails; one that returns 0 for ever makes the call loop for ever."
  },
  {
   "property": "C46",
   "status": "proved",
   "theorems": [
    "Mctp.C46_in_bounds",
    "Mctp.C46_long_packet_truncated"
   ],
   "note": ""
  },
  {
   "property": "C47",
   "status": "proved",
   "theorems": [
    "Mctp.C47_end_to_end",
    "Mctp.C47_every_message"
   ],
   "note": "C47_every_message: the receiver's limit is 4096 times a power of two (the default is); then exactly the messages up to the limit arrive, and the others do no harm. C47_end_to_end: any limit, messages of at most half of it."
  },
  {
   "property": "C48",
   "status": "proved",
   "theorems": [
    "Mctp.C48_negotiate",
    "Mctp.C48_supported",
    "Mctp.C48_bmc"
   ],
   "note": ""
  },
  {
   "property": "C49",
   "status": "proved",
   "theorems": [
    "Mctp.C49_accepted",
    "Mctp.C49_used"
   ],
   "note": ""
  },
  {
   "property": "C50",
   "status": "partial",
   "theorems": [
    "Mctp.C50_published",
    "Mctp.C50_start_partial",
    "Mctp.C50_aborts"
   ],
   "note": "False for MTUs in the last bytes of the 32-bit range (the process aborts): witness. Proved for all others."
  },
  {
   "property": "C51",
   "status": "proved",
   "theorems": [
    "Mctp.C51_agree",
    "Mctp.C51_before",
    "Mctp.LinkDemo.linked"
   ],
   "note": "BMC and host together, every interleaving of their accesses on a common KCS device and window (Spec/Link.lean); accessors do not fail, the host's allocations succeed. The handshake is not assumed: whenever the host has a version, both agree. The MTU is the host's request, which must not exceed the BMC's limit (C52)."
  },
  {
   "property": "C52",
   "status": "partial",
   "theorems": [
    "Mctp.C52_refused",
    "Mctp.LinkDemo.C52_refuted",
    "Mctp.C51_agree"
   ],
   "note": "False: a host that requests more than the BMC's limit is never registered (-EINVAL from its start), proved for all MTUs, with a concrete witness. Proved (C51_agree): every host that does register obtains exactly its MTU."
  },
  {
   "property": "C53",
   "status": "proved",
   "theorems": [
    "Mctp.C53_bounds"
   ],
   "note": ""
  },
  {
   "property": "C54",
   "status": "proved",
   "theorems": [
    "Mctp.C54_one_holder",
    "Mctp.C54_no_race",
    "Mctp.LinkDemo.linked"
   ],
   "note": "Every interleaving of the accesses of both sides, at every intermediate access. Block accesses to the window are atomic; the link starts from reset and accessors do not fail; the host's allocations succeed."
  },
  {
   "property": "C55",
   "status": "proved",
   "theorems": [
    "Mctp.C55_exactly_once",
    "Mctp.LinkDemo.linked"
   ],
   "note": "As C54. 'Accepted' are the packets for which the binding's tx returned 0."
  },
  {
   "property": "C56",
   "status": "proved",
   "theorems": [
    "Mctp.C56_corrupt",
    "Mctp.C56_delivered_intact"
   ],
   "note": ""
  },
  {
   "property": "C57",
   "status": "partial",
   "theorems": [
    "Mctp.C57_once_partial",
    "Mctp.C57_duplicated",
    "Mctp.C57_changed"
   ],
   "note": "False: a packet whose KCS command failed is written and announced twice, and on version 3 the second copy contains the checksum of the first. Proved: without KCS failures each accepted packet is written exactly once, in order, unchanged."
  },
  {
   "property": "C58",
   "status": "partial",
   "theorems": [
    "Mctp.C58_handed_back_partial",
    "Mctp.C58_lost"
   ],
   "note": "False when the announced length is invalid (the buffer is never handed back): proved for every such case. Proved for all other packets."
  },
  {
   "property": "C59",
   "status": "proved",
   "theorems": [
    "Mctp.C59_disciplined",
    "Mctp.C59_write",
    "Mctp.C59_read",
    "Mctp.C59_retry"
   ],
   "note": ""
  },
  {
   "property": "C60",
   "status": "proved",
   "theorems": [
    "Mctp.C60_unfit_harmless"
   ],
   "note": ""
  },
  {
   "property": "C61",
   "status": "partial",
   "theorems": [
    "Mctp.C61_stopped_partial",
    "Mctp.C61_unnoticed",
    "Mctp.C61_unfit_unnoticed",
    "Mctp.C61_reopened"
   ],
   "note": "False: the loss is not noticed without a command in the data register or with one that does not fit; and the command 0 re-opens a host's channel. Proved for polls that read a dummy or fitting command, until Channel-Active is shown or the command 0 is read."
  },
  {
   "property": "C62",
   "status": "partial",
   "theorems": [
    "Mctp.C62_handshake_partial",
    "Mctp.C62_unnoticed"
   ],
   "note": "False: a restart between two polls is not noticed. Proved when the host has seen BMC-ready clear."
  },
  {
   "property": "C63",
   "status": "proved",
   "theorems": [
    "Mctp.C63_one_in_flight"
   ],
   "note": ""
  },
  {
   "property": "C64",
   "status": "proved",
   "theorems": [
    "Mctp.C64_refused"
   ],
   "note": ""
  },
  {
   "property": "C73",
   "status": "partial",
   "theorems": [
    "Mctp.C73_bmc",
    "Mctp.C73_host_partial",
    "Mctp.C73_host_crashes_status",
    "Mctp.C73_host_crashes_command",
    "Mctp.C73_host_crashes_positive"
   ],
   "note": "Proved for the BMC against every host. False for the host: a BMC that shows an active channel without being ready, or sends the command 0x00, crashes it (witnesses). Proved for the host against a BMC that does neither, with KCS reads that report failures by negative numbers, and an MTU below 2^32-12."
  },
  {
   "property": "C69",
   "status": "partial",
   "theorems": [
    "Mctp.C69_record_partial",
    "Mctp.C69_refuted"
   ],
   "note": "False of the code: the last byte of every record of the message capture is uninitialised. Proved: every other byte of the record."
  },
  {
   "property": "C70",
   "status": "proved",
   "theorems": [
    "Mctp.C70_packet_record",
    "Mctp.C70_capture_file",
    "Mctp.C70_run"
   ],
   "note": ""
  },
  {
   "property": "C71",
   "status": "proved",
   "theorems": [
    "Mctp.C71_same_as_malloc",
    "Mctp.C71_hook_calls"
   ],
   "note": ""
  },
  {
   "property": "C72",
   "status": "proved",
   "theorems": [
    "Mctp.C72_log_filter",
    "Mctp.C72_log_faults"
   ],
   "note": ""
  },
  {
   "property": "C65",
   "status": "partial",
   "theorems": [
    "Mctp.C65_only_partial",
    "Mctp.C65_forward_partial",
    "Mctp.C65_short",
    "Mctp.C65_refuted"
   ],
   "note": "False of the code: messages of type 0 are also forwarded to clients that have not registered (witness). Proved: otherwise exactly the clients registered for the type, and messages shorter than a type byte go to nobody."
  },
  {
   "property": "C66",
   "status": "partial",
   "theorems": [
    "Mctp.C66_removal_partial",
    "Mctp.C66_refuted",
    "Mctp.C66_refuted_history"
   ],
   "note": "False of the code: the pass skips the client after each removed one (witness, also as a history of the daemon). Proved: active clients are kept in order, and all inactive ones are removed when no two inactive clients are adjacent."
  },
  {
   "property": "C67",
   "status": "proved",
   "theorems": [
    "Mctp.C67_route"
   ],
   "note": ""
  },
  {
   "property": "C68",
   "status": "partial",
   "theorems": [
    "Mctp.C68_polls_partial",
    "Mctp.C68_refuted"
   ],
   "note": "False of the code: a removal inside a delivery does not mark the clients as changed, and the next poll uses the old array (witness). Proved: exact as long as no delivery to a client has failed (and the uninitialised variable is read as false)."
  },
  {
   "property": "C74",
   "status": "proved",
   "theorems": [
    "Mctp.C74_serial",
    "Mctp.C74_astlpc"
   ],
   "note": "For the serial binding (allocations succeed) and the astlpc binding of a BMC."
  },
  {
   "property": "C75",
   "status": "proved",
   "theorems": [
    "Mctp.C75_reason",
    "Mctp.C75_books"
   ],
   "note": "Assumes the operating system never returns an open descriptor from accept()."
  },
  {
   "property": "C76",
   "status": "partial",
   "theorems": [
    "Mctp.C76_reads_partial",
    "Mctp.C76_refuted"
   ],
   "note": "False of the code, by the stale poll array of C68 (witness: an idle client is disconnected). Proved as long as no delivery to a client has failed (and the uninitialised variable is read as false)."
  },
  {
   "property": "C77",
   "status": "partial",
   "theorems": [
    "Mctp.C77_disconnect_partial",
    "Mctp.C77_refuted"
   ],
   "note": "False of the code for a client that leaves before registering: it is reported for ever and never closed. Proved for a registered client."
  },
  {
   "property": "C78",
   "status": "partial",
   "theorems": [
    "Mctp.C78_stop_partial",
    "Mctp.C78_refuted"
   ],
   "note": "False of the code: one failing accept() ends the daemon (witness). Proved: only that, or a failing binding, ends it."
  },
  {
   "property": "C79",
   "status": "proved",
   "theorems": [
    "Mctp.C79_linked_list"
   ],
   "note": "Refinement of the pointer-level queue (Model/TxQueue.lean) to the list of Model/Core.lean; calls meet their preconditions and allocations succeed as in C28."
  },
  {
   "property": "C80",
   "status": "partial",
   "theorems": [
    "Mctp.C80_bmc_partial",
    "Mctp.C80_host_partial",
    "Mctp.C80_message_partial",
    "Mctp.C80_refuted"
   ],
   "note": "False with protocol version 1: a BMC whose MTU is larger than the agreed buffers goes on forming larger packets, and messages that were accepted are dropped (witness). Proved for versions 2 and 3 (sizes and bounds for all versions); the host's side assumes a BMC that never shows an active channel without being ready and never sends the command 0."
  },
  {
   "property": "C81",
   "status": "proved",
   "theorems": [
    "Mctp.C81_nothing_dropped",
    "Mctp.C81_bmc_to_host",
    "Mctp.C81_host_to_bmc",
    "Mctp.C81_every_message_to_host",
    "Mctp.C81_every_message_to_bmc",
    "Mctp.LinkDemo.linked2",
    "Mctp.ForeignDemo.linked3"
   ],
   "note": "Setting of C54/C55 (accessors do not fail on the link, both sides start from reset, block accesses to the window are atomic, the host's allocations succeed); C81_host_to_bmc also assumes the BMC's allocations succeed. Messages are addressed to the other side, at most half its message size limit, and that side keeps its limit and callback; a message without content is sent in no packets and so not delivered. LinkDemo.linked2 is a two-sided execution with crossing messages meeting the hypotheses; ForeignDemo.linked3 one in which a message goes to an endpoint that is not there. The every_message theorems drop the conditions on the messages, for a receiver's limit of 4096 times a power of two (the default is) and packets of at most 4096 bytes: exactly the messages to the receiver, with content and up to the limit, arrive."
  },
  {
   "property": "C82",
   "status": "proved",
   "theorems": [
    "Mctp.C82_calls_in_callbacks"
   ],
   "note": "Allocations succeed and calls meet their preconditions, as in C28. Calls other than mctp_message_tx and mctp_set_* from a callback (receiving, registering, destroying) are not covered."
  },
  {
   "property": "C83",
   "status": "proved",
   "theorems": [
    "Mctp.C83_responder"
   ],
   "note": "The binding leaves the packets alone (KeepsPacket, as in C22) and was enabled when the bus was registered; the packet size is not changed during the history."
  },
  {
   "property": "C84",
   "status": "partial",
   "theorems": [
    "Mctp.C84_single_packet_partial",
    "Mctp.C84_other_streams_partial",
    "Mctp.C84_whole_history_partial",
    "Mctp.C84_use_after_free",
    "Mctp.C84_message_lost"
   ],
   "note": "False of the code for messages reassembled from several packets if packets of the same stream are received in the callback: the storage may be reallocated under the callback, and a message begun inside the callback is thrown away (witnesses). Proved for messages of one packet, and for messages of several packets while packets of other streams are received; for one callback in any state, and for whole histories in which every callback does so; the callbacks of the messages received inside a callback are taken to make no calls."
  },
  {
   "property": "C85",
   "status": "partial",
   "theorems": [
    "Mctp.C85_disabled_partial",
    "Mctp.C85_refuted"
   ],
   "note": "False of the code while transmission is enabled: the packet being offered is offered again and freed, then used (witness). Proved for a binding that disables transmission before it lets the message be sent."
  },
  {
   "property": "C86",
   "status": "partial",
   "theorems": [
    "Mctp.C86_created",
    "Mctp.C86_holds",
    "Mctp.C86_failed_partial",
    "Mctp.C86_returns",
    "Mctp.C86_mapping_leaks",
    "Mctp.C86_destroy_leaks",
    "Mctp.C86_wrong_allocator"
   ],
   "note": "False of the code: the mapping leaks when the KCS device cannot be opened, destroy closes and unmaps nothing, and a failed call uses free() on a block of a configured allocator. Proved: the result in all cases and what is held, and that the other failures leave nothing behind."
  },
  {
   "property": "C87",
   "status": "proved",
   "theorems": [
    "Mctp.C87_window"
   ],
   "note": "For reserved memory not larger than the 28-bit firmware address space."
  },
  {
   "property": "C88",
   "status": "partial",
   "theorems": [
    "Mctp.C88_inside_partial",
    "Mctp.C88_outside"
   ],
   "note": "False of the code for reserved memory of less than 1 MiB: the first access is before the mapping. Proved for 1 MiB and more."
  },
  {
   "property": "C89",
   "status": "partial",
   "theorems": [
    "Mctp.C89_nothing_missed",
    "Mctp.C89_input_read",
    "Mctp.C89_output_written",
    "Mctp.C89_packet_waits"
   ],
   "note": "False of the code while a command is deferred: only POLLOUT is asked for, so a packet of the host does not wake the program (witness). Proved: everything else. The readiness of the device file (POLLIN: input present, POLLOUT: output register empty) is an assumption about the driver."
  },
  {
   "property": "C90",
   "status": "partial",
   "theorems": [
    "Mctp.C90_init",
    "Mctp.C90_opened_partial",
    "Mctp.C90_unreported",
    "Mctp.C90_nothing_written",
    "Mctp.C90_read",
    "Mctp.C90_given",
    "Mctp.C90_destroy_leaks"
   ],
   "note": "False of the code: a failed open is not reported, a failed allocation crashes, destroy does not close the device. Proved: the rest."
  },
  {
   "property": "C91",
   "status": "partial",
   "theorems": [
    "Mctp.C91_core_unchanged",
    "Mctp.C91_polls_partial",
    "Mctp.C91_crash",
    "Mctp.C91_host_crash",
    "Mctp.C91_otherwise"
   ],
   "note": "False of the code: when the host asks for a channel, polling an astlpc binding whose registration failed dereferences NULL (every such case), and mctp-demux-daemon does poll it. Proved: the core is unchanged, and the polls are harmless for any number of polls as long as the host does not ask for a channel. For a host that polls although there was no BMC: the first byte from the BMC crashes the poll (C91_host_crash). C91_otherwise: where the poll of the unregistered binding returns, it does what the poll of a registered one does."
  },
  {
   "property": "C92",
   "status": "proved",
   "theorems": [
    "Mctp.C92_status_unread",
    "Mctp.C92_data_unread",
    "Mctp.C92_command_written"
   ],
   "note": "The parts on reading assume no deferred command (with one, C92_command_written and C59_retry describe the accesses before)."
  },
  {
   "property": "C93",
   "status": "proved",
   "theorems": [
    "Mctp.C93_all_delivered",
    "Mctp.C93_all_messages",
    "Mctp.C93_every_message"
   ],
   "note": "With the hardware model of C54/C55 (Spec/Link.lean); all allocations of both sides succeed; for the messages, the conditions of C81. The every_message theorem drops the conditions on the messages, for a receiver's limit of 4096 times a power of two (the default is) and packets of at most 4096 bytes: exactly the messages to the receiver, with content and up to the limit, arrive."
  },
  {
   "property": "C94",
   "status": "partial",
   "theorems": [
    "Mctp.C94_refuted",
    "Mctp.C94_channel_up_partial"
   ],
   "note": "False for the host: C94_refuted gives, for every number of rounds, an execution in which the host still refuses every message (it read the status before, and the data register after the BMC set up the channel). What holds: C94_channel_up_partial, the BMC accepts messages, and the host does once the BMC has sent it a packet. Hardware model of C54/C55."
  },
  {
   "property": "C95",
   "status": "partial",
   "theorems": [
    "Mctp.C95_copies_partial",
    "Mctp.C95_finishes_partial",
    "Mctp.C95_refuted"
   ],
   "note": "False of the program: it is the only reader of the socket it writes to, and with an input that is always ready it writes more per iteration than it reads, so that for every capacity of the socket it ends up waiting for itself (C95_refuted). Proved: it never faults, never writes anything but the first part of the input, has copied everything when it ends (C95_copies_partial), and gets there if the socket holds 16 bytes per byte of input (C95_finishes_partial)."
  },
  {
   "property": "C96",
   "status": "proved",
   "theorems": [
    "Mctp.C96_prints"
   ],
   "note": "Allocations succeed; the bytes handed to write() are the output (short writes on stdout are only reported by the program)."
  },
  {
   "property": "C97",
   "status": "partial",
   "theorems": [
    "Mctp.C97_loop",
    "Mctp.C97_status_partial",
    "Mctp.C97_unnoticed",
    "Mctp.C97_deaf",
    "Mctp.C97_refuted"
   ],
   "note": "False of the code: the result of mctp_register_bus is ignored; without memory for the bus the daemon starts and the first client message dereferences NULL (C97_unnoticed, C97_refuted), and with a device that refuses to start it runs without a bus and drops every message silently (C97_deaf). Proved for the steps whose results are looked at: the loop is entered exactly if they succeed, and the exit status."
  },
  {
   "property": "C98",
   "status": "proved",
   "theorems": [
    "Mctp.C98_cleanup",
    "Mctp.C98_safe_serial",
    "Mctp.C98_safe_astlpc"
   ],
   "note": "Allocations of the library succeed; a failed astlpc registration is C91. The pcap handle of a capture whose dump file cannot be opened is not closed before the exit (not part of the claim)."
  },
  {
   "property": "C99",
   "status": "partial",
   "theorems": [
    "Mctp.C99_honoured_partial",
    "Mctp.C99_no_binding",
    "Mctp.C99_short_eid",
    "Mctp.C99_short_socket",
    "Mctp.C99_eid_range",
    "Mctp.C99_large_eid",
    "Mctp.C99_number",
    "Mctp.C99_not_a_number"
   ],
   "note": "False of the code: -e crashes whatever follows (the option string gives it no argument), -s FILE loses the file and takes it for the binding, and an EID that is not a number is taken for 0, and one above 255 is accepted and then differs between bus and daemon. Proved: every command line with long options, -b, -v and EIDs up to 255. getopt_long and atoi are modelled after the C library (no abbreviated long names)."
  },
  {
   "property": "C100",
   "status": "proved",
   "theorems": [
    "Mctp.C100_farewell"
   ],
   "note": "A failed registration is C91 and C97."
  },
  {
   "property": "C101",
   "status": "proved",
   "theorems": [
    "Mctp.C101_relay",
    "Mctp.C101_client",
    "Mctp.C101_arrivals"
   ],
   "note": "The operating system does not hand out a descriptor that is still open (FreshAccept). That a client which has not registered counts as registered for type 0 is the defect of C65."
  },
  {
   "property": "C102",
   "status": "proved",
   "theorems": [
    "Mctp.C102_two_daemons",
    "Mctp.C102_every_message"
   ],
   "note": "C102_every_message has no condition on the messages (limit 65536, as the daemon's). The line does not lose or change bytes (what happens then is C43-C46) and A's write function does not fail (see C47)."
  },
  {
   "property": "C103",
   "status": "partial",
   "theorems": [
    "Mctp.C103_from_clients_partial",
    "Mctp.C103_refuted"
   ],
   "note": "False of the code: only the messages from clients are recorded, rx_message does not call capture_socket (witness). Proved: one record per message from a client (with one more, uninitialised byte, C69)."
  },
  {
   "property": "C104",
   "status": "proved",
   "theorems": [
    "Mctp.C104_to_host",
    "Mctp.C104_from_host",
    "Mctp.C104_every_message_to_host",
    "Mctp.C104_every_message_from_host"
   ],
   "note": "Setting of C54/C55 and C81 (accessors do not fail on the link, both sides start from reset, block accesses atomic, allocations succeed as stated). Messages to other EIDs, or of more than half the receiver's message size limit, are excluded by hypothesis in C104_to_host and C104_from_host. The every_message theorems drop the conditions on the messages, for a receiver's limit of 4096 times a power of two (the default is) and packets of at most 4096 bytes: exactly the messages to the receiver, with content and up to the limit, arrive. Messages of clients before the channel is set up are refused by the core (ENXIO)."
  },
  {
   "property": "C105",
   "status": "proved",
   "theorems": [
    "Mctp.C105_file_and_line",
    "Mctp.C105_both_ends"
   ],
   "note": "Serial binding; the write function does not fail (see C47), the library's allocations succeed, the clock works. Incoming packets of 4 bytes (no content) are dropped by the core before they are captured."
  },
  {
   "property": "C106",
   "status": "proved",
   "theorems": [
    "Mctp.C106_local"
   ],
   "note": "Allocations succeed. Command lines in the forms of C99_honoured_partial."
  },
  {
   "property": "C107",
   "status": "proved",
   "theorems": [
    "Mctp.C107_refused",
    "Mctp.C107_serial",
    "Mctp.C107_astlpc"
   ],
   "note": "Allocations succeed; the serial device takes what is written (see C47); the astlpc registration succeeds (see C91). Command lines in the forms of C99_honoured_partial."
  },
  {
   "property": "C108",
   "status": "partial",
   "theorems": [
    "Mctp.C108_settled_partial",
    "Mctp.C108_refuted",
    "Mctp.C108_refuted_two"
   ],
   "note": "False of the code: a client that hangs up before it has registered is marked but not removed, and the daemon spins until another client connects or fails (shown for any number of rounds); of two neighbours that fail in one round one stays (C66). Proved for every history in which at most one client at a time has failed and none hangs up before registering."
  },
  {
   "property": "C109",
   "status": "proved",
   "theorems": [
    "Mctp.C109_captures_agree",
    "Mctp.C109_outgoing",
    "Mctp.C109_daemon",
    "Mctp.C109_daemon_off",
    "Mctp.CaptureDemo.linked3"
   ],
   "note": "Setting of C54/C55 (accessors do not fail on the link, both sides start from reset, block accesses atomic, the host's allocations succeed). The capture handler is set right after mctp_register_bus (the daemon sets it just before, with the same effect: nothing is sent in between) and not taken away; the file needs a working clock and memory."
  },
  {
   "property": "C110",
   "status": "proved",
   "theorems": [
    "Mctp.C110_retry",
    "Mctp.C110_no_bmc"
   ],
   "note": "The memory for the bus is there at each attempt (without it n_busses stays 1 and the next attempt fails an assertion, C97_unnoticed). Values above 0 from the start (a device accessor returning a positive error) count as success in the code and are not part of the last clause."
  },
  {
   "property": "C111",
   "status": "proved",
   "theorems": [
    "Mctp.C111_to_host",
    "Mctp.C111_from_host",
    "Mctp.C111_every_message_to_host",
    "Mctp.C111_every_message_from_host",
    "Mctp.C111_captured"
   ],
   "note": "OnLink: the joint trace has the accesses of the process up to its farewell (C107). The host's memory allocations succeed; messages of at most half its limit in C111_to_host and C111_from_host. The every_message theorems drop the conditions on the messages, for a receiver's limit of 4096 times a power of two (the default is) and packets of at most 4096 bytes: exactly the messages to the receiver, with content and up to the limit, arrive. The device lets the registration succeed (as in C107)."
  },
  {
   "property": "C112",
   "status": "proved",
   "theorems": [
    "Mctp.C112_all_arrive"
   ],
   "note": "Memory allocations of both sides succeed; messages of at most half the limit; the process is running. WholeWake: a poll() of the daemon's loop reports the device between two moments of the execution; rounds bounded by 4*packets + 15 (C93)."
  },
  {
   "property": "C113",
   "status": "proved",
   "theorems": [
    "Mctp.C113_messages",
    "Mctp.C113_captures"
   ],
   "note": "The line does not lose or change bytes, the device takes what is written (see C47), allocations succeed. given: the bytes of the reads before the process is signalled. Command lines in the forms of C99_honoured_partial. The sender's EID is not 0."
  },
  {
   "property": "C114",
   "status": "partial",
   "theorems": [
    "Mctp.C114_settled_partial",
    "Mctp.LinkCloseDemo.C114_refuted",
    "Mctp.LinkCloseDemo.bmc_end"
   ],
   "note": "False: mctp_astlpc_kcs_set_status overwrites the output register with the dummy value even if the host has not read the command there (C114_refuted, for every number of later polls). Proved: closing works after every history, at most the last accepted packet is missing when both sides are between calls, none if mctp_astlpc_tx_done holds, and the host keeps what it has."
  },
  {
   "property": "C115",
   "status": "partial",
   "theorems": [
    "Mctp.C115_unasked_partial",
    "Mctp.C115_refused_partial",
    "Mctp.C115_refuted"
   ],
   "note": "False of the code: when the layout of the buffers is refused, the protocol stays the negotiated one, so that the next transmit-begin is served: the packet in the receive buffer (of the initial layout) is delivered (C115_refuted). Proved for a BMC not asked since its registration, and for a refusal since there is no common version."
  },
  {
   "property": "C116",
   "status": "partial",
   "theorems": [
    "Mctp.C116_unagreed_partial",
    "Mctp.C116_refuted"
   ],
   "note": "False of the code: the host finalises the channel whenever it has no version yet, and hands its receive buffer over if the header has a negotiated version, without looking at Channel-Active (C116_refuted). Proved: nothing is received before a negotiated version of 1..3 has been read from the header."
  },
  {
   "property": "C117",
   "status": "partial",
   "theorems": [
    "Mctp.C117_bmc",
    "Mctp.C117_host_partial",
    "Mctp.C117_refuted"
   ],
   "note": "Proved in full for the BMC. False for a host that reads the command 0 from the data register: it runs the BMC's channel initialisation, and writes the negotiated version and the status register (C117_refuted). Proved for every host that has not read the command 0."
  },
  {
   "property": "C118",
   "status": "partial",
   "theorems": [
    "Mctp.C118_bmc",
    "Mctp.C118_host_partial",
    "Mctp.C118_refuted"
   ],
   "note": "Proved in full for the BMC. False for a host that reads the command 0 from the data register: it answers with the BMC's dummy value 255 (C118_refuted). Proved for every host that has not read the command 0."
  }
 ]
}