#!/usr/bin/env python3
"""Regenerates /verif/properties.jsonl (one JSON object per line)."""
import json
P=[]
def p(title, statement, quantifier, why, anchors):
    P.append(dict(id="C%02d"%(len(P)+1), title=title, statement=statement,
                  quantifier=quantifier, why_tests_cant=why, anchors=anchors))

# ---- core receive -------------------------------------------------------
p("Reassembly soundness",
  "Whenever the receive callback is invoked because of an end-of-message packet of a multi-packet message from a non-null source (the null source: see 'Null-source packets cannot leak or corrupt other messages'), the bytes handed over are exactly the concatenated payloads of an uninterrupted run (in that source/destination/tag stream) of one start packet, any number of middle packets and this end packet, with sequence numbers increasing by one modulo 4, all middle packets exactly as long as the start packet and the end packet no longer; nothing else is ever delivered as a multi-packet message.",
  "every history of received packets (any content, any interleaving of streams) and every initial configuration of an endpoint",
  "the number of packet interleavings and header values is unbounded; tests only replay a handful of sequences",
  ["core.c:mctp_bus_rx","core.c:mctp_msg_ctx_lookup","core.c:mctp_msg_ctx_add_pkt"])
p("Reassembly completeness under interleaving",
  "If the packets of a well-formed multi-packet message (from a non-null source) arrive in order, then no matter what packets of other streams are interleaved between them, the message is delivered exactly once, complete, with its source, tag and tag owner, provided a reassembly context was available when its first packet arrived, the size limit admits it and memory does not run out.",
  "every message, every fragmentation, every interleaving with arbitrary packets of other streams",
  "unbounded interleavings of unbounded messages", ["core.c:mctp_bus_rx","core.c:mctp_msg_ctx_create","core.c:mctp_msg_ctx_drop"])
p("Streams are isolated",
  "Receiving a packet of one (source, destination, tag) stream never changes the reassembly progress of any other stream with a non-null source.",
  "every reachable endpoint state and every received packet",
  "must hold for every pair of streams in every table configuration", ["core.c:mctp_bus_rx","core.c:mctp_msg_ctx_create","core.c:mctp_msg_ctx_drop"])
p("Null-source packets cannot leak or corrupt other messages",
  "A packet whose source EID is 0 never causes bytes received from another source to be delivered, and never disturbs another source's message.",
  "every history containing packets with source EID 0",
  "requires reasoning about stale table entries left by arbitrary earlier traffic", ["core.c:mctp_msg_ctx_lookup","core.c:mctp_msg_ctx_create","core.c:mctp_msg_ctx_drop"])
p("Tag-owner bit separates messages",
  "Two concurrently arriving messages from one source that use the same tag value but differ in the tag-owner bit are different messages and do not disturb each other.",
  "every interleaving of two such messages",
  "depends on interleavings", ["core.c:mctp_bus_rx","core.c:mctp_msg_ctx_lookup"])
p("Sequence errors drop the message",
  "If a middle or end packet's sequence number is not one more (mod 4) than that of the previous packet of its stream, no message is delivered for it and the stream's partial message is discarded, so that later packets of the stream deliver nothing until a new start packet.",
  "every stream state and every packet", "all sequences of sequence numbers after arbitrary traffic", ["core.c:mctp_bus_rx"])
p("Packet loss detection",
  "If n packets (n not a multiple of 4) are lost from the middle of a message, the damaged message is never delivered; loss of a multiple of four middle packets is not detectable.",
  "every message and every lost run of middle packets", "all positions and lengths of losses", ["core.c:mctp_bus_rx"])
p("Fragment length discipline",
  "A middle packet whose length differs from the start packet's, or an end packet longer than the start packet, is not accepted: nothing is delivered and the partial message is discarded.",
  "every stream state and every packet length", "all combinations of lengths", ["core.c:mctp_bus_rx"])
p("A start packet restarts its stream",
  "A start packet of a stream with a partially received message discards the partial data: what is delivered later contains nothing received before that start packet.",
  "every reachable state and every following history", "unbounded histories", ["core.c:mctp_bus_rx","core.c:mctp_msg_ctx_reset"])
p("At most sixteen messages in assembly",
  "At any time at most 16 messages are being reassembled; a start packet of a further stream is dropped without disturbing the 16; finishing or failing any of them makes room for a new one.",
  "every history of packets", "unbounded histories", ["core.c:struct mctp","core.c:mctp_msg_ctx_create"])
p("Message size limit is respected",
  "No multi-packet message longer than the largest message-size limit in force so far is ever delivered, and the memory held for reassembly never exceeds 16 times that limit.",
  "every history of packets and limit changes", "unbounded histories and sizes", ["core.c:mctp_msg_ctx_add_pkt","core.c:mctp_set_max_message_size"])
p("Every message within the limit is accepted",
  "A message whose total length does not exceed the configured maximum message size is not rejected for size reasons.",
  "every limit, message length, fragmentation and previous history of the reassembly context",
  "acceptance depends on allocation history and the doubling policy; unbounded sizes", ["core.c:mctp_msg_ctx_add_pkt","core.c:mctp_set_max_message_size"])
p("Endpoint address filter",
  "An endpoint delivers a message only if its destination EID is the endpoint's own EID, 0 or 255; packets addressed to any other EID change nothing and deliver nothing.",
  "every state and packet", "all header values in all states", ["core.c:mctp_rx_dest_is_local","core.c:mctp_bus_rx"])
p("Single-packet messages are delivered at once",
  "A packet with both start and end flags addressed to the endpoint and carrying at least one payload byte is delivered immediately and exactly once, with exactly its payload, source, tag and tag owner, whatever the state of the reassembly contexts, and does not change them.",
  "every state and packet", "all states", ["core.c:mctp_bus_rx","core.c:mctp_rx"])
p("Runt packets are ignored",
  "A packet with no payload after its 4-byte header (or shorter) is dropped: no callback, no capture, no state change.",
  "every state and packet of at most 4 bytes", "all states", ["core.c:mctp_bus_rx"])
p("Control request dispatch",
  "A locally addressed message is handed to the binding's control handler exactly if it is an MCTP control request (type 0, at least 4 bytes, request bit) with a transport command 0xF0-0xFF and a handler is registered; otherwise it goes to the general receive callback; never to both.",
  "every message content and handler configuration", "all message contents", ["core.c:mctp_rx","core.c:mctp_ctrl_handle_msg","core.c:mctp_ctrl_cmd_is_request"])
p("Control handler receives the message's tag and tag owner",
  "The control handler is invoked with the tag owner and message tag of the message, in the order its function type declares them.",
  "every control message", "all tags and owners", ["core.c:mctp_ctrl_handle_msg","libmctp.h:mctp_rx_fn"])
# ---- core transmit ------------------------------------------------------
p("Fragmentation is well formed",
  "Transmitting a message queues exactly ceil(len/MTU) packets; each carries the binding's version, the given destination, the bus EID as source, tag, tag owner; only the first has the start flag and only the last the end flag; sequence numbers count 0,1,2,3,0,...; all but the last carry exactly MTU bytes, the last between 1 and MTU; the payloads concatenate to the message.",
  "every message length, MTU >= 64, tag, EID", "unbounded lengths", ["core.c:mctp_message_tx_on_bus"])
p("Transmit/receive round trip",
  "The packets produced for any non-empty message by one endpoint, received in order by another endpoint, make it deliver exactly that message once with the sender's EID, tag and tag owner.",
  "every message (within the size limit), MTU, tag, EID and every receiver state with a context available", "unbounded message lengths and receiver states", ["core.c:mctp_message_tx","core.c:mctp_bus_rx"])
p("Invalid requests are refused without effect",
  "Transmitting with a tag above 7 returns -EINVAL, and transmitting on a bus that was never enabled returns -ENXIO; in both cases nothing is queued or transmitted and no state changes.",
  "every state and argument", "all states and tags", ["core.c:mctp_message_tx","core.c:mctp_message_tx_on_bus"])
p("Success means the message was accepted",
  "If mctp_message_tx returns 0, all packets of the message have been handed to the binding or are queued for it.",
  "every state and message", "all states including before registration", ["core.c:mctp_message_tx","core.c:find_bus_for_eid"])
p("Transmit queue is FIFO without loss or duplication",
  "Whatever the pattern of busy answers, errors, enabling and disabling, the packets the binding accepted or rejected as too large, followed by the packets still queued, are exactly the packets of the transmitted messages in order: nothing is lost, duplicated or reordered by the core.",
  "every history of transmissions and enable/disable calls and every behaviour of the binding's tx function", "unbounded schedules of busy/error answers", ["core.c:mctp_send_tx_queue","core.c:mctp_packet_tx","core.c:mctp_message_tx_on_bus"])
p("Transmit gating",
  "The binding's tx function is never invoked while transmission is not enabled, a binding whose packet size is below 68 bytes cannot be enabled for the first time, and re-enabling a disabled bus with queued packets offers the oldest queued packet to the binding.",
  "every history of enable/disable/transmit calls", "unbounded histories", ["core.c:mctp_binding_set_tx_enabled","core.c:mctp_packet_tx"])
p("Oversized packets do not block the queue",
  "If the binding answers -EMSGSIZE for a packet, that packet alone is dropped and the following packets are still offered in order.",
  "every queue and binding behaviour", "unbounded queues", ["core.c:mctp_send_tx_queue"])
p("Capture completeness",
  "With a capture handler set, every received packet that has a payload is captured once as incoming (even if not addressed to us) before any delivery, and every packet offered to a binding is captured as outgoing immediately before the offer; nothing else is captured.",
  "every history", "unbounded histories", ["core.c:mctp_bus_rx","core.c:mctp_packet_tx"])
# ---- bridge -------------------------------------------------------------
p("Bridging preserves messages",
  "In bridge mode a complete message received on one bus is queued on the other bus, re-fragmented for that bus's MTU, with the same source, destination, tag, tag owner and content; nothing is queued on the receiving bus and no local callback is invoked.",
  "every message, both MTUs, every state", "unbounded sizes and states", ["core.c:mctp_rx","core.c:mctp_bridge_busses"])
p("Bridged busses do not mix streams",
  "Packets arriving on the two busses of a bridge belong to different messages even if their source, destination and tag coincide.",
  "every interleaving of packets from both busses", "interleavings", ["core.c:mctp_bus_rx","core.c:mctp_msg_ctx_lookup"])
# ---- memory -------------------------------------------------------------
p("No memory fault or leak in normal operation",
  "While allocations succeed, any history of packet reception, transmission, enable/disable and configuration calls after registration commits no out-of-bounds access, use after free, double free, null dereference or failed assertion, and a final mctp_destroy releases every allocation exactly once.",
  "every history of API calls (without unregistering) with succeeding allocations and every binding behaviour", "unbounded histories", ["core.c:mctp_destroy","core.c:mctp_bus_rx","core.c:mctp_send_tx_queue","core.c:mctp_msg_ctx_add_pkt"])
p("Unregistering then destroying is safe",
  "Unregistering the bus and later destroying the core frees every allocation exactly once, including packets still queued.",
  "every history ending in unregister then destroy", "depends on queue contents and history", ["core.c:mctp_unregister_bus","core.c:mctp_destroy"])
p("Allocation failure during reassembly is harmless",
  "If growing a reassembly buffer fails, the message is dropped and later operation (including destroy) stays memory safe.",
  "every history and every pattern of allocation failures", "all failure points", ["core.c:mctp_msg_ctx_add_pkt"])
p("Allocation failure on transmit and registration is reported",
  "If an allocation fails in mctp_message_tx or mctp_register_bus, an error is returned and the library remains usable.",
  "every state and failure point", "all failure points", ["core.c:mctp_message_tx_on_bus","core.c:mctp_register_bus"])
p("Registration failure is undone",
  "If the binding's start function fails, mctp_register_bus returns its error, the core has no bus afterwards, and a later registration succeeds.",
  "every binding and start result", "all results", ["core.c:mctp_register_bus"])
# ---- pktbuf -------------------------------------------------------------
p("Packet buffer push and pop are inverse and in bounds",
  "Pushing bytes either fails leaving the buffer unchanged or appends exactly these bytes; popping what was pushed returns exactly these bytes and restores the buffer; no operation touches memory outside the buffer.",
  "every buffer state, data and length", "unbounded sizes, overflow corner cases", ["core.c:mctp_pktbuf_push","core.c:mctp_pktbuf_pop","core.c:mctp_pktbuf_alloc_start","core.c:mctp_pktbuf_alloc_end"])
p("Packet buffer allocation respects capacity",
  "A buffer returned by mctp_pktbuf_alloc has its whole packet area inside the allocated storage; requests that do not fit are refused.",
  "every binding configuration and length", "all sizes", ["core.c:mctp_pktbuf_alloc"])
# ---- crc ----------------------------------------------------------------
p("Serial frame check sequence is the RFC 1662 FCS-16",
  "The table-driven frame check sequence equals the bitwise CRC with reflected polynomial 0x8408.",
  "every byte string and start value", "all inputs and all table entries", ["crc-16-ccitt.c:crc_16_ccitt","crc-16-ccitt.c:crc_16_ccitt_table"])
p("Serial frame check sequence detects common errors",
  "For two byte strings of equal length, the frame check sequences differ if the strings differ only within 2 consecutive bytes (any burst of up to 16 bits that lies in them), or in an odd number of bits, or in exactly two bits of a frame.",
  "every byte string and error pattern of the class", "all inputs, all error positions", ["crc-16-ccitt.c:crc_16_ccitt"])
p("Astlpc checksum is CRC-32 and detects bursts",
  "The packet checksum is the bitwise CRC-32 of the binding specification; any change confined to 4 consecutive bytes, or any error with a single or double flipped bit in a packet of up to the supported size, changes it.",
  "every byte string and error pattern of the class", "all inputs", ["crc32.c:crc32"])
# ---- serial -------------------------------------------------------------
p("Serial frame round trip",
  "Every packet of 4 to 68 bytes transmitted by the serial binding, read back byte by byte by a serial binding waiting for a frame, is received exactly once and unchanged, including bytes equal to the framing and escape characters, and the receiver is again waiting for a frame.",
  "every packet content", "all contents", ["serial.c:mctp_binding_serial_tx","serial.c:mctp_serial_pkt_escape","serial.c:mctp_rx_consume_one"])
p("Serial chunking independence",
  "The effect of receiving a byte string does not depend on how it is divided into mctp_serial_rx / mctp_serial_read calls.",
  "every byte string and every division into chunks", "exponentially many divisions", ["serial.c:mctp_rx_consume","serial.c:mctp_serial_rx"])
p("Serial receiver accepts only valid frames",
  "Each packet the serial binding passes to the core corresponds to consecutive received bytes: flag, revision 1, length, the escaped packet of that length, matching check sequence, flag.",
  "every received byte stream", "all byte streams", ["serial.c:mctp_rx_consume_one"])
p("Serial receiver never overruns its buffer or asserts",
  "For any received byte stream, the serial receiver never writes outside its packet buffer, never fails an assertion and never loses a byte of an accepted packet (while allocations succeed).",
  "every received byte stream", "all byte streams", ["serial.c:mctp_rx_consume_one","serial.c:mctp_serial_start_packet"])
p("Serial receiver resynchronises",
  "From any receiver state, after a bounded number of idle bytes the receiver is waiting for a frame again, and the next valid frame is received correctly.",
  "every receiver state and following frame", "all states", ["serial.c:mctp_rx_consume_one"])
p("Serial corruption detection",
  "If, of a transmitted frame, bytes of the packet are corrupted within the guaranteed error classes while the framing is intact, no packet is delivered.",
  "every packet and every corruption of the class", "all contents and positions", ["serial.c:mctp_rx_consume_one","crc-16-ccitt.c:crc_16_ccitt"])
p("Serial receiver releases every packet buffer",
  "Every packet buffer allocated by the serial receiver is freed exactly once, whether or not its frame was valid.",
  "every byte stream", "all byte streams", ["serial.c:mctp_serial_finish_packet"])
p("Serial transmit writes the whole frame or reports an error",
  "When the serial binding's transmit returns 0, the whole frame was written in order, whatever partial counts the write function returned; if the write function fails, its error is returned.",
  "every sequence of write results", "all partial write patterns", ["serial.c:mctp_write_all","serial.c:mctp_binding_serial_tx"])
p("Serial transmit never overruns its frame buffer",
  "For a packet of any length the transmit function stays within its 256-byte frame buffer; for a packet of up to 255 bytes it either writes its frame or, exactly if the frame does not fit the buffer, returns -EMSGSIZE without writing anything.",
  "every packet of every length", "all contents", ["serial.c:mctp_binding_serial_tx","serial.c:mctp_serial_pkt_escape"])
p("End-to-end delivery over serial",
  "A message sent by one endpoint over the serial binding, its bytes delivered in any chunking to a second endpoint, is delivered there exactly once and unchanged with source, tag and tag owner.",
  "every message up to the size limit, tag, and chunking", "unbounded", ["serial.c","core.c"])
# ---- astlpc -------------------------------------------------------------
p("Version negotiation picks the highest common version",
  "Given two valid version ranges that overlap, negotiation yields the largest version in both; otherwise it fails; the result is never outside the supported table.",
  "every quadruple of 16-bit versions", "2^64 inputs", ["astlpc.c:mctp_astlpc_negotiate_version","astlpc.c:mctp_astlpc_validate_version"])
p("Accepted buffer layouts are safe",
  "A layout is accepted only if both buffers lie inside the 1 MiB window, outside the control area, do not overlap each other and hold a baseline-size packet.",
  "every pair of 32-bit offsets and sizes", "2^128 layouts", ["astlpc.c:mctp_astlpc_layout_validate","astlpc.c:mctp_astlpc_buffer_validate"])
p("BMC initial layout is valid for every requested MTU",
  "For every requested MTU the BMC start either fails with -EINVAL or publishes a valid layout whose MTU does not exceed the request and is a multiple of 16 if chosen by the BMC.",
  "every 32-bit requested MTU", "2^32 values", ["astlpc.c:mctp_astlpc_init_bmc"])
p("Channel handshake agreement",
  "If both ends run the initialisation handshake to completion, they agree on the protocol version, use mirrored buffers and the same MTU, which is no larger than either side's request.",
  "every pair of requested MTUs", "2^64 pairs", ["astlpc.c:mctp_astlpc_init_host","astlpc.c:mctp_astlpc_init_channel","astlpc.c:mctp_astlpc_finalise_channel","astlpc.c:mctp_astlpc_negotiate_layout_bmc"])
p("Host may request a larger MTU than the BMC offers",
  "A host requesting a larger MTU than the BMC supports obtains a channel with the BMC's MTU.",
  "every pair of requested MTUs", "all pairs", ["astlpc.c:mctp_astlpc_negotiate_layout_host"])
p("LPC window accesses stay inside the agreed buffers",
  "Every write an endpoint makes for a packet lies within its transmit buffer and every read within its receive buffer, whatever the remote side writes into the window or KCS registers.",
  "every reachable binding state, packet and window content", "adversarial window contents", ["astlpc.c:mctp_binding_astlpc_tx","astlpc.c:mctp_astlpc_rx_start"])
p("Buffer ownership is exclusive",
  "For a BMC and a host started on a freshly reset link whose accessors do not fail (and a host whose allocations succeed): at no time do both sides consider the same packet buffer theirs to access; whenever neither does, exactly one hand-over command for it is in the KCS interface. No side writes a buffer the other may read, or reads one the other may write.",
  "every interleaving, access by access, of polls and transmissions of both sides", "unbounded interleavings", ["astlpc.c:mctp_astlpc_poll","astlpc.c:mctp_binding_astlpc_tx","astlpc.c:mctp_astlpc_rx_start"])
p("Packets cross the LPC channel exactly once, in order, unchanged",
  "For the same executions, the packets delivered on one side are a prefix of the packets accepted for transmission on the other, each unchanged and once; at most the last one is missing, and none when mctp_astlpc_tx_done holds on the sender.",
  "every interleaving, access by access, of polls and transmissions of both sides and every packet content", "unbounded interleavings", ["astlpc.c:mctp_binding_astlpc_tx","astlpc.c:mctp_astlpc_rx_start","astlpc.c:mctp_astlpc_tx_complete"])
p("Corrupt v3 packets are dropped",
  "On a version 3 channel a packet whose stored checksum does not match its contents is never delivered, yet its buffer is handed back.",
  "every window content", "all contents", ["astlpc.c:astlpc_pktbuf_validate_v3","astlpc.c:mctp_astlpc_rx_start"])
p("KCS failure during transmit does not duplicate packets",
  "If writing the KCS command fails, the packet is later transmitted exactly once, unchanged.",
  "every packet and every failure pattern of the KCS accessors", "all failure points", ["astlpc.c:mctp_binding_astlpc_tx","astlpc.c:astlpc_pktbuf_protect_v3"])
p("Every received buffer is handed back",
  "After a Tx Begin command is consumed in an active channel, the buffer is handed back (or scheduled to be handed back) to the sender.",
  "every window content", "adversarial lengths", ["astlpc.c:mctp_astlpc_rx_start"])
p("KCS flow control",
  "A command is written to the KCS data register during packet exchange only when the previous one has been consumed, and a command is read only when one is present; a deferred hand-over is retried on the next poll.",
  "every status value and state", "all states", ["astlpc.c:mctp_astlpc_kcs_send","astlpc.c:__mctp_astlpc_kcs_ready","astlpc.c:mctp_astlpc_poll"])
p("Out-of-protocol commands are harmless",
  "Commands that do not fit the buffer ownership (Tx Begin while the receive buffer is not handed over, Rx Complete while nothing is in flight, unknown values, packet commands before the channel is initialised) change no ownership state and deliver nothing.",
  "every command byte and state", "all states", ["astlpc.c:mctp_astlpc_poll"])
p("Loss of BMC-ready stops the host",
  "When the host polls and finds BMC-ready cleared after having been set, transmission is disabled and stays so until the channel is active again.",
  "every state and following history", "unbounded", ["astlpc.c:mctp_astlpc_update_channel"])
p("Host re-initialises after a BMC restart",
  "After the BMC restarts, the host starts a new handshake when it next polls, whatever the polling schedule.",
  "every polling schedule", "schedules", ["astlpc.c:mctp_astlpc_update_channel"])
p("At most one packet in flight per direction",
  "The binding never overwrites its transmit buffer before the previous packet has been handed back.",
  "every history of transmissions and polls", "unbounded", ["astlpc.c:mctp_binding_astlpc_tx","core.c:mctp_send_tx_queue"])
p("Channel failure keeps transmission disabled",
  "If the BMC cannot negotiate a version or layout, Channel Active is not set and no packet is transmitted by it.",
  "every control-area content", "adversarial contents", ["astlpc.c:mctp_astlpc_init_channel"])
# ---- utils ---------------------------------------------------------------
p("Demux daemon forwards by message type",
  "A received message of at least two bytes is sent, prefixed with the source EID, once to each connected client registered for its type and to no other client.",
  "every client set and message", "all client sets", ["utils/mctp-demux-daemon.c:rx_message"])
p("Demux daemon removes dead clients",
  "After a removal pass no inactive client remains, and every active client is kept, in order.",
  "every client list", "all lists", ["utils/mctp-demux-daemon.c:client_remove_inactive"])
p("Demux daemon routes client messages",
  "A message from a registered client addressed to the local EID is delivered to local clients of its type; any other is transmitted with the given destination and payload.",
  "every client message", "all contents", ["utils/mctp-demux-daemon.c:client_process_recv"])
p("Demux daemon poll set matches its clients",
  "When the daemon waits for events, it watches exactly the sockets of its current clients.",
  "every history of connects, disconnects and deliveries", "unbounded histories", ["utils/mctp-demux-daemon.c:run_daemon"])
p("Captured socket records contain only the message",
  "A capture record for a client message consists of the link header, a fabricated MCTP header and the message payload, and nothing else.",
  "every message", "all lengths", ["utils/mctp-capture.c:capture_socket"])
p("Captured binding records contain exactly the packet",
  "A capture record for a packet consists of the link header with the direction and exactly the packet's bytes.",
  "every packet", "all lengths", ["utils/mctp-capture.c:capture_binding"])
p("Allocator dispatch",
  "Allocation uses the configured allocator, falls back to realloc(NULL,n)/realloc(p,0) when only realloc is configured, and never calls an unset hook.",
  "every combination of hooks", "all combinations", ["alloc.c"])
p("Log level filter",
  "With stdio logging at level L, exactly the messages of level <= L are printed; a custom handler receives all.",
  "every configuration history and message level", "histories", ["log.c:mctp_prlog"])
p("The other side cannot crash an astlpc endpoint",
  "Whatever the other side puts into the shared window and the KCS registers, whatever the accessors return and whatever the application sends, every call on an astlpc endpoint returns without a fault, and destroying the endpoint afterwards releases exactly what it allocated.",
  "every history of calls, window contents, register values and accessor results", "adversarial register and window contents over unbounded histories", ["astlpc.c:mctp_astlpc_poll","astlpc.c:mctp_astlpc_init_channel","astlpc.c:mctp_astlpc_update_channel","astlpc.c:mctp_astlpc_rx_start"])

p("No client, device or system behaviour crashes the demux daemon",
  "Whatever clients do, whatever accept, read, recv, send and poll return and whatever the binding's device delivers, the daemon performs no invalid memory access and fails no assertion.",
  "every history of poll results, socket results and device inputs", "adversarial clients over unbounded histories", ["utils/mctp-demux-daemon.c:run_daemon","utils/mctp-demux-daemon.c:client_process_recv","utils/mctp-demux-daemon.c:rx_message"])
p("Demux clients are disconnected only for a reason",
  "The daemon closes a client's socket only if, since the client connected, a read from it failed or ended, it sent the registration byte 0, it sent a message for which there was no memory, or a send to it failed; and every socket is closed at most once per connection.",
  "every history of poll results, socket results and device inputs", "unbounded histories", ["utils/mctp-demux-daemon.c:client_remove_inactive","utils/mctp-demux-daemon.c:client_process_recv","utils/mctp-demux-daemon.c:rx_message"])
p("The demux daemon reads only where there is data",
  "The daemon reads from a client's socket only if the preceding poll reported that socket (so it never blocks in a read and never takes an idle client for a closed one).",
  "every history", "unbounded histories", ["utils/mctp-demux-daemon.c:run_daemon"])
p("A client that leaves is disconnected",
  "When poll reports a client whose connection is closed or broken, the daemon closes its socket in that iteration, and disconnects no other client for it.",
  "every reachable daemon state and every client", "unbounded histories", ["utils/mctp-demux-daemon.c:client_process_recv","utils/mctp-demux-daemon.c:run_daemon"])
p("The demux daemon keeps serving",
  "The daemon's loop ends only when it is told to stop or its binding fails.",
  "every reachable daemon state and every poll result", "unbounded histories", ["utils/mctp-demux-daemon.c:run_daemon","utils/mctp-demux-daemon.c:socket_process"])

p("The transmit queue's linked list is sound",
  "The queue of outgoing packets, a linked list of packet buffers with head and tail pointers, behaves as a queue in every history of calls: no packet buffer is reached after it was freed, none is lost or duplicated, every walk over the list ends, and after each call the buffers reachable from the head are exactly the packets accepted and not yet transmitted, in order; destroying the endpoint releases all of them.",
  "every history of API calls on an endpoint and every behaviour of the binding", "pointer states over unbounded histories", ["core.c:mctp_send_tx_queue","core.c:mctp_message_tx_on_bus","core.c:mctp_bus_destroy","libmctp.h:mctp_pktbuf"])

p("Messages are cut to the size both sides agreed on",
  "Whenever an astlpc channel is open, the packets messages are cut into are exactly as large as the agreed transmit buffer with its framing allows, that buffer is no larger than what the host asked for and what the BMC's own MTU allows, and the two buffers do not overlap; so a message sent on the open channel is never refused for the size of its packets.",
  "every history of calls, window contents, register values and accessor results, on either side", "adversarial header contents over unbounded histories with renegotiations", ["astlpc.c:mctp_astlpc_negotiate_layout_bmc","astlpc.c:mctp_astlpc_finalise_channel","astlpc.c:mctp_astlpc_calculate_mtu","astlpc.c:mctp_binding_astlpc_tx"])

p("Messages cross the astlpc link whole and in order",
  "With a BMC and a host both running this code over one LPC window and one KCS device, every message the application of one side hands over and that is accepted is cut into packets none of which is dropped: the messages the other application's receive callback sees are the accepted messages or the first of them, in order, each exactly once, with the sender's EID, tag owner, tag and content; and when the sender has nothing queued and owns its transmit buffer again, all of them.",
  "every pair of histories of calls on the two sides, every message, and every interleaving of the two sides' register and window accesses", "interleavings of two programs over unbounded histories", ["core.c:mctp_message_tx_on_bus","core.c:mctp_send_tx_queue","core.c:mctp_rx","astlpc.c:mctp_binding_astlpc_tx","astlpc.c:mctp_astlpc_rx_start","astlpc.c:mctp_astlpc_poll"])

p("An application may answer from inside its callback",
  "Whatever calls of mctp_message_tx and of the mctp_set_* functions an endpoint's application makes from inside its receive callbacks (message_rx, the binding's control_rx): the message it is reading stays allocated until the callback returns, there is no memory fault, and every return value, event and later behaviour is the one of the same application making those calls right after the receiving call has returned; destroying the endpoint releases everything.",
  "every application (any calls, depending on its state, the message and earlier return values), every history of API calls and every behaviour of the binding", "nested calls over unbounded histories", ["core.c:mctp_rx","core.c:mctp_bus_rx","core.c:mctp_message_tx","core.c:mctp_msg_ctx_drop"])

p("A responder answers every request once and in order",
  "If the application answers, from its callback, each message that has the tag owner bit set with a message to its sender with the same tag and the bit clear, then the packets handed to the binding, followed by those queued, are exactly the packets of the answers to the requests delivered, in order: none lost, duplicated or misaddressed, also when the binding is busy or transmission is disabled meanwhile.",
  "every history of received packets, disabling and enabling of transmission and settings, every answer function and every behaviour of the binding", "unbounded histories with nested calls", ["core.c:mctp_rx","core.c:mctp_message_tx","core.c:mctp_send_tx_queue","core.c:mctp_bus_rx"])

p("An application may receive from inside its callback",
  "An application that polls its binding from inside its receive callback, so that further packets are received before the callback returns, sees no memory fault, and what is delivered is what would have been delivered had it polled after the callback.",
  "every history, every message and all packets received meanwhile", "nested receptions over unbounded histories", ["core.c:mctp_bus_rx","core.c:mctp_msg_ctx_drop","core.c:mctp_msg_ctx_add_pkt"])

p("A binding's transmit function may cause a send on the same bus",
  "If a binding's tx, before it returns, leads to a message being sent on the same bus (a binding that delivers synchronously), no packet buffer is reached after it was freed, and the queue afterwards is the packets not yet taken followed by those of the message, each transmitted once.",
  "every queue, every message and every behaviour of the binding", "re-entrance in a pointer structure of unbounded size", ["core.c:mctp_send_tx_queue","core.c:mctp_packet_tx","core.c:mctp_message_tx_on_bus"])

p("Opening and closing an astlpc device leaves nothing behind",
  "mctp_astlpc_init_fileio returns a binding exactly if the allocation and every system call succeed, and it then holds one block, one descriptor and one mapping; if it returns NULL, the process holds what it held before; destroying the binding releases what it holds; all memory is returned to the allocator it came from.",
  "every combination of results of the allocation and of the system calls, every size of the reserved memory, default and configured allocators", "every failure point of the operating system", ["astlpc.c:mctp_astlpc_init_fileio","astlpc.c:mctp_astlpc_init_fileio_lpc","astlpc.c:mctp_astlpc_init_fileio_kcs","astlpc.c:mctp_astlpc_destroy"])

p("The host finds the window at the end of the firmware address space",
  "When a file-backed binding was created, all of the reserved memory is mapped to the end of the 28-bit firmware address space of the LPC bus, and the byte at offset n of the MCTP window is the byte the host reads at the firmware address 0x0FF00000 + n.",
  "every size of the reserved memory up to the size of the address space, every offset", "all sizes", ["astlpc.c:mctp_astlpc_init_fileio_lpc"])

p("A file-backed binding stays inside its mapping",
  "Whatever the host does and whatever size of reserved memory the driver reports, an endpoint with a file-backed astlpc binding accesses no byte outside the memory it has mapped.",
  "every reserved memory size, every history of calls, every behaviour of the host and the KCS device", "unbounded histories, all sizes", ["astlpc.c:mctp_astlpc_init_fileio_lpc","astlpc.c:mctp_astlpc_lpc_write","astlpc.c:mctp_astlpc_lpc_read"])

p("Waiting for the requested events misses nothing",
  "A program on the BMC that waits on the KCS device for the events mctp_astlpc_init_pollfd asks for, and calls mctp_astlpc_poll when woken, misses nothing: while the device is not ready for them, mctp_astlpc_poll would do nothing, and when it is ready, the poll reads the command or writes the deferred one.",
  "every history of calls and every value of the status register", "unbounded histories", ["astlpc.c:mctp_astlpc_init_pollfd","astlpc.c:mctp_astlpc_poll"])

p("Opening, reading and closing a serial device",
  "mctp_serial_init either fails cleanly or returns a binding; mctp_serial_open_path reports a device that cannot be opened; mctp_serial_read returns -1 and changes nothing if nothing can be read, and otherwise passes exactly the bytes read to the receiver; mctp_serial_destroy releases the device the binding opened.",
  "every result of the allocation and of the system calls, every packet and every chunk read", "every failure point of the operating system", ["serial.c:mctp_serial_init","serial.c:mctp_serial_open_path","serial.c:mctp_serial_read","serial.c:mctp_serial_destroy","serial.c:mctp_serial_write"])

p("A failed registration is harmless",
  "If mctp_register_bus fails because the binding's start fails, the core is as it was before the call and can register a binding again; polling the binding meanwhile returns, writes no register, does not touch the window and does not crash.",
  "every core without a bus, every binding, every failure of the start and every later behaviour of the host and the devices", "unbounded polling histories with failing devices", ["core.c:mctp_register_bus","core.c:mctp_binding_set_tx_enabled","astlpc.c:mctp_astlpc_poll","astlpc.c:mctp_astlpc_init_channel","utils/mctp-demux-daemon.c:binding_astlpc_init"])

p("A register that was not transferred is not used",
  "With a file-backed astlpc binding, a register counts as read or written exactly if the device transferred its one byte (data register at offset 0, status register at offset 1): when the status or the data register cannot be read, the poll returns -1, calls nothing back and changes nothing, whatever was left in the variable; a deferred command counts as sent exactly if its byte was written, and otherwise stays deferred.",
  "every history of calls, every result of pread and pwrite and every value left behind", "unbounded histories with failing devices", ["astlpc.c:__mctp_astlpc_fileio_kcs_read","astlpc.c:__mctp_astlpc_fileio_kcs_write","astlpc.c:mctp_astlpc_poll","astlpc.c:mctp_astlpc_kcs_send"])

p("If both sides keep polling, everything is delivered",
  "A BMC and a host on one astlpc link, all allocations successful. Once both applications only poll, 4p + 15 rounds (stretches of the execution in which each side completes a poll, however the accesses are interleaved) are enough to deliver the p packets that have been accepted: nothing is left queued on either side, each binding has passed up exactly the packets of the other side's messages, and each application has seen exactly the other's messages, once and in order. There is no deadlock and no livelock.",
  "every pair of histories of calls, every schedule of the accesses of both sides, every number of packets", "liveness under all schedules", ["astlpc.c:mctp_astlpc_poll","astlpc.c:mctp_astlpc_kcs_send","astlpc.c:mctp_astlpc_tx_complete","astlpc.c:mctp_astlpc_rx_start","core.c:mctp_binding_set_tx_enabled","core.c:mctp_send_tx_queue"])

p("If both sides keep polling, the channel comes up",
  "With a BMC and a host both running this code over one LPC window and one KCS device, all allocations succeeding: once both sides have completed a bounded number of polls, both have agreed on protocol version and packet size, both own their transmit buffers, and both accept messages.",
  "every pair of histories of calls on the two sides that end with polls, and every interleaving of the two sides' register and window accesses", "liveness over all interleavings of two programs", ["astlpc.c:mctp_astlpc_poll","astlpc.c:mctp_astlpc_update_channel","astlpc.c:mctp_astlpc_init_channel","astlpc.c:mctp_astlpc_finalise_channel"])

p("mctp-pipe copies its input to its output",
  "Whatever it is given on the standard input, mctp-pipe writes exactly those bytes to the standard output, in order, and ends successfully once the input has ended; it never crashes, and it never writes anything that is not the continuation of the input.",
  "every input, every division of it into reads, every schedule of the descriptors poll reports, every size of the reads and every capacity of the socket", "all inputs and schedules", ["utils/mctp-pipe.c:main","utils/mctp-pipe.c:rx_message","serial.c:mctp_serial_read","core.c:mctp_message_tx"])

p("mctp-in prints the messages that arrive",
  "mctp-in never crashes, whatever its standard input brings and in whatever pieces, and ends exactly at the end of the input or at a read error. If the input is what another endpoint wrote to its serial line (or the first part of it), and its messages are addressed to EID 8, the null EID or broadcast, the output consists of the contents of its messages, in order: the first of them, or all of them if everything was read and nothing is left to send.",
  "every input in every division into reads; every history of the sending endpoint", "all inputs, unbounded histories", ["utils/mctp-in.c:main","utils/mctp-in.c:rx_message","serial.c:mctp_serial_read"])

p("The daemon starts up completely or not at all, and reports how it ended",
  "If any step of the start-up of mctp-demux-daemon fails (captures, binding, listening socket, signals), the process ends with exit status 1 and never serves a client; otherwise it serves every event in order until it is told to stop, and the exit status is 0 exactly if a termination signal ended it.",
  "every combination of results of the start-up calls, every settings, every binding, every sequence of wake-ups", "every combination of failures and every history", ["utils/mctp-demux-daemon.c:main","utils/mctp-demux-daemon.c:run_daemon","utils/mctp-demux-daemon.c:socket_init","utils/mctp-demux-daemon.c:binding_init"])

p("The daemon cleans up on every path, and never crashes",
  "On every path from start to exit of mctp-demux-daemon: each capture file is opened at most once, closed only after the loop and the binding that write to it are finished, and closed exactly once if it was opened; a binding that was started is destroyed exactly once, after the loop; and with a serial or astlpc binding whose registration succeeded no execution from mctp_init to the exit accesses invalid memory or fails an assertion.",
  "every combination of results of the start-up calls, every settings, every history of clients, peer, devices and operating system", "all failure paths and unbounded histories", ["utils/mctp-demux-daemon.c:main","utils/mctp-demux-daemon.c:binding_destroy","utils/mctp-capture.c:capture_prepare","utils/mctp-capture.c:capture_close","core.c:mctp_unregister_bus"])

p("The daemon does what its command line says",
  "For every command line of mctp-demux-daemon made of documented options, in their long or short forms, among other words in any order: the daemon uses the capture files and the EID asked for (the last of each kind), takes the first other word as the binding and the rest as its parameters, treats messages for that EID as its own, and exits with a failure if no binding is named.",
  "every list of options in every form, every file name, every EID, every position of the other words", "all command lines", ["utils/mctp-demux-daemon.c:main","utils/mctp-demux-daemon.c:options"])

p("The host is told when the daemon ends",
  "If mctp-demux-daemon has started the astlpc binding (and its registration succeeded) and the process then ends in any way other than being killed - a signal, a failing poll, a failing start-up step, a broken device - then the core has no bus left, and the last thing done with the devices, after everything else, was to clear the status register (BMC not ready, channel not active) and, if that write succeeded, to interrupt the host.",
  "every combination of results of the start-up calls, every history of clients, host, devices and operating system", "all failure paths and unbounded histories", ["utils/mctp-demux-daemon.c:binding_astlpc_destroy","astlpc.c:mctp_astlpc_destroy","core.c:mctp_unregister_bus"])

p("The daemon is an exact relay between the core and its clients",
  "As long as a client of mctp-demux-daemon stays connected, the messages it is sent are exactly the messages of the type it registered for (type 0 before it registered) that arrive from other endpoints, or from local clients addressing the daemon's own EID, in that time: each once, in order of arrival, unchanged, after the EID of the source. What arrives is sent on at once, to all clients registered for it in the order they connected, and nothing else is ever sent. Messages handed over by the core arrive once each, in order; a client's message to the daemon's own EID arrives at once.",
  "every history of connections, registrations, messages, failures, disconnections and packets from the binding", "unbounded histories of several clients and the network", ["utils/mctp-demux-daemon.c:rx_message","utils/mctp-demux-daemon.c:client_process_recv","utils/mctp-demux-daemon.c:client_remove_inactive","utils/mctp-demux-daemon.c:run_daemon"])

p("Two daemons connect their clients over a serial line",
  "Let two mctp-demux-daemons be connected by a serial line. The messages that arrive from the line at one are exactly the non-empty messages that clients of the other sent to its EID (up to its message size limit): a first part of them at any time, all of them once it has read everything that was written; each once, in the order in which the other daemon read them from its clients, with the other daemon's EID and unchanged content.",
  "every history of the clients of both daemons, every division of the byte stream into reads, every interleaving", "unbounded histories of two processes", ["utils/mctp-demux-daemon.c:run_daemon","utils/mctp-demux-daemon.c:binding_serial_process","serial.c:mctp_serial_read","serial.c:mctp_binding_serial_tx","core.c:mctp_message_tx"])

p("The socket capture has everything the clients and the daemon exchange",
  "With --capture-socket, the capture file of mctp-demux-daemon has one record for each message a client sends to the daemon and one for each message the daemon sends to a client, in order, with the direction, the EID and the bytes of the message.",
  "every history of the daemon, its clients and the network", "unbounded histories", ["utils/mctp-demux-daemon.c:client_process_recv","utils/mctp-demux-daemon.c:rx_message","utils/mctp-capture.c:capture_socket"])

p("The clients of a BMC's daemon and the host's application exchange their messages over LPC",
  "Let a mctp-demux-daemon run on the BMC with the astlpc binding, and an application on the host. The messages delivered to the host's application are exactly those that clients of the daemon sent to the host's EID after the channel was set up: a first part of them at any time, all of them once nothing is pending and the host has handed back the buffer; each once, in order, with unchanged content and the BMC's EID. The messages that arrive at the daemon for its clients are, in the same sense, exactly the non-empty messages that the host's application sent.",
  "every history of the daemon, its clients and the host's application, every interleaving of the device accesses of both sides", "unbounded histories and interleavings of two processors", ["utils/mctp-demux-daemon.c:run_daemon","utils/mctp-demux-daemon.c:binding_astlpc_process","astlpc.c:mctp_astlpc_poll","astlpc.c:mctp_binding_astlpc_tx","core.c:mctp_message_tx"])

p("The capture of the binding's packets is what is on the line",
  "With --capture-binding, the capture file of a mctp-demux-daemon on a serial line has exactly: as outgoing records, the packets whose frames are the bytes written to the line; as incoming records, the packets (with content) of the valid frames in the bytes read from the line; both in order, each once. Without the option nothing is captured. Of two daemons on a line, the incoming packets in the file of the one are the first of the outgoing packets in the file of the other, and all of them once it has read everything that was written.",
  "every history of the daemons, their clients and the line, every division of the bytes into reads, every length of a run", "unbounded histories of two processes", ["utils/mctp-demux-daemon.c:main","utils/mctp-capture.c:capture_binding","core.c:mctp_bus_rx","core.c:mctp_packet_tx","serial.c:mctp_serial_read"])

p("Without a device the daemon connects its local clients",
  "mctp-demux-daemon with the binding null: it never crashes, sends, receives and captures no packet and touches no device; if its start-up succeeds, the messages that arrive for its clients are exactly those that clients send to the daemon's own EID, in order, and they are relayed to all clients registered for the type; messages to other EIDs go nowhere. With parameters for the binding it exits with status 1.",
  "every command line (in the forms that work), every result of the start-up calls, every history of the clients", "unbounded histories", ["utils/mctp-demux-daemon.c:binding_null_init","utils/mctp-demux-daemon.c:binding_lookup","core.c:mctp_message_tx"])

p("From the command line to the wire",
  "The whole process of mctp-demux-daemon, from its command line: if the named binding does not exist, has the wrong number of parameters or its KCS device cannot be opened, the process ends with status 1 without opening a socket or touching a device. With a serial device it never crashes, serves clients exactly if the start-up succeeds, and the bytes written to the line are exactly the frames of the packets of the clients' messages to other EIDs, in order, with the source EID given on the command line, and they are captured exactly if asked for. With a KCS device it never crashes and tells the host last when it ends.",
  "every command line (in the forms that work), every result of the start-up calls, every history of clients, line, devices and operating system", "all command lines and unbounded histories", ["utils/mctp-demux-daemon.c:main","utils/mctp-demux-daemon.c:binding_lookup","utils/mctp-demux-daemon.c:binding_init","utils/mctp-demux-daemon.c:bindings"])

p("A client that fails is disconnected before the daemon waits again",
  "When a connection of mctp-demux-daemon fails (the client hangs up or its connection breaks, it registers for type 0, there is no memory for its message, or a message cannot be delivered to it completely), the daemon closes it before it next waits for events, so that no dead connection is waited for and a waiting daemon keeps no connection it will never serve.",
  "every history of connections, messages, failures and packets from the binding", "unbounded histories of several clients", ["utils/mctp-demux-daemon.c:run_daemon","utils/mctp-demux-daemon.c:client_process_recv","utils/mctp-demux-daemon.c:client_remove_inactive","utils/mctp-demux-daemon.c:rx_message"])

p("The captures at the two ends of an LPC channel agree",
  "Let a capture handler be set at the BMC and at the host when they have registered their bus. The packets captured as outgoing at one side are the packets captured as incoming at the other, in order and each once, except for at most one that is on its way (none when the sender's mctp_astlpc_tx_done is true); and they are the packets of the messages the side accepted, but for those still queued. The file of a mctp-demux-daemon on the BMC with --capture-binding has accordingly the packets of its clients' messages and those the host's application sent; without the option nothing is captured.",
  "every history of both sides and of the daemon's clients, every interleaving of the device accesses", "unbounded histories and interleavings of two processes",
  ["core.c:mctp_bus_rx", "core.c:mctp_send_tx_queue", "core.c:mctp_set_capture_handler", "utils/mctp-capture.c:capture_binding", "utils/mctp-demux-daemon.c:main", "astlpc.c:mctp_astlpc_poll"])
p("A failed astlpc registration can be tried again",
  "When mctp_register_bus fails for an astlpc binding (the usual case: a host started before its BMC, -EHOSTDOWN), the application may call it again with the same core and binding, any number of times. Each attempt without a BMC reads the status register once, writes nothing and does not look at the window. The attempt that succeeds does exactly what a first registration would do at that moment, and from then on the endpoint cannot be told from one registered at the first attempt: every history of calls has the same callbacks, packets, return values and device accesses.",
  "every device behaviour, both modes, every number of failed attempts, every later history of calls and polls",
  "unbounded attempts and histories; stale state of the binding (protocol, status, buffers) could show at any later time",
  ["core.c:mctp_register_bus", "astlpc.c:mctp_astlpc_init_host", "astlpc.c:mctp_astlpc_init_bmc", "astlpc.c:mctp_binding_astlpc_start_host"])

p("From the command line of a BMC's daemon to the host's application",
  "Start mctp-demux-daemon on a BMC with the binding astlpc, a KCS device and any documented options, and an application on the host. The messages the host's application gets are exactly those that clients of the daemon sent to other EIDs, but for the first ones: a first part of them at any time, all of them once the host has received their packets; each once, in order, unchanged, with the EID given on the command line (8 by default). A message is missing only if the daemon took it from its client before the BMC had ever shown an active channel in the status register; every message taken after that is not. What arrives at the daemon is, in the same sense, what the host's application sent, and it is relayed to the clients; with --capture-binding the file has these packets and no others, without it nothing is captured. This holds while the daemon runs and when it has ended.",
  "every command line (in the forms that work), every history of clients, host application and operating system, every interleaving of the device accesses", "unbounded histories and interleavings of two processors, all command lines",
  ["utils/mctp-demux-daemon.c:main", "utils/mctp-demux-daemon.c:run_daemon", "utils/mctp-demux-daemon.c:binding_astlpc_init", "utils/mctp-demux-daemon.c:client_process_recv", "astlpc.c:mctp_astlpc_init_channel", "astlpc.c:mctp_astlpc_poll", "core.c:mctp_message_tx_on_bus", "core.c:mctp_binding_set_tx_enabled"])

p("Once the clients are quiet, every message arrives",
  "Start mctp-demux-daemon on a BMC (astlpc, from the command line) and an application on the host. Once the clients send no more messages to other EIDs (they may still connect, register, talk to the daemon's own EID and leave) and the application only polls, everything arrives: after at most 4p + 15 rounds, p being the number of packets of all messages, the host's application has got every message the clients had sent to other EIDs after the BMC showed an active channel, the daemon has got every message of the host's application, each once, in order, unchanged, and nothing is left in a queue. A round is any stretch of time in which the daemon's loop polls its device once and the application polls once; between and during these polls anything may be interleaved.",
  "every command line (in the forms that work), every history of clients, host application and operating system, every interleaving of the device accesses, any number of messages of any size", "a liveness property of two processors over unbounded histories",
  ["utils/mctp-demux-daemon.c:run_daemon", "utils/mctp-demux-daemon.c:binding_astlpc_process", "astlpc.c:mctp_astlpc_poll", "astlpc.c:mctp_astlpc_tx_done", "astlpc.c:mctp_binding_astlpc_tx", "core.c:mctp_send_tx_queue"])

p("From one daemon's command line to the clients of another, over a serial line",
  "Start mctp-demux-daemon at both ends of a serial line, each with the binding serial, a device and any documented options. The messages that arrive at one from the line are exactly those that clients of the other sent to its EID (or the null or broadcast EID) and that have 1 to 65536 bytes: a first part of them at any time, all of them once it has been given all bytes that were written and has not ended with an error; each once, in order, unchanged, with the EID given on the other's command line (8 by default). Messages to other EIDs and messages that are too long have no effect on the rest. Each message that arrives is sent to the clients of that type and to nobody else. With --capture-binding at both ends, the incoming packets in one file are the outgoing packets in the other.",
  "every pair of command lines (in the forms that work), every history of the clients of both daemons, every division of the byte stream into reads, every interleaving, messages of any size", "unbounded histories of two processes, all command lines",
  ["utils/mctp-demux-daemon.c:main", "utils/mctp-demux-daemon.c:run_daemon", "utils/mctp-demux-daemon.c:binding_serial_process", "utils/mctp-demux-daemon.c:client_process_recv", "serial.c:mctp_serial_read", "serial.c:mctp_binding_serial_tx", "core.c:mctp_msg_ctx_add_pkt", "core.c:mctp_bus_rx"])

p("Closing the BMC's binding loses no accepted packet",
  "When the BMC's application closes its astlpc binding (mctp_unregister_bus, mctp_astlpc_destroy) while the channel is up, every packet that the binding has accepted for transmission (its transmit function returned 0) still reaches a host that keeps polling.",
  "every history of both sides up to the closing, every moment at which the binding is closed, any number of later polls of the host", "all interleavings of two processors, and all later histories of one of them",
  ["astlpc.c:mctp_astlpc_destroy", "astlpc.c:mctp_astlpc_kcs_set_status", "astlpc.c:mctp_astlpc_kcs_send", "astlpc.c:mctp_astlpc_poll", "core.c:mctp_unregister_bus"])

p("A BMC without a channel receives nothing",
  "As long as the host has not asked for a channel, or after the BMC has refused it (negotiated version 0, Channel-Active clear) until the host asks again, polling an astlpc binding in BMC mode hands no packet to the core and delivers no message, whatever the host writes to the registers and the window.",
  "every device behaviour, every history of sends and polls, any number of later polls", "unbounded histories; arbitrary behaviour of the other side",
  ["astlpc.c:mctp_astlpc_init_channel", "astlpc.c:mctp_astlpc_negotiate_layout_bmc", "astlpc.c:mctp_astlpc_poll", "astlpc.c:mctp_astlpc_rx_start"])

p("A host without an active channel receives nothing",
  "As long as no status that an astlpc binding in host mode has read shows Channel-Active, polling it hands no packet to the core and delivers no message, whatever the BMC writes to the data register and the window.",
  "every device behaviour (that does not send the host the command 0), every history of sends and polls", "unbounded histories; arbitrary behaviour of the other side",
  ["astlpc.c:mctp_astlpc_update_channel", "astlpc.c:mctp_astlpc_finalise_channel", "astlpc.c:mctp_astlpc_poll", "astlpc.c:mctp_astlpc_rx_start"])

p("Each side writes only what is its own",
  "After its registration an astlpc binding writes only what belongs to its side: in host mode never the status register, and in the window's header only the host's versions and the size of the host's receive buffer; in BMC mode, in the header, only the negotiated version and, in answer to the host, the layout. Everything else it writes to the window is behind the first 256 bytes (and, by C53, in its transmit buffer).",
  "every device behaviour, every history of sends and polls, both modes", "unbounded histories; arbitrary behaviour of the other side",
  ["astlpc.c:mctp_astlpc_init_host", "astlpc.c:mctp_astlpc_init_channel", "astlpc.c:mctp_astlpc_layout_write", "astlpc.c:mctp_astlpc_poll"])

p("An endpoint writes only what the protocol defines",
  "After its registration an astlpc binding writes to the data register only transmit-begin, receive-complete, in host mode the request for a channel (0) and in BMC mode the dummy value (255); to the status register only BMC-ready with the output-full bit, with or without Channel-Active; and as versions only 1 and 3 for the host's and 0 to 3 for the negotiated one.",
  "every device behaviour, every history of sends and polls, both modes", "unbounded histories; arbitrary behaviour of the other side",
  ["astlpc.c:mctp_astlpc_kcs_send", "astlpc.c:mctp_astlpc_kcs_set_status", "astlpc.c:mctp_astlpc_init_host", "astlpc.c:mctp_astlpc_init_channel"])

with open("/verif/properties.jsonl","w") as f:
    for q in P: f.write(json.dumps(q)+"\n")
print(len(P))
for q in P: print(q["id"], q["title"])
