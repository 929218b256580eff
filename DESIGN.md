# Formal model of openbmc/libmctp in Lean 4 — design

## Layout

| Directory / file | Contents |
|---|---|
| `lean/Verif/Model/*.lean`  | the executable model, function by function, every definition citing `/repo` file:lines |
| `lean/Verif/Spec/*.lean`   | small independent specifications the property theorems are stated against |
| `lean/Verif/Proofs/*.lean` | helper lemmas, invariants, refinements |
| `lean/Verif/Props/*.lean`  | the property theorems (one file per area), with concrete non-trivial cases beside them (`Demo`, `AstDemo`, `LinkDemo` build the states they use) |
| `properties.jsonl`, `MANIFEST.json` | the property list and the claim for each (generated by `tools/gen_props.py`, `tools/gen_manifest.py`) |
| `seeded/LOG.jsonl` | seeded-bug experiments: the edited definition, the claim it breaks, the theorems that failed, the theorems tightened |

## Modelling decisions

* Bytes are `BitVec 8`, CRC registers `BitVec 16/32`; `uint32_t` sizes of the astlpc binding are `Nat`
  with an explicit `% 2^32` after every operation that can wrap; `size_t` is `Nat`, with explicit `% 2^64`
  where the C code's result depends on wrap-around (packet-buffer push check, `MCTP_BODY_SIZE`).
* Undefined behaviour and failed assertions are distinct outcomes (`Fault`), never assumed away:
  functions return `Except Fault _`.  Faults: null dereference, use after free, double free,
  out-of-bounds access, failed `assert`, a loop that does not end.
* The allocator is explicit: a ledger of live allocation ids and an arbitrary oracle saying which
  allocation succeeds.  Freshly allocated memory has arbitrary contents (a `fill` function).
* Hardware bindings are a parameter of the core: `tx` is an arbitrary function of the binding state and the
  packet buffer to (new state, new packet buffer, return code, "called set_tx_enabled(false)").
  The serial and astlpc bindings are instances, modelled function by function.
* Callbacks are events in the output trace.
* The environment of a binding is an arbitrary state machine: the results of `write` for serial, the four
  accessors (`Hw E`) for astlpc.  Theorems about one side hold against every environment.
* Two sides of the LPC link (`Spec/Link.lean`): one KCS device and one window shared by a BMC and a host that
  both run the model of astlpc.c.  Granularity: every single accessor call (one KCS register access, one block
  read or write of the window) is one atomic step, and all interleavings of the two sides' steps are covered; this is
  done by giving each side an arbitrary environment that may act between any two of its accesses, and closing
  the loop with a rely/guarantee argument (`Proofs/Link*.lean`).  Block accesses to the window are atomic;
  interleavings inside one `memcpy` are not covered, but `C54_no_race` shows that no block access of one side
  ever overlaps a buffer the other side may access at the same time.
* The daemon runs against an arbitrary operating system (`Net W`): every result of every system call is free,
  every call is recorded.

## Per property: what is modelled and how it is proved

"False" below means: the unchanged code violates the property; the negation is proved on a concrete witness
(or for all states) and the remaining part is proved with the suffix `_partial`.

* C01–C15 (receive path): `core.c` receive path over a 16-slot context table with the real buffer-growth policy;
  abstraction map from the table to `Key → Option Assembly`; refinement to the per-stream reassembler of
  `Spec/Reassembler.lean`; induction over histories of API calls.  C04 (null source leaks), C05 (tag owner is not in
  the key; `C05_in_turn_partial` proves what holds without interleaving), C12 (limits that are not 4096·2^k) are
  false.
* C16, C17: decision logic of `mctp_rx`; C17 false (swapped arguments).
* C18–C21 (fragmentation): induction over the message; C21 false without a bus.
* C22–C25 (queue, gating, capture): refinement to the ideal transmitter of `Spec/Transmit.lean`, for an arbitrary
  binding, by induction over histories.
* C26, C27 (bridge): refinement to `Spec/Bridge.lean`; C27 false (one context table for both busses).
* C28–C32 (memory): ledger invariant (live allocations = exactly those reachable from the state).  C28 states the
  preconditions of the calls (`Contract`); C29–C31 false.
* C33, C34 (packet buffers): functions with `size_t` wrap-around; false at the edges.
* C35–C37 (checksums): table = polynomial (whole table by kernel `decide`), linearity, bijectivity of steps.
* C38–C47 (serial): round trip by induction over the packet; soundness by an invariant relating the receiver
  state to the suffix of the consumed stream; C44 false (leak on invalid frames); C47 combines the framing round
  trip, the transmitter refinement and the reassembler refinement for two endpoints and every schedule of
  sends, partial writes and reads.
* C48–C64, C73 (astlpc): each side against an arbitrary environment (`Props/Astlpc*.lean`); C51, C54, C55 for two
  sides together (`Props/Link.lean`).  C50, C52, C57, C58, C61, C62, C73 false at the points named in the manifest.
* C65–C68, C74–C78 (mctp-demux-daemon.c): induction over the iterations of the daemon's main loop, with an arbitrary
  operating system; C65, C66, C68, C76, C77, C78 false.
* C69, C70 (mctp-capture.c): byte layout of the records; C69 false (trailing uninitialised byte).
* C71, C72 (alloc.c, log.c): dispatch logic.

* C79 (linked list): a second, pointer-level model of the transmit queue (`Model/TxQueue.lean`), refined to the list used
  everywhere else.
* C80 (negotiated sizes, `Props/Astlpc6.lean`): invariant over all histories of one side that ties the packet size, the
  buffer sizes and the header read last; false with version 1.
* C81 (messages over the LPC link, `Props/LinkMsg.lean`): C55 (packets cross exactly once, in order), the accounting of
  accepted messages by the transmitter (`Proofs/AstSend.lean`), and the reassembler refinement for the receiving side
  (`Proofs/AstRecv.lean`), for every interleaving.
* C82 (calls in callbacks, `Props/Reentrant.lean`): `Model/Reentrant.lean` runs a script of calls inside the callback, before
  the packet buffer or the context is released; commutation of each call with the release (`Proofs/Reentrant.lean`) gives
  the run in which the calls come afterwards, and from it a flat history.
* C83 (responder): C82 and the ideal transmitter of C22 on the flat history.
* C84 (receiving in a callback): witnesses against it; reception commutes with the release of a packet buffer
  (`Proofs/Reentrant2.lean`), so it holds for messages of one packet.  For a message of several packets: packets of other
  streams neither use nor move its context, so their reception is the same whatever message the context holds
  (`Proofs/Reentrant3.lean`), and refines the ideal reassembler with the message not yet complete (`Proofs/Reentrant4.lean`);
  that the order does not matter is shown on the ideal reassembler (`Props/ReenterMulti.lean`).  Together they give the
  property for whole histories in which every callback receives packets (`Props/ReenterHist.lean`).
* C85 (sending inside a binding's `tx`, `Model/TxReenter.lean`, `Props/TxReenter.lean`): witness against it on the linked
  list; refinement to a list of the case in which the binding has disabled transmission.
* C86–C90 (device files, `Model/FileIo.lean`, `Props/FileIo.lean`): the operating system is an oracle for the results of the
  calls with a ledger of descriptors and mappings; case analysis over the failure points; C88 from C53 (bounds of every
  access of every history) and the placement of the window in the mapping; C89 from the view of one poll.
* C91 (failed registration, `Model/Detached.lean`, `Props/Detached.lean`): inversion of `registerBus`; an invariant of the
  polls of a binding without a bus; every poll that reads the command 0 crashes.
* C92 (short transfers, `Props/FileAccess.lean`): evaluation of a poll of a reachable endpoint with arbitrary results of
  `pread` and `pwrite`.
* C93 (progress on the link, `Props/LinkLive.lean`): the joint invariant of C54/C55, a count of the register accesses
  (each write is paid for by a packet or by the handshake, each read by a write: at most 4 per packet and 14 in all,
  `Proofs/LinkCount.lean`), and the fact that a round without register accesses finds both sides with nothing to do
  (`Proofs/LinkLive.lean`); by the pigeonhole principle there is such a round.
* C94 (does the channel come up, `Props/LinkUp.lean`): refuted for the host by an execution that can be prolonged for ever
  (induction over the number of rounds; the two endpoints are concrete); what holds is proved from the quiet round of C93: with
  empty registers and both sides between their polls the joint invariant leaves only the state in which both have opened the
  channel, and a host that has not seen the channel-active bit has received nothing (`Deaf`, an invariant of the link).

* C95, C96 (`mctp-pipe`, `mctp-in`; `Model/Tools.lean`, `Props/Tools.lean`): the programs run the model of the serial binding; an
  invariant relates each state to a history of the two endpoints, so that C47 applies; for C95 the bytes in flight are counted
  (a read of 1024 bytes becomes at least 1184 bytes on the socket, at most 1024 are read back).

* C97, C98 (`main` of the daemon; `Model/DaemonMain.lean`, `Props/DaemonMain.lean`): the results of the start-up calls are inputs; the
  paths are enumerated with the gotos of the code, the loop is that of C74 with the wake-ups that end it, and the
  invariants of C74 are carried from `mctp_init` to the clean-up.
* C100 (`binding_astlpc_destroy`): the same paths; the state of the binding outlives its bus, and its log of device accesses ends with
  the farewell.
* C99 (command line; `Spec/CommandLine.lean`, `Props/CommandLine.lean`): induction over the words of the command line, with a model of
  `getopt_long`.
* C101 (`rx_message` and everything that calls it): the record of the daemon's system calls gets a ghost entry for every call of `rx_message`. `Spec.Relay` is an acceptor of records
  with a table of clients (connected descriptors and types, computed from the record only): every arrival must be followed at once by the sends due for
  it. Proved for every run by decomposing it into elementary steps (`Move`), each of which keeps the acceptor and the table in step with the daemon's array.
* C102: the daemon's core is an endpoint with a serial history (`LInv`: its sends are the clients' messages, its input the bytes read, its events the
  daemon's), so C47 applies to the two cores and C101 to what happens next.

* C103 (`--capture-socket`): `captureClients` replays the calls of `capture_socket` on the record of the daemon; induction over the record. Refuted for the other direction.
* C104: as C102, with `BInv` (the core of the daemon has an astlpc history whose accepted sends are the clients' messages but for the first `k`, and `k` does not grow once the
  channel is set up), so C81 applies to the two sides and C101 to what happens next.
* C105: `Captured` and `OnBus` are invariants of every operation of a core (`Proofs/DaemonWire.lean`): every packet offered is captured first, every packet accepted by
  `mctp_bus_rx` is captured; with C63/C43 (bytes written are the frames offered, packets received are the frames read) this relates file and line.
* C106: `processMain` (`Model/DaemonProcess.lean`) joins command line, table of bindings and `daemonMain`. Without a bus the core is constant along `Moves`; then C101.
* C107: by cases on the binding; serial with the invariants of C102/C105, astlpc with C98 and C100.
* C108: an invariant of a round (`Rnd`: exactly the clients that failed and are connected are marked, and if there are any the flag for the removal
  pass is set), through every part of the loop; the exceptions by witnesses, one of them of any length.
* C109: `astRun_captured` (the events of a history with a handler are those of the history with the required captures inserted), through the small steps of a poll (`Chunk`);
  with C55 and C81, and for the daemon with `BInv`.  That no packet of 4 bytes is lost from the captures follows from the sender: packets of messages have a content.
* C110 (`Model/Detached.lean`, `Proofs/Ghost.lean`, `Proofs/Retry.lean`, `Props/Retry.lean`): the start of a binding left behind by failed
  attempts equals the first start but for the recorded accesses (`astStart_tried`), and every function of core and binding commutes with
  putting recorded accesses in front of the log (`Core.astRun_relog`): the log is a ghost.
* C111: `processMain` of a command line with `astlpc` is reduced to the loop of the daemon (`astProcess`: settings, endpoint, farewell), to which C104, C109 and C101 apply. When
  messages are accepted is made visible on the link: `AstEndpoint.begun_iff`, the bus of a BMC has left its initial state exactly if the BMC has written an active channel to the status register
  (invariant `Unopened`/`Opened` over all polls and calls, `Proofs/AstActive.lean`).
* C112: while the clients send nothing to other EIDs, every step of the daemon's loop either leaves the core alone or is one `mctp_astlpc_poll` (`NInv.quiet_moves`), so the daemon's core has a
  history that ends with polls, one for each wake-up that reports the device (`loop_moves`, `wakeInputs`); a wake-up in the trace (`WholeWake`) is then a whole poll in the sense of C93 (`WholePoll`), and C93 gives the
  bound. The first `k` messages are those of C111. The demo (`LiveDemo`) runs the process and the host over 23 rounds.
* C113: the two processes are reduced to their loops (`serialProcess`) and these to endpoints with serial histories as in C102. All messages are covered: `Proofs/RoundTripAll.lean` adds to the round trip of
  C47 that packets for others leave the reassembly alone, and that a message over the limit leaves no stream open; the size policy is the exact one of C03 (the packets on a serial line are short).
* C81, C93, C104, C111 without conditions on the messages (`Props/LinkAll.lean`): `Proofs/AstMsgAll.lean` does for the LPC link what `RoundTripAll` does for the serial line; packets of at most 4096
  bytes make the exact size policy of C03 apply.
* C114 (`Props/LinkClose.lean`): false. A concrete execution on the hardware of C55 in which the BMC closes its binding with a command unread, followed by `n` polls of the host, `n` arbitrary
  (induction on an idle state of the host); and, for every history, a partial theorem from C55 and the memory invariant (the bus array can be freed).
* C115 (`Props/AstQuiet.lean`): false for a refusal because of the layout (`C115_refuted`, a concrete device script). Proved for the other cases
  by an invariant of the BMC's state (receive buffer idle, or version 0) that every step keeps that does not read the command 0 (`Proofs/AstMute.lean`).
* C116 (`Props/AstQuiet.lean`): false (`C116_refuted`, a concrete device script). Proved: the receive buffer stays idle until the negotiated version has been
  read (`Proofs/AstMuteHost.lean`).
* C117 (`Spec/AstOwn.lean`, `Proofs/AstOwn.lean`, `Props/AstOwnership.lean`): the new part of the access trace of every function satisfies `OwnWrite mode`, and this is composed
  along the poll and the history. `C117_bmc` (in full); `C117_host_partial` (a host that has not read the command 0); `C117_refuted` (a host that has).
* C118 (same files): the same induction with `DefinedWrite mode`; the predicate that is carried is the conjunction (`Proper`). `C118_bmc` (in full), `C118_host_partial`, `C118_refuted`.

No property of the list is `not_applicable`.

## Which parts of the code are modelled

| Source | Modelled | Not modelled |
|---|---|---|
| `core.c` | all functions | log messages; user cookies; calls from inside a callback other than those of `Model/Reentrant.lean` (sending, settings, receiving) |
| `alloc.c`, `log.c`, `crc32.c`, `crc-16-ccitt.c` | all functions | the formatting of the text (`vsyslog`, `vprintf`) |
| `serial.c` | framing, receive state machine, transmit, read, start, init, destroy, device files | `init_pollfd` (constant); debug output; build option `MCTP_NODEBUG` |
| `astlpc.c` | every function | debug output |
| `libmctp.h`, `libmctp-cmds.h`, `range.h` | constants, header layout | – |
| `utils/mctp-demux-daemon.c` | all: command line, start-up, client table, socket processing, main loop, forwarding, clean-up | messages on stderr, failing allocations of the arrays |
| `utils/mctp-capture.c` | record layout of both capture functions | libpcap itself (its calls are recorded) |
| `utils/mctp-in.c`, `mctp-pipe.c` | all functions | messages on stderr; results of `write` on stdout |
| `utils/mctp-astlpc-daemon.c` | – | does not match the current API (calls functions that no longer exist), cannot be built |
| `utils/mctp-test-client.c` | – | the file is empty |
| `tests/` | – | – |

Interrupt-style concurrency inside one process does not exist: the library is single threaded.

## Preconditions ("contracts") used by theorems

* `Contract` (`Proofs/MemInv.lean`; C28 and the refinements): the binding's `tx` does not itself fault on the packets
  the core makes, given an invariant `I` of the binding that it preserves, and (field `T`) a condition that only has to
  hold while transmission is enabled.  Every total `tx` satisfies it (`Contract.ofTotal`), and so do the serial and
  astlpc bindings.  Calls: the binding's packet size is at least the header plus one byte, sizes do not overflow
  `size_t`, received packets fit the buffer the binding allocates.
* C38–C47: the write function makes progress or fails; allocations succeed where stated.
* C51, C54, C55: accessors do not fail on the link; host's allocations succeed; both sides start from reset; block
  accesses are atomic.
* C75: `accept()` never returns a descriptor that is open already.

## Findings in the code (all proved in the model)

1. core.c:462 passes tag owner and tag to `control_rx` in swapped order (C17).
2. core.c: null-source packets with a known tag can be delivered with parts of other messages (C04); the tag-owner bit
   is not part of the context key (C05); the bus is not part of it either (C27); contexts survive a single-packet
   message with the same key.
3. core.c:235-276: size limits that are not 4096·2^k are not usable in full, and limits below 4096 refuse every
   multi-packet message (C12).
4. core.c:246-256: when growing a message buffer fails, the old buffer is freed twice or used after free (C30).
5. core.c: `mctp_message_tx` dereferences NULL when an allocation fails; registration with a failed allocation
   leaves an unusable core (C31); `mctp_unregister_bus` followed by `mctp_destroy` frees twice (C29); without a
   registered bus `mctp_message_tx` reports success (C21); `mctp_bridge_busses` leaves the busses registered when a start
   fails.
6. core.c: `mctp_pktbuf_push` accepts lengths that overflow `size_t` (C33); `mctp_pktbuf_alloc` reports space that a
   binding with header space does not have (C34).
7. serial.c: every invalid frame leaks its packet buffer (C44); a write function that returns 0 for ever makes the call
   loop for ever (C45); frames longer than the buffer are truncated without an error (C46).
8. astlpc.c: duplicated packets after KCS failures (C57); buffers not handed back after an invalid length (C58) or a
   failed allocation; loss of BMC-ready unnoticed (C61, C62); the process aborts for MTUs near 2^32 (C50); a host asking for
   more than the BMC offers is never registered (C52); a misbehaving BMC crashes a host (C73).
9. mctp-demux-daemon.c: type-0 messages go to unregistered clients (C65); removal skips clients (C66); stale poll array
   (C68, C76); clients that leave before registering are never closed and keep the daemon spinning until
   another client connects or fails (C77, C108); one failing `accept()` ends the daemon
   (C78); uninitialised variable `removed`.
10. mctp-capture.c: an uninitialised byte in each socket record (C69).
11. Device files: `mctp_astlpc_init_fileio` leaks the mapping when the KCS device cannot be opened and frees with the wrong
    allocator; neither destroy function closes or unmaps anything (C86, C90); reserved memory of less than 1 MiB puts the
    window before the mapping (C88); a packet of the host does not wake a program that waits for POLLOUT (C89);
    `mctp_serial_open_path` reports success when it fails, `mctp_serial_init` does not check its allocation (C90).
12. `mctp-demux-daemon` ignores the result of `mctp_register_bus` and polls the binding all the same; the first request of
    the host for a channel then dereferences NULL (C91).  A host that polls a binding whose registration found no BMC dereferences
    the NULL `proto` at the first byte the BMC sends (C91_host_crash); it has to register again instead, which is sound (C110).
13. astlpc.c: a host that reads the status before, and the data register after the BMC has set up the channel opens it with the
    old status and refuses messages until the BMC sends something (C94).
14. utils/mctp-pipe.c: the program deadlocks with itself on a long input that is always ready (C95).
15. mctp-demux-daemon.c: `-e N` crashes (`atoi(NULL)`), `-s FILE` ignores FILE and takes it for the binding's name, and EIDs above
   255 are accepted (C99); without memory for the bus the daemon starts and crashes at the first message (C97).
16. mctp-demux-daemon.c: the socket capture has only the messages from clients, not those to them (C103).
17. `mctp_astlpc_kcs_set_status` writes the dummy value to the output register without looking whether the host has read
    the command there: a packet whose transmit function returned 0 is lost if the BMC closes the binding before the host
    reads the register (C114); so is one that is on its way when the host initialises the channel again.
18. A BMC that refuses the layout a host asks for keeps the negotiated protocol version and hands the receive buffer over, so
    that it goes on receiving packets on the channel it has just declared inactive (C115); after a refusal for lack of a common version it does not.
19. A host takes the negotiated version it finds in the header for an established channel, as far as receiving is concerned: it does so
    whenever it has no version or Channel-Active has changed, also from set to clear, and whatever the bit says (C116).
20. A host does not look at its mode when it reads the command 0: it runs the BMC's channel initialisation, and overwrites the negotiated
    version and the status register, which are the BMC's (C117, C118); with compatible versions in the header an assertion fails (C73).

## Trusted base

* Lean 4.33.0's kernel.
* Axioms: every theorem listed in MANIFEST.json depends on at most `propext`, `Classical.choice`, `Quot.sound` (`vcheck`
  reports them per theorem; no axiom is declared in this project, no `native_decide`, no `bv_decide`).
* Mathlib: only where a file imports a single module of it (checksums: polynomials over GF(2)); all of it is checked by the same kernel.
* The reading of the C sources recorded in the citations: nothing here executes or parses the C code.  The places where
  the model simplifies are named in the comments of the definitions.
* The C implementation (compiler, `int`/`size_t` widths of a 64-bit target, little-endian or big-endian hosts via the
  `htobe32`/`be32toh` calls, which are modelled as big-endian byte lists).
