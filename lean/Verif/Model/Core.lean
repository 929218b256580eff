import Verif.Model.Pktbuf

/-!
# The MCTP core (core.c)

One definition per C function.  `β` is the type of binding-private state; `Ops β` is the binding's
function table.  Callback invocations are recorded as `Event`s, in order.

Not modelled: logging, the user `void *` cookies, and re-entrant calls into the core from a binding's `tx` (other than
`mctp_binding_set_tx_enabled(b, false)`).  Calls from the callbacks are in `Reentrant.lean`.
-/

namespace Mctp

/-- core.c:23-27 `enum mctp_bus_state`. -/
inductive BusState
  | constructed
  | txEnabled
  | txDisabled
  deriving DecidableEq, Repr

/-- libmctp.h:121-133 `struct mctp_binding` (data members) together with the binding's containing
structure `st` (what `container_of` recovers).  `controlRx` says whether `control_rx != NULL`. -/
structure Binding (β : Type) where
  version    : Byte
  pktSize    : Nat
  pktHeader  : Nat
  pktTrailer : Nat
  controlRx  : Bool
  st         : β

/-- What a call of the binding's `tx` (libmctp.h:114-120,130) did: its private state, the packet
buffer (astlpc appends a checksum to it), the return code, and whether it called
`mctp_binding_set_tx_enabled(b, false)` on itself (as astlpc does).  (The buffer is the same object:
the `id` of `pkt` is ignored.) -/
structure TxOut (β : Type) where
  st        : β
  pkt       : Pktbuf
  rc        : Int
  disableTx : Bool

/-- What a call of the binding's `start` did: the binding afterwards, the return code and whether it
called `mctp_binding_set_tx_enabled(b, true)` (as serial does). -/
structure StartOut (β : Type) where
  binding  : Binding β
  rc       : Int
  enableTx : Bool

/-- Function pointers of `struct mctp_binding` (libmctp.h:129-130). -/
structure Ops (β : Type) where
  start : Option (Binding β → Res (StartOut β))
  tx    : Binding β → Pktbuf → Res (TxOut β)

/-- core.c:29-38 `struct mctp_bus`.  The linked list `tx_queue_head .. tx_queue_tail` is the list
`queue`, oldest first. -/
structure Bus (β : Type) where
  eid     : Byte
  binding : Binding β
  state   : BusState
  queue   : List Pktbuf

/-- core.c:40-49 `struct mctp_msg_ctx`.  `data` is the first `buf_size` bytes of the storage at
`buf`, so `buf_size = data.length`. -/
structure Ctx where
  src       : Byte
  dest      : Byte
  tag       : Byte
  lastSeq   : Byte
  buf       : Option Nat
  data      : List Byte
  allocSize : Nat
  fragSize  : Nat
  deriving DecidableEq, Repr

/-- core.c:288 all contexts zeroed by `memset`. -/
def Ctx.zero : Ctx :=
  { src := 0, dest := 0, tag := 0, lastSeq := 0, buf := none, data := [], allocSize := 0,
    fragSize := 0 }

/-- core.c:51-73 `struct mctp`. `bridge` is `route_policy == ROUTE_BRIDGE`; `hasRx`/`hasCapture` say
whether the callbacks are set. `mem`/`fill` are the environment's allocator and the contents of fresh
memory; `self` is the allocation holding the structure. -/
structure Core (β : Type) where
  mem        : Mem
  fill       : Nat → Byte
  self       : Nat
  nBusses    : Nat
  bussesPtr  : Option Nat
  busses     : List (Bus β)
  hasRx      : Bool
  hasCapture : Bool
  ctxs       : List Ctx
  bridge     : Bool
  maxSize    : Nat

/-- Observable effects: callback invocations (with the values of the callback's parameters) and the
calls that cross the interface between the core and the bindings. -/
inductive Event
  /-- a binding handed this packet of bus `bus` to `mctp_bus_rx` -/
  | recv (bus : Nat) (pkt : List Byte)
  /-- `message_rx(src_eid, tag_owner, msg_tag, _, msg, len)` -/
  | rxMsg (src : Byte) (tagOwner : Bool) (tag : Byte) (msg : List Byte)
  /-- `control_rx` of bus `bus`, parameters named as in `mctp_rx_fn` (libmctp.h:104-105) -/
  | ctrlRx (bus : Nat) (src : Byte) (tagOwner : Bool) (tag : Byte) (msg : List Byte)
  /-- the capture callback with the packet bytes -/
  | capture (outgoing : Bool) (pkt : List Byte)
  /-- `binding->tx` of bus `bus` was called with this packet and returned `rc`; `off`: during the call
  it called `mctp_binding_set_tx_enabled(b, false)` -/
  | tx (bus : Nat) (pkt : List Byte) (rc : Int) (off : Bool)
  deriving DecidableEq, Repr

variable {β : Type}

/-! ## Message contexts -/

/-- core.c:183-197 `mctp_msg_ctx_lookup`: index of the first matching slot. -/
def ctxLookup (ctxs : List Ctx) (src dest tag : Byte) : Option Nat :=
  ctxs.findIdx? fun c => c.src == src && c.dest == dest && c.tag == tag

/-- core.c:199-222 `mctp_msg_ctx_create`: the first slot with `src == 0` is taken. -/
def ctxCreate (ctxs : List Ctx) (src dest tag : Byte) : Option (Nat × List Ctx) :=
  match ctxs.findIdx? fun c => c.src == 0 with
  | none => none
  | some i =>
    some (i, ctxs.modify i fun c => { c with src := src, dest := dest, tag := tag, data := [] })

/-- core.c:224-227 `mctp_msg_ctx_drop`. -/
def Ctx.drop (c : Ctx) : Ctx := { c with src := 0 }

/-- core.c:229-233 `mctp_msg_ctx_reset`. -/
def Ctx.reset (c : Ctx) : Ctx := { c with data := [], fragSize := 0 }

/-- core.c:246-256: the new allocation size wanted for `len` more bytes. -/
def newAllocSize (allocSize bufSize len : Nat) : Nat :=
  if allocSize = 0 then max len 4096 else max (allocSize * 2) (len + bufSize)

/-- core.c:272-275: copy the packet's payload behind the data already collected. The payload is read
at `mctp_pktbuf_data(pkt)` (core.c:131-134), the destination must be live storage with room. -/
def ctxAppend (mem : Mem) (c : Ctx) (pkt : Pktbuf) (len : Nat) : Res Ctx :=
  match pkt.read (pkt.hdrOff + hdrSize) len with
  | .error e => .error e
  | .ok payload =>
    match mem.deref c.buf with
    | .error e => .error e
    | .ok _ =>
      if c.data.length + len ≤ c.allocSize then .ok { c with data := c.data ++ payload }
      else .error .outOfBounds

/-- core.c:235-276 `mctp_msg_ctx_add_pkt`; the Boolean is `rc == 0`.  Natural numbers are used for
`size_t`; the explicit overflow check of line 242 is "the sum reaches 2^64".  On a failed `realloc`
the old block is freed but `ctx->buf` and `buf_alloc_size` keep their values (lines 266-269). -/
def ctxAddPkt (mem : Mem) (c : Ctx) (pkt : Pktbuf) (maxSize : Nat) : Res (Mem × Ctx × Bool) :=
  let len := pkt.len - hdrSize
  if len + c.data.length ≥ sizeMod then .ok (mem, c, false)
  else if c.data.length + len > c.allocSize then
    let n := newAllocSize c.allocSize c.data.length len
    if n > maxSize then .ok (mem, c, false)
    else
      match mem.realloc c.buf with
      | .error e => .error e
      | .ok (some b, mem1) =>
        match ctxAppend mem1 { c with buf := some b, allocSize := n } pkt len with
        | .error e => .error e
        | .ok c' => .ok (mem1, c', true)
      | .ok (none, mem1) =>
        match mem1.free c.buf with
        | .error e => .error e
        | .ok mem2 => .ok (mem2, c, false)
  else
    match ctxAppend mem c pkt len with
    | .error e => .error e
    | .ok c' => .ok (mem, c', true)

/-! ## Life cycle -/

/-- core.c:88-90. -/
def defaultMaxMessageSize : Nat := 65536

/-- core.c:66: number of reassembly contexts. -/
def nCtxs : Nat := 16

/-- core.c:279-292 `mctp_init`. -/
def Core.init (β : Type) (mem : Mem) (fill : Nat → Byte) : Option (Core β) :=
  match mem.alloc with
  | (none, _) => none
  | (some id, mem') =>
    some { mem := mem', fill := fill, self := id, nBusses := 0, bussesPtr := none, busses := [],
           hasRx := false, hasCapture := false, ctxs := List.replicate nCtxs Ctx.zero,
           bridge := false, maxSize := defaultMaxMessageSize }

/-- core.c:294-297 `mctp_set_max_message_size`. -/
def Core.setMaxMessageSize (c : Core β) (n : Nat) : Core β := { c with maxSize := n }

/-- core.c:299-303 `mctp_set_capture_handler` (`on`: a non-NULL handler). -/
def Core.setCapture (c : Core β) (on : Bool) : Core β := { c with hasCapture := on }

/-- core.c:334-339 `mctp_set_rx_all` (`on`: a non-NULL handler). -/
def Core.setRxAll (c : Core β) (on : Bool) : Core β := { c with hasRx := on }

/-- core.c:305-313 `mctp_bus_destroy`. -/
def freeQueue (mem : Mem) : List Pktbuf → Res Mem
  | [] => .ok mem
  | p :: rest => do
    let mem' ← pktbufFree mem p
    freeQueue mem' rest

/-- core.c:321-325: the context loop of `mctp_destroy`. -/
def freeCtxs (mem : Mem) : List Ctx → Res Mem
  | [] => .ok mem
  | c :: rest => do
    let mem' ← if c.buf.isSome then mem.free c.buf else .ok mem
    freeCtxs mem' rest

/-- core.c:327-328: the bus loop of `mctp_destroy`. -/
def freeBusses (mem : Mem) : List (Bus β) → Res Mem
  | [] => .ok mem
  | b :: rest => do
    let mem' ← freeQueue mem b.queue
    freeBusses mem' rest

/-- core.c:315-332 `mctp_destroy`.  The busses are visited last to first.  If `n_busses > 0` the bus
array is dereferenced. -/
def Core.destroy (c : Core β) : Res Mem := do
  let m1 ← freeCtxs c.mem c.ctxs
  if c.nBusses > 0 then m1.deref c.bussesPtr
  let m2 ← freeBusses m1 (c.busses.take c.nBusses).reverse
  let m3 ← m2.free c.bussesPtr
  m3.free (some c.self)

/-- Access to `mctp->busses[i]` / `binding->bus` for bus `i`: the pointer must be valid.
A binding that is not (or no longer) registered has `bus == NULL`. -/
def Core.busAt (c : Core β) (i : Nat) : Res (Bus β) :=
  if i < c.nBusses then
    match c.mem.deref c.bussesPtr with
    | .error e => .error e
    | .ok _ =>
      match c.busses[i]? with
      | some b => .ok b
      | none => .error .outOfBounds
  else .error .nullDeref

/-- Store back `mctp->busses[i]`. -/
def Core.setBus (c : Core β) (i : Nat) (b : Bus β) : Core β := { c with busses := c.busses.set i b }

/-! ## Transmit path -/

/-- core.c:698-728 `mctp_send_tx_queue` with core.c:684-696 `mctp_packet_tx` inlined: offer queued
packets to the binding until the queue is empty, transmission is not enabled, or the binding answers
something other than 0 / -EMSGSIZE.  The recursion is on the queue contents. -/
def sendQueue (ops : Ops β) (cap : Bool) (i : Nat) (mem : Mem) (bus : Bus β) :
    List Pktbuf → Res (Mem × Bus β × List Event)
  | [] => .ok (mem, { bus with queue := [] }, [])
  | pkt :: rest =>
    if bus.state ≠ .txEnabled then
      .ok (mem, { bus with queue := pkt :: rest }, [])
    else do
      mem.deref (some pkt.id)
      let out ← ops.tx bus.binding pkt
      let bus' : Bus β :=
        { bus with binding := { bus.binding with st := out.st },
                   state := if out.disableTx then .txDisabled else .txEnabled }
      let evs := (if cap then [Event.capture true pkt.bytes] else [])
                  ++ [Event.tx i pkt.bytes out.rc out.disableTx]
      if out.rc = 0 ∨ out.rc = -EMSGSIZE then
        let mem' ← pktbufFree mem pkt
        let (m, b, e) ← sendQueue ops cap i mem' bus' rest
        .ok (m, b, evs ++ e)
      else
        .ok (mem, { bus' with queue := { out.pkt with id := pkt.id } :: rest }, evs)

/-- `mctp_send_tx_queue` on bus `i` of the core. -/
def Core.sendTxQueue (ops : Ops β) (c : Core β) (i : Nat) : Res (Core β × List Event) := do
  let bus ← c.busAt i
  let (m, b, e) ← sendQueue ops c.hasCapture i c.mem bus bus.queue
  .ok ({ c with mem := m }.setBus i b, e)

/-- core.c:730-766 `mctp_binding_set_tx_enabled`. -/
def Core.setTxEnabled (ops : Ops β) (c : Core β) (i : Nat) (enable : Bool) :
    Res (Core β × List Event) := do
  let bus ← c.busAt i
  match bus.state with
  | .constructed =>
    if !enable then .ok (c, [])
    else if bus.binding.pktSize < packetSize btu then .ok (c, [])
    else .ok (c.setBus i { bus with state := .txEnabled }, [])
  | .txEnabled =>
    if enable then .ok (c, [])
    else .ok (c.setBus i { bus with state := .txDisabled }, [])
  | .txDisabled =>
    if !enable then .ok (c, [])
    else (c.setBus i { bus with state := .txEnabled }).sendTxQueue ops i

/-- libmctp.h:29-38 and core.c:809-817: the `flags_seq_tag` byte of packet number `i`. -/
def flagsSeqTag (tagOwner : Bool) (tag : Byte) (som eom : Bool) (i : Nat) : Byte :=
  ((if tagOwner then 1#8 else 0#8) <<< 3) ||| (tag <<< 0)
    ||| (if som then 0x80#8 else 0#8) ||| (if eom then 0x40#8 else 0#8)
    ||| ((BitVec.ofNat 8 (i % 4)) <<< 4)

/-- core.c:797-829: the packetisation loop of `mctp_message_tx_on_bus`; `p` bytes of `msg` are
already queued in `i` packets.  The first argument bounds the number of iterations (the loop runs at
most once per message byte, since `maxPayload` is at least 64, core.c:785-790; running out of it is
reported as a fault and proved impossible).  The `int i` of the C code is a natural number (the C code
overflows it after 2^31 packets).  A NULL result of `mctp_pktbuf_alloc` is dereferenced
(core.c:802-806). -/
def txLoop (fill : Nat → Byte) (b : Binding β) (src dest : Byte) (tagOwner : Bool) (tag : Byte)
    (maxPayload : Nat) (msg : List Byte) :
    Nat → Nat → Nat → Mem → List Pktbuf → Res (Mem × List Pktbuf)
  | 0, p, _, mem, queue => if p < msg.length then .error .assertFail else .ok (mem, queue)
  | fuel + 1, p, i, mem, queue =>
    if p < msg.length then
      let payloadLen := if msg.length - p > maxPayload then maxPayload else msg.length - p
      match pktbufAlloc mem fill b.pktSize b.pktHeader b.pktTrailer (payloadLen + hdrSize) with
      | (none, _) => .error .nullDeref
      | (some pkt, mem') =>
        let hdr : List Byte :=
          [b.version &&& 0xf, dest, src,
           flagsSeqTag tagOwner tag (i == 0) (decide (p + payloadLen ≥ msg.length)) i]
        match pkt.write pkt.hdrOff hdr with
        | .error e => .error e
        | .ok pkt1 =>
          match pkt1.write (pkt1.hdrOff + hdrSize) ((msg.drop p).take payloadLen) with
          | .error e => .error e
          | .ok pkt2 =>
            txLoop fill b src dest tagOwner tag maxPayload msg fuel (p + payloadLen) (i + 1) mem'
              (queue ++ [pkt2])
    else .ok (mem, queue)

/-- core.c:768-836 `mctp_message_tx_on_bus`. -/
def Core.messageTxOnBus (ops : Ops β) (c : Core β) (i : Nat) (src dest : Byte) (tagOwner : Bool)
    (tag : Byte) (msg : List Byte) : Res (Core β × List Event × Int) := do
  let bus ← c.busAt i
  if bus.state = .constructed then .ok (c, [], -ENXIO)
  else if tag &&& 0x7 ≠ tag then .ok (c, [], -EINVAL)
  else
    let maxPayload := bodySize bus.binding.pktSize
    if maxPayload < btu then .error .assertFail
    else do
      let (mem, q) ← txLoop c.fill bus.binding src dest tagOwner tag maxPayload msg
        msg.length 0 0 c.mem bus.queue
      let (c', e) ← ({ c with mem := mem }.setBus i { bus with queue := q }).sendTxQueue ops i
      .ok (c', e, 0)

/-- core.c:838-856 `mctp_message_tx` with core.c:341-350 `find_bus_for_eid` inlined. -/
def Core.messageTx (ops : Ops β) (c : Core β) (eid : Byte) (tagOwner : Bool) (tag : Byte)
    (msg : List Byte) : Res (Core β × List Event × Int) := do
  if tag &&& 0x7 ≠ tag then .ok (c, [], -EINVAL)
  else if c.nBusses = 0 then .ok (c, [], 0)
  else
    let bus ← c.busAt 0
    c.messageTxOnBus ops 0 bus.eid eid tagOwner tag msg

/-! ## Receive path -/

/-- core.c:476-480 `mctp_rx_dest_is_local`. -/
def destIsLocal (eid dest : Byte) : Bool :=
  dest == eid || dest == eidNull || dest == eidBroadcast

/-- core.c:482-486 `mctp_ctrl_cmd_is_request` and core.c:440-444 `mctp_ctrl_cmd_is_transport` on the
first bytes of the message (libmctp-cmds.h:16-21: type, rq/dgram/instance, command, completion). -/
def ctrlIsRequest (ty rq : Byte) : Bool := ty == 0 && (rq &&& 0x80 != 0)
def ctrlIsTransport (cmd : Byte) : Bool := decide (0xF0#8 ≤ cmd) && decide (cmd ≤ 0xFF#8)

/-- core.c:502-516 and 446-474: is the message consumed by the binding's control handler? -/
def ctrlHandled (hasHandler : Bool) (msg : List Byte) : Bool :=
  match msg with
  | ty :: rq :: cmd :: _ :: _ => ctrlIsRequest ty rq && ctrlIsTransport cmd && hasHandler
  | _ => false

/-- core.c:523-534: the bridge loop of `mctp_rx`, over the remaining bus indices. -/
def bridgeLoop (ops : Ops β) (inBus : Nat) (src dest : Byte) (tagOwner : Bool) (tag : Byte)
    (msg : List Byte) : List Nat → Core β → Res (Core β × List Event)
  | [], c => .ok (c, [])
  | j :: js, c =>
    if j = inBus then bridgeLoop ops inBus src dest tagOwner tag msg js c
    else do
      let (c1, e1, _) ← c.messageTxOnBus ops j src dest tagOwner tag msg
      let (c2, e2) ← bridgeLoop ops inBus src dest tagOwner tag msg js c1
      .ok (c2, e1 ++ e2)

/-- core.c:493-535 `mctp_rx`: route a complete message received on bus `i`.
The control handler is called as `control_rx(src, msg_tag, tag_owner, ...)` (core.c:462) although its
type is `(src_eid, tag_owner, msg_tag, ...)` (libmctp.h:104): its `tag_owner` parameter is
`msg_tag != 0` and its `msg_tag` parameter is the owner bit. -/
def Core.rx (ops : Ops β) (c : Core β) (i : Nat) (bus : Bus β) (src dest : Byte) (tagOwner : Bool)
    (tag : Byte) (msg : List Byte) : Res (Core β × List Event) :=
  if c.bridge then
    bridgeLoop ops i src dest tagOwner tag msg (List.range c.nBusses) c
  else if destIsLocal bus.eid dest then
    if ctrlHandled bus.binding.controlRx msg then
      .ok (c, [.ctrlRx i src (tag != 0) (if tagOwner then 1 else 0) msg])
    else if c.hasRx then .ok (c, [.rxMsg src tagOwner tag msg])
    else .ok (c, [])
  else .ok (c, [])

/-- Replace context `k`. -/
def Core.setCtx (c : Core β) (k : Nat) (x : Ctx) : Core β := { c with ctxs := c.ctxs.set k x }

/-- core.c:567-571: fields of `flags_seq_tag`. -/
def hdrSom (f : Byte) : Bool := f &&& 0x80 != 0
def hdrEom (f : Byte) : Bool := f &&& 0x40 != 0
def hdrTag (f : Byte) : Byte := (f >>> 0) &&& 0x7
def hdrSeq (f : Byte) : Byte := (f >>> 4) &&& 0x3
def hdrTO  (f : Byte) : Bool := (f >>> 3) &&& 0x1 != 0

/-- core.c:582-611: the start-of-message case. -/
def Core.rxSom (c : Core β) (pkt : Pktbuf) (src dest tag seq : Byte) : Res (Core β) := do
  let slot? :=
    match ctxLookup c.ctxs src dest tag with
    | some k => some (k, c.ctxs.modify k Ctx.reset)
    | none => ctxCreate c.ctxs src dest tag
  match slot? with
  | none => .ok c
  | some (k, ctxs) =>
    match ctxs[k]? with
    | none => .error .outOfBounds
    | some x =>
      let x := { x with fragSize := pkt.len }
      let (mem, x', ok) ← ctxAddPkt c.mem x pkt c.maxSize
      let x'' := if ok then { x' with lastSeq := seq } else x'.drop
      .ok ({ c with mem := mem, ctxs := ctxs.set k x'' })

/-- core.c:613-644: the end-of-message case. -/
def Core.rxEom (ops : Ops β) (c : Core β) (i : Nat) (bus : Bus β) (pkt : Pktbuf)
    (src dest tag seq : Byte) (tagOwner : Bool) : Res (Core β × List Event) := do
  match ctxLookup c.ctxs src dest tag with
  | none => .ok (c, [])
  | some k =>
    match c.ctxs[k]? with
    | none => .error .outOfBounds
    | some x =>
      if BitVec.ofNat 8 ((x.lastSeq.toNat + 1) % 4) ≠ seq then .ok (c.setCtx k x.drop, [])
      else if pkt.len > x.fragSize then .ok (c.setCtx k x.drop, [])
      else do
        let (mem, x', ok) ← ctxAddPkt c.mem x pkt c.maxSize
        let c1 := { c with mem := mem }.setCtx k x'
        if ok then do
          let (c2, e) ← c1.rx ops i bus x'.src x'.dest tagOwner tag x'.data
          .ok (c2.setCtx k x'.drop, e)
        else .ok (c1.setCtx k x'.drop, [])

/-- core.c:646-678: neither start nor end. -/
def Core.rxMid (c : Core β) (pkt : Pktbuf) (src dest tag seq : Byte) : Res (Core β) := do
  match ctxLookup c.ctxs src dest tag with
  | none => .ok c
  | some k =>
    match c.ctxs[k]? with
    | none => .error .outOfBounds
    | some x =>
      if BitVec.ofNat 8 ((x.lastSeq.toNat + 1) % 4) ≠ seq then .ok (c.setCtx k x.drop)
      else if pkt.len ≠ x.fragSize then .ok (c.setCtx k x.drop)
      else do
        let (mem, x', ok) ← ctxAddPkt c.mem x pkt c.maxSize
        let x'' := if ok then { x' with lastSeq := seq } else x'.drop
        .ok ({ c with mem := mem }.setCtx k x'')

/-- core.c:559-679: header parsing and dispatch on the start/end flags. -/
def Core.busRxBody (ops : Ops β) (c : Core β) (i : Nat) (bus : Bus β) (pkt : Pktbuf) :
    Res (Core β × List Event) := do
  let hdr ← pkt.read pkt.hdrOff hdrSize
  match hdr with
  | [_, dest, src, f] =>
    if !c.bridge && !destIsLocal bus.eid dest then .ok (c, [])
    else
      let tag := hdrTag f
      let seq := hdrSeq f
      match hdrSom f, hdrEom f with
      | true, true => do
        let len := pkt.«end» - pkt.hdrOff - hdrSize
        let msg ← pkt.read (pkt.hdrOff + hdrSize) len
        c.rx ops i bus src dest (hdrTO f) tag msg
      | true, false => do
        let c' ← c.rxSom pkt src dest tag seq
        .ok (c', [])
      | false, true => c.rxEom ops i bus pkt src dest tag seq (hdrTO f)
      | false, false => do
        let c' ← c.rxMid pkt src dest tag seq
        .ok (c', [])
  | _ => .error .outOfBounds

/-- core.c:537-682 `mctp_bus_rx` on bus `i`; takes ownership of `pkt` and frees it. -/
def Core.busRx (ops : Ops β) (c : Core β) (i : Nat) (pkt : Pktbuf) : Res (Core β × List Event) :=
  if c.nBusses ≤ i then .error .assertFail          -- assert(bus), core.c:549
  else do
    let bus ← c.busAt i
    c.mem.deref (some pkt.id)
    if pkt.len ≤ hdrSize then
      let mem ← pktbufFree c.mem pkt
      .ok ({ c with mem := mem }, [.recv i pkt.bytes])
    else
      let cap := if c.hasCapture then [Event.capture false pkt.bytes] else []
      let (c1, e) ← c.busRxBody ops i bus pkt
      let mem ← pktbufFree c1.mem pkt
      .ok ({ c1 with mem := mem }, .recv i pkt.bytes :: (cap ++ e))

/-! ## Bus registration -/

/-- `binding->start(binding)` on the bus just created: the start function may enable transmission
(core.c:735-749 in state `constructed`). -/
def startBus (ops : Ops β) (b : Bus β) : Res (Bus β × Int) :=
  match ops.start with
  | none => .ok (b, 0)
  | some f => do
    let out ← f b.binding
    let b' := { b with binding := out.binding }
    let b'' := if out.enableTx ∧ packetSize btu ≤ out.binding.pktSize
               then { b' with state := BusState.txEnabled } else b'
    .ok (b'', out.rc)

/-- core.c:352-384 `mctp_register_bus`.  Note that `n_busses` is set before the allocation is
checked. -/
def Core.registerBus (ops : Ops β) (c : Core β) (b : Binding β) (eid : Byte) :
    Res (Core β × Int) :=
  if c.nBusses ≠ 0 then .error .assertFail
  else
    match c.mem.alloc with
    | (none, mem) =>
      .ok ({ c with nBusses := 1, mem := mem, bussesPtr := none, busses := [] }, -ENOMEM)
    | (some id, mem) => do
      let bus : Bus β := { eid := eid, binding := b, state := .constructed, queue := [] }
      let (bus', rc) ← startBus ops bus
      if rc < 0 then
        let mem' ← mem.free (some id)
        .ok ({ c with mem := mem', nBusses := 0, bussesPtr := none, busses := [],
                      bridge := false }, rc)
      else
        .ok ({ c with mem := mem, nBusses := 1, bussesPtr := some id, busses := [bus'],
                      bridge := false }, rc)

/-- core.c:386-396 `mctp_unregister_bus`: the array is freed but `mctp->busses` keeps its value, and
packets still queued are not freed. -/
def Core.unregisterBus (c : Core β) : Res (Core β) := do
  let mem ← c.mem.free c.bussesPtr
  .ok { c with mem := mem, nBusses := 0, busses := [] }

/-- core.c:398-438 `mctp_bridge_busses`. -/
def Core.bridgeBusses (ops : Ops β) (c : Core β) (b1 b2 : Binding β) : Res (Core β × Int) :=
  if c.nBusses ≠ 0 then .error .assertFail
  else
    match c.mem.alloc with
    | (none, mem) => .ok ({ c with mem := mem, bussesPtr := none }, -ENOMEM)
    | (some id, mem) => do
      let mk (b : Binding β) : Bus β := { eid := 0, binding := b, state := .constructed, queue := [] }
      let (bus1, rc1) ← startBus ops (mk b1)
      if rc1 < 0 then
        .ok ({ c with mem := mem, nBusses := 2, bussesPtr := some id, busses := [bus1, mk b2],
                      bridge := true }, rc1)
      else
        let (bus2, rc2) ← startBus ops (mk b2)
        .ok ({ c with mem := mem, nBusses := 2, bussesPtr := some id, busses := [bus1, bus2],
                      bridge := true }, rc2)

/-! ## A received packet, as a binding hands it over

`mctp_pktbuf_alloc(binding, len)`, copy the bytes to `mctp_pktbuf_hdr`, `mctp_bus_rx`: the pattern of
every binding (astlpc.c:1021-1056, serial.c:201,266,193, tests/test-utils.c:48-57). -/
def Core.rxPacket (ops : Ops β) (c : Core β) (i : Nat) (bytes : List Byte) :
    Res (Core β × List Event) := do
  let bus ← c.busAt i
  match pktbufAlloc c.mem c.fill bus.binding.pktSize bus.binding.pktHeader bus.binding.pktTrailer
      bytes.length with
  | (none, mem) => .ok ({ c with mem := mem }, [])
  | (some pkt, mem) => do
    let pkt' ← pkt.write pkt.hdrOff bytes
    ({ c with mem := mem }).busRx ops i pkt'

end Mctp
