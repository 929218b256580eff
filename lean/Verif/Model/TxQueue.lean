import Verif.Model.Api

/-!
# The transmit queue as a linked list (core.c:29-38, 96-119, 305-313, 684-836)

`Core.lean` keeps the transmit queue of a bus as a Lean list.  Here are the same functions with the pointers the C code
has: `tx_queue_head`, `tx_queue_tail` and the `next` member of each packet buffer.  `Proofs/TxQueue.lean` shows that
they do the same.

Simplifications: as in `Core.lean` (logging, cookies).
-/

namespace Mctp

variable {β : Type}

/-- libmctp.h:52-57 `struct mctp_pktbuf` with its `next` member (libmctp.h:56). -/
structure Node where
  pkt  : Pktbuf
  next : Option Nat

/-- core.c:34-35 `tx_queue_head`, `tx_queue_tail`, and the packet buffers in memory, by allocation number. -/
structure PQueue where
  head : Option Nat
  tail : Option Nat
  heap : Nat → Option Node

/-- Store to a packet buffer. -/
def PQueue.put (q : PQueue) (i : Nat) (n : Node) : PQueue :=
  { q with heap := fun j => if j = i then some n else q.heap j }

/-- Access to the packet buffer a pointer points to. -/
def PQueue.node (mem : Mem) (q : PQueue) (p : Option Nat) : Res (Nat × Node) :=
  match p with
  | none => .error .nullDeref
  | some i =>
    if i ∈ mem.live then
      match q.heap i with
      | some n => .ok (i, n)
      | none => .error .outOfBounds
    else .error .useAfterFree

/-- core.c:726-727: the end of `mctp_send_tx_queue`. -/
def PQueue.cleanup (q : PQueue) : PQueue :=
  match q.head with
  | none => { q with tail := none }
  | some _ => q

/-- core.c:698-728 `mctp_send_tx_queue` with core.c:684-696 `mctp_packet_tx` inlined.  The first argument bounds the
number of iterations.  The binding may change the packet buffer it is given, but not its `next` member.  (The `queue`
member of `bus` is not used.) -/
def sendQueueP (ops : Ops β) (cap : Bool) (i : Nat) :
    Nat → Mem → Bus β → PQueue → Res (Mem × Bus β × PQueue × List Event)
  | 0, _, _, _ => .error .noReturn
  | fuel + 1, mem, bus, q =>
    match q.head with
    | none => .ok (mem, bus, q.cleanup, [])
    | some p =>
      if bus.state ≠ .txEnabled then .ok (mem, bus, q.cleanup, [])
      else do
        let (_, n) ← q.node mem (some p)
        let out ← ops.tx bus.binding n.pkt
        let bus' : Bus β :=
          { bus with binding := { bus.binding with st := out.st },
                     state := if out.disableTx then .txDisabled else .txEnabled }
        let q' := q.put p { n with pkt := { out.pkt with id := p } }
        let evs := (if cap then [Event.capture true n.pkt.bytes] else [])
                    ++ [Event.tx i n.pkt.bytes out.rc out.disableTx]
        if out.rc = 0 ∨ out.rc = -EMSGSIZE then
          let (_, n') ← q'.node mem (some p)
          let mem' ← mem.free (some p)
          let (m, b, q'', e) ← sendQueueP ops cap i fuel mem' bus' { q' with head := n'.next }
          .ok (m, b, q'', evs ++ e)
        else .ok (mem, bus', q'.cleanup, evs)

/-- core.c:116 (`next = NULL` in `mctp_pktbuf_alloc`) and core.c:821-826: a new packet buffer is added to the queue. -/
def PQueue.add (mem : Mem) (q : PQueue) (pkt : Pktbuf) : Res PQueue :=
  let q := q.put pkt.id { pkt := pkt, next := none }
  match q.tail with
  | none => .ok { q with head := some pkt.id, tail := some pkt.id }
  | some t => do
    let (_, n) ← q.node mem (some t)
    .ok { q.put t { n with next := some pkt.id } with tail := some pkt.id }

/-- core.c:797-829: the packetisation loop of `mctp_message_tx_on_bus` (see `txLoop`). -/
def txLoopP (fill : Nat → Byte) (b : Binding β) (src dest : Byte) (tagOwner : Bool) (tag : Byte)
    (maxPayload : Nat) (msg : List Byte) : Nat → Nat → Nat → Mem → PQueue → Res (Mem × PQueue)
  | 0, p, _, mem, q => if p < msg.length then .error .assertFail else .ok (mem, q)
  | fuel + 1, p, i, mem, q =>
    if p < msg.length then
      let payloadLen := if msg.length - p > maxPayload then maxPayload else msg.length - p
      match pktbufAlloc mem fill b.pktSize b.pktHeader b.pktTrailer (payloadLen + hdrSize) with
      | (none, _) => .error .nullDeref
      | (some pkt, mem') =>
        let hdr : List Byte :=
          [b.version &&& 0xf, dest, src,
           flagsSeqTag tagOwner tag (i == 0) (decide (p + payloadLen ≥ msg.length)) i]
        match pkt.write pkt.hdrOff hdr with
        | .error e => .error e
        | .ok pkt1 =>
          match pkt1.write (pkt1.hdrOff + hdrSize) ((msg.drop p).take payloadLen) with
          | .error e => .error e
          | .ok pkt2 =>
            match q.add mem' pkt2 with
            | .error e => .error e
            | .ok q' =>
              txLoopP fill b src dest tagOwner tag maxPayload msg fuel (p + payloadLen) (i + 1) mem' q'
    else .ok (mem, q)

/-- core.c:305-313 `mctp_bus_destroy`.  The first argument bounds the number of iterations. -/
def freeQueueP : Nat → Mem → PQueue → Res (Mem × PQueue)
  | 0, _, _ => .error .noReturn
  | fuel + 1, mem, q =>
    match q.head with
    | none => .ok (mem, q)
    | some p => do
      let (_, n) ← q.node mem (some p)
      let mem' ← mem.free (some p)
      freeQueueP fuel mem' { q with head := n.next }

/-- A core of which the transmit queue of one bus is a linked list: the core without that queue (the `queue` member of
the bus is not used), and the queue. -/
structure PCore (β : Type) where
  core : Core β
  q    : PQueue

/-- `mctp_send_tx_queue` on bus `i`.  Every iteration of the loop but the last frees a packet buffer. -/
def PCore.sendTxQueue (ops : Ops β) (c : PCore β) (i : Nat) : Res (PCore β × List Event) := do
  let bus ← c.core.busAt i
  let (m, b, q, e) ← sendQueueP ops c.core.hasCapture i (c.core.mem.live.length + 1) c.core.mem bus c.q
  .ok ({ core := { c.core with mem := m }.setBus i b, q := q }, e)

/-- core.c:730-766 `mctp_binding_set_tx_enabled`. -/
def PCore.setTxEnabled (ops : Ops β) (c : PCore β) (i : Nat) (enable : Bool) :
    Res (PCore β × List Event) := do
  let bus ← c.core.busAt i
  match bus.state with
  | .constructed =>
    if !enable then .ok (c, [])
    else if bus.binding.pktSize < packetSize btu then .ok (c, [])
    else .ok ({ c with core := c.core.setBus i { bus with state := .txEnabled } }, [])
  | .txEnabled =>
    if enable then .ok (c, [])
    else .ok ({ c with core := c.core.setBus i { bus with state := .txDisabled } }, [])
  | .txDisabled =>
    if !enable then .ok (c, [])
    else PCore.sendTxQueue ops { c with core := c.core.setBus i { bus with state := .txEnabled } } i

/-- core.c:768-836 `mctp_message_tx_on_bus`. -/
def PCore.messageTxOnBus (ops : Ops β) (c : PCore β) (i : Nat) (src dest : Byte) (tagOwner : Bool)
    (tag : Byte) (msg : List Byte) : Res (PCore β × List Event × Int) := do
  let bus ← c.core.busAt i
  if bus.state = .constructed then .ok (c, [], -ENXIO)
  else if tag &&& 0x7 ≠ tag then .ok (c, [], -EINVAL)
  else
    let maxPayload := bodySize bus.binding.pktSize
    if maxPayload < btu then .error .assertFail
    else do
      let (mem, q) ← txLoopP c.core.fill bus.binding src dest tagOwner tag maxPayload msg
        msg.length 0 0 c.core.mem c.q
      let (c', e) ← PCore.sendTxQueue ops { core := { c.core with mem := mem }, q := q } i
      .ok (c', e, 0)

/-- core.c:838-856 `mctp_message_tx` with core.c:341-350 `find_bus_for_eid` inlined. -/
def PCore.messageTx (ops : Ops β) (c : PCore β) (eid : Byte) (tagOwner : Bool) (tag : Byte)
    (msg : List Byte) : Res (PCore β × List Event × Int) := do
  if tag &&& 0x7 ≠ tag then .ok (c, [], -EINVAL)
  else if c.core.nBusses = 0 then .ok (c, [], 0)
  else
    let bus ← c.core.busAt 0
    c.messageTxOnBus ops 0 bus.eid eid tagOwner tag msg

/-- One API call on an endpoint (one bus, no bridge), whose transmit queue is a linked list.  The calls that do not send
anything are those of `Core.lean`: on an endpoint the receive path (core.c:537-682) does not touch the transmit queue. -/
def PCore.step (ops : Ops β) (c : PCore β) : Op β → Res (PCore β × List Event × Int)
  | .send eid to tag msg => c.messageTx ops eid to tag msg
  | .enable i on => do
    let (c', e) ← c.setTxEnabled ops i on
    .ok (c', e, 0)
  | op => do
    let (core, e, rc) ← c.core.step ops op
    .ok ({ c with core := core }, e, rc)

/-- A history of API calls on an endpoint whose transmit queue is a linked list, and its log. -/
def PCore.run (ops : Ops β) (c : PCore β) : List (Op β) → Res (PCore β × List (Rec β))
  | [] => .ok (c, [])
  | op :: rest => do
    let (c1, evs, rc) ← c.step ops op
    let (c2, log) ← c1.run ops rest
    .ok (c2, { op := op, evs := evs, rc := rc } :: log)

/-- core.c:315-332 `mctp_destroy` of an endpoint (at most one bus), see `Core.destroy`. -/
def PCore.destroy (c : PCore β) : Res Mem := do
  let m1 ← freeCtxs c.core.mem c.core.ctxs
  let m2 ← if c.core.nBusses > 0 then do
      m1.deref c.core.bussesPtr
      let (m, _) ← freeQueueP (m1.live.length + 1) m1 c.q
      .ok m
    else .ok m1
  let m3 ← m2.free c.core.bussesPtr
  m3.free (some c.core.self)

/-- The packets of the linked list, following the `next` pointers from `tx_queue_head` (at most the given number). -/
def PQueue.walk (q : PQueue) : Nat → Option Nat → List Pktbuf
  | 0, _ => []
  | _, none => []
  | n + 1, some i =>
    match q.heap i with
    | none => []
    | some x => x.pkt :: q.walk n x.next

end Mctp
