import Verif.Model.TxQueue

/-!
# A send made from inside the binding's `tx` (core.c:684-728, 768-836)

A binding that delivers synchronously (a loopback, a test binding, two cores in one process) can make the application send a
message on the same bus before the binding's `tx` has returned: `mctp_send_tx_queue` is entered again while it runs.

Simplifications: as in `TxQueue.lean`; at most one message is sent during a call of `tx`.
-/

namespace Mctp

variable {β : Type}

/-- What a call of the binding's `tx` did (see `TxOut`), and the message sent before it returned, if any: destination, tag
owner, tag, content.  The binding changed its state, and called `mctp_binding_set_tx_enabled(b, false)` if it did, before
that. -/
structure TxOutR (β : Type) extends TxOut β where
  send : Option (Byte × Bool × Byte × List Byte)

/-- core.c:698-728 `mctp_send_tx_queue` with core.c:684-696 `mctp_packet_tx` inlined, see `sendQueueP`; the message sent
during the call of `tx` goes through core.c:768-836 `mctp_message_tx_on_bus`.  The first argument bounds the number of
iterations and the depth of the nesting. -/
def sendQueueR (tx : Binding β → Pktbuf → Res (TxOutR β)) (fill : Nat → Byte) (cap : Bool) (i : Nat) :
    Nat → Mem → Bus β → PQueue → Res (Mem × Bus β × PQueue × List Event)
  | 0, _, _, _ => .error .noReturn
  | fuel + 1, mem, bus, q =>
    match q.head with
    | none => .ok (mem, bus, q.cleanup, [])
    | some p =>
      if bus.state ≠ .txEnabled then .ok (mem, bus, q.cleanup, [])
      else do
        let (_, n) ← q.node mem (some p)
        let out ← tx bus.binding n.pkt
        let bus1 : Bus β :=
          { bus with binding := { bus.binding with st := out.st },
                     state := if out.disableTx then .txDisabled else .txEnabled }
        let q1 := q.put p { n with pkt := { out.pkt with id := p } }
        let evs := (if cap then [Event.capture true n.pkt.bytes] else [])
                    ++ [Event.tx i n.pkt.bytes out.rc out.disableTx]
        let (mem2, bus2, q2, e2) ← match out.send with
          | none => .ok (mem, bus1, q1, [])
          | some (dest, own, tag, msg) =>
            if tag &&& 0x7 ≠ tag then .ok (mem, bus1, q1, [])
            else if bodySize bus1.binding.pktSize < btu then .error .assertFail
            else do
              let (mem', q') ← txLoopP fill bus1.binding bus1.eid dest own tag (bodySize bus1.binding.pktSize) msg
                msg.length 0 0 mem q1
              sendQueueR tx fill cap i fuel mem' bus1 q'
        if out.rc = 0 ∨ out.rc = -EMSGSIZE then
          let (_, n') ← q2.node mem2 (some p)
          let mem3 ← mem2.free (some p)
          let (m, b, q3, e) ← sendQueueR tx fill cap i fuel mem3 bus2 { q2 with head := n'.next }
          .ok (m, b, q3, evs ++ e2 ++ e)
        else .ok (mem2, bus2, q2.cleanup, evs ++ e2)

end Mctp
