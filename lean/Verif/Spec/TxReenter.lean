import Verif.Model.TxReenter

/-!
# The ideal: a message sent during a call of `tx` is queued behind the packets already there

The queue is a list.  A packet leaves the front when the binding takes it; a message sent meanwhile is appended.
-/

namespace Mctp

variable {β : Type}

/-- Offer the packets of the queue.  After an offer during which a message was sent no further offer is made (the binding has
disabled transmission). -/
def sendThen (tx : Binding β → Pktbuf → Res (TxOutR β)) (fill : Nat → Byte) (cap : Bool) (i : Nat) (mem : Mem) (bus : Bus β) :
    List Pktbuf → Res (Mem × Bus β × List Event)
  | [] => .ok (mem, { bus with queue := [] }, [])
  | pkt :: rest =>
    if bus.state ≠ .txEnabled then .ok (mem, { bus with queue := pkt :: rest }, [])
    else do
      let out ← tx bus.binding pkt
      let bus' : Bus β :=
        { bus with binding := { bus.binding with st := out.st },
                   state := if out.disableTx then .txDisabled else .txEnabled }
      let evs := (if cap then [Event.capture true pkt.bytes] else []) ++ [Event.tx i pkt.bytes out.rc out.disableTx]
      let same : Pktbuf := { out.pkt with id := pkt.id }
      let taken : Bool := out.rc = 0 ∨ out.rc = -EMSGSIZE
      match out.send with
      | none =>
        if taken then do
          let mem' ← mem.free (some pkt.id)
          let (m, b, e) ← sendThen tx fill cap i mem' bus' rest
          .ok (m, b, evs ++ e)
        else .ok (mem, { bus' with queue := same :: rest }, evs)
      | some (dest, own, tag, msg) => do
        let (m, q) ← txLoop fill bus.binding bus.eid dest own tag (bodySize bus.binding.pktSize) msg msg.length 0 0 mem (same :: rest)
        if taken then do
          let m' ← m.free (some pkt.id)
          .ok (m', { bus' with queue := q.tail }, evs)
        else .ok (m, { bus' with queue := q }, evs)

end Mctp
