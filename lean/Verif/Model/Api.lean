import Verif.Model.Core

/-!
# Histories of API calls on a registered core

The calls an application and a binding can make on a core between registration and destruction, and
the log of what happened.
-/

namespace Mctp

variable {β : Type}

/-- One API call. -/
inductive Op (β : Type)
  /-- a binding receives a packet: `mctp_pktbuf_alloc`, copy, `mctp_bus_rx` -/
  | recv (bus : Nat) (bytes : List Byte)
  /-- `mctp_message_tx` (libmctp.h:109-110) -/
  | send (eid : Byte) (tagOwner : Bool) (tag : Byte) (msg : List Byte)
  /-- `mctp_binding_set_tx_enabled` (libmctp.h:135) -/
  | enable (bus : Nat) (on : Bool)
  /-- `mctp_set_max_message_size` (libmctp.h:76) -/
  | setMax (n : Nat)
  /-- `mctp_set_capture_handler` with a handler / NULL (libmctp.h:79-80) -/
  | setCapture (on : Bool)
  /-- `mctp_set_rx_all` with a handler / NULL (libmctp.h:107) -/
  | setRx (on : Bool)
  /-- the binding changes its own structure (private state, packet sizes, control handler) -/
  | rebind (bus : Nat) (st : β) (pktSize pktHeader pktTrailer : Nat) (controlRx : Bool)

/-- One API call with its observable events and its return code (0 for `void` functions). -/
structure Rec (β : Type) where
  op  : Op β
  evs : List Event
  rc  : Int

/-- One API call. -/
def Core.step (ops : Ops β) (c : Core β) : Op β → Res (Core β × List Event × Int)
  | .recv i bytes => do
    let (c', e) ← c.rxPacket ops i bytes
    .ok (c', e, 0)
  | .send eid to tag msg => c.messageTx ops eid to tag msg
  | .enable i on => do
    let (c', e) ← c.setTxEnabled ops i on
    .ok (c', e, 0)
  | .setMax n => .ok (c.setMaxMessageSize n, [], 0)
  | .setCapture on => .ok (c.setCapture on, [], 0)
  | .setRx on => .ok (c.setRxAll on, [], 0)
  | .rebind i st ps ph pt cr => do
    let b ← c.busAt i
    .ok (c.setBus i { b with binding :=
          { b.binding with st := st, pktSize := ps, pktHeader := ph, pktTrailer := pt,
                           controlRx := cr } }, [], 0)

/-- A history of API calls and its log. -/
def Core.run (ops : Ops β) (c : Core β) : List (Op β) → Res (Core β × List (Rec β))
  | [] => .ok (c, [])
  | op :: rest => do
    let (c1, evs, rc) ← c.step ops op
    let (c2, log) ← c1.run ops rest
    .ok (c2, { op := op, evs := evs, rc := rc } :: log)

/-- All events of a log, in order. -/
def events (log : List (Rec β)) : List Event := log.flatMap (·.evs)

end Mctp
