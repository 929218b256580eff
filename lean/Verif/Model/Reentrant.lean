import Verif.Model.Api

/-!
# Calls into the core from inside the receive callbacks

`Core.lean` records the calls of the callbacks; here the callbacks also do something: while `message_rx` or the
binding's `control_rx` runs, the application makes further calls (a responder answers a request from its callback).  The
packet buffer or the message context the message is in is released only after the callback has returned.

Simplifications: as in `Core.lean`; the capture callback makes no calls; a packet received while a callback runs (`recv` in a
script) does not make the callback act again.
-/

namespace Mctp

variable {β S : Type}

/-- What a callback does: a sequence of API calls, each of which may depend on the return values of those before it, and
the state `S` of the application afterwards. -/
inductive Script (β S : Type)
  | done (s : S)
  | call (op : Op β) (k : Int → Script β S)

/-- An application: what it does, in its state, when a callback is called. -/
abbrev App (β S : Type) := S → Event → Script β S

/-- The calls of a script, one after the other. -/
def Core.calls (ops : Ops β) (c : Core β) : Script β S → Res (Core β × S × List Event)
  | .done s => .ok (c, s, [])
  | .call op k => do
    let (c1, e1, rc) ← c.step ops op
    let (c2, s, e2) ← c1.calls ops (k rc)
    .ok (c2, s, e1 ++ e2)

/-- The body of a callback whose message lies in the allocation `buf`: it reads the message before each of its calls and
at its end. -/
def Core.callback (ops : Ops β) (buf : Option Nat) (c : Core β) : Script β S → Res (Core β × S × List Event)
  | .done s => do
    c.mem.deref buf
    .ok (c, s, [])
  | .call op k => do
    c.mem.deref buf
    let (c1, e1, rc) ← c.step ops op
    let (c2, s, e2) ← c1.callback ops buf (k rc)
    .ok (c2, s, e1 ++ e2)

/-- core.c:493-535 `mctp_rx`, see `Core.rx`; the message is in the allocation `buf`. -/
def Core.rxH (ops : Ops β) (app : App β S) (c : Core β) (s : S) (buf : Option Nat) (i : Nat) (bus : Bus β) (src dest : Byte)
    (tagOwner : Bool) (tag : Byte) (msg : List Byte) : Res (Core β × S × List Event) :=
  if c.bridge then do
    let (c1, e) ← bridgeLoop ops i src dest tagOwner tag msg (List.range c.nBusses) c
    .ok (c1, s, e)
  else if destIsLocal bus.eid dest then
    if ctrlHandled bus.binding.controlRx msg then do
      let ev := Event.ctrlRx i src (tag != 0) (if tagOwner then 1 else 0) msg
      let (c1, s1, e) ← c.callback ops buf (app s ev)
      .ok (c1, s1, ev :: e)
    else if c.hasRx then do
      let ev := Event.rxMsg src tagOwner tag msg
      let (c1, s1, e) ← c.callback ops buf (app s ev)
      .ok (c1, s1, ev :: e)
    else .ok (c, s, [])
  else .ok (c, s, [])

/-- core.c:613-644: the end-of-message case, see `Core.rxEom`.  The message lies in the storage of the context, which is
dropped (core.c:250-253, `ctx->src = 0`) when `mctp_rx` has returned. -/
def Core.rxEomH (ops : Ops β) (app : App β S) (c : Core β) (s : S) (i : Nat) (bus : Bus β) (pkt : Pktbuf)
    (src dest tag seq : Byte) (tagOwner : Bool) : Res (Core β × S × List Event) := do
  match ctxLookup c.ctxs src dest tag with
  | none => .ok (c, s, [])
  | some k =>
    match c.ctxs[k]? with
    | none => .error .outOfBounds
    | some x =>
      if BitVec.ofNat 8 ((x.lastSeq.toNat + 1) % 4) ≠ seq then .ok (c.setCtx k x.drop, s, [])
      else if pkt.len > x.fragSize then .ok (c.setCtx k x.drop, s, [])
      else do
        let (mem, x', ok) ← ctxAddPkt c.mem x pkt c.maxSize
        let c1 := { c with mem := mem }.setCtx k x'
        if ok then do
          let (c2, s2, e) ← c1.rxH ops app s x'.buf i bus x'.src x'.dest tagOwner tag x'.data
          .ok ({ c2 with ctxs := c2.ctxs.modify k Ctx.drop }, s2, e)
        else .ok (c1.setCtx k x'.drop, s, [])

/-- core.c:559-679, see `Core.busRxBody`.  The message of a single packet lies in the packet buffer. -/
def Core.busRxBodyH (ops : Ops β) (app : App β S) (c : Core β) (s : S) (i : Nat) (bus : Bus β) (pkt : Pktbuf) :
    Res (Core β × S × List Event) := do
  let hdr ← pkt.read pkt.hdrOff hdrSize
  match hdr with
  | [_, dest, src, f] =>
    if !c.bridge && !destIsLocal bus.eid dest then .ok (c, s, [])
    else
      let tag := hdrTag f
      let seq := hdrSeq f
      match hdrSom f, hdrEom f with
      | true, true => do
        let len := pkt.«end» - pkt.hdrOff - hdrSize
        let msg ← pkt.read (pkt.hdrOff + hdrSize) len
        c.rxH ops app s (some pkt.id) i bus src dest (hdrTO f) tag msg
      | true, false => do
        let c' ← c.rxSom pkt src dest tag seq
        .ok (c', s, [])
      | false, true => c.rxEomH ops app s i bus pkt src dest tag seq (hdrTO f)
      | false, false => do
        let c' ← c.rxMid pkt src dest tag seq
        .ok (c', s, [])
  | _ => .error .outOfBounds

/-- core.c:537-682 `mctp_bus_rx`, see `Core.busRx`. -/
def Core.busRxH (ops : Ops β) (app : App β S) (c : Core β) (s : S) (i : Nat) (pkt : Pktbuf) :
    Res (Core β × S × List Event) :=
  if c.nBusses ≤ i then .error .assertFail          -- assert(bus), core.c:549
  else do
    let bus ← c.busAt i
    c.mem.deref (some pkt.id)
    if pkt.len ≤ hdrSize then
      let mem ← pktbufFree c.mem pkt
      .ok ({ c with mem := mem }, s, [.recv i pkt.bytes])
    else
      let cap := if c.hasCapture then [Event.capture false pkt.bytes] else []
      let (c1, s1, e) ← c.busRxBodyH ops app s i bus pkt
      let mem ← pktbufFree c1.mem pkt
      .ok ({ c1 with mem := mem }, s1, .recv i pkt.bytes :: (cap ++ e))

/-- A received packet, see `Core.rxPacket`. -/
def Core.rxPacketH (ops : Ops β) (app : App β S) (c : Core β) (s : S) (i : Nat) (bytes : List Byte) :
    Res (Core β × S × List Event) := do
  let bus ← c.busAt i
  match pktbufAlloc c.mem c.fill bus.binding.pktSize bus.binding.pktHeader bus.binding.pktTrailer
      bytes.length with
  | (none, mem) => .ok ({ c with mem := mem }, s, [])
  | (some pkt, mem) => do
    let pkt' ← pkt.write pkt.hdrOff bytes
    ({ c with mem := mem }).busRxH ops app s i pkt'

/-- One API call, made outside the callbacks. -/
def Core.stepH (ops : Ops β) (app : App β S) (c : Core β) (s : S) : Op β → Res (Core β × S × List Event × Int)
  | .recv i bytes => do
    let (c', s', e) ← c.rxPacketH ops app s i bytes
    .ok (c', s', e, 0)
  | op => do
    let (c', e, rc) ← c.step ops op
    .ok (c', s, e, rc)

/-- A history of API calls made outside the callbacks, and its log: the events of a call are those that happen before it
returns. -/
def Core.runH (ops : Ops β) (app : App β S) (c : Core β) (s : S) : List (Op β) → Res (Core β × S × List (Rec β))
  | [] => .ok (c, s, [])
  | op :: rest => do
    let (c1, s1, evs, rc) ← c.stepH ops app s op
    let (c2, s2, log) ← c1.runH ops app s1 rest
    .ok (c2, s2, { op := op, evs := evs, rc := rc } :: log)

end Mctp
