import Verif.Model.Api
import Verif.Model.Crc

/-!
# The serial binding (serial.c)

Not modelled here: the file-descriptor helpers (`Model/FileIo.lean`) and the debug output.  `write`/`tx_fn` are the environment: one oracle for the results of the calls.
-/

namespace Mctp

/-- serial.c:79-88: `rx_state`. -/
inductive RxState
  | waitSync
  | waitRevision
  | waitLen
  | data
  | dataEscaped
  | waitFcs1
  | waitFcs2
  | waitSyncEnd
  deriving DecidableEq, Repr

/-- serial.c:65-92 `struct mctp_binding_serial` without the embedded `binding`, `fd`, `bus_id` and the
read buffer `rxbuf` (its contents are an argument of `serialRead`).

`wr k buf` is the value returned by the `k`-th call of the write function (`write` or `tx_fn`) when it
is given the bytes `buf`; `calls` counts the calls made; `wire` are the bytes accepted so far (the
first `wr k buf` bytes of `buf` on a non-negative result).  `patience` bounds the number of calls made
for one frame: a run that needs more is reported as `Fault.noReturn` (a write function that keeps
returning 0 is called for ever). -/
structure SerialSt where
  rxPkt    : Option Pktbuf
  expLen   : Byte
  fcs      : BitVec 16
  fcsCalc  : BitVec 16
  state    : RxState
  txbuf    : List Byte
  wr       : Nat → List Byte → Int
  calls    : Nat
  patience : Nat
  wire     : List Byte

/-- serial.c:97-99. -/
def serialRevision : Byte := 0x01
def serialFlag : Byte := 0x7e
def serialEscape : Byte := 0x7d

/-! ## Transmit -/

/-- A store `buf[j] = c` into a C array. -/
def store (buf : List Byte) (j : Nat) (c : Byte) : Res (List Byte) :=
  if j < buf.length then .ok (buf.set j c) else .error .outOfBounds

/-- serial.c:122-133: the loop of `mctp_serial_pkt_escape` over the remaining packet bytes, with `buf`
pointing at offset `off` of the array `arr` (`none`: NULL, count only).  Returns the array and `j`. -/
def escapeLoop (off : Nat) : List Byte → Nat → Option (List Byte) → Res (Option (List Byte) × Nat)
  | [], j, arr => .ok (arr, j)
  | c :: rest, j, arr =>
    if c = 0x7e ∨ c = 0x7d then do
      let arr1 ← match arr with
        | none => .ok none
        | some a => (store a (off + j) 0x7d).map some
      let arr2 ← match arr1 with
        | none => .ok none
        | some a => (store a (off + (j + 1)) (c ^^^ 0x20)).map some
      escapeLoop off rest (j + 2) arr2
    else do
      let arr1 ← match arr with
        | none => .ok none
        | some a => (store a (off + j) c).map some
      escapeLoop off rest (j + 1) arr1

/-- serial.c:113-136 `mctp_serial_pkt_escape`.  `total_len` is a `uint8_t`. -/
def serialPktEscape (pkt : Pktbuf) (off : Nat) (arr : Option (List Byte)) :
    Res (Option (List Byte) × Nat) := do
  let bytes ← pkt.read pkt.hdrOff ((pkt.«end» - pkt.hdrOff) % 256)
  escapeLoop off bytes 0 arr

/-- serial.c:38-50 `mctp_write_all` on the remaining bytes, with `fuel` calls left.  Returns the return
value, the number of calls made so far and the bytes accepted.  A count larger than requested makes
the pointer and `len` run out of the buffer. -/
def writeAll (wr : Nat → List Byte → Int) : Nat → Nat → List Byte → List Byte →
    Res (Int × Nat × List Byte)
  | _, k, [], wire => .ok (0, k, wire)
  | 0, _, _ :: _, _ => .error .noReturn
  | fuel + 1, k, b :: bs, wire =>
    let wrote := wr k (b :: bs)
    if wrote < 0 then .ok (wrote, k + 1, wire)
    else if wrote.toNat > (b :: bs).length then .error .outOfBounds
    else writeAll wr fuel (k + 1) ((b :: bs).drop wrote.toNat) (wire ++ (b :: bs).take wrote.toNat)

/-- serial.c:138-184 `mctp_binding_serial_tx`.  The header is written to `txbuf[0..2]`; the check
sequence is computed over `txbuf[1..2]` and `len` bytes at `mctp_pktbuf_hdr(pkt)`. -/
def serialTx (b : Binding SerialSt) (pkt : Pktbuf) : Res (TxOut SerialSt) := do
  let s := b.st
  let len := pkt.len
  let t0 ← store s.txbuf 0 serialFlag
  let t1 ← store t0 1 serialRevision
  let t2 ← store t1 2 (BitVec.ofNat 8 len)
  let body ← pkt.read pkt.hdrOff len
  let fcs := crc16 (crc16 fcsInit ((t2.drop 1).take 2)) body
  let (_, len1) ← serialPktEscape pkt 0 none
  if len1 + 3 + 3 > 256 then
    .ok { st := { s with txbuf := t2 }, pkt := pkt, rc := -EMSGSIZE, disableTx := false }
  else
    let (t3, _) ← serialPktEscape pkt 3 (some t2)
    let t3 := t3.getD []
    let t4 ← store t3 (3 + len1 + 2) serialFlag
    let t5 ← store t4 (3 + len1) ((fcs >>> 8).setWidth 8)
    let t6 ← store t5 (3 + len1 + 1) ((fcs &&& 0xff#16).setWidth 8)
    let (rc, k, wire) ← writeAll s.wr s.patience s.calls (t6.take (len1 + 6)) s.wire
    .ok { st := { s with txbuf := t6, calls := k, wire := wire }, pkt := pkt, rc := rc,
          disableTx := false }

/-- serial.c:381-385 `mctp_serial_core_start` and serial.c:407-408. -/
def serialOps : Ops SerialSt where
  start := some fun b => .ok { binding := b, rc := 0, enableTx := true }
  tx := serialTx

/-- serial.c:392-411 `mctp_serial_init` (after `mctp_serial_set_tx_fn`, serial.c:367-372). -/
def serialInit (wr : Nat → List Byte → Int) (patience : Nat) : Binding SerialSt :=
  { version := 1, pktSize := packetSize btu, pktHeader := 0, pktTrailer := 0, controlRx := false,
    st := { rxPkt := none, expLen := 0, fcs := 0, fcsCalc := 0, state := .waitSync,
            txbuf := List.replicate 256 0, wr := wr, calls := 0, patience := patience, wire := [] } }

/-! ## Receive -/

/-- States in which no packet buffer is held (serial.c:211-213). -/
def RxState.idle : RxState → Bool
  | .waitSync | .waitRevision | .waitLen => true
  | _ => false

/-- serial.c:266-269, 276-278: push one byte to the packet
buffer (the return value is ignored), update the check sequence. Returns the buffer and whether it has
the expected length. -/
def serialPush (mem : Mem) (s : SerialSt) (pkt : Pktbuf) (c : Byte) : Res (SerialSt × Bool) := do
  mem.deref (some pkt.id)
  let (_, pkt') ← pkt.push [c]
  .ok ({ s with rxPkt := some pkt', fcsCalc := crc16Byte s.fcsCalc c },
       decide (pkt'.«end» - pkt'.hdrOff = s.expLen.toNat))

/-- serial.c:204-313 `mctp_rx_consume_one`, up to the call of `mctp_bus_rx` in
`mctp_serial_finish_packet` (serial.c:186-196): the result says which packet, if any, is passed to it.
(`rx_pkt` and `rx_state` are updated after that call returns, see `Core.serialByte`.)  In
`STATE_WAIT_SYNC_START` the test `if (pkt)` is never true because of the assertion. -/
def serialByte (mem : Mem) (fill : Nat → Byte) (b : Binding SerialSt) (c : Byte) :
    Res (Mem × SerialSt × Option Pktbuf) :=
  let s := b.st
  if s.rxPkt.isNone ≠ s.state.idle then .error .assertFail
  else
    match s.state, s.rxPkt with
    | .waitSync, _ =>
      if c ≠ serialFlag then .ok (mem, s, none)
      else .ok (mem, { s with state := .waitRevision }, none)
    | .waitRevision, _ =>
      if c = serialRevision then
        .ok (mem, { s with state := .waitLen, fcsCalc := crc16Byte fcsInit c }, none)
      else if c = serialFlag then .ok (mem, s, none)
      else .ok (mem, { s with state := .waitSync }, none)
    | .waitLen, _ =>
      if c.toNat > b.pktSize ∨ c.toNat < hdrSize then
        .ok (mem, { s with state := .waitSync }, none)
      else
        let (pkt, mem') := pktbufAlloc mem fill b.pktSize b.pktHeader b.pktTrailer 0
        .ok (mem', { s with rxPkt := pkt, expLen := c, state := .data,
                            fcsCalc := crc16Byte s.fcsCalc c }, none)
    | .data, some pkt =>
      if c = serialEscape then .ok (mem, { s with state := .dataEscaped }, none)
      else do
        let (s', full) ← serialPush mem s pkt c
        .ok (mem, if full then { s' with state := .waitFcs1 } else s', none)
    | .dataEscaped, some pkt => do
      let (s', full) ← serialPush mem s pkt (c ^^^ 0x20)
      .ok (mem, { s' with state := if full then .waitFcs1 else .data }, none)
    | .waitFcs1, _ =>
      .ok (mem, { s with fcs := c.setWidth 16 <<< 8, state := .waitFcs2 }, none)
    | .waitFcs2, _ =>
      .ok (mem, { s with fcs := s.fcs ||| c.setWidth 16, state := .waitSyncEnd }, none)
    | .waitSyncEnd, some pkt =>
      .ok (mem, { s with rxPkt := none, state := .waitSync },
           if s.fcs = s.fcsCalc ∧ c = serialFlag then some pkt else none)
    | _, none => .error .assertFail

/-- Update the private state of the binding of bus `i`. -/
def Core.setSt {β : Type} (c : Core β) (i : Nat) (bus : Bus β) (st : β) : Core β :=
  c.setBus i { bus with binding := { bus.binding with st := st } }

/-- serial.c:204-313 `mctp_rx_consume_one` for the serial binding on bus `i`.  The new receive state is
stored when `mctp_bus_rx` has returned (it does not read it). -/
def Core.serialByte (c : Core SerialSt) (i : Nat) (x : Byte) :
    Res (Core SerialSt × List Event) := do
  let bus ← c.busAt i
  let (mem, st, out) ← Mctp.serialByte c.mem c.fill bus.binding x
  match out with
  | none => .ok (({ c with mem := mem }).setSt i bus st, [])
  | some pkt => do
    let (c1, e) ← ({ c with mem := mem }).busRx serialOps i pkt
    let bus1 ← c1.busAt i
    .ok (c1.setSt i bus1 { bus1.binding.st with rxPkt := st.rxPkt, state := st.state }, e)

/-- serial.c:314-321 `mctp_rx_consume`, which is `mctp_serial_rx` (serial.c:374-379). -/
def Core.serialRx (c : Core SerialSt) (i : Nat) : List Byte → Res (Core SerialSt × List Event)
  | [] => .ok (c, [])
  | x :: xs => do
    let (c1, e1) ← c.serialByte i x
    let (c2, e2) ← c1.serialRx i xs
    .ok (c2, e1 ++ e2)

/-- serial.c:324-340 `mctp_serial_read`: `res` is the result of `read` into the 1024-byte `rxbuf`:
`none` for a return value that is not positive. -/
def Core.serialRead (c : Core SerialSt) (i : Nat) (res : Option (List Byte)) :
    Res (Core SerialSt × List Event × Int) :=
  match res with
  | none => .ok (c, [], -1)
  | some bytes => do
    let (c', e) ← c.serialRx i bytes
    .ok (c', e, 0)

/-! ## Histories of an endpoint with a serial binding -/

/-- A call on the core or the delivery of a chunk of bytes to the serial binding of bus 0. -/
inductive SerialOp
  | core (op : Op SerialSt)
  | rx (chunk : List Byte)

/-- A call with its events and its return code (0 for received chunks: `mctp_serial_rx` returns 0,
serial.c:374-379). -/
structure SerialRec where
  op  : SerialOp
  evs : List Event
  rc  : Int

def Core.serialStep (c : Core SerialSt) : SerialOp → Res (Core SerialSt × List Event × Int)
  | .core op => c.step serialOps op
  | .rx chunk => do
    let (c', e) ← c.serialRx 0 chunk
    .ok (c', e, 0)

/-- A history and its log. -/
def Core.serialRun (c : Core SerialSt) : List SerialOp → Res (Core SerialSt × List SerialRec)
  | [] => .ok (c, [])
  | op :: rest => do
    let (c1, e, rc) ← c.serialStep op
    let (c2, log) ← c1.serialRun rest
    .ok (c2, ⟨op, e, rc⟩ :: log)

/-- All events of a log, in order. -/
def serialEvents (log : List SerialRec) : List Event := log.flatMap (·.evs)

/-- The calls on the core. -/
def coreLog (log : List SerialRec) : List (Rec SerialSt) :=
  log.filterMap fun r => match r.op with
    | .core op => some ⟨op, r.evs, r.rc⟩
    | .rx _ => none

/-- The bytes received in a history. -/
def bytesIn : List SerialOp → List Byte
  | [] => []
  | .rx chunk :: rest => chunk ++ bytesIn rest
  | .core _ :: rest => bytesIn rest

/-- The bytes the endpoint's serial binding has written. -/
def wireOf (c : Core SerialSt) : List Byte := c.busses.flatMap fun b => b.binding.st.wire

end Mctp
