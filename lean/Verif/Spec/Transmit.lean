import Verif.Spec.Fragment
import Verif.Spec.Packet
import Verif.Model.Api

/-!
# Specification: the ideal transmitter of one bus

A gate (never enabled, open, closed), a FIFO of packets and a packet size.  A send appends the
fragments of the message; whenever the gate is open, the oldest packet is offered until the FIFO is
empty, the gate closes, or the binding refuses.  A packet leaves the FIFO exactly when the binding
takes it (answer 0) or rejects it as too large (-EMSGSIZE).
-/

namespace Mctp.Spec

inductive Gate
  | never
  | opened
  | closed
  deriving DecidableEq, Repr

/-- A call of the binding's `tx`: the packet, the answer, and whether the binding disabled
transmission during the call. -/
structure Offer where
  pkt : List Byte
  rc  : Int
  off : Bool
  deriving DecidableEq, Repr

/-- The binding consumed the packet. -/
def Offer.consumed (o : Offer) : Bool := o.rc == 0 || o.rc == -90

/-- The offers made to bus `i` in an event list. -/
def offers (i : Nat) (evs : List Event) : List Offer :=
  evs.filterMap fun e => match e with
    | .tx j p rc off => if j = i then some ⟨p, rc, off⟩ else none
    | _ => none

structure TxState where
  gate  : Gate
  queue : List (List Byte)
  size  : Nat
  deriving DecidableEq, Repr

/-- Offer the queued packets, with these answers.  `none`: these are not the offers the ideal
transmitter makes. -/
def flush (s : TxState) : List Offer → Option TxState
  | [] => if s.gate = .opened ∧ s.queue ≠ [] then none else some s
  | o :: rest =>
    match s.gate, s.queue with
    | .opened, p :: q =>
      if o.pkt = p then
        let g : Gate := if o.off then .closed else .opened
        if o.consumed then flush { s with gate := g, queue := q } rest
        else if rest = [] then some { s with gate := g } else none
      else none
    | _, _ => none

/-- The effect of one API call on bus 0 of an endpoint with this protocol version and address. -/
def txStep {β : Type} (ver eid : Byte) (s : TxState) (r : Rec β) : Option TxState :=
  match r.op with
  | .send dest own tag msg =>
    if 7 < tag.toNat then
      if r.rc = -22 ∧ offers 0 r.evs = [] then some s else none
    else if s.gate = .never then
      if r.rc = -6 ∧ offers 0 r.evs = [] then some s else none
    else if r.rc = 0 then
      flush { s with queue := s.queue ++ fragments ver eid dest own tag (s.size - 4) msg }
        (offers 0 r.evs)
    else none
  | .enable _ on =>
    match s.gate, on with
    | .never, true =>
      if offers 0 r.evs = [] then some (if 68 ≤ s.size then { s with gate := .opened } else s)
      else none
    | .opened, false => if offers 0 r.evs = [] then some { s with gate := .closed } else none
    | .closed, true => flush { s with gate := .opened } (offers 0 r.evs)
    | _, _ => if offers 0 r.evs = [] then some s else none
  | .rebind _ _ ps _ _ _ => if offers 0 r.evs = [] then some { s with size := ps } else none
  | _ => if offers 0 r.evs = [] then some s else none

/-- A whole log. -/
def txRun {β : Type} (ver eid : Byte) (s : TxState) : List (Rec β) → Option TxState
  | [] => some s
  | r :: rest => (txStep ver eid s r).bind fun s' => txRun ver eid s' rest

/-- `ps` are the packets of the message `msg`, as the standard wants them: header version, destination,
source, tag owner and tag on every packet; start flag on the first only, end flag on the last only;
sequence numbers 0,1,2,3,0,...; every packet but the last carries exactly `mtu` bytes, the last at least
one and at most `mtu`; together they carry the message. -/
structure IsFragmentation (ver src dest : Byte) (own : Bool) (tag mtu : Nat) (msg : List Byte)
    (ps : List (List Byte)) : Prop where
  count   : ps.length = (msg.length + mtu - 1) / mtu
  packets : ∀ (i : Nat) p, ps[i]? = some p → ∃ f, parse p = some f ∧
    p.head? = some (BitVec.ofNat 8 (ver.toNat % 16)) ∧
    f.src = src ∧ f.dest = dest ∧ f.tagOwner = own ∧ f.tag = tag ∧ f.seq = i % 4 ∧
    (f.som = true ↔ i = 0) ∧ (f.eom = true ↔ i + 1 = ps.length) ∧
    (i + 1 < ps.length → f.payload.length = mtu) ∧ 1 ≤ f.payload.length ∧ f.payload.length ≤ mtu
  content : (ps.flatMap fun p => p.drop 4) = msg

/-- The packets consumed by the binding of bus 0. -/
def consumed {β : Type} (log : List (Rec β)) : List (List Byte) :=
  ((offers 0 (log.flatMap (·.evs))).filter Offer.consumed).map Offer.pkt

/-- A message handed to the transmitter, with the number of payload bytes per packet at the time. -/
structure Msg where
  dest : Byte
  own  : Bool
  tag  : Byte
  mtu  : Nat
  data : List Byte
  deriving DecidableEq, Repr

/-- Its packets. -/
def Msg.packets (ver src : Byte) (m : Msg) : List (List Byte) :=
  fragments ver src m.dest m.own m.tag m.mtu m.data

/-- The messages that were accepted (return value 0), in order; `size` is the packet size the binding
has at the time. -/
def accepted {β : Type} : Nat → List (Rec β) → List Msg
  | _, [] => []
  | size, r :: rest =>
    match r.op with
    | .send dest own tag msg =>
      (if r.rc = 0 then [⟨dest, own, tag, size - 4, msg⟩] else []) ++ accepted size rest
    | .rebind _ _ ps _ _ _ => accepted ps rest
    | _ => accepted size rest

end Mctp.Spec
