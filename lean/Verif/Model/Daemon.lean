import Verif.Model.Api
import Verif.Model.Astlpc

/-!
# Model of `utils/mctp-demux-daemon.c`

The daemon forwards messages between the MCTP core and clients connected to a local socket.  The operating system
is an arbitrary state machine (`Net`); every call of it is recorded with its result.  The core is the model of `core.c`
with an arbitrary binding; `proc` stands for the binding's `process` function (mctp_serial_read, mctp_astlpc_poll).

Not modelled here: the command line, start-up, clean-up and signals (see `DaemonMain.lean`), messages on stderr, `capture_socket` (see `Util.lean`), and failures of the unchecked allocations of the arrays
of clients and of poll entries.
-/

namespace Mctp

/-- utils/mctp-demux-daemon.c:56-60 `struct client`. -/
structure Client where
  active : Bool
  sock   : Int
  type   : Byte
  deriving DecidableEq, Repr

/-- The operating system, with state `W`.  `send`: sendmsg; `readByte`: read of one byte; `peek`: recv with
MSG_PEEK | MSG_TRUNC; `recv`: recv with a buffer of the given size; `grow`: does the realloc of the message buffer
succeed; `junk`: the value of the uninitialised variable `removed` (demux-daemon.c:116). -/
structure Net (W : Type) where
  accept   : W → Int × W
  send     : W → Int → List Byte → Int × W
  readByte : W → Int → Int × Byte × W
  peek     : W → Int → Int × W
  recv     : W → Int → Nat → Int × List Byte × W
  grow     : W → Bool × W
  junk     : W → Bool × W

/-- A call of the operating system, with its result. -/
inductive SockEv
  /-- poll() on these client sockets, and those it reported -/
  | polled (fds reported : List Int)
  | accepted (fd : Int)
  | readByte (fd rc : Int) (b : Byte)
  | peeked (fd rc : Int)
  /-- realloc() of the message buffer, for a message from `fd` -/
  | resized (fd : Int) (ok : Bool)
  | received (fd rc : Int) (bytes : List Byte)
  | sent (fd : Int) (bytes : List Byte) (rc : Int)
  | closed (fd : Int)
  /-- not a call of the operating system: `rx_message` is called, for a message from EID `src` -/
  | arrived (src : Byte) (msg : List Byte)
  deriving DecidableEq, Repr

/-- utils/mctp-demux-daemon.c:62-80 `struct ctx` and the local variable `clients_changed` of `run_daemon`.  `pollfds`
are the descriptors of the client entries of the poll array (after the three fixed entries).  `log` and `evs` are ghosts:
the calls of the operating system, and the events of the core. -/
structure Daemon (W β : Type) where
  w        : W
  log      : List SockEv
  core     : Core β
  evs      : List Event
  localEid : Int
  bufSize  : Nat
  clients  : List Client
  pollfds  : List Int
  changed  : Bool

variable {W β π : Type}

/-- utils/mctp-demux-daemon.c:91-107 `client_remove_inactive`: the loop, from index `i` (`fuel`: at most this many steps).  The clients
left and the sockets closed. -/
def removeFrom : Nat → Nat → List Client → List Client × List Int
  | 0, _, cs => (cs, [])
  | fuel + 1, i, cs =>
    match cs[i]? with
    | none => (cs, [])
    | some c =>
      if c.active then removeFrom fuel (i + 1) cs
      else
        let (cs', closed) := removeFrom fuel (i + 1) (cs.eraseIdx i)
        (cs', c.sock :: closed)

/-- utils/mctp-demux-daemon.c:95: the loop; it takes at most one step for every client. -/
def removeLoop (i : Nat) (cs : List Client) : List Client × List Int := removeFrom cs.length i cs

/-- utils/mctp-demux-daemon.c:91-107. -/
def Daemon.removeInactive (d : Daemon W β) : Daemon W β :=
  { d with clients := (removeLoop 0 d.clients).1, log := d.log ++ (removeLoop 0 d.clients).2.map .closed }

/-- utils/mctp-demux-daemon.c:139-153: the loop over the clients.  The clients left (some of them marked
inactive), the new world, the calls made, and whether one was marked. -/
def forwardLoop (net : Net W) (eid : Byte) (type : Byte) (msg : List Byte) :
    W → List Client → List Client × W × List SockEv × Bool
  | w, [] => ([], w, [], false)
  | w, c :: rest =>
    if c.type ≠ type then
      let (cs, w, l, r) := forwardLoop net eid type msg w rest
      (c :: cs, w, l, r)
    else
      let (rc, w) := net.send w c.sock (eid :: msg)
      let bad := decide (rc ≠ (msg.length : Int) + 1)
      let (cs, w, l, r) := forwardLoop net eid type msg w rest
      ((if bad then { c with active := false } else c) :: cs, w, .sent c.sock (eid :: msg) rc :: l, bad || r)

/-- utils/mctp-demux-daemon.c:119-155, the statements of `rx_message`.  `junk`: the initial value of `removed`. -/
def Daemon.forward (net : Net W) (d : Daemon W β) (junk : Bool) (eid : Byte) (msg : List Byte) : Daemon W β :=
  match msg with
  | type :: _ :: _ =>
    let (cs, w, l, r) := forwardLoop net eid type msg d.w d.clients
    let d := { d with w := w, clients := cs, log := d.log ++ l }
    if junk || r then d.removeInactive else d
  | _ => d

/-- utils/mctp-demux-daemon.c:109-155 `rx_message`. -/
def Daemon.rxMessage (net : Net W) (d : Daemon W β) (eid : Byte) (msg : List Byte) : Daemon W β :=
  let (junk, w) := net.junk d.w
  Daemon.forward net { d with w := w, log := d.log ++ [SockEv.arrived eid msg] } junk eid msg

/-- The callbacks of the core (libmctp.h:104, demux-daemon.c:486 `mctp_set_rx_all`) in one call of it, in order.  (The callback
does not call the core.) -/
def Daemon.deliver (net : Net W) (d : Daemon W β) : List Event → Daemon W β
  | [] => d
  | .rxMsg src _ _ msg :: rest => (d.rxMessage net src msg).deliver net rest
  | _ :: rest => d.deliver net rest

/-- utils/mctp-demux-daemon.c:82-89 `tx_message`: the result is only reported. -/
def Daemon.txMessage (net : Net W) (ops : Ops β) (d : Daemon W β) (eid : Byte) (msg : List Byte) : Res (Daemon W β) := do
  let (c, e, _) ← d.core.messageTx ops eid true 0 msg
  .ok ({ d with core := c, evs := d.evs ++ e }.deliver net e)

/-- `client->active = false` for client `i`. -/
def Daemon.setClient (d : Daemon W β) (i : Nat) (c : Client) : Daemon W β := { d with clients := d.clients.set i c }

/-- utils/mctp-demux-daemon.c:400-426, the last part of `client_process_recv`: read the message and pass it on.  `recv` never
returns more than the size of the buffer. -/
def Daemon.takeMessage (net : Net W) (ops : Ops β) (d : Daemon W β) (i : Nat) (c : Client) : Res (Daemon W β × Int) :=
  let (rc, bs, w) := net.recv d.w c.sock d.bufSize
  let rc := min rc d.bufSize
  let msg := exactly rc.toNat bs
  let d := { d with w := w, log := d.log ++ [SockEv.received c.sock rc msg] }
  match msg with
  | [] => .ok (d.setClient i { c with active := false }, -1)
  | eid :: payload =>
    if (eid.toNat : Int) = d.localEid then .ok (d.rxMessage net eid payload, 0)
    else do
      let d ← d.txMessage net ops eid payload
      .ok (d, 0)

/-- utils/mctp-demux-daemon.c:345-426 `client_process_recv`. -/
def Daemon.clientProcessRecv (net : Net W) (ops : Ops β) (d : Daemon W β) (i : Nat) : Res (Daemon W β × Int) :=
  match d.clients[i]? with
  | none => .error .outOfBounds
  | some c =>
    if c.type = 0 then
      let (rc, b, w) := net.readByte d.w c.sock
      let d := { d with w := w, log := d.log ++ [SockEv.readByte c.sock rc b] }
      if rc ≤ 0 then .ok (d.setClient i { c with active := false }, rc)
      else if b = 0 then .ok (d.setClient i { c with active := false }, -1)
      else .ok (d.setClient i { c with type := b }, 0)
    else
      let (len, w) := net.peek d.w c.sock
      let d := { d with w := w, log := d.log ++ [SockEv.peeked c.sock len] }
      if len < 0 then .ok (d.setClient i { c with active := false }, -1)
      else
        let need := decide (len.toNat > d.bufSize)
        let (ok, w) := if need then net.grow d.w else (true, d.w)
        let d := { d with w := w, log := d.log ++ (if need then [SockEv.resized c.sock ok] else []) }
        if !ok then .ok (d.setClient i { c with active := false }, -1)
        else
          let d := if need then { d with bufSize := len.toNat } else d
          d.takeMessage net ops i c

/-- utils/mctp-demux-daemon.c:324-343 `socket_process`. -/
def Daemon.socketProcess (net : Net W) (d : Daemon W β) : Daemon W β × Int :=
  let (fd, w) := net.accept d.w
  let d := { d with w := w, log := d.log ++ [SockEv.accepted fd] }
  if fd < 0 then (d, -1)
  else ({ d with clients := d.clients ++ [{ active := true, sock := fd, type := 0 }] }, 0)

/-- What poll() reports: the entry of the binding (with what its device will give, an input of `proc`), the entries of the clients by position in the poll array, the entry
of the listening socket. -/
structure Ready (π : Type) where
  binding : Option π
  client  : Nat → Bool
  sock    : Bool

/-- utils/mctp-demux-daemon.c:543-550: the loop over the clients, from index `i` (`fuel`: at most this many steps). -/
def Daemon.clientLoop (net : Net W) (ops : Ops β) (ready : Nat → Bool) : Nat → Nat → Daemon W β → Res (Daemon W β)
  | 0, i, d => if i < d.clients.length then .error .noReturn else .ok d
  | fuel + 1, i, d =>
    if i < d.clients.length then
      if i < d.pollfds.length then
        if ready i then do
          let (d, rc) ← d.clientProcessRecv net ops i
          Daemon.clientLoop net ops ready fuel (i + 1) (if rc ≠ 0 then { d with changed := true } else d)
        else Daemon.clientLoop net ops ready fuel (i + 1) d
      else .error .outOfBounds
    else .ok d

/-- The entries at the positions that satisfy `f`, from position `i`. -/
def reported (f : Nat → Bool) : Nat → List Int → List Int
  | _, [] => []
  | i, fd :: rest => (if f i then [fd] else []) ++ reported f (i + 1) rest

/-- utils/mctp-demux-daemon.c:489-507: rebuild the poll array, and poll (with result `r`). -/
def Daemon.poll (d : Daemon W β) (r : Ready π) : Res (Daemon W β) :=
  let d := if d.changed then { d with pollfds := d.clients.map (·.sock), changed := false } else d
  if d.clients.length ≤ d.pollfds.length then
    .ok { d with log := d.log ++ [SockEv.polled (d.pollfds.take d.clients.length)
        (reported r.client 0 (d.pollfds.take d.clients.length))] }
  else .error .outOfBounds

/-- utils/mctp-demux-daemon.c:535-541: the binding's `process` function. -/
def Daemon.bindingProcess (net : Net W) (proc : π → Core β → Res (Core β × List Event × Int)) (d : Daemon W β) (r : Ready π) :
    Res (Daemon W β × Bool) :=
  match r.binding with
  | some x => do
    let (c, e, rc) ← proc x d.core
    .ok ({ d with core := c, evs := d.evs ++ e }.deliver net e, decide (rc ≠ 0))
  | none => .ok (d, false)

/-- utils/mctp-demux-daemon.c:535-560: what follows the poll.  The Boolean says that the loop is left. -/
def Daemon.react (net : Net W) (ops : Ops β) (proc : π → Core β → Res (Core β × List Event × Int)) (d : Daemon W β) (r : Ready π) :
    Res (Daemon W β × Bool) := do
  let (d, stop) ← d.bindingProcess net proc r
  if stop then .ok (d, true)
  else do
    let d ← d.clientLoop net ops r.client d.clients.length 0
    let (d, stop) := if r.sock then
        let (d, rc) := d.socketProcess net
        if rc ≠ 0 then (d, true) else ({ d with changed := true }, false)
      else (d, false)
    if stop then .ok (d, true)
    else .ok (if d.changed then d.removeInactive else d, false)

/-- utils/mctp-demux-daemon.c:488-561: the loop of `run_daemon`, for these results of poll(). -/
def Daemon.run (net : Net W) (ops : Ops β) (proc : π → Core β → Res (Core β × List Event × Int)) (d : Daemon W β) :
    List (Ready π) → Res (Daemon W β)
  | [] => .ok d
  | r :: rest => do
    let d ← d.poll r
    let (d, stop) ← d.react net ops proc r
    if stop then .ok d else d.run net ops proc rest

/-- utils/mctp-demux-daemon.c:594-640, 457-486: the daemon when it enters its loop, with a core that has a message handler. -/
def Daemon.init (w : W) (core : Core β) (localEid : Int) : Daemon W β :=
  { w := w, log := [], core := core.setRxAll true, evs := [], localEid := localEid, bufSize := 4096, clients := [],
    pollfds := [], changed := false }

end Mctp
