import Verif.Model.Daemon

/-!
# Specification: the demultiplexing daemon, on the record of its system calls
-/

namespace Mctp.Spec

/-- The messages sent to clients. -/
def sendOf : SockEv → Option (Int × List Byte)
  | .sent fd bs _ => some (fd, bs)
  | _ => none
def sendsIn (log : List SockEv) : List (Int × List Byte) := log.filterMap sendOf

/-- Connections accepted on descriptor `fd`. -/
def acceptedOn (fd : Int) (log : List SockEv) : Nat := log.countP fun e => e == .accepted fd

/-- Closes of descriptor `fd`. -/
def closedOn (fd : Int) (log : List SockEv) : Nat := log.countP fun e => e == .closed fd

/-- A message was not delivered completely. -/
def failedSend : SockEv → Bool
  | .sent _ bs rc => decide (rc ≠ (bs.length : Int))
  | _ => false

/-- No delivery to a client failed. -/
def NoFailedSend (log : List SockEv) : Prop := ∀ e ∈ log, failedSend e = false

/-- A reason to disconnect the client on `fd`: it closed or broke its connection, it registered for type 0, there was no
memory for its message, or a delivery to it failed. -/
def badOn (fd : Int) : SockEv → Prop
  | .readByte f rc b => f = fd ∧ (rc ≤ 0 ∨ b = 0)
  | .peeked f len => f = fd ∧ len < 0
  | .resized f ok => f = fd ∧ ok = false
  | .received f _ bs => f = fd ∧ bs = []
  | .sent f bs rc => f = fd ∧ rc ≠ (bs.length : Int)
  | _ => False

/-- The client whose connection this call shows to have failed, if any: see `badOn`. -/
def failedOn : SockEv → Option Int
  | .readByte f rc b => if rc ≤ 0 ∨ b = 0 then some f else none
  | .peeked f len => if len < 0 then some f else none
  | .resized f ok => if ok then none else some f
  | .received f _ bs => if bs = [] then some f else none
  | .sent f bs rc => if rc = (bs.length : Int) then none else some f
  | _ => none

/-- The clients that have failed and have not been disconnected, updated by one call. -/
def updateFailed (s : List Int) (e : SockEv) : List Int :=
  match e with
  | .closed fd => s.filter (· ≠ fd)
  | e => s ++ (failedOn e).toList
def stillOpen (log : List SockEv) : List Int := log.foldl updateFailed []

/-- When the daemon waits for events, no client that has failed is connected. -/
def Settled (pre : List SockEv) (e : SockEv) : Prop := ∀ f r, e = .polled f r → stillOpen pre = []

/-- At most one client at a time has failed, and no client hangs up before it has registered. -/
def OneAtATime (pre : List SockEv) (e : SockEv) : Prop :=
  (∀ a ∈ stillOpen (pre ++ [e]), ∀ b ∈ stillOpen (pre ++ [e]), a = b) ∧ ∀ fd b, e ≠ .readByte fd 0 b

/-- The calls since the last connection accepted on `fd`. -/
def since (fd : Int) (log : List SockEv) : List SockEv :=
  log.foldl (fun acc e => if e = .accepted fd then [] else acc ++ [e]) []

/-- The type the client on `fd` has registered for: the first byte read from it since it connected, and 0 before. -/
def typeOf (fd : Int) (log : List SockEv) : Byte :=
  log.foldl (fun t e => match e with
    | .accepted f => if f = fd then 0 else t
    | .readByte f rc b => if f = fd ∧ 0 < rc then b else t
    | _ => t) 0

/-- The descriptor read from, if the call is a read. -/
def readFrom : SockEv → Option Int
  | .readByte fd _ _ => some fd
  | .peeked fd _ => some fd
  | .received fd _ _ => some fd
  | _ => none

/-- The descriptors reported, if the call is poll(). -/
def reportedBy : SockEv → Option (List Int)
  | .polled _ r => some r
  | _ => none

/-- What the last poll() reported. -/
def lastReported (log : List SockEv) : List Int := (log.filterMap reportedBy).getLast?.getD []

/-- A property of each call, given the calls before it. -/
def Each (P : List SockEv → SockEv → Prop) : List SockEv → List SockEv → Prop
  | _, [] => True
  | pre, e :: rest => P pre e ∧ Each P (pre ++ [e]) rest

/-- A connection is never accepted on a descriptor that is still open (the operating system guarantees it). -/
def FreshAccept (pre : List SockEv) (e : SockEv) : Prop :=
  ∀ fd, e = .accepted fd → 0 ≤ fd → acceptedOn fd pre = closedOn fd pre

/-- A message is sent only to a client that is connected and that registered for its type (the byte after the EID). -/
def SentRegistered (pre : List SockEv) (e : SockEv) : Prop :=
  ∀ fd bs rc, e = .sent fd bs rc →
    (∃ eid x rest, bs = eid :: typeOf fd pre :: x :: rest) ∧ acceptedOn fd pre = closedOn fd pre + 1

/-- No two neighbours are inactive. -/
def NoTwoInactive : List Client → Prop
  | a :: b :: rest => (a.active = true ∨ b.active = true) ∧ NoTwoInactive (b :: rest)
  | _ => True

/-- What is sent for a message from `eid`: the message after the EID, to each client registered for its type (its first byte).
Messages of less than two bytes are not passed on. -/
def wanted (cs : List Client) (eid : Byte) (msg : List Byte) : List (Int × List Byte) :=
  match msg with
  | type :: _ :: _ => (cs.filter (fun c => c.type = type)).map fun c => (c.sock, eid :: msg)
  | _ => []

/-! ## The daemon as a relay -/

/-- The clients that are connected and the types they registered for, updated by one call: a new client has registered for
nothing (0). -/
def updateTable (t : List (Int × Byte)) : SockEv → List (Int × Byte)
  | .accepted fd => if 0 ≤ fd then t ++ [(fd, 0)] else t
  | .readByte fd rc b => if 0 < rc then t.map (fun p => if p.1 = fd then (fd, b) else p) else t
  | .closed fd => t.filter (fun p => p.1 ≠ fd)
  | _ => t

/-- What the clients of the table must be sent when a message arrives: the EID and the message, to all that registered for its type (its first
byte).  Messages of less than two bytes are not passed on. -/
def dueFor (t : List (Int × Byte)) (src : Byte) (msg : List Byte) : List (Int × List Byte) :=
  match msg with
  | type :: _ :: _ => (t.filter (fun p => p.2 = type)).map fun p => (p.1, src :: msg)
  | _ => []

/-- An exact relay, in a state with this table and these messages to be sent next: each arrival is followed at once by the messages due for it, in the order of the table,
and nothing else is sent. -/
def Relay : List (Int × Byte) → List (Int × List Byte) → List SockEv → Prop
  | _, due, [] => due = []
  | t, due, .sent fd bs _ :: rest => due.head? = some (fd, bs) ∧ Relay t due.tail rest
  | t, due, .arrived src msg :: rest => due = [] ∧ Relay t (dueFor t src msg) rest
  | t, due, e :: rest => due = [] ∧ Relay (updateTable t e) [] rest

/-- Everything that must be sent to clients, given these calls. -/
def owedFrom (t : List (Int × Byte)) : List SockEv → List (Int × List Byte)
  | [] => []
  | .arrived src msg :: rest => dueFor t src msg ++ owedFrom t rest
  | e :: rest => owedFrom (updateTable t e) rest
def owed (log : List SockEv) : List (Int × List Byte) := owedFrom [] log

/-- The messages that arrive, with their source. -/
def arrivalOf : SockEv → Option (Byte × List Byte)
  | .arrived src msg => some (src, msg)
  | _ => none

/-- The messages of this type (at least two bytes, the first of them the type). -/
def ofType (ty : Byte) (p : Byte × List Byte) : Bool := match p.2 with
  | x :: _ :: _ => decide (x = ty)
  | _ => false

/-- What is sent to this client. -/
def sentTo (fd : Int) : SockEv → Option (List Byte)
  | .sent f bs _ => if f = fd then some bs else none
  | _ => none

/-- A client's message to the EID of the daemon. -/
def toSelf (localEid : Int) : SockEv → Bool
  | .received _ _ (eid :: _) => decide ((eid.toNat : Int) = localEid)
  | _ => false

/-- The messages that arrive from other endpoints: those that do not follow directly a client's message to the daemon's own EID (`own`: the previous call was
one). -/
def arrivalsFrom (localEid : Int) (own : Bool) : List SockEv → List (Byte × List Byte)
  | [] => []
  | .arrived src msg :: rest => (if own then [] else [(src, msg)]) ++ arrivalsFrom localEid false rest
  | e :: rest => arrivalsFrom localEid (toSelf localEid e) rest
def netArrivals (localEid : Int) (log : List SockEv) : List (Byte × List Byte) := arrivalsFrom localEid false log

/-- A message of a client to another endpoint: the EID and the message. -/
def clientSend (localEid : Int) : SockEv → Option (Byte × List Byte)
  | .received _ _ (eid :: payload) => if (eid.toNat : Int) = localEid then none else some (eid, payload)
  | _ => none
def clientSends (localEid : Int) (log : List SockEv) : List (Byte × List Byte) := log.filterMap (clientSend localEid)

/-- A message of a client to the EID of the daemon: the EID and the message. -/
def selfSend (localEid : Int) : SockEv → Option (Byte × List Byte)
  | .received _ _ (eid :: payload) => if (eid.toNat : Int) = localEid then some (eid, payload) else none
  | _ => none

/-- A client's message to the daemon's own EID is passed on at once. -/
def Echoed (le : Int) : List SockEv → Prop
  | [] => True
  | e :: rest => (∀ fd rc eid payload, e = .received fd rc (eid :: payload) → (eid.toNat : Int) = le →
      ∃ post, rest = .arrived eid payload :: post) ∧ Echoed le rest

/-- No connection could not be accepted. -/
def AllAccepted (log : List SockEv) : Prop := ∀ fd, SockEv.accepted fd ∈ log → 0 ≤ fd

/-- The bytes the device gives to a daemon with a serial binding. -/
def lineBytes (rs : List (Ready (Option (List Byte)))) : List Byte := (rs.filterMap (·.binding)).flatMap (·.getD [])

/-- The message handed to the user of the core, if the event is that. -/
def handed : Event → Option (Byte × List Byte)
  | .rxMsg src _ _ msg => some (src, msg)
  | _ => none

/-! ## The traffic between the daemon and its clients -/

/-- A message between the daemon and a client: whether it comes from the client, the EID of the other endpoint, and the message. -/
def traffic : SockEv → Option (Bool × Byte × List Byte)
  | .received _ _ (eid :: payload) => some (true, eid, payload)
  | .sent _ (eid :: payload) _ => some (false, eid, payload)
  | _ => none

end Mctp.Spec
