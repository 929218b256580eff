import Verif.Model.Daemon
import Verif.Model.Util

/-!
# Model of the capture of the clients' messages (`--capture-socket`) in `utils/mctp-demux-daemon.c`
-/

namespace Mctp

/-- utils/mctp-demux-daemon.c:407-409 (in `client_process_recv`): the calls of `capture_socket` in a record of the daemon, and the records they write.  It is
called for each message received from a client that is not empty, with the whole message, `MCTP_MESSAGE_CAPTURE_OUTGOING` and its first byte; `rx_message`
(109-155), which sends messages to the clients, does not call it.  `clock` and `fill` as in `captureSocket`.  (The call touches nothing else of the daemon, so it
is modelled on the record of the daemon's calls; it uses its own allocations.) -/
def captureClients (clock : Bool) (fill : Nat → Byte) (mem : Mem) : List SockEv → Res (List CapRec × Mem)
  | [] => .ok ([], mem)
  | .received _ _ (eid :: payload) :: rest => do
    let (r1, mem) ← captureSocket clock fill mem (eid :: payload) true eid
    let (r2, mem) ← captureClients clock fill mem rest
    .ok (r1 ++ r2, mem)
  | _ :: rest => captureClients clock fill mem rest

end Mctp
