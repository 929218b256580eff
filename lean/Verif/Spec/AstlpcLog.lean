import Verif.Model.Astlpc
import Verif.Spec.Astlpc
import Verif.Model.Crc

/-!
# Specification: discipline of the accesses made by one side (docs/bindings/vendor-ibm-astlpc.md)

A monitor that reads the accesses one side makes to the KCS registers and the LPC window, in order, and
rejects the first one that breaks the protocol.  It knows nothing about the implementation's state.

Values of the KCS data register: 0 initialise (host to BMC), 1 transmit begin, 2 receive complete, 255
dummy (BMC to host).  Status register: bit 0 the output register (BMC to host) is full, bit 1 the input
register (host to BMC) is full.
-/

namespace Mctp.Spec

/-- The transmit buffer, as seen by its owner. -/
inductive TxPhase
  /-- may be filled -/
  | free
  /-- the length is written, the packet is not -/
  | half
  /-- holds a packet that has not been announced -/
  | full
  /-- announced: belongs to the other side -/
  | handed
  deriving DecidableEq, Repr

/-- What the monitor remembers: the previous access, the phase of the transmit buffer, and whether the
receive buffer has been handed to this side. -/
structure Watch where
  last : Option Access
  tx   : TxPhase
  rx   : Bool
  deriving DecidableEq, Repr

/-- Nothing has happened. -/
def Watch.zero : Watch := ⟨none, .free, false⟩

/-- The previous access was a successful read of the status register that showed input for this side
(bit 1 for the BMC, bit 0 for the host). -/
def Watch.sawInput (mode : AstMode) (w : Watch) : Bool :=
  match w.last with
  | some (.kcsRead .status rc v) =>
    decide (rc = 0) && (match mode with | .bmc => v.getLsbD 1 | .host => v.getLsbD 0)
  | _ => false

/-- The previous access was a successful read of the status register that showed that this side's last
output has been read (bit 0 for the BMC, bit 1 for the host). -/
def Watch.sawRoom (mode : AstMode) (w : Watch) : Bool :=
  match w.last with
  | some (.kcsRead .status rc v) =>
    decide (rc = 0) && (match mode with | .bmc => !v.getLsbD 0 | .host => !v.getLsbD 1)
  | _ => false

/-- The previous access was a successful write of the status register. -/
def Watch.wroteStatus (w : Watch) : Bool :=
  match w.last with
  | some (.kcsWrite .status _ rc) => decide (rc = 0)
  | _ => false

/-- One access; `none` if it is not allowed.

* The data register is read only when the status register has just shown input, and written with a
  command 1 or 2 only when it has just shown room.  Only the host writes 0; 255 is written only right
  after the status register.
* A transmit-begin is written only for a packet that is in the buffer and not announced; a
  receive-complete only for a buffer that was handed over.
* The window is accessed in its first 32 bytes (the header); or else written while the transmit buffer is
  free (first the length, then the packet), or read while the receive buffer is handed over.
* Writing (BMC) or reading (host) the two bytes at offset 12, the negotiated version, starts a new
  channel. -/
def Watch.step (mode : AstMode) (w : Watch) (a : Access) : Option Watch :=
  let w' := { w with last := some a }
  match a with
  | .kcsRead .status _ _ => some w'
  | .kcsRead .data rc v =>
    if w.sawInput mode then
      some { w' with tx := if rc = 0 ∧ v = 2 ∧ w.tx = .handed then .free else w.tx,
                     rx := if rc = 0 ∧ v = 1 then true else w.rx }
    else none
  | .kcsWrite .status _ _ => some w'
  | .kcsWrite .data v rc =>
    if v = 1 then
      if w.sawRoom mode ∧ w.tx = .full then some { w' with tx := if rc = 0 then .handed else .full }
      else none
    else if v = 2 then
      if w.sawRoom mode ∧ w.rx = true then some { w' with rx := decide (rc ≠ 0) } else none
    else if v = 0 then if mode = .host then some w' else none
    else if v = 255 then if w.wroteStatus then some w' else none
    else none
  | .lpcRead off bs _ =>
    if off + bs.length ≤ 32 then
      if off = 12 then some { w' with tx := .free, rx := false } else some w'
    else if w.rx then some w'
    else none
  | .lpcWrite off bs _ =>
    if off + bs.length ≤ 32 then
      if off = 12 then some { w' with tx := .free, rx := false } else some w'
    else
      match w.tx with
      | .free => some { w' with tx := .half }
      | .half => some { w' with tx := .full }
      | _ => none

/-- The monitor on a sequence of accesses. -/
def watch (mode : AstMode) : Watch → List Access → Option Watch
  | w, [] => some w
  | w, a :: rest =>
    match w.step mode a with
    | some w' => watch mode w' rest
    | none => none

/-- The accesses obey the protocol. -/
def Disciplined (mode : AstMode) (accs : List Access) : Prop := ∃ w, watch mode Watch.zero accs = some w

/-- The status shows a command for this side: bit 1 (the input register) for the BMC, bit 0 (the output
register) for the host. -/
def inputFull (mode : AstMode) (status : Byte) : Bool :=
  match mode with
  | .bmc => status.getLsbD 1
  | .host => status.getLsbD 0

/-- The status shows that this side's last command has not been read: bit 0 for the BMC, bit 1 for the
host. -/
def outputFull (mode : AstMode) (status : Byte) : Bool :=
  match mode with
  | .bmc => status.getLsbD 0
  | .host => status.getLsbD 1

/-- The access starts a new channel: the negotiated version is written (BMC) or read (host). -/
def NewChannel : Access → Prop
  | .lpcRead 12 _ _ => True
  | .lpcWrite 12 _ _ => True
  | _ => False

/-- A window access of one side with its current buffers: in the header, or a read inside its receive
buffer, or a write inside its transmit buffer; and then the two buffers are apart, and inside the
window. -/
def InBounds (x : Logged) : Prop :=
  match x.acc with
  | .lpcRead off bs _ => Within off bs.length 0 32 ∨
      (Within off bs.length x.rx.offset x.rx.size ∧
        SafeLayout 1 x.rx.offset x.rx.size x.tx.offset x.tx.size)
  | .lpcWrite off bs _ => Within off bs.length 0 32 ∨
      (Within off bs.length x.tx.offset x.tx.size ∧
        SafeLayout 1 x.rx.offset x.rx.size x.tx.offset x.tx.size)
  | _ => True

/-- An access to a KCS register that failed while sending a command: the status could not be read, or the
command could not be written. -/
def KcsFailed : Access → Prop
  | .kcsRead .status r _ => r ≠ 0
  | .kcsWrite .data _ r => r ≠ 0
  | _ => False

/-- The access does not serve transmission: it is not a transmit-begin, not a write to the status register (the BMC
shows there that the channel is active), and not a write to the window outside its header. -/
def Hushed : Access → Prop
  | .kcsWrite .data v _ => v ≠ 1
  | .kcsWrite .status _ _ => False
  | .lpcWrite off bs _ => off + bs.length ≤ 32
  | _ => True

/-- An access that can open the channel: reading the command 0, or (for the host) a status that shows an active
channel (bit 6). -/
def Opens (mode : AstMode) : Access → Prop
  | .kcsRead .data r v => r = 0 ∧ v = 0
  | .kcsRead .status r v => mode = .host ∧ r = 0 ∧ v.getLsbD 6 = true
  | _ => False

/-! ## Packets in the window -/

/-- The writes to the window outside its header, in order: where, and what. -/
def bufferWrites (l : List Access) : List (Nat × List Byte) :=
  l.filterMap fun a => match a with
    | .lpcWrite off bs _ => if off + bs.length ≤ 32 then none else some (off, bs)
    | _ => none

/-- A packet as it stands in a buffer after its length: in version 3 followed by its CRC-32
(`C37_crc32`), most significant byte first. -/
def wire (version : Nat) (p : List Byte) : List Byte :=
  if version = 3 then p ++ be32 (crc32 p).toNat else p

/-- The writes are those of the packets, one after the other, each exactly once: the length at the start of a
buffer, then the packet behind it.  `P version offset` restricts the versions and buffers used. -/
inductive Wrote (P : Nat → Nat → Prop) : List (List Byte) → List (Nat × List Byte) → Prop
  | nil : Wrote P [] []
  | cons {version offset : Nat} {p : List Byte} {ps : List (List Byte)} {ws : List (Nat × List Byte)} :
      P version offset → Wrote P ps ws →
      Wrote P (p :: ps) ((offset, be32 p.length) :: (offset + 4, wire version p) :: ws)

end Mctp.Spec
