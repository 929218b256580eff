import Verif.Model.Astlpc

/-!
# A scripted environment for the astlpc binding

Used by the examples that show that the hypotheses of the theorems are met, and by the counterexamples
(witnesses of findings).
-/

namespace Mctp.AstDemo

/-- What the accessors will return: results and values of the reads of the status register and of the
data register, the blocks read from the window, and the results of the writes to the KCS registers.
When a list is exhausted the accessors return 0 (and zeros). -/
structure Script where
  stat  : List (Int × Byte) := []
  data  : List (Int × Byte) := []
  reads : List (List Byte) := []
  wr    : List Int := []
  deriving DecidableEq, Repr

def hw : Hw Script where
  kcsRead s r :=
    match r with
    | .status => ((s.stat.headD (0, 0)).1, (s.stat.headD (0, 0)).2, { s with stat := s.stat.tail })
    | .data => ((s.data.headD (0, 0)).1, (s.data.headD (0, 0)).2, { s with data := s.data.tail })
  kcsWrite s _ _ := (s.wr.headD 0, { s with wr := s.wr.tail })
  lpcRead s _ _ := (0, s.reads.headD [], { s with reads := s.reads.tail })
  lpcWrite s _ _ := (0, s)

/-- The core after init, `mctp_set_rx_all` and `mctp_set_max_message_size(mx)`. -/
def core0 (mx : Nat) : Core (AstSt Script) :=
  let c : Core (AstSt Script) :=
    { mem := { next := 1, live := [0] }, fill := fun _ => 0xaa, self := 0, nBusses := 0, bussesPtr := none, busses := [],
      hasRx := false, hasCapture := false, ctxs := List.replicate 16 Ctx.zero, bridge := false, maxSize := 0 }
  (c.setRxAll true).setMaxMessageSize mx

/-- Registration of the binding with EID 8. -/
def register (mode : AstMode) (mtu : Nat) (s : Script) : Res (Core (AstSt Script) × Int) :=
  (core0 65536).registerBus (astOps hw) (astInit s mode mtu) 8

/-- A window header: versions of the BMC and of the host, the negotiated version, and the layout: offset
and size of the receive and of the transmit buffer of the host. -/
def header (bmin bcur hmin hcur ver rxo rxs txo txs : Nat) : List Byte :=
  be32 0x4d435450 ++ be16 bmin ++ be16 bcur ++ be16 hmin ++ be16 hcur ++ be16 ver ++ be16 0 ++
    be32 rxo ++ be32 rxs ++ be32 txo ++ be32 txs

/-- The events of a history with the accesses made by it (and by the registration), if there is no
fault. -/
def run (mode : AstMode) (mtu : Nat) (s : Script) (hist : List AstOp) :
    Option (List AstRec × List Access) :=
  match register mode mtu s with
  | .ok (c, rc) =>
    if rc < 0 then none else
    match c.astRun hw hist with
    | .ok (c, log) => some (log, c.busses.flatMap fun b => b.binding.st.log.map Logged.acc)
    | .error _ => none
  | .error _ => none

/-- The fault of a history. -/
def fault (mode : AstMode) (mtu : Nat) (s : Script) (hist : List AstOp) : Option Fault :=
  match register mode mtu s with
  | .ok (c, _) =>
    match c.astRun hw hist with
    | .ok _ => none
    | .error f => some f
  | .error f => some f

/-- The fault of a history of an endpoint whose registration succeeds. -/
def failing (mode : AstMode) (mtu : Nat) (s : Script) (hist : List AstOp) : Option Fault :=
  match register mode mtu s with
  | .ok (c, rc) =>
    if rc < 0 then none else
    match c.astRun hw hist with
    | .ok _ => none
    | .error f => some f
  | .error _ => none

/-- The header a host with an MTU of 64 leaves for a BMC with an MTU of 64. -/
def hdr64 : List Byte := header 1 3 1 3 0 256 76 332 76

/-- The same after the BMC has negotiated version 3. -/
def hdr64neg : List Byte := header 1 3 1 3 3 256 76 332 76


/-- A BMC whose host has just asked for a channel: the next poll establishes version 3. -/
def bmcScript : Script := { stat := [(0, 2)], data := [(0, 0)], reads := [hdr64, hdr64] }

/-- A host that finds a BMC with an established channel at its first poll. -/
def hostScript : Script :=
  { stat := [(0, 0x80), (0, 0xc1)], data := [(0, 255)], reads := [hdr64, hdr64, be16 3, hdr64neg] }

end Mctp.AstDemo
