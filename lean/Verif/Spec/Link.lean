import Verif.Spec.AstlpcLog

/-!
# Specification: the hardware between the BMC and the host

The KCS device and the LPC window, as both sides see them.  An execution of the two sides together is a
list of accesses, each by one side, in the order in which the hardware served them.  Nothing is assumed
about who is scheduled when.  An access to several bytes of the window is one step.
-/

namespace Mctp.Spec

/-- The state of the hardware: the status bits written by the BMC, whether the output register (BMC to
host) and the input register (host to BMC) hold a value that has not been read, the two registers, and
the window. -/
structure Lpc where
  status : Byte
  obf    : Bool
  ibf    : Bool
  odr    : Byte
  idr    : Byte
  win    : Nat → Byte

/-- After reset: nothing in the registers, anything in the window. -/
def Lpc.reset (win : Nat → Byte) : Lpc := ⟨0, false, false, 0, 0, win⟩

/-- What either side reads from the status register: bit 0 and bit 1 are kept by the hardware. -/
def Lpc.shown (h : Lpc) : Byte :=
  (h.status &&& 0xfc) ||| (if h.obf then 1 else 0) ||| (if h.ibf then 2 else 0)

/-- The `n` bytes of the window at `off`. -/
def region (win : Nat → Byte) (off n : Nat) : List Byte := (List.range n).map fun i => win (off + i)

/-- The window after writing `bs` at `off`. -/
def poke (win : Nat → Byte) (off : Nat) (bs : List Byte) : Nat → Byte :=
  fun i => if off ≤ i ∧ i < off + bs.length then bs.getD (i - off) 0 else win i

/-- One access by `side`; `none` if the hardware does not give this result.  Reading a data register
empties it, writing one fills it.  `wr`: a write of the status register by the BMC also sets bits 0 and 1
(devices differ).  The host cannot change the status register. -/
def Lpc.access (wr : Bool) (h : Lpc) (side : AstMode) : Access → Option Lpc
  | .kcsRead .status rc v => if rc = 0 ∧ v = h.shown then some h else none
  | .kcsRead .data rc v =>
    match side with
    | .bmc => if rc = 0 ∧ v = h.idr then some { h with ibf := false } else none
    | .host => if rc = 0 ∧ v = h.odr then some { h with obf := false } else none
  | .kcsWrite .status v rc =>
    match side with
    | .bmc =>
      if rc = 0 then
        some { h with status := v, obf := if wr then v.getLsbD 0 else h.obf, ibf := if wr then v.getLsbD 1 else h.ibf }
      else none
    | .host => if rc = 0 then some h else none
  | .kcsWrite .data v rc =>
    match side with
    | .bmc => if rc = 0 then some { h with odr := v, obf := true } else none
    | .host => if rc = 0 then some { h with idr := v, ibf := true } else none
  | .lpcRead off bs rc => if rc = 0 ∧ bs = region h.win off bs.length then some h else none
  | .lpcWrite off bs rc => if rc = 0 then some { h with win := poke h.win off bs } else none

/-- An execution. -/
def Lpc.run (wr : Bool) : Lpc → List (AstMode × Access) → Option Lpc
  | h, [] => some h
  | h, (side, a) :: rest =>
    match h.access wr side a with
    | some h' => Lpc.run wr h' rest
    | none => none

/-- The accesses of one side. -/
def of (side : AstMode) (T : List (AstMode × Access)) : List Access :=
  T.filterMap fun x => if x.1 = side then some x.2 else none

/-- How many of the four hold: the sender considers the buffer its own, the receiver considers it its
own, a transmit-begin from the sender is waiting, a receive-complete from the receiver is waiting. -/
def holders (sender receiver : Watch) (begin complete : Bool) : Nat :=
  (if sender.tx ≠ .handed then 1 else 0) + (if receiver.rx then 1 else 0) + (if begin then 1 else 0)
    + (if complete then 1 else 0)

end Mctp.Spec
