import Verif.Model.Astlpc
import Verif.Spec.Astlpc

/-!
# Specification: the sizes an open channel uses (docs/bindings/vendor-ibm-astlpc.md)

The header of the window holds, in big-endian order, at bytes 20-23 the size of the area the BMC writes and the host
reads (`rx_size`) and at bytes 28-31 the size of the area the host writes (`tx_size`).
-/

namespace Mctp.Spec

/-- The header read by this access, if it is a read of the header. -/
def headerOf : Access → Option (List Byte)
  | .lpcRead 0 bs _ => some bs
  | _ => none

/-- The header the side read last. -/
def lastHeader (l : List Access) : Option (List Byte) := (l.filterMap headerOf).getLast?

/-- `rx_size` of a header. -/
def rxSizeOf (hdr : List Byte) : Nat := fromBe ((hdr.drop 20).take 4)

/-- `tx_size` of a header. -/
def txSizeOf (hdr : List Byte) : Nat := fromBe ((hdr.drop 28).take 4)

/-- What a host may expect of the BMC: the channel-active bit (bit 6) is never shown without the BMC-ready bit (bit 7), and
the BMC does not send the host's command "initialise" (0). -/
def SaneTrace (l : List Access) : Prop :=
  (∀ r v, Access.kcsRead .status r v ∈ l → v.getLsbD 6 = true → v.getLsbD 7 = true) ∧ ∀ r, Access.kcsRead .data r 0 ∉ l

end Mctp.Spec
