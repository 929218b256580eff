import Verif.Spec.AstlpcLog

/-!
# Who may write what

The two sides of an astlpc channel share the status and data registers, and the window.  The status register belongs to the
BMC.  In the header of the window (the first 32 bytes) the host's versions (bytes 8..9 and 10..11) and the size of the
host's receive buffer (bytes 20..23) are the host's to write; the negotiated version (bytes 12..13) and, in answer to the host,
the layout (bytes 16..31) are the BMC's.  The packet buffers start after 256 bytes.
-/

namespace Mctp.Spec

open Mctp

/-- The access writes nothing but what belongs to that side. -/
def OwnWrite (mode : AstMode) : Access → Prop
  | .kcsWrite .status _ _ => mode = .bmc
  | .lpcWrite off bs _ => 256 ≤ off ∨
      (mode = .host ∧ ((off = 8 ∨ off = 10) ∧ bs.length = 2 ∨ off = 20 ∧ bs.length = 4)) ∨
      (mode = .bmc ∧ (off = 12 ∧ bs.length = 2 ∨ off = 16 ∧ bs.length = 16))
  | _ => True

/-- The access writes nothing but what the protocol defines: to the status register BMC-ready and the output-full bit, with or
without Channel-Active (0xc1, 0x81); to the data register transmit-begin (1) or receive-complete (2), or, from the host, a request for a
channel (0), or, from the BMC, the dummy value (255); and as versions in the header 1 and 3 for the host's, and 0 to 3 for the negotiated
one. -/
def DefinedWrite (mode : AstMode) : Access → Prop
  | .kcsWrite .status v _ => v = 0x81 ∨ v = 0xc1
  | .kcsWrite .data v _ => v = 1 ∨ v = 2 ∨ (mode = .host ∧ v = 0) ∨ (mode = .bmc ∧ v = 255)
  | .lpcWrite off bs _ => (off = 8 → bs = [0, 1]) ∧ (off = 10 → bs = [0, 3]) ∧
      (off = 12 → bs = [0, 0] ∨ bs = [0, 1] ∨ bs = [0, 2] ∨ bs = [0, 3])
  | _ => True

end Mctp.Spec
