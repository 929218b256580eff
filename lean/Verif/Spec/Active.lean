import Verif.Spec.AstlpcLog

/-!
# Specification: when a BMC has shown an active channel
-/

namespace Mctp.Spec

/-- A write of the status register that shows an active channel (bit 6). -/
def ShowsActive : Access → Prop
  | .kcsWrite .status v _ => v.getLsbD 6 = true
  | _ => False

end Mctp.Spec
