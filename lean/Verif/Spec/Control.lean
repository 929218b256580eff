import Verif.Model.Base

/-! # Specification: MCTP control requests a binding handles itself -/

namespace Mctp.Spec

/-- An MCTP control message (type 0, at least 4 bytes) with the request bit set and a
transport-specific command (0xF0-0xFF). -/
def IsTransportRequest (msg : List Byte) : Prop :=
  ∃ rq cmd cc rest, msg = 0 :: rq :: cmd :: cc :: rest ∧ 128 ≤ rq.toNat ∧ 240 ≤ cmd.toNat

end Mctp.Spec
