import Verif.Model.Base

/-!
# Specification: the LPC window of the ASPEED LPC binding (docs/bindings/vendor-ibm-astlpc.md)

The window is 1 MiB; its first 256 bytes are the control area.  A packet buffer holds a four-byte length,
the packet, and in version 3 a four-byte checksum.
-/

namespace Mctp.Spec

/-- Size of the window. -/
def winSize : Nat := 1048576

/-- Size of the control area. -/
def controlArea : Nat := 256

/-- Bytes of a packet buffer besides the packet: the length, and the checksum of version 3. -/
def overhead (version : Nat) : Nat := if version = 3 then 8 else 4

/-- The region of `len` bytes at `off` lies inside the region of `size` bytes at `base`. -/
def Within (off len base size : Nat) : Prop := base ≤ off ∧ off + len ≤ base + size

/-- The regions have no byte in common. -/
def Apart (off1 len1 off2 len2 : Nat) : Prop := off1 + len1 ≤ off2 ∨ off2 + len2 ≤ off1

/-- A packet buffer lies inside the window, outside the control area. -/
def InWindow (off size : Nat) : Prop := controlArea ≤ off ∧ off + size ≤ winSize

/-- A packet buffer can be used with the version: it holds a packet with a payload of 64 bytes and a
four-byte header. -/
def SafeBuffer (version off size : Nat) : Prop :=
  InWindow off size ∧ 64 + 4 + overhead version ≤ size

/-- Two packet buffers can be used. -/
def SafeLayout (version off1 size1 off2 size2 : Nat) : Prop :=
  SafeBuffer version off1 size1 ∧ SafeBuffer version off2 size2 ∧ Apart off1 size1 off2 size2

/-- `v` is a version both sides support. -/
def CommonVersion (min1 cur1 min2 cur2 v : Nat) : Prop :=
  (min1 ≤ v ∧ v ≤ cur1) ∧ (min2 ≤ v ∧ v ≤ cur2)

end Mctp.Spec
