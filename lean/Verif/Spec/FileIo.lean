import Verif.Spec.Astlpc

/-!
# Specification: device files

What the process holds, where the window lies in the mapping of the reserved memory and in the firmware
address space of the LPC bus (28 bits), and when the KCS device file wakes a waiting program.
-/

namespace Mctp.Spec

/-- Blocks of memory, descriptors and mappings held by the process. -/
structure Held where
  blocks : List Nat
  fds    : List Nat
  maps   : List (Nat × Nat)
  deriving DecidableEq, Repr

/-- First address after the firmware address space of the LPC bus. -/
def fwEnd : Nat := 2 ^ 28

/-- An access of `len` bytes, `at` bytes after the start of a mapping of `size` bytes, lies inside it. -/
def InMapping (size : Nat) («at» : Int) (len : Nat) : Prop := 0 ≤ «at» ∧ «at» + len ≤ size

/-- The KCS device file is ready for what a program on the BMC waits for: to write (`out`) when the output
register has been read, to read when there is input.  `v` is the value of the status register. -/
def FileReady (out : Bool) (v : BitVec 8) : Bool :=
  if out then !v.getLsbD 0 else v.getLsbD 1

end Mctp.Spec
