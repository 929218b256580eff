/-!
# Base definitions shared by the whole model

Bytes, faults (undefined behaviour and failed assertions as explicit outcomes), the allocator ledger
and the constants of `libmctp.h`.
-/

namespace Mctp

/-- `uint8_t`. -/
abbrev Byte := BitVec 8

/-- Ways in which the C program leaves defined behaviour (or aborts in an `assert`). -/
inductive Fault
  | nullDeref      -- dereference of a NULL pointer
  | useAfterFree   -- access through a pointer to freed storage
  | doubleFree     -- `free` of storage that is not live
  | outOfBounds    -- access outside the allocated object
  | assertFail     -- a failed `assert`
  | noReturn       -- a loop that does not end (within the bound of the model)
  deriving DecidableEq, Repr

/-- Result of a C function that may leave defined behaviour. -/
abbrev Res (α : Type) := Except Fault α

/-- `2^64`: modulus of `size_t` on the 64-bit targets of the library. -/
def sizeMod : Nat := 2 ^ 64

/-! ## Constants of libmctp.h -/

/-- libmctp.h:18 `MCTP_EID_NULL`. -/
def eidNull : Byte := 0
/-- libmctp.h:19 `MCTP_EID_BROADCAST`. -/
def eidBroadcast : Byte := 0xff
/-- `sizeof(struct mctp_hdr)`, libmctp.h:22-27: four bytes. -/
def hdrSize : Nat := 4
/-- libmctp.h:46 `MCTP_BTU`. -/
def btu : Nat := 64
/-- libmctp.h:47 `MCTP_PACKET_SIZE(unit)` (on `size_t`; no wrap-around for the sizes it is applied
to in the core). -/
def packetSize (unit : Nat) : Nat := unit + hdrSize
/-- libmctp.h:48 `MCTP_BODY_SIZE(unit)`: an unsigned subtraction, which wraps for `unit < 4`. -/
def bodySize (unit : Nat) : Nat := (unit + sizeMod - hdrSize) % sizeMod

/-- `errno.h` values used by the library (Linux numbers). -/
def EIO : Int := 5
def ENXIO : Int := 6
def ENOMEM : Int := 12
def EBUSY : Int := 16
def EINVAL : Int := 22
def EMSGSIZE : Int := 90
def EHOSTDOWN : Int := 112

/-! ## Allocator ledger

`__mctp_alloc`, `__mctp_free`, `__mctp_realloc` (alloc.c:25-51) with the default
`malloc`/`free`/`realloc`.  Addresses are allocation numbers: `next` is the number of the next
request, `live` the numbers of the allocations not yet freed, and `ok n` says whether request `n`
succeeds (an arbitrary oracle). -/
structure Mem where
  next : Nat := 0
  live : List Nat := []
  ok   : Nat → Bool := fun _ => true

namespace Mem

/-- `malloc`: alloc.c:25-33 with `m_alloc = malloc`. -/
def alloc (m : Mem) : Option Nat × Mem :=
  if m.ok m.next then
    (some m.next, { m with next := m.next + 1, live := m.next :: m.live })
  else
    (none, { m with next := m.next + 1 })

/-- `free` of a possibly NULL pointer: alloc.c:35-43 with `m_free = free`. -/
def free (m : Mem) (p : Option Nat) : Res Mem :=
  match p with
  | none => .ok m
  | some i => if i ∈ m.live then .ok { m with live := m.live.erase i } else .error .doubleFree

/-- `realloc`: alloc.c:45-51 with `m_realloc = realloc`.  On success the old block (if any) is
released and a new one returned; on failure the old block stays live. -/
def realloc (m : Mem) (p : Option Nat) : Res (Option Nat × Mem) :=
  match p with
  | none => .ok m.alloc
  | some i =>
    if i ∈ m.live then
      if m.ok m.next then
        .ok (some m.next, { m with next := m.next + 1, live := m.next :: m.live.erase i })
      else
        .ok (none, { m with next := m.next + 1 })
    else .error .useAfterFree

/-- An access through pointer `p` is defined. -/
def deref (m : Mem) (p : Option Nat) : Res Unit :=
  match p with
  | none => .error .nullDeref
  | some i => if i ∈ m.live then .ok () else .error .useAfterFree

end Mem

end Mctp
