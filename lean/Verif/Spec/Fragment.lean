import Verif.Model.Base

/-!
# Specification: fragmentation of a message (DSP0236)

Closed form: fragment number `i` of a message.
-/

namespace Mctp.Spec

/-- Number of packets for a message of `len` bytes with `mtu` payload bytes per packet. -/
def nFrags (mtu len : Nat) : Nat := (len + mtu - 1) / mtu

/-- The flags byte of fragment `i` of `n`: start flag on the first, end flag on the last, sequence
number `i mod 4`, tag owner and tag. -/
def fragFlags (tagOwner : Bool) (tag : Byte) (i n : Nat) : Byte :=
  BitVec.ofNat 8 ((if i = 0 then 128 else 0) + (if i + 1 = n then 64 else 0) + 16 * (i % 4)
    + (if tagOwner then 8 else 0) + tag.toNat)

/-- Fragment `i` of a message: header version 1 (low nibble), destination, source, flags; then the
bytes `i·mtu, ..., (i+1)·mtu - 1` of the message. -/
def fragment (version src dest : Byte) (tagOwner : Bool) (tag : Byte) (mtu : Nat) (msg : List Byte)
    (i : Nat) : List Byte :=
  [BitVec.ofNat 8 (version.toNat % 16), dest, src,
    fragFlags tagOwner tag i (nFrags mtu msg.length)] ++ (msg.drop (i * mtu)).take mtu

/-- All fragments, in order. -/
def fragments (version src dest : Byte) (tagOwner : Bool) (tag : Byte) (mtu : Nat)
    (msg : List Byte) : List (List Byte) :=
  (List.range (nFrags mtu msg.length)).map (fragment version src dest tagOwner tag mtu msg)

end Mctp.Spec
