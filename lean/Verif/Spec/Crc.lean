import Verif.Model.Base
/-!
# Specification of the checksums

The bit-serial definition of a reflected cyclic redundancy check (RFC 1662 appendix C.1 for the
FCS-16; the usual CRC-32 for the LPC binding): a shift register fed with the message bits, each byte
least significant bit first.  Also the error classes: the bit positions in which two byte strings
differ.
-/

namespace Mctp.Spec

/-- The bits of a byte, least significant first. -/
def byteBits (b : Byte) : List Bool := (List.range 8).map b.getLsbD

/-- The bits of a byte string in transmission order. -/
def bits (bs : List Byte) : List Bool := bs.flatMap byteBits

/-- Feeding one message bit into the shift register with (reflected) generator `poly`: shift right by
one; if the bit shifted out differs from the message bit, subtract the generator. -/
def crcStep {w : Nat} (poly reg : BitVec w) (b : Bool) : BitVec w :=
  (reg >>> 1) ^^^ (if reg.getLsbD 0 != b then poly else 0)

/-- The register after a sequence of bits. -/
def crcBits {w : Nat} (poly reg : BitVec w) (bs : List Bool) : BitVec w :=
  bs.foldl (crcStep poly) reg

/-- Reflected generator x^16 + x^12 + x^5 + 1. -/
def poly16 : BitVec 16 := 0x8408
/-- Reflected CRC-32 generator. -/
def poly32 : BitVec 32 := 0xEDB88320

/-- The positions (as a bit mask) where two byte strings of the same length differ. -/
def diffBits (xs ys : List Byte) : List Bool := List.zipWith (· != ·) (bits xs) (bits ys)

/-- An error burst of at most `n` bits: all differing bits lie in a window of `n` bits, and there is
at least one. -/
def Burst (n : Nat) (d : List Bool) : Prop :=
  ∃ a m b, d = List.replicate a false ++ m ++ List.replicate b false ∧ m.length ≤ n ∧ true ∈ m

end Mctp.Spec
