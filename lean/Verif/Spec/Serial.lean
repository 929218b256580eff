import Verif.Spec.Crc
import Verif.Spec.Packet

/-!
# Specification: serial frames (DSP0253)

A frame is: flag 0x7e, revision 1, the packet length, the packet with the flag and escape characters
escaped, the check sequence (most significant byte first), flag 0x7e.
-/

namespace Mctp.Spec

/-- 0x7e and 0x7d are sent as 0x7d followed by the character with bit 5 inverted. -/
def escape (b : Byte) : List Byte := if b = 0x7e ∨ b = 0x7d then [0x7d, b ^^^ 0x20] else [b]

def escaped (p : List Byte) : List Byte := p.flatMap escape

/-- The check sequence covers the revision, the length and the packet. -/
def fcs (p : List Byte) : BitVec 16 :=
  crcBits poly16 0xffff (bits (0x01 :: BitVec.ofNat 8 p.length :: p))

/-- The check sequence as sent. -/
def fcsBytes (p : List Byte) : List Byte := [(fcs p).extractLsb' 8 8, (fcs p).extractLsb' 0 8]

/-- The frame of a packet. -/
def frame (p : List Byte) : List Byte :=
  [0x7e, 0x01, BitVec.ofNat 8 p.length] ++ escaped p ++ fcsBytes p ++ [0x7e]

/-- `w` is a wire encoding of `p`: a character after 0x7d has bit 5 inverted, every other character
stands for itself. (`escaped p` is the encoding the sender uses.) -/
inductive Decodes : List Byte → List Byte → Prop
  | nil : Decodes [] []
  | plain {w p : List Byte} (b : Byte) : b ≠ 0x7d → Decodes w p → Decodes (b :: w) (b :: p)
  | esc {w p : List Byte} (b : Byte) : Decodes w p → Decodes (0x7d :: b :: w) ((b ^^^ 0x20) :: p)

/-- `w` is a complete valid frame carrying the packet `p` of 4 to `max` bytes. -/
def ValidFrame (max : Nat) (w p : List Byte) : Prop :=
  4 ≤ p.length ∧ p.length ≤ max ∧
    ∃ body, Decodes body p ∧ w = [0x7e, 0x01, BitVec.ofNat 8 p.length] ++ body ++ fcsBytes p ++ [0x7e]

/-- The byte stream `s` contains valid frames of the packets `ps`, one after the other without overlap
(and possibly other bytes). -/
inductive Frames (max : Nat) : List Byte → List (List Byte) → Prop
  | none (s : List Byte) : Frames max s []
  | frame {ps : List (List Byte)} (junk w rest p : List Byte) : ValidFrame max w p →
      Frames max rest ps → Frames max (junk ++ w ++ rest) (p :: ps)

/-- The packets a binding passed to the core. -/
def packetsIn (evs : List Event) : List (List Byte) :=
  evs.filterMap fun e => match e with
    | .recv _ p => some p
    | _ => none

end Mctp.Spec
