import Verif.Basic

/-!
# Specification: CRC-32

The checksum of ISO-HDLC (zip, PNG): the bits of the message, the least significant bit of
each byte first, are divided by the polynomial `x^32 + x^26 + x^23 + x^22 + x^16 + x^12 + x^11 +
x^10 + x^8 + x^7 + x^5 + x^4 + x^2 + x + 1` (`0x04C11DB7`) in a register of 32 bits that begins
full of ones; the result is the inverted register with its bits reversed.
-/

namespace Verif.Crc.Spec
open Verif

/-- The bits of a byte, the least significant first. -/
def bitsOf (b : UInt8) : List Bool := (List.range 8).map b.toNat.testBit

/-- The bits of a message in the order in which they are divided. -/
def bits (m : Bytes) : List Bool := m.flatMap bitsOf

/-- One step of the division: the register moves to the left, and the polynomial is
subtracted if the bit that left it differs from the bit of the message. -/
def divide (r : BitVec 32) (b : Bool) : BitVec 32 :=
  (r <<< 1) ^^^ (if r.msb != b then 0x04C11DB7#32 else 0#32)

def crc32 (m : Bytes) : Nat := (~~~ ((bits m).foldl divide 0xFFFFFFFF#32)).reverse.toNat

end Verif.Crc.Spec
