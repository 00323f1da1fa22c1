import Verif.Basic

/-!
# Hex digits (src/tool1cd/Common.cpp)
-/

namespace Verif.Hex

/-- `hexdecode[] = "0123456789abcdef"` indexed by a nibble (Common.cpp:33). -/
def hexChar (n : UInt8) : Char :=
  match n.toNat with
  | 0 => '0' | 1 => '1' | 2 => '2' | 3 => '3' | 4 => '4' | 5 => '5' | 6 => '6' | 7 => '7'
  | 8 => '8' | 9 => '9' | 10 => 'a' | 11 => 'b' | 12 => 'c' | 13 => 'd' | 14 => 'e' | 15 => 'f'
  | _ => '?'  -- unreachable: the code only indexes with `d >> 4` and `d & 0xf`

/-- The two characters pushed for one byte (Common.cpp:130-132, 146-147;
BinaryGuid.cpp:155-156). -/
def hexByte (d : UInt8) : Str := [hexChar (d >>> (4 : UInt8)), hexChar (d &&& (0xf : UInt8))]

/-- `hexstring(const char*, int)` (Common.cpp:124-137) and `hexstring(TStream*)`
(Common.cpp:140-152): both loop over the bytes in order. -/
def hexstring : Bytes → Str
  | [] => []
  | d :: ds => hexByte d ++ hexstring ds

/-- `from_hex_digit` (Common.cpp:168-174). -/
def fromHexDigit (c : Char) : UInt8 :=
  if '0' ≤ c ∧ c ≤ '9' then UInt8.ofNat (c.toNat - '0'.toNat)
  else if 'a' ≤ c ∧ c ≤ 'f' then UInt8.ofNat (c.toNat - 'a'.toNat + 10)
  else if 'A' ≤ c ∧ c ≤ 'F' then UInt8.ofNat (c.toNat - 'A'.toNat + 10)
  else 0

/-- The nibble part of `two_hex_digits_to_byte` (Common.cpp:66-68, 74-76): `none`
is the `return false` branch. -/
def hexNibble (c : Char) : Option UInt8 :=
  if '0' ≤ c ∧ c ≤ '9' then some (UInt8.ofNat (c.toNat - '0'.toNat))
  else if 'a' ≤ c ∧ c ≤ 'f' then some (UInt8.ofNat (c.toNat - ('a'.toNat - 0xa)))
  else if 'A' ≤ c ∧ c ≤ 'F' then some (UInt8.ofNat (c.toNat - ('A'.toNat - 0xa)))
  else none

/-- `two_hex_digits_to_byte` (Common.cpp:64-84): (return value, `res`). -/
def twoHexDigitsToByte (hi lo : Char) : Bool × UInt8 :=
  match hexNibble hi with
  | none => (false, 0)
  | some h =>
    match hexNibble lo with
    | none => (false, 0)
    | some l => (true, (h <<< (4 : UInt8)) + l)

end Verif.Hex
