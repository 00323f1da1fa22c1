import Verif.Basic

/-! # Specification vocabulary: hexadecimal digits -/

namespace Verif.Hex.Spec

/-- The value of a hexadecimal digit, either case; `none` for anything else. -/
def digitValue (c : Char) : Option Nat :=
  if c ∈ "0123456789".toList then some (c.toNat - 48)
  else if c ∈ "abcdef".toList then some (c.toNat - 87)
  else if c ∈ "ABCDEF".toList then some (c.toNat - 55)
  else none

end Verif.Hex.Spec
