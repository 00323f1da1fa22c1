import Verif.Basic

/-!
# Vocabulary for the decimal and date properties

Independent of the model: what a decimal digit, a digit string's value and the
canonical text of a number are.
-/

namespace Verif.Decimal.Spec
open Verif

/-- `d` is a decimal digit. -/
def IsDigit (d : Int) : Prop := 0 ≤ d ∧ d ≤ 9

instance (d : Int) : Decidable (IsDigit d) := inferInstanceAs (Decidable (_ ∧ _))

/-- `c` is one of the characters `0`..`9`. -/
def IsDigitChar (c : Char) : Prop := 48 ≤ c.toNat ∧ c.toNat ≤ 57

instance (c : Char) : Decidable (IsDigitChar c) := inferInstanceAs (Decidable (_ ∧ _))

/-- The number denoted by a string of digits, most significant first. -/
def digitsValue (ds : List Int) : Int := ds.foldl (fun a d => a * 10 + d) 0

/-- The number denoted by a text consisting of digits. -/
def textValue (s : Str) : Nat := s.foldl (fun a c => a * 10 + (c.toNat - 48)) 0

/-- Character of a digit. -/
def digit (n : Nat) : Char := Char.ofNat (48 + n)

/-- Decimal text of a natural number, no leading zeros. -/
def natText (n : Nat) : Str :=
  if n < 10 then [digit n] else natText (n / 10) ++ [digit (n % 10)]

/-- Exactly `p` digits of `m`, zero-padded on the left. -/
def padText : Nat → Nat → Str
  | 0, _ => []
  | p + 1, m => padText p (m / 10) ++ [digit (m % 10)]

/-- A text without its trailing `'0'` characters. -/
def dropTrailingZeros (s : Str) : Str := (s.reverse.dropWhile (· = '0')).reverse

/-- Canonical text of the number `n · 10^-p`: no superfluous zeros, no dangling
decimal point. -/
def canonical (n p : Nat) : Str :=
  let frac := dropTrailingZeros (padText p (n % 10 ^ p))
  natText (n / 10 ^ p) ++ (if frac = [] then [] else '.' :: frac)

end Verif.Decimal.Spec
