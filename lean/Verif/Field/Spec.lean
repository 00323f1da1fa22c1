import Verif.Unicode.Spec
import Verif.Decimal.Spec

/-! # Specification vocabulary: values of fields and their texts -/

namespace Verif.Field.Spec
open Verif

/-- The record `r` holds the value `v` in the field at `offset`: the value stands there,
behind a flag that is not 0 if the field may be null. -/
def HasValue (offset : Nat) (nullable : Bool) (v r : Bytes) : Prop :=
  ∃ (pre post : Bytes) (b : UInt8), b ≠ 0 ∧ pre.length = offset ∧
    r = pre ++ (if nullable then [b] else []) ++ v ++ post

/-- Hexadecimal digit, lower case. -/
def hexDigit (n : Nat) : Char := "0123456789abcdef".toList.getD n '?'

/-- Two digits for each byte. -/
def hexText (b : Bytes) : Str := b.flatMap fun x => [hexDigit (x.toNat / 16), hexDigit (x.toNat % 16)]

/-- The number whose bytes are given, least significant first. -/
def value : Bytes → Nat
  | [] => 0
  | b :: bs => b.toNat + 256 * value bs

/-- The same with a sign (two's complement). -/
def signed (b : Bytes) : Int :=
  if 2 * value b < 256 ^ b.length then (value b : Int) else (value b : Int) - (256 ^ b.length : Nat)

/-- Decimal text of an integer. -/
def decimal (z : Int) : Str :=
  if z < 0 then '-' :: Decimal.Spec.natText z.natAbs else Decimal.Spec.natText z.natAbs

/-- A text (its scalar values) as a UTF-8 string of `char`s. -/
def utf8Str (cps : List Nat) : Str := (Unicode.Spec.utf8Text cps).map fun x => Char.ofNat x.toNat

/-- Bytes `i … j - 1`. -/
def part (i j : Nat) (b : Bytes) : Bytes := (b.drop i).take (j - i)

/-- The way 1C writes an identifier: the last four bytes first. -/
def guid1C (g : Bytes) : Str :=
  hexText (part 12 16 g) ++ '-' :: hexText (part 10 12 g) ++ '-' :: hexText (part 8 10 g) ++
    '-' :: hexText (part 0 2 g) ++ '-' :: hexText (part 2 8 g)

/-- The usual way: three little-endian numbers and eight bytes. -/
def guidMS (g : Bytes) : Str :=
  hexText (part 0 4 g).reverse ++ '-' :: hexText (part 4 6 g).reverse ++
    '-' :: hexText (part 6 8 g).reverse ++ '-' :: hexText (part 8 10 g) ++ '-' :: hexText (part 10 16 g)

end Verif.Field.Spec
