import Verif.Index.TreeSpec

/-! # Specification vocabulary: an index as text -/

namespace Verif.Index.Spec
open Verif Index

/-- What a line of the text tells. `leaf`: a leaf page, its depth, number, the count of its entries
and its parameters. `branch`: a branch page. `entry`: an entry of a leaf at this depth. `ref`: an entry of
a branch at this depth. -/
inductive Item
  | leaf (level no count free rec left right bytes : Nat)
  | branch (level no count : Nat)
  | entry (level : Nat) (e : Entry)
  | ref (level : Nat) (e : Entry)

/-- The digits of numbers below 16. -/
def digits : List Char := "0123456789abcdef".toList

/-- Two hexadecimal digits. -/
def hex2 (b : UInt8) : List Char := [digits.getD (b.toNat / 16) '?', digits.getD (b.toNat % 16) '?']

def chars (l : List Char) : Bytes := l.map (fun c => UInt8.ofNat c.toNat)

/-- A number is written as one byte. -/
def low (n : Nat) : Bytes := [UInt8.ofNat n]

/-- The text of a line. -/
def Item.text : Item → Bytes
  | .leaf level no count free rec left right bytes =>
    chars "=".toList ++ low level ++ chars " leaf, curblock ".toList ++ low no ++ chars ", count ".toList ++ low count ++
    chars ", free ".toList ++ low free ++ chars ", rec ".toList ++ low rec ++ chars ", left ".toList ++ low left ++
    chars ", right ".toList ++ low right ++ chars ", bytes ".toList ++ low bytes ++ chars "\r\n".toList
  | .branch level no count =>
    chars "*".toList ++ low level ++ chars " branch, curblock ".toList ++ low no ++ chars ", count ".toList ++ low count ++
    chars "\r\n".toList
  | .entry level e => chars "  -".toList ++ low level ++ chars ": ".toList ++ e.key.flatMap (fun b => chars (hex2 b ++ [' '])) ++
    chars ": ".toList ++ low e.num ++ chars "\r\n".toList
  | .ref level e => chars "  +".toList ++ low level ++ chars ": ".toList ++ e.key.flatMap (fun b => chars (hex2 b ++ [' '])) ++
    chars ": ".toList ++ low e.num ++ chars "\r\n".toList

/-- The entry a line shows, and its depth. -/
def Item.entryOf : Item → Option (Nat × Entry)
  | .entry level e => some (level, e)
  | _ => none

/-- The branch entry a line shows, and its depth. -/
def Item.refOf : Item → Option (Nat × Entry)
  | .ref level e => some (level, e)
  | _ => none

end Verif.Index.Spec
