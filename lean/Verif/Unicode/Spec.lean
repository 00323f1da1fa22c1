import Verif.Basic

/-!
# Specification vocabulary: Unicode encodings

The encodings as the Unicode standard defines them, by arithmetic on scalar values.
-/

namespace Verif.Unicode.Spec
open Verif

/-- A Unicode scalar value. -/
def Scalar (cp : Nat) : Prop := cp < 0xD800 ∨ (0xE000 ≤ cp ∧ cp < 0x110000)

instance (cp : Nat) : Decidable (Scalar cp) := by unfold Scalar; infer_instance

/-- UTF-8 encoding of one scalar value. -/
def utf8 (cp : Nat) : Bytes :=
  if cp < 0x80 then [UInt8.ofNat cp]
  else if cp < 0x800 then [UInt8.ofNat (0xC0 + cp / 64), UInt8.ofNat (0x80 + cp % 64)]
  else if cp < 0x10000 then
    [UInt8.ofNat (0xE0 + cp / 4096), UInt8.ofNat (0x80 + cp / 64 % 64), UInt8.ofNat (0x80 + cp % 64)]
  else
    [UInt8.ofNat (0xF0 + cp / 262144), UInt8.ofNat (0x80 + cp / 4096 % 64),
     UInt8.ofNat (0x80 + cp / 64 % 64), UInt8.ofNat (0x80 + cp % 64)]

/-- UTF-8 encoding of a text. -/
def utf8Text (cps : List Nat) : Bytes := cps.flatMap utf8

/-- Two bytes, least significant first. -/
def le16 (u : Nat) : Bytes := [UInt8.ofNat (u % 256), UInt8.ofNat (u / 256)]

/-- UTF-16LE encoding of one scalar value. -/
def utf16 (cp : Nat) : Bytes :=
  if cp < 0x10000 then le16 cp
  else le16 (0xD800 + (cp - 0x10000) / 1024) ++ le16 (0xDC00 + (cp - 0x10000) % 1024)

/-- UTF-16LE encoding of a text. -/
def utf16Text (cps : List Nat) : Bytes := cps.flatMap utf16

/-- The letters the case folding knows: (upper, lower) for ASCII and Russian. -/
def casePairs : List (Nat × Nat) :=
  (List.range 26).map (fun i => (0x41 + i, 0x61 + i)) ++ [(0x401, 0x451)] ++
  (List.range 32).map (fun i => (0x410 + i, 0x430 + i))

/-- The same letter up to case. -/
def SameLetter (a b : Nat) : Prop := a = b ∨ (a, b) ∈ casePairs ∨ (b, a) ∈ casePairs

/-- Two texts equal up to case. -/
def SameText : List Nat → List Nat → Prop
  | [], [] => True
  | x :: a, y :: b => SameLetter x y ∧ SameText a b
  | _, _ => False

end Verif.Unicode.Spec
