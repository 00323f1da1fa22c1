import Verif.Hex.Model

/-!
# GUIDs (src/tool1cd/BinaryGuid.cpp)

A GUID is its 16 bytes (`std::array<uint8_t,16>`, BinaryGuid.h:51).
-/

namespace Verif.Guid
open Verif Hex

/-- Default constructor: all zero (BinaryGuid.cpp:26-32). -/
def empty : Bytes := List.replicate 16 0

/-- `is_empty` (BinaryGuid.cpp:66-75). -/
def isEmpty (g : Bytes) : Bool := g.all (· == 0)

/-- `operator==` (BinaryGuid.cpp:50-59), comparing from the last byte down. -/
def eq (a b : Bytes) : Bool := (a.zip b).reverse.all (fun p => p.1 == p.2)

/-- `operator>` (BinaryGuid.cpp:208-219). Bytes are unsigned. -/
def gt : Bytes → Bytes → Bool
  | a :: as, b :: bs => if a > b then true else if a < b then false else gt as bs
  | _, _ => false

/-- `get_subbyte` (BinaryGuid.cpp:86-90). The caller has checked the length, so
`getD` never uses its default. -/
def subbyte (s : Str) (start : Nat) : UInt8 :=
  ((fromHexDigit (s.getD start '0')) <<< (4 : UInt8)) ||| fromHexDigit (s.getD (start + 1) '0')

/-- One of the loops `for (ind = …; ind < …; ind++) { data[ind] = get_subbyte(p, j); j += 2; }`
(BinaryGuid.cpp:94-96, 104-127): `n` iterations. -/
def fill (s : Str) : (n ind j : Nat) → Bytes → Bytes
  | 0, _, _, d => d
  | n + 1, ind, j, d => fill s n (ind + 1) (j + 2) (d.set ind (subbyte s j))

/-- `BinaryGuid(const std::string&)` (BinaryGuid.cpp:92-129). The previous contents
of `data` are uninitialised; both accepting paths assign all 16 bytes, so the
model starts from zeros. -/
def ofText (s : Str) : Outcome Bytes :=
  if s.length = 32 then .ok (fill s 16 0 0 empty)
  else if s.length ≠ 36 then .throw
  else
    let d := fill s 4 12 0 empty
    let d := fill s 2 10 9 d
    let d := fill s 2 8 14 d
    let d := fill s 2 0 19 d
    .ok (fill s 6 2 24 d)

/-- `string_to_GUID` (BinaryGuid.cpp:132-143): the exception becomes `false` and the
target is left alone. -/
def stringToGuid (s : Str) (old : Bytes) : Bool × Bytes :=
  match ofText s with
  | .ok g => (true, g)
  | _ => (false, old)

/-- `format_guid` (BinaryGuid.cpp:145-161); `none` is the index -1. -/
def formatGuid (g : Bytes) : List (Option Nat) → Str
  | [] => []
  | none :: is => '-' :: formatGuid g is
  | some i :: is => hexByte (g.getD i 0) ++ formatGuid g is

/-- `GUIDas1C` / `as_1C` (BinaryGuid.cpp:164-174, 203-206). -/
def as1C (g : Bytes) : Str := formatGuid g
  [some 12, some 13, some 14, some 15, none, some 10, some 11, none, some 8, some 9, none,
   some 0, some 1, none, some 2, some 3, some 4, some 5, some 6, some 7]

/-- `GUIDasMS` / `as_MS` (BinaryGuid.cpp:177-188, 197-201). -/
def asMS (g : Bytes) : Str := formatGuid g
  [some 3, some 2, some 1, some 0, none, some 5, some 4, none, some 7, some 6, none,
   some 8, some 9, none, some 10, some 11, some 12, some 13, some 14, some 15]

end Verif.Guid
