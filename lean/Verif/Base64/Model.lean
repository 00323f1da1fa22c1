import Verif.Basic

/-!
# Base64 (src/tool1cd/Base64.cpp)

The encoder writes 16-bit code units (`WCHART = char16_t`); a unit is a `Nat`.
-/

namespace Verif.Base64
open Verif

/-- `cb64` (Base64.cpp:30). -/
def cb64 : List Nat :=
  ("ABCDEFGHIJKLMNOPQRSTUVWXYZabcdefghijklmnopqrstuvwxyz0123456789+/".toList).map Char.toNat

/-- `cd64` (Base64.cpp:33). -/
def cd64 : List Nat :=
  ("|$$$}rstuvwxyz{$$$$$$$>?@ABCDEFGHIJKLMNOPQRSTUVW$$$$$$XYZ[\\]^_`abcdefghijklmnopq".toList).map Char.toNat

/-- Table lookup by a sextet; all indices used are below 64. Serves the model of Base64.cpp:38-80. -/
def enc (v : UInt8) : Nat := cb64.getD v.toNat 0

/-- First output unit of a group (Base64.cpp:59, 73). -/
def s0 (a : UInt8) : UInt8 := a >>> (2 : UInt8)
/-- Second (Base64.cpp:60, 74). -/
def s1 (a b : UInt8) : UInt8 :=
  ((a &&& (0x03 : UInt8)) <<< (4 : UInt8)) ||| ((b &&& (0xf0 : UInt8)) >>> (4 : UInt8))
/-- Third (Base64.cpp:61, 75). -/
def s2 (b c : UInt8) : UInt8 :=
  ((b &&& (0x0f : UInt8)) <<< (2 : UInt8)) ||| ((c &&& (0xc0 : UInt8)) >>> (6 : UInt8))
/-- Fourth (Base64.cpp:62, 76). -/
def s3 (c : UInt8) : UInt8 := c &&& (0x3f : UInt8)

/-- `blocksout >= linesize/4 && linesize` (Base64.cpp:51, 70); C++ division truncates. -/
def needBreak (linesize : Int) (blocksout : Nat) : Bool :=
  decide ((blocksout : Int) ≥ linesize.tdiv 4) && decide (linesize ≠ 0)

/-- `base64_encode` (Base64.cpp:38-80) after `Seek(0)`. `brk` is what
`Write(L"\r\n", 4)` stores: the units 13, 10 where `wchar_t` has two bytes, and
13, 0 where it has four (Linux). The three cases are the loop body over whole
groups and the final partial group of one or two bytes. -/
def encLoop (brk : List Nat) (linesize : Int) : Nat → Bytes → List Nat
  | _, [] => []
  | n, [a] =>
    (if needBreak linesize n then brk else []) ++ [enc (s0 a), enc (s1 a 0), '='.toNat, '='.toNat]
  | n, [a, b] =>
    (if needBreak linesize n then brk else []) ++ [enc (s0 a), enc (s1 a b), enc (s2 b 0), '='.toNat]
  | n, a :: b :: c :: rest =>
    (if needBreak linesize n then brk else []) ++
      [enc (s0 a), enc (s1 a b), enc (s2 b c), enc (s3 c)] ++
      encLoop brk linesize ((if needBreak linesize n then 0 else n) + 1) rest

/-- Serves the model of FieldType.cpp:390-415, 466-469, 571-588, 720-772. -/
def encode (brk : List Nat) (linesize : Int) (bs : Bytes) : List Nat := encLoop brk linesize 0 bs

/-- `v` for one unit (Base64.cpp:100-101, 143-144): 0 for noise, sextet + 1 otherwise. -/
def unitV (s : Nat) : Nat :=
  if s < 43 ∨ s > 122 then 0
  else
    let v := cd64.getD (s - 43) 0
    if v = '$'.toNat then 0 else v - 61

/-- The inner `while` (Base64.cpp:97-102): skip noise; returns `v` (0 at the end of
the input) and what is left. -/
def nextV : List Nat → Nat × List Nat
  | [] => (0, [])
  | s :: rest => if unitV s = 0 then nextV rest else (unitV s, rest)

/-- The `for` over `i < 4` (Base64.cpp:94-109): the sextets read into `in`, and the
rest of the input. `v = 0` happens only at the end of the input, where the loop
stops. -/
def readGroup : Nat → List Nat → List UInt8 × List Nat
  | 0, inp => ([], inp)
  | _ + 1, [] => ([], [])
  | i + 1, s :: inp =>
    let (v, rest) := nextV (s :: inp)
    if v = 0 then ([], rest)
    else
      let (g, rest') := readGroup i rest
      (UInt8.ofNat (v - 1) :: g, rest')

/-- The output of one group (Base64.cpp:110-116): `len - 1` of the three bytes. The
entries of `in` beyond `len` do not reach the bytes written; the model takes
them as 0. -/
def groupOut (g : List UInt8) : Bytes :=
  let i0 := g.getD 0 0
  let i1 := g.getD 1 0
  let i2 := g.getD 2 0
  let i3 := g.getD 3 0
  [(i0 <<< (2 : UInt8)) ||| (i1 >>> (4 : UInt8)),
   (i1 <<< (4 : UInt8)) ||| (i2 >>> (2 : UInt8)),
   ((i2 <<< (6 : UInt8)) &&& (0xc0 : UInt8)) ||| i3].take (g.length - 1)

/-- The outer `while` (Base64.cpp:92-118); every pass consumes at least one unit, so
the length of the input bounds the number of passes. -/
def decLoop : Nat → List Nat → Bytes
  | 0, _ => []
  | _ + 1, [] => []
  | fuel + 1, inp => groupOut (readGroup 4 inp).1 ++ decLoop fuel (readGroup 4 inp).2

/-- `base64_decode(TStream*, TStream*)` (Base64.cpp:85-120). -/
def decode (inp : List Nat) : Bytes := decLoop inp.length inp

/-- `base64_decode(const std::string&, TStream*, int)` (Base64.cpp:124-163): same loop
over the bytes from `start`; `char` is signed, so bytes of 128 and above compare
below 43 (represented by the unit 0). -/
def decodeString (str : Bytes) (start : Nat) : Bytes :=
  decode ((str.drop start).map (fun b => if b.toNat ≥ 128 then 0 else b.toNat))

end Verif.Base64
