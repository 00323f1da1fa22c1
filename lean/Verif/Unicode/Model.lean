import Verif.Basic

/-!
# UTF-8 / UTF-16 conversion and case folding
(src/tool1cd/SystemClasses/utf8/{core,checked}.h, System.SysUtils.cpp, String.cpp)

Code points and 16-bit units are `Nat`; a failed check in the utf8 library raises
an exception (`Outcome.throw`).
-/

namespace Verif.Unicode
open Verif

/-- `is_code_point_valid` (utf8/core.h:92-96). -/
def validCP (cp : Nat) : Bool := decide (cp ≤ 0x10ffff) && !(decide (cp ≥ 0xd800) && decide (cp ≤ 0xdfff))

/-- `is_trail` (utf8/core.h:68-72). -/
def isTrail (b : UInt8) : Bool := b.toNat >>> 6 == 0x2

/-- `sequence_length` (utf8/core.h:98-113). -/
def seqLen (lead : UInt8) : Nat :=
  if lead.toNat < 0x80 then 1
  else if lead.toNat >>> 5 == 0x6 then 2
  else if lead.toNat >>> 4 == 0xe then 3
  else if lead.toNat >>> 3 == 0x1e then 4
  else 0

/-- `is_overlong_sequence` (utf8/core.h:115-132). -/
def overlong (cp len : Nat) : Bool :=
  if cp < 0x80 then len != 1
  else if cp < 0x800 then len != 2
  else if cp < 0x10000 then len != 3
  else false

/-- `get_sequence_1 … 4` (utf8/core.h:152-218): the raw code point and the bytes
after the sequence. Running out of bytes and a non-trail byte are errors. -/
def getSeq : Nat → UInt8 → Bytes → Outcome (Nat × Bytes)
  | 1, lead, r => .ok (lead.toNat, r)
  | 2, lead, b1 :: r =>
    if isTrail b1 then .ok (((lead.toNat <<< 6) &&& 0x7ff) + (b1.toNat &&& 0x3f), r) else .throw
  | 3, lead, b1 :: b2 :: r =>
    if isTrail b1 && isTrail b2 then
      .ok (((lead.toNat <<< 12) &&& 0xffff) + ((b1.toNat <<< 6) &&& 0xfff) + (b2.toNat &&& 0x3f), r)
    else .throw
  | 4, lead, b1 :: b2 :: b3 :: r =>
    if isTrail b1 && isTrail b2 && isTrail b3 then
      .ok (((lead.toNat <<< 18) &&& 0x1fffff) + ((b1.toNat <<< 12) &&& 0x3ffff) +
        ((b2.toNat <<< 6) &&& 0xfff) + (b3.toNat &&& 0x3f), r)
    else .throw
  | _, _, _ => .throw

/-- `utf8::next` (utf8/checked.h:136-155) through `validate_next`
(utf8/core.h:222-278). -/
def next : Bytes → Outcome (Nat × Bytes)
  | [] => .throw
  | lead :: r => do
    let (cp, rest) ← getSeq (seqLen lead) lead r
    if validCP cp && !overlong cp (seqLen lead) then .ok (cp, rest) else .throw

/-- `utf8::append` (utf8/checked.h:72-96). -/
def append (cp : Nat) : Outcome Bytes :=
  if !validCP cp then .throw
  else if cp < 0x80 then .ok [UInt8.ofNat cp]
  else if cp < 0x800 then .ok [UInt8.ofNat ((cp >>> 6) ||| 0xc0), UInt8.ofNat ((cp &&& 0x3f) ||| 0x80)]
  else if cp < 0x10000 then
    .ok [UInt8.ofNat ((cp >>> 12) ||| 0xe0), UInt8.ofNat (((cp >>> 6) &&& 0x3f) ||| 0x80),
      UInt8.ofNat ((cp &&& 0x3f) ||| 0x80)]
  else
    .ok [UInt8.ofNat ((cp >>> 18) ||| 0xf0), UInt8.ofNat (((cp >>> 12) &&& 0x3f) ||| 0x80),
      UInt8.ofNat (((cp >>> 6) &&& 0x3f) ||| 0x80), UInt8.ofNat ((cp &&& 0x3f) ||| 0x80)]

/-- Loop `while (start != end) … next(start, end)` collecting code points; each step
consumes at least one byte, so the length bounds the number of steps. Serves the model of checked.h:233-246. -/
def decodeAll : Nat → Bytes → Outcome (List Nat)
  | _, [] => .ok []
  | 0, _ :: _ => .throw  -- unreachable when the fuel is the length
  | fuel + 1, b :: bs => do
    let (cp, rest) ← next (b :: bs)
    let cps ← decodeAll fuel rest
    .ok (cp :: cps)

/-- `result = utf8::append(cp, result)` for a list of code points. Serves the model of String.cpp:117-151. -/
def appendAll : List Nat → Outcome Bytes
  | [] => .ok []
  | cp :: cps => do
    let a ← append cp
    let r ← appendAll cps
    .ok (a ++ r)

/-- The 16-bit little-endian units of a buffer, an odd last byte dropped
(System.SysUtils.cpp:80-81). -/
def unitsOf : Bytes → List Nat
  | a :: b :: r => (a.toNat + 256 * b.toNat) :: unitsOf r
  | _ => []

/-- The code points produced by `utf16to8` (utf8/checked.h:206-231);
`SURROGATE_OFFSET` is a 32-bit unsigned constant, so the sum wraps. -/
def fromUtf16 : List Nat → Outcome (List Nat)
  | [] => .ok []
  | [u] =>
    if u ≥ 0xd800 ∧ u ≤ 0xdbff then .throw
    else if u ≥ 0xdc00 ∧ u ≤ 0xdfff then .throw
    else .ok [u]
  | u :: t :: r =>
    if u ≥ 0xd800 ∧ u ≤ 0xdbff then
      if t ≥ 0xdc00 ∧ t ≤ 0xdfff then do
        let cps ← fromUtf16 r
        .ok (((u <<< 10) + t + (2 ^ 32 + 0x10000 - (0xd800 <<< 10) - 0xdc00)) % 2 ^ 32 :: cps)
      else .throw
    else if u ≥ 0xdc00 ∧ u ≤ 0xdfff then .throw
    else do
      let cps ← fromUtf16 (t :: r)
      .ok (u :: cps)

/-- `utf16to8`: the code points are appended one by one. Serves the model of System.SysUtils.cpp:78-85. -/
def utf16to8 (us : List Nat) : Outcome Bytes := do
  let cps ← fromUtf16 us
  appendAll cps

/-- Units written for one code point by `utf8to16` (utf8/checked.h:237-243). -/
def units (cp : Nat) : List Nat :=
  if cp > 0xffff then
    [((cp >>> 10) + (0xd800 - (0x10000 >>> 10))) % 65536, ((cp &&& 0x3ff) + 0xdc00) % 65536]
  else [cp % 65536]

/-- `utf8to16` (utf8/checked.h:233-246). -/
def utf8to16 (bs : Bytes) : Outcome (List Nat) := do
  let cps ← decodeAll bs.length bs
  .ok (cps.flatMap units)

/-- `TUcs2Encoding::toUtf8` (System.SysUtils.cpp:78-85); `TUtf8Encoding::toUtf8`
copies the bytes (lines 44-53). An offset beyond the buffer is out of contract. -/
def toUtf8 (buf : Bytes) (offset : Nat) : Outcome Bytes :=
  if offset > buf.length then .ub else utf16to8 (unitsOf (buf.drop offset))

/-- `TUcs2Encoding::fromUtf8` (System.SysUtils.cpp:87-100). -/
def fromUtf8 (s : Bytes) : Outcome Bytes := do
  let us ← utf8to16 s
  .ok (us.flatMap (fun u => [UInt8.ofNat (u &&& 0xff), UInt8.ofNat (u >>> 8)]))

/-- `__to_lower` (String.cpp:37-47). -/
def toLower (cp : Nat) : Nat :=
  if cp ≥ 'A'.toNat ∧ cp ≤ 'Z'.toNat then cp - 'A'.toNat + 'a'.toNat
  else if cp = 0x0401 then 0x0451
  else if cp ≥ 0x0410 ∧ cp ≤ 0x042f then cp - 0x0410 + 0x430
  else cp

/-- `__to_upper` (String.cpp:50-60). -/
def toUpper (cp : Nat) : Nat :=
  if cp ≥ 'a'.toNat ∧ cp ≤ 'z'.toNat then cp - 'a'.toNat + 'A'.toNat
  else if cp = 0x0451 then 0x0401
  else if cp ≥ 0x0430 ∧ cp ≤ 0x044f then cp - 0x0430 + 0x410
  else cp

/-- The common body of `LowerCase` and `UpperCase` (String.cpp:117-151): decode, fold
and append into a zero-filled buffer of `src.size() + 1` bytes (writing past it
is `ub`), put a NUL at its end, and return it as a C string. -/
def caseFold (f : Nat → Nat) (src : Bytes) : Outcome Bytes := do
  let cps ← decodeAll src.length src
  let out ← appendAll (cps.map f)
  if out.length > src.length + 1 then .ub
  else
    let buf := (out ++ List.replicate (src.length + 1 - out.length) 0).set src.length 0
    .ok (buf.takeWhile (· ≠ 0))

/-- Serves the model of String.cpp:158-166. -/
def lowerCase (src : Bytes) : Outcome Bytes := caseFold toLower src
/-- Built on String.cpp:117-151. -/
def upperCase (src : Bytes) : Outcome Bytes := caseFold toUpper src

/-- `EqualIC` (String.cpp:158-166): `CompareIC(a, b) == 0`, and `std::string::compare`
is 0 exactly on equal byte strings. -/
def equalIC (a b : Bytes) : Outcome Bool := do
  let x ← lowerCase a
  let y ← lowerCase b
  .ok (decide (x = y))

/-- `EndsWithIC` (String.cpp:173-182). -/
def endsWithIC (str sub : Bytes) : Outcome Bool :=
  if sub.isEmpty then .ok true
  else if str.length < sub.length then .ok false
  else equalIC (str.drop (str.length - sub.length)) sub

end Verif.Unicode
