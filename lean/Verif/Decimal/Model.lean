import Verif.Basic

/-!
# Packed decimal numbers and dates (model)

Models `/repo/src/tool1cd/BinaryDecimalNumber.cpp` and the numeric / date parts
of `/repo/src/tool1cd/FieldType.cpp`.

`int` digits are `Int`; `uint8_t` bytes are `UInt8`; a raw pointer is the list
of bytes from that address to the end of the buffer it points into, so reading
past the list is `Outcome.ub`.
-/

namespace Verif.Decimal
open Verif

/-- `class BinaryDecimalNumber`, BinaryDecimalNumber.h:28-47
(`has_sing_flag`, `precision`, `data`, `sign`). `precision` is a natural number:
negative precisions are not modelled. -/
structure Dec where
  hasSign : Bool
  precision : Nat
  data : List Int
  sign : Int
  deriving DecidableEq, Repr

/-- High nibble of a byte, `hilo >> 4` (BinaryDecimalNumber.cpp:42). -/
def hi (b : UInt8) : Int := ((b >>> 4).toNat : Int)
/-- Low nibble of a byte, `hilo & 0x0f` (BinaryDecimalNumber.cpp:43). -/
def lo (b : UInt8) : Int := ((b &&& 0x0f).toNat : Int)

/-- The digit loop of the raw constructor, BinaryDecimalNumber.cpp:66-76:
`buf` is what `byte_data` points at, `i` the loop counter. -/
def rawLoop (length : Nat) (i : Nat) (buf : Bytes) : Outcome (List Int) :=
  match buf with
  | [] => if i < length then .ub else .ok []
  | b :: rest =>
    if i < length then
      if i + 1 < length then do
        let ds ← rawLoop length (i + 2) rest
        pure (hi b :: lo b :: ds)
      else do
        let ds ← rawLoop length (i + 1) rest
        pure (hi b :: ds)
    else .ok []

/-- `BinaryDecimalNumber(const void*, int length, int precision, bool)`,
BinaryDecimalNumber.cpp:47-77. -/
def ofRaw (buf : Bytes) (length precision : Nat) (hasSign : Bool) : Outcome Dec :=
  match buf with
  | [] => .ub
  | b :: rest => do
    let ds ← rawLoop length 1 rest
    if hasSign then
      pure { hasSign, precision, data := lo b :: ds,
             sign := if b >>> 4 ≠ 0 then 1 else -1 }
    else
      pure { hasSign, precision, data := hi b :: lo b :: ds, sign := 1 }

/-- The text-splitting loop of the string constructor,
BinaryDecimalNumber.cpp:84-93. `parts` has two elements: a digit after a second
`'.'` indexes `parts[2]`, which is undefined behaviour. -/
def splitParts : Str → Nat → List Int → List Int → Outcome (List Int × List Int)
  | [], _, ip, fp => .ok (ip, fp)
  | c :: cs, partNo, ip, fp =>
    if c = '.' then splitParts cs (partNo + 1) ip fp
    else
      let d : Int := (c.toNat : Int) - 48
      match partNo with
      | 0 => splitParts cs partNo (ip ++ [d]) fp
      | 1 => splitParts cs partNo ip (fp ++ [d])
      | _ => .ub

/-- `std::vector::resize(n, x)`. Serves the model of BinaryDecimalNumber.cpp:79-116. -/
def resize (l : List Int) (n : Nat) (x : Int) : List Int :=
  l.take n ++ List.replicate (n - l.length) x

/-- `BinaryDecimalNumber(const std::string&, bool, int length, int precision)`,
BinaryDecimalNumber.cpp:79-116. `length - precision` at line 103 is a negative
(huge unsigned) size when `precision > length`: `std::vector::resize` throws. -/
def ofString (s : Str) (hasSign : Bool) (length precision : Nat) : Outcome Dec := do
  let (ip, fp) ← splitParts s 0 [] []
  let fp := if precision ≠ 0 then resize fp precision 0 else fp
  if length ≠ 0 then
    let add : Int := (length : Int) - ip.length - fp.length
    if add < 0 then
      if length < precision then .throw
      else
        pure { hasSign, precision, sign := 1,
               data := resize [] (length - precision) 9 ++ fp }
    else
      pure { hasSign, precision, sign := 1,
             data := List.replicate add.toNat 0 ++ ip ++ fp }
  else
    pure { hasSign, precision, sign := 1, data := ip ++ fp }

/-- Pair-packing loop of `write_to`, BinaryDecimalNumber.cpp:195-203. -/
def packPairs : List Int → Bytes
  | [] => []
  | [d] => [UInt8.ofInt (d * 16)]
  | d :: e :: rest => (UInt8.ofInt (d * 16) ||| UInt8.ofInt e) :: packPairs rest

/-- `BinaryDecimalNumber::write_to`, BinaryDecimalNumber.cpp:186-204: the bytes
written from `raw_data` on. With a sign flag and no digits `*it` dereferences
`end()`. -/
def writeTo (d : Dec) : Outcome Bytes :=
  if d.hasSign then
    match d.data with
    | [] => .ub
    | x :: xs => .ok ((((if d.sign = -1 then 0 else 0x10) : UInt8) ||| UInt8.ofInt x) :: packPairs xs)
  else .ok (packPairs d.data)

/-- `'0' + digit`. Serves the model of BinaryDecimalNumber.cpp:118-125. -/
def digitChar (d : Int) : Char := Char.ofNat (48 + d).toNat

/-- `BinaryDecimalNumber::get_part`, BinaryDecimalNumber.cpp:118-125. -/
def getPart (d : Dec) (start count : Nat) : Str :=
  ((d.data.drop start).take count).map digitChar

/-- Integer part of `get_presentation`, BinaryDecimalNumber.cpp:136-149. -/
def presentInt (ip : List Int) : Str :=
  let r := ip.dropWhile (· = 0)
  if r.isEmpty then ['0'] else r.map digitChar

/-- `max_significant_size` loop, BinaryDecimalNumber.cpp:153-160: the fraction
digits without trailing zeros. -/
def stripTrailing (fp : List Int) : List Int :=
  (fp.reverse.dropWhile (· = 0)).reverse

/-- Fraction part of `get_presentation`, BinaryDecimalNumber.cpp:150-170. -/
def presentFrac (precision : Nat) (fp : List Int) : Str :=
  if precision ≠ 0 then
    let sig := stripTrailing fp
    if sig.any (· ≠ 0) then '.' :: sig.map digitChar else []
  else []

/-- `BinaryDecimalNumber::get_presentation`, BinaryDecimalNumber.cpp:127-172.
When the precision exceeds the number of digits, `int_size` is negative and the
fraction loops index the vector below 0. -/
def presentation (d : Dec) : Outcome Str :=
  if d.data.length < d.precision then .ub
  else
    let intSize := d.data.length - d.precision
    .ok ((if d.hasSign && d.sign = -1 then ['-'] else [])
      ++ presentInt (d.data.take intSize)
      ++ presentFrac d.precision (d.data.drop intSize))

/-- `NumericFieldType::get_binary_value`, FieldType.cpp:447-458: what is stored
at the start of the field buffer `old`. An empty text leaves the buffer alone;
bytes past the end of the buffer are written out of bounds. -/
def numericStore (old : Bytes) (length precision : Nat) (value : Str) : Outcome Bytes :=
  if value.isEmpty then .ok old
  else do
    let d ← ofString value true length precision
    let bs ← writeTo d
    if bs.length ≤ old.length then .ok (bs ++ old.drop bs.length) else .ub

/-- `NumericFieldType::get_presentation`, FieldType.cpp:460-464. -/
def numericPresent (rec : Bytes) (length precision : Nat) : Outcome Str := do
  let d ← ofRaw rec length precision true
  presentation d

/-- Size in bytes of a numeric field of `length` digits,
`CommonFieldType::get_size`, FieldType.cpp:146 (`(length + 2) >> 1`). -/
def numericSize (length : Nat) : Nat := (length + 2) / 2

/-! ## Index sort keys of numeric fields -/

/-- One step of the ten's-complement loop, FieldType.cpp:495-503 / 509-517:
digit `c`, carry flag `k`. -/
def complStep (c : UInt8) (k : Bool) : UInt8 × Bool :=
  if k then (9 - c, true)
  else if c ≠ 0 then (10 - c, true)
  else (c, false)

/-- Loop `for(i = length; i > 0; i--)`, FieldType.cpp:490-519, over `nbuf`. -/
def complLoop : Nat → List UInt8 → Bool → List UInt8 × Bool
  | 0, buf, k => (buf, k)
  | i + 1, buf, k =>
    let j := (i + 1) / 2
    let b := buf.getD j 0
    if (i + 1) % 2 = 1 then
      let (c, k) := complStep (b &&& 0x0f) k
      complLoop i (buf.set j ((b &&& 0xf0) ||| c)) k
    else
      let (c, k) := complStep ((b >>> 4) &&& 0x0f) k
      complLoop i (buf.set j ((b &&& (0x0f : UInt8)) ||| (c <<< (4 : UInt8)))) k

/-- `NumericFieldType::get_sort_key`, FieldType.cpp:471-536. `nbuf` is a 64-byte
array on the stack: a longer field overflows it. `rec` must hold the whole field. -/
def numericSortKey (rec : Bytes) (length maxlen : Nat) : Outcome Bytes :=
  let len := numericSize length
  if maxlen = 0 then .throw
  else if 64 < len ∨ rec.length < len then .ub
  else
    let nbuf := rec.take len
    let nbuf :=
      if (nbuf.getD 0 0) &&& 0xf0 = (0 : UInt8) then
        let (nb, k) := complLoop length nbuf false
        if k then nb else nb.set 0 0x10
      else nbuf
    if maxlen < len then .throw else .ok nbuf

/-! ## Dates -/

/-- `BinaryDecimalDate(const void*)`, BinaryDecimalNumber.cpp:212-214. -/
def dateOfRaw (buf : Bytes) : Outcome Dec := ofRaw buf 19 0 false

/-- Digits of the format letter `part`, BinaryDecimalNumber.cpp:218-233:
positions of the letter in `format`, in increasing order; positions past the end
of the text give the digit 0. -/
def datePart (s : Str) (format : Str) (part : Char) : List Int :=
  (format.zipIdx.filter (fun p => p.1 = part)).map fun p =>
    match s[p.2]? with
    | some c => (c.toNat : Int) - 48
    | none => 0

/-- `BinaryDecimalDate(const string&, const string& format)`,
BinaryDecimalNumber.cpp:216-234. -/
def dateOfString (s format : Str) : Dec :=
  { hasSign := false, precision := 0, sign := 1,
    data := ['y', 'M', 'd', 'h', 'm', 's'].flatMap (datePart s format) }

/-- Format `"dd.MM.yyyy hh:mm:ss"`, BinaryDecimalNumber.h:52. -/
def fmtDefault : Str :=
  ['d','d','.','M','M','.','y','y','y','y',' ','h','h',':','m','m',':','s','s']
/-- Format `"yyyyMMddhhmmss"`, Common.cpp:92. -/
def fmt1C : Str := ['y','y','y','y','M','M','d','d','h','h','m','m','s','s']

/-- `string1C_to_date`, Common.cpp:90-95. -/
def string1CToDate (s : Str) : Outcome Bytes := writeTo (dateOfString s fmt1C)
/-- `string_to_date`, Common.cpp:99-104. -/
def stringToDate (s : Str) : Outcome Bytes := writeTo (dateOfString s fmtDefault)

/-- `date_to_string1C`, Common.cpp:108-112. -/
def dateToString1C (buf : Bytes) : Outcome Str := do
  let d ← dateOfRaw buf
  pure (getPart d 0 14)

/-- `BinaryDecimalDate::get_presentation`, BinaryDecimalNumber.cpp:236-251. -/
def datePresentation (d : Dec) : Str :=
  getPart d 6 2 ++ ['.'] ++ getPart d 4 2 ++ ['.'] ++ getPart d 0 4 ++ [' ']
    ++ getPart d 8 2 ++ [':'] ++ getPart d 10 2 ++ [':'] ++ getPart d 12 2

/-- `date_to_string`, Common.cpp:116-120. -/
def dateToString (buf : Bytes) : Outcome Str := do
  let d ← dateOfRaw buf
  pure (datePresentation d)

/-- `DatetimeFieldType::get_binary_value`, FieldType.cpp:540-555; the field is 7
bytes long. -/
def datetimeStore (value : Str) : Outcome Bytes :=
  if value.length < 19 then .ok [0, 1, 1, 1, 0, 0, 0]
  else stringToDate value

/-- `DatetimeFieldType::get_sort_key`, FieldType.cpp:591-612. -/
def datetimeSortKey (rec : Bytes) (maxlen : Nat) : Outcome Bytes :=
  if maxlen = 0 then .throw
  else if maxlen < 7 then .throw
  else if rec.length < 7 then .ub
  else .ok (rec.take 7)

end Verif.Decimal
