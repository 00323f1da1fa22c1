import Verif.Record.Model
import Verif.Decimal.Model
import Verif.Guid.Model
import Verif.Text.Model
import Verif.Base64.Model

/-!
# Values of fields: texts, XML, entering values, sort keys
(FieldType.cpp, Field.cpp:60-192, Index.cpp:610-622, TableRecord.cpp:69-103, 160-166)

A record is the list of its bytes; a field's value starts at a position of the record.
Reading outside the record is undefined. Lengths and precisions of fields are natural
numbers (the code has `int32_t`; a negative length does not get past `init`'s layout).
-/

namespace Verif.Field
open Verif Record

/-- The switches `FieldType::showGUID` and `FieldType::showGUIDasMS` (FieldType.cpp:34-35). -/
structure Show where
  guid : Bool
  ms : Bool
  deriving DecidableEq, Repr

/-- A `FieldType` object: the members of `CommonFieldType` (FieldType.cpp:180-187) and
whether the object is a `GuidFieldType`. -/
structure Ty where
  type : FType
  length : Nat
  precision : Nat
  isGuid : Bool
  deriving DecidableEq, Repr

/-- `get_size` (FieldType.cpp:138-158), for natural lengths. -/
def Ty.width (t : Ty) : Nat :=
  match t.type with
  | .binary => t.length
  | .bool => 1
  | .numeric => (t.length + 2) / 2
  | .char => t.length * 2
  | .varchar => t.length * 2 + 2
  | .version => 16
  | .string => 8
  | .text => 8
  | .image => 8
  | .datetime => 7
  | .version8 => 8
  | .varbinary => t.length + 2

/-- `can_be_guid` (Field.cpp:458-459). -/
def canBeGuid (name : Bytes) : Outcome Bool := do
  let r ← Unicode.endsWithIC name [82, 69, 70]
  if r then .ok true else Unicode.endsWithIC name [73, 68]

/-- `create_type_manager` (FieldType.cpp:895-914) as called at Field.cpp:458-463. -/
def manager (name : Bytes) (d : Decl) : Outcome Ty := do
  let g ← canBeGuid name
  .ok ⟨d.type, d.length.toNat, d.precision.toNat,
    decide (d.type = .binary) && g && decide (d.length = 16)⟩

/-- One byte of a buffer. Serves the model of FieldType.cpp:45-56, 70-80. -/
def byteAt (r : Bytes) (i : Nat) : Outcome UInt8 :=
  match r[i]? with
  | some b => .ok b
  | none => .ub

/-- A `std::string` of bytes. Serves the model of FieldType.cpp:390-415, 466-469, 571-588, 720-772. -/
def ofBytes (b : Bytes) : Str := b.map (fun x => Char.ofNat x.toNat)

/-- The bytes of a `std::string`. Serves the model of FieldType.cpp:631-635, 641-644. -/
def toBytes (s : Str) : Bytes := s.map (fun c => UInt8.ofNat c.toNat)

/-- A signed 16-bit load. Serves the model of FieldType.cpp:63-85. -/
def rdI16 (r : Bytes) (off : Nat) : Outcome Int := do
  let n ← Blob.rd16 r off
  .ok (if n < 32768 then (n : Int) else (n : Int) - 65536)

/-- A 32-bit little-endian load. Serves the model of FieldType.cpp:741. -/
def rdU32 (r : Bytes) (off : Nat) : Outcome Nat := do
  let l ← Blob.rd16 r off
  let h ← Blob.rd16 r (off + 2)
  .ok (l + 65536 * h)

/-- A signed 32-bit load. Serves the model of FieldType.cpp:361-388, 460-464, 557-560, 671-718. -/
def rdI32 (r : Bytes) (off : Nat) : Outcome Int := do
  let n ← rdU32 r off
  .ok (if n < 2147483648 then (n : Int) else (n : Int) - 4294967296)

/-- `std::to_string(int)`. Serves the model of FieldType.cpp:361-388, 460-464, 557-560, 671-718. -/
def intText (z : Int) : Str :=
  if z < 0 then '-' :: Nat.toDigits 10 z.natAbs else Nat.toDigits 10 z.natAbs

/-! ## Hexadecimal texts -/

/-- `char sym = '0' + n; if (sym > '9') sym += ('a' - '9' - 1);` (FieldType.cpp:46-49). -/
def sym (n : Nat) : Char := Char.ofNat (if 57 < 48 + n then 48 + n + 39 else 48 + n)

/-- `result[i] = c`: the terminator may be overwritten by a NUL only. Serves the model of FieldType.cpp:45-56, 70-80. -/
def put (s : Str) (i : Nat) (c : Char) : Outcome Str :=
  if i < s.length then .ok (s.set i c)
  else if i = s.length ∧ c = '\x00' then .ok s
  else .ub

/-- The loops of `from_binary` and `from_varbinary` (FieldType.cpp:45-56, 70-80): `n` turns
from `i` on; `off` is the place of the first byte. -/
def hexFill (r : Bytes) (off : Nat) : Nat → Nat → Str → Outcome Str
  | 0, _, s => .ok s
  | n + 1, i, s => do
    let b ← byteAt r (off + i)
    let s ← put s (2 * i) (sym (b.toNat / 16))
    let s ← put s (2 * i + 1) (sym (b.toNat % 16))
    hexFill r off n (i + 1) s

/-- `Convert::from_binary` (FieldType.cpp:40-61). -/
def fromBinary (r : Bytes) (off length : Nat) : Outcome Str := do
  let s ← hexFill r off length 0 (List.replicate ((length + 1) * 2) '\x00')
  put s (2 * length) '\x00'

/-- `Convert::from_varbinary` (FieldType.cpp:63-85). A negative count makes no turns and
then indexes the text below 0. -/
def fromVarbinary (r : Bytes) (off length : Nat) : Outcome Str := do
  let m ← rdI16 r off
  if m < 0 then .ub
  else do
    let s ← hexFill r (off + 2) m.toNat 0 (List.replicate ((length + 1) * 2) '\x00')
    put s (2 * m.toNat) '\x00'

/-! ## Texts of values -/

/-- `to_hex_string(int32_t)` (Common.h:51-60). -/
def hex32 (r : Bytes) (off : Nat) : Outcome Str := do
  let b ← load r off 4
  .ok ('0' :: 'x' :: Hex.hexstring b.reverse)

/-- `{KIND} [0x…][0x…]` or `{KIND}` (FieldType.cpp:704-712). -/
def blobText (kind : Str) (r : Bytes) (off : Nat) (detailed : Bool) : Outcome Str :=
  if detailed then do
    let a ← hex32 r off
    let b ← hex32 r (off + 4)
    .ok (kind ++ [' ', '['] ++ a ++ [']', '['] ++ b ++ [']'])
  else .ok kind

/-- How many bytes of a `varchar` are converted (FieldType.cpp:686-691): the count is
multiplied as a `size_t`, so a negative one is huge, and the limit is the size of the field
including its two bytes of count. -/
def varcharSize (length : Nat) (m : Int) : Nat :=
  if m < 0 then 2 * length + 2
  else if 2 * m.toNat > 2 * length + 2 then 2 * length + 2
  else 2 * m.toNat

/-- The text of a UTF-16 buffer. Serves the model of FieldType.cpp:361-388, 460-464, 557-560, 671-718. -/
def utf16Str (b : Bytes) : Outcome Str := do
  let u ← Unicode.toUtf8 b 0
  .ok (ofBytes u)

/-- Sixteen bytes as a GUID (FieldType.cpp:370-375). -/
def guidText (ms : Bool) (r : Bytes) (off : Nat) : Outcome Str := do
  let g ← load r off 16
  .ok (if ms then Guid.asMS g else Guid.as1C g)

/-- `BinaryFieldType::get_presentation` and `get_XML_presentation` (FieldType.cpp:361-415),
which are the same, and those of `GuidFieldType` (811-821). -/
def binaryText (sh : Show) (t : Ty) (r : Bytes) (off : Nat) (ignoreShow : Bool) : Outcome Str :=
  if t.isGuid then guidText false r off
  else if t.type = .binary then
    if t.length = 16 ∧ (sh.guid || ignoreShow) then guidText sh.ms r off
    else fromBinary r off t.length
  else fromVarbinary r off t.length

/-- `get_presentation` of the types (FieldType.cpp:361-388, 460-464, 557-560, 671-718,
811-816). -/
def typeText (sh : Show) (t : Ty) (r : Bytes) (off : Nat) (ignoreShow detailed : Bool) : Outcome Str :=
  match t.type with
  | .binary => binaryText sh t r off ignoreShow
  | .varbinary => binaryText sh t r off ignoreShow
  | .numeric => Decimal.numericPresent (r.drop off) t.length t.precision
  | .datetime => Decimal.dateToString (r.drop off)
  | .bool => do
    let b ← byteAt r off
    .ok (if b = 0 then "false".toList else "true".toList)
  | .char => do
    let b ← load r off (t.length * 2)
    utf16Str b
  | .varchar => do
    let m ← rdI16 r off
    let b ← load r (off + 2) (varcharSize t.length m)
    utf16Str b
  | .version => do
    let a ← rdI32 r off
    let b ← rdI32 r (off + 4)
    let c ← rdI32 r (off + 8)
    let d ← rdI32 r (off + 12)
    .ok (intText a ++ ':' :: intText b ++ ':' :: intText c ++ ':' :: intText d)
  | .version8 => do
    let a ← rdI32 r off
    let b ← rdI32 r (off + 4)
    .ok (intText a ++ ':' :: intText b)
  | .string => blobText "{MEMO}".toList r off detailed
  | .text => blobText "{TEXT}".toList r off detailed
  | .image => blobText "{IMAGE}".toList r off detailed

/-- A field of a table, as far as its values go (Field.h:36-90). -/
structure Fld where
  offset : Nat
  nullable : Bool
  ty : Ty
  deriving DecidableEq, Repr

/-- `Field::get_size` (Field.cpp:65-68). -/
def Fld.size (f : Fld) : Nat := (if f.nullable then 1 else 0) + f.ty.width

/-- The slot of the field in its records. Serves the model of TableRecord.cpp:69-75. -/
def Fld.slot (f : Fld) : Slot := ⟨f.offset, f.nullable, f.ty.width⟩

/-- `Field::get_presentation` (Field.cpp:72-86). -/
def text (sh : Show) (f : Fld) (r : Bytes) (emptyNull ignoreShow detailed : Bool) : Outcome Str :=
  if f.nullable then do
    let b ← byteAt r f.offset
    if b = 0 then .ok (if emptyNull then [] else "{NULL}".toList)
    else typeText sh f.ty r (f.offset + 1) ignoreShow detailed
  else typeText sh f.ty r f.offset ignoreShow detailed

/-- `TableRecord::get_string` (TableRecord.cpp:69-75). -/
def getString (sh : Show) (f : Fld) (r : Bytes) : Outcome Str := do
  let n ← isNull r f.slot
  if n then .throw else text sh f r false false false

/-! ## XML -/

/-- `toXML`; its loops end (C09). Serves the model of FieldType.cpp:390-415, 466-469, 571-588, 720-772. -/
def escape (s : Str) : Outcome Str :=
  match Text.toXML s with
  | some x => .ok x
  | none => .ub

/-- `s02` (FieldType.cpp:562-569). -/
def s02 (s : Str) : Str := if s.length < 2 then '0' :: s else s

/-- `get_year` (BinaryDecimalNumber.cpp:254-260). -/
def year (d : List Int) : Int := d.getD 0 0 * 1000 + d.getD 1 0 * 100 + d.getD 2 0 * 10 + d.getD 3 0

/-- `get_month` and the others (BinaryDecimalNumber.cpp:262-285). -/
def two (d : List Int) (i : Nat) : Int := d.getD i 0 * 10 + d.getD (i + 1) 0

/-- `DatetimeFieldType::get_XML_presentation` (FieldType.cpp:571-588). The vector of digits
always has 19 of them. -/
def dateXml (r : Bytes) : Outcome Str := do
  let d ← Decimal.dateOfRaw r
  let p := fun i => s02 (intText (two d.data i))
  .ok (intText (year d.data) ++ '-' :: p 4 ++ '-' :: p 6 ++ 'T' :: p 8 ++ ':' :: p 10 ++ ':' :: p 12)

/-- `string(char*, 0, size)` (FieldType.cpp:752): the first argument becomes a
`std::string`, that is, it is read up to the first NUL; the stream's memory holds no NUL
of its own. -/
def cString (b : Bytes) : Outcome Bytes :=
  if 0 ∈ b then .ok (b.takeWhile (· ≠ 0)) else .ub

/-- The bytes of 16-bit units. Serves the model of FieldType.cpp:390-415, 466-469, 571-588, 720-772. -/
def unitBytes (us : List Nat) : Bytes := us.flatMap Blob.le16

/-- The value of a large field: `parent->readBlob(out, fr[0], fr[1])` (FieldType.cpp:741,
749, 759), where `blob` is `Table::readBlob` (C30). -/
def blobOf (blob : Nat → Nat → Outcome Bytes) (r : Bytes) (off : Nat) : Outcome Bytes := do
  let a ← rdU32 r off
  let n ← rdU32 r (off + 4)
  blob a n

/-- `get_XML_presentation` of the types (FieldType.cpp:390-415, 466-469, 571-588, 720-772,
818-821). `brk` is the line break that `base64_encode` writes (see `Base64.encLoop`). -/
def typeXml (sh : Show) (brk : List Nat) (blob : Nat → Nat → Outcome Bytes) (t : Ty) (r : Bytes)
    (off : Nat) (ignoreShow : Bool) : Outcome Str :=
  match t.type with
  | .binary => binaryText sh t r off ignoreShow
  | .varbinary => binaryText sh t r off ignoreShow
  | .numeric => Decimal.numericPresent (r.drop off) t.length t.precision
  | .datetime => dateXml (r.drop off)
  | .bool => do
    let b ← byteAt r off
    .ok (if b = 0 then "false".toList else "true".toList)
  | .char => do let s ← typeText sh t r off false false; escape s
  | .varchar => do let s ← typeText sh t r off false false; escape s
  | .version => do let s ← typeText sh t r off false false; escape s
  | .version8 => do let s ← typeText sh t r off false false; escape s
  | .string => do
    let b ← blobOf blob r off
    let s ← utf16Str b
    escape s
  | .text => do
    let b ← blobOf blob r off
    let s ← cString b
    escape (ofBytes s)
  | .image => do
    let b ← blobOf blob r off
    utf16Str (unitBytes (Base64.encode brk 72 b))

/-- `Field::get_XML_presentation` (Field.cpp:104-114). -/
def xml (sh : Show) (brk : List Nat) (blob : Nat → Nat → Outcome Bytes) (f : Fld) (r : Bytes)
    (ignoreShow : Bool) : Outcome Str :=
  if f.nullable then do
    let b ← byteAt r f.offset
    if b = 0 then .ok []
    else typeXml sh brk blob f.ty r (f.offset + 1) ignoreShow
  else typeXml sh brk blob f.ty r f.offset ignoreShow

/-- `TableRecord::get_xml_string` (TableRecord.cpp:160-166). -/
def getXmlString (sh : Show) (brk : List Nat) (blob : Nat → Nat → Outcome Bytes) (f : Fld)
    (r : Bytes) : Outcome Str := do
  let n ← isNull r f.slot
  if n then .throw else xml sh brk blob f r false

/-! ## Entering values -/

/-- `value[j]`: the terminator may be read. Serves the model of FieldType.cpp:325. -/
def charAt (s : Str) (j : Nat) : Outcome Char :=
  match s[j]? with
  | some c => .ok c
  | none => if j = s.length then .ok '\x00' else .ub

/-- `(from_hex_digit(value[j++]) << 4) + from_hex_digit(value[j++])` (FieldType.cpp:325).
The two increments are unsequenced, which C++ leaves undefined; the model takes the two
orders a compiler may choose (`ltr`: left operand first). -/
def hexPair (ltr : Bool) (s : Str) (j : Nat) : Outcome UInt8 := do
  let a ← charAt s j
  let b ← charAt s (j + 1)
  .ok (if ltr then (Hex.fromHexDigit a <<< (4 : UInt8)) + Hex.fromHexDigit b
    else (Hex.fromHexDigit b <<< (4 : UInt8)) + Hex.fromHexDigit a)

/-- A loop of them: `n` bytes from the digits at `j`. Serves the model of FieldType.cpp:311-352. -/
def hexRun (ltr : Bool) (s : Str) : Nat → Nat → Outcome Bytes
  | 0, _ => .ok []
  | n + 1, j => do
    let b ← hexPair ltr s j
    let bs ← hexRun ltr s n (j + 2)
    .ok (b :: bs)

/-- `BinaryFieldType::get_binary_value` for a binary field (FieldType.cpp:311-352). `j`
starts at 1. -/
def binaryStore (ltr : Bool) (sh : Show) (length : Nat) (value : Str) : Outcome Bytes :=
  if value = [] then .ok (List.replicate length 0)
  else if length = 16 ∧ sh.guid = true then
    if value.length < 36 then .ok (List.replicate length 0)
    else do
      let a ← hexRun ltr value 4 1
      let b ← hexRun ltr value 2 10
      let c ← hexRun ltr value 2 15
      let d ← hexRun ltr value 2 20
      let e ← hexRun ltr value 6 25
      .ok (d ++ e ++ c ++ b ++ a)
  else if value.length < length * 2 then .ok (List.replicate length 0)
  else hexRun ltr value length 1

/-- The characters and the padding of a string field (FieldType.cpp:631-635, 641-644): the
copy takes two bytes for each byte of the text. -/
def charStore (length : Nat) (value : Str) : Outcome (Nat × Bytes) := do
  let i := min value.length length
  let b ← load (toBytes value ++ [0]) 0 (2 * i)
  .ok (i, b ++ (List.replicate (length - i) ([0x20, 0] : Bytes)).flatten)

/-- `get_binary_value` of the types (FieldType.cpp:306-359, 447-458, 540-555, 615-669) on a
buffer of zeros: the result and the buffer. -/
def typeStore (ltr : Bool) (sh : Show) (t : Ty) (value : Str) : Outcome (Bool × Bytes) :=
  match t.type with
  | .binary => do let b ← binaryStore ltr sh t.length value; .ok (true, b)
  | .numeric => do
    let b ← Decimal.numericStore (List.replicate t.width 0) t.length t.precision value
    .ok (true, b)
  | .datetime => do let b ← Decimal.datetimeStore value; .ok (true, b)
  | .bool => .ok (true, [if value = "true".toList then 1 else 0])
  | .char => do let p ← charStore t.length value; .ok (true, p.2)
  | .varchar => do
    let p ← charStore t.length value
    .ok (true, Blob.le16 (p.1 % 65536) ++ p.2)
  | .version => .ok (false, List.replicate t.width 0)
  | .version8 => .ok (false, List.replicate t.width 0)
  | .string => .ok (false, List.replicate t.width 0)
  | .text => .ok (false, List.replicate t.width 0)
  | .image => .ok (false, List.replicate t.width 0)
  | .varbinary => .ok (false, List.replicate t.width 0)

/-- `Field::get_binary_value` (Field.cpp:89-101) on a buffer of `get_size()` bytes. -/
def fieldStore (ltr : Bool) (sh : Show) (f : Fld) (null : Bool) (value : Str) : Outcome (Bool × Bytes) :=
  if f.nullable then
    if null then .ok (true, List.replicate f.size 0)
    else do
      let p ← typeStore ltr sh f.ty value
      .ok (p.1, 1 :: p.2)
  else typeStore ltr sh f.ty value

/-! ## Sort keys -/

/-- A `SerializationException`: the text of the value is put into it first
(`get_fast_presentation`), which may itself fail. Serves the model of FieldType.cpp:418-437, 591-612. -/
def refuse (sh : Show) (t : Ty) (r : Bytes) (off : Nat) : Outcome (Option Bytes) := do
  let _ ← typeText sh t r off false false
  .ok none

/-- The key of a type whose bytes are their own key (FieldType.cpp:418-437, 591-612,
778-793). -/
def plainKey (sh : Show) (t : Ty) (r : Bytes) (off maxlen : Nat) : Outcome (Option Bytes) :=
  if maxlen = 0 ∨ maxlen < t.width then refuse sh t r off
  else do
    let b ← load r off t.width
    .ok (some b)

/-- `get_sort_key` of the types (FieldType.cpp:418-444, 471-536, 591-612, 774-808): the
bytes put into the buffer, or `none` for a `SerializationException`. -/
def typeKey (sh : Show) (t : Ty) (r : Bytes) (off maxlen : Nat) : Outcome (Option Bytes) :=
  match t.type with
  | .binary => plainKey sh t r off maxlen
  | .bool => plainKey sh t r off maxlen
  | .datetime => plainKey sh t r off maxlen
  | .numeric =>
    match Decimal.numericSortKey (r.drop off) t.length maxlen with
    | .ok b => .ok (some b)
    | .throw => refuse sh t r off
    | .ub => .ub
  | _ => refuse sh t r off

/-- `Field::get_sort_key` (Field.cpp:170-192) with `rec` pointing at place `base` of the
record and `SortKey` at place `pos` of the buffer: the buffer and the length returned. -/
def fieldKey (sh : Show) (f : Fld) (r : Bytes) (base : Nat) (buf : Bytes) (pos maxlen : Nat) :
    Outcome (Bytes × Nat) :=
  if f.nullable then do
    let b ← byteAt r (base + f.offset)
    if b = 0 then do
      let buf ← store buf pos [0]
      let z ← load (List.replicate 4096 0) 0 f.size
      let buf ← store buf (pos + 1) z
      .ok (buf, 0)
    else do
      let buf ← store buf pos [1]
      match ← typeKey sh f.ty r (base + f.offset + 1) maxlen with
      | none => .ok (buf, 0)
      | some k => do
        let buf ← store buf (pos + 1) k
        .ok (buf, k.length)
  else do
    match ← typeKey sh f.ty r (base + f.offset) maxlen with
    | none => .ok (buf, 0)
    | some k => do
      let buf ← store buf pos k
      .ok (buf, k.length)

/-- The loop of `calcRecordIndex` (Index.cpp:613-617): `get_raw` points at the field
(TableRecord.cpp:100-103), and `get_sort_key` adds the offset of the field. -/
def indexLoop (sh : Show) (r : Bytes) : List Fld → Bytes → Nat → Nat → Outcome (Bytes × Nat × Nat)
  | [], buf, pos, left => .ok (buf, pos, left)
  | f :: fs, buf, pos, left => do
    let p ← fieldKey sh f r f.offset buf pos left
    indexLoop sh r fs p.1 (pos + p.2) (left - p.2)

/-- `calcRecordIndex` (Index.cpp:610-622) into a new buffer of `length` bytes, here of
zeros. -/
def recordKey (sh : Show) (fs : List Fld) (length : Nat) (r : Bytes) : Outcome Bytes := do
  let p ← indexLoop sh r fs (List.replicate length 0) 0 length
  if p.2.2 > 0 then store p.1 p.2.1 (List.replicate p.2.2 0) else .ok p.1

end Verif.Field
