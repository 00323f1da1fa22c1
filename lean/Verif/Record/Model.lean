import Verif.Blob.Model
import Verif.Unicode.Model
import Verif.Tree.Model

/-!
# Tables: fields, record layout, records, scanning
(Table.cpp:140-466, 605-655, 2303-2440; Field.cpp:65-68, 438-470; FieldType.cpp:137-158,
823-886; TableRecord.cpp; TableIterator.cpp)
-/

namespace Verif.Record
open Verif

/-! ## Field descriptions -/

/-- `enum class type_fields` (FieldType.h). -/
inductive FType where
  | binary | bool | numeric | char | varchar | version | string | text | image | datetime | version8 | varbinary
  deriving DecidableEq, Repr

/-- `field_type_declaration` (FieldType.h); `length` and `precision` are `int`. -/
structure Decl where
  type : FType
  nullExists : Bool
  length : Int
  precision : Int
  caseSensitive : Bool
  deriving DecidableEq, Repr

/-- An `int32_t`: a result outside the range of the type is undefined. Serves the model of FieldType.cpp:138-158. -/
def i32 (z : Int) : Outcome Int := if -2147483648 ≤ z ∧ z < 2147483648 then .ok z else .ub

/-- The digits at the front of a text, as a number. Serves the model of FieldType.cpp:823-886. -/
def digitsVal : Nat → Str → Nat
  | acc, [] => acc
  | acc, c :: s => if Tree.isDigit c then digitsVal (acc * 10 + (c.toNat - '0'.toNat)) s else acc

/-- The sign at the front of a text (part of `std::stoi`). Serves the model of FieldType.cpp:823-886. -/
def splitSign : Str → Bool × Str
  | '-' :: t => (true, t)
  | t => (false, t)

/-- `std::stoi` of a text without leading blanks or plus sign: throws `invalid_argument`
without a digit, `out_of_range` outside the range of `int`. Serves the model of FieldType.cpp:823-886. -/
def stoi (s : Str) : Outcome Int :=
  let t := (splitSign s).2
  let z : Int := if (splitSign s).1 then -(digitsVal 0 t : Int) else digitsVal 0 t
  if (t.head?.map Tree.isDigit).getD false = false then .throw
  else if -2147483648 ≤ z ∧ z < 2147483648 then .ok z else .throw

/-- The names of the types in a table description (FieldType.cpp:831-846). -/
def typeOf (s : Str) : Option FType :=
  if s = ['B'] then some .binary
  else if s = ['L'] then some .bool
  else if s = ['N'] then some .numeric
  else if s = ['N', 'C'] then some .char
  else if s = ['N', 'V', 'C'] then some .varchar
  else if s = ['R', 'V'] then some .version
  else if s = ['N', 'T'] then some .string
  else if s = ['T'] then some .text
  else if s = ['I'] then some .image
  else if s = ['D', 'T'] then some .datetime
  else if s = ['V', 'B'] then some .varbinary
  else none

/-- `get_next()` and a check of the node's type; a missing node is a null pointer. Serves the model of FieldType.cpp:823-886. -/
def want (t : Tree.NType) : List Tree.Node → Outcome (Str × List Tree.Node)
  | [] => .ub
  | n :: ns => if n.type = t then .ok (n.value, ns) else .throw

/-- A text that is `yes` or `no`; anything else throws. Serves the model of FieldType.cpp:823-886. -/
def oneOf (yes no : Str) (v : Str) : Outcome Bool :=
  if v = yes then .ok true else if v = no then .ok false else .throw

/-- `field_type_declaration::parse_tree` (FieldType.cpp:823-886). -/
def parseDecl (ns : List Tree.Node) : Outcome Decl := do
  let (sType, ns) ← want .string ns
  match typeOf sType with
  | none => .throw
  | some ty =>
    let (sNull, ns) ← want .number ns
    let nullExists ← oneOf ['1'] ['0'] sNull
    let (sLen, ns) ← want .number ns
    let length ← stoi sLen
    let (sPrec, ns) ← want .number ns
    let precision ← stoi sPrec
    let (sCase, _) ← want .string ns
    let cs ← oneOf ['C', 'S'] ['C', 'I'] sCase
    .ok ⟨ty, nullExists, length, precision, cs⟩

/-- `CommonFieldType::get_size` (FieldType.cpp:138-158). The result is cached, which does
not change it. `>> 1` of a negative `int` rounds down. -/
def typeSize (d : Decl) : Outcome Int :=
  match d.type with
  | .binary => i32 d.length
  | .bool => .ok 1
  | .numeric => do let x ← i32 (d.length + 2); .ok (x / 2)
  | .char => i32 (d.length * 2)
  | .varchar => do let x ← i32 (d.length * 2); i32 (x + 2)
  | .version => .ok 16
  | .string => .ok 8
  | .text => .ok 8
  | .image => .ok 8
  | .datetime => .ok 7
  | .version8 => .ok 8
  | .varbinary => i32 (d.length + 2)

/-- `Field::get_size` (Field.cpp:65-68). -/
def fieldSize (d : Decl) : Outcome Int := do
  let s ← typeSize d
  i32 ((if d.nullExists then 1 else 0) + s)

/-- `class Field` (Field.h:36-90). `offset` starts at 0. -/
structure Field where
  name : Bytes
  decl : Decl
  offset : Int
  deriving DecidableEq, Repr

/-- The UTF-8 bytes of a node's value (texts of nodes are modelled by characters). Serves the model of Field.cpp:438-470. -/
def utf8Of (s : Str) : Bytes := s.flatMap (fun c => String.utf8EncodeChar c)

/-- `Field::field_from_tree` (Field.cpp:438-470), with the new value of `has_version`. -/
def fieldFromTree (ns : List Tree.Node) (hasVersion : Bool) : Outcome (Field × Bool) := do
  let (name, ns) ← want .string ns
  let d ← parseDecl ns
  .ok (⟨utf8Of name, d, 0⟩, hasVersion || decide (d.type = .version))

/-- The loop over the field descriptions (Table.cpp:207-230). -/
def fieldsFromTree : List Tree.Node → Bool → Outcome (List Field × Bool)
  | [], hv => .ok ([], hv)
  | n :: ns, hv =>
    if n.kids.length ≠ 6 then .throw
    else do
      let (f, hv) ← fieldFromTree n.kids hv
      let (fs, hv) ← fieldsFromTree ns hv
      .ok (f :: fs, hv)

/-- The hidden field (Table.cpp:283-289): appended to `fields`, while `num_fields` stays. -/
def hiddenField : Field := ⟨[86, 69, 82, 83, 73, 79, 78], ⟨.version8, false, 0, 0, false⟩, 0⟩

/-- Serves the model of Table.cpp:192-230, 283-289, 397-419. -/
def withHidden (recordlock hasVersion : Bool) (fs : List Field) : List Field :=
  if recordlock && !hasVersion then fs ++ [hiddenField] else fs

/-! ## Layout -/

/-- Version fields come first (Table.cpp:403-404, 412-413). -/
def isVersion (f : Field) : Bool := decide (f.decl.type = .version) || decide (f.decl.type = .version8)

/-- One of the two loops (Table.cpp:401-418): the first `num` fields are looked at, those
with `sel` get the next offset. -/
def place (sel : Field → Bool) : Nat → List Field → Int → Outcome (List Field × Int)
  | 0, fs, len => .ok (fs, len)
  | _ + 1, [], _ => .ub
  | num + 1, f :: fs, len =>
    if sel f then do
      let sz ← fieldSize f.decl
      let len' ← i32 (len + sz)
      let (fs, n) ← place sel num fs len'
      .ok ({ f with offset := len } :: fs, n)
    else do
      let (fs, n) ← place sel num fs len
      .ok (f :: fs, n)

/-- The offsets and the record length (Table.cpp:397-419); `num` is `num_fields`. -/
def layout (num : Nat) (fs : List Field) : Outcome (List Field × Int) := do
  let (fs, len) ← place isVersion num fs 1
  let (fs, len) ← place (fun f => !isVersion f) num fs len
  .ok (fs, if len < 5 then 5 else len)

/-- The part of `Table::init` about fields (Table.cpp:192-230, 283-289, 397-419):
`descr` are the field descriptions behind the word `Fields`. -/
def initFields (recordlock : Bool) (descr : List Tree.Node) : Outcome (List Field × Int) := do
  let (fs, hv) ← fieldsFromTree descr false
  layout descr.length (withHidden recordlock hv fs)

/-! ## Records -/

/-- What a field looks like from a record. Serves the model of TableRecord.cpp:112, 117. -/
structure Slot where
  offset : Nat
  nullable : Bool
  /-- without the null flag -/
  width : Nat
  deriving DecidableEq, Repr

/-- `Field::get_size` of a slot. Serves the model of TableRecord.cpp:150-158. -/
def Slot.size (f : Slot) : Nat := (if f.nullable then 1 else 0) + f.width
/-- Where the value starts (TableRecord.cpp:112, 117). -/
def Slot.dataOff (f : Slot) : Nat := f.offset + (if f.nullable then 1 else 0)

/-- Load of `n` bytes. Serves the model of TableRecord.cpp:95-98. -/
def load (r : Bytes) (off n : Nat) : Outcome Bytes :=
  if off + n ≤ r.length then .ok ((r.drop off).take n) else .ub

/-- Store of bytes. Serves the model of TableRecord.cpp:142-148. -/
def store (r : Bytes) (off : Nat) (b : Bytes) : Outcome Bytes :=
  if off + b.length ≤ r.length then .ok (r.take off ++ b ++ r.drop (off + b.length)) else .ub

/-- `is_removed` (TableRecord.cpp:95-98). -/
def isRemoved (r : Bytes) : Outcome Bool := do
  let b ← load r 0 1
  .ok (decide (b ≠ [0]))

/-- `is_null_value` (TableRecord.cpp:82-88). -/
def isNull (r : Bytes) (f : Slot) : Outcome Bool :=
  if f.nullable then do
    let b ← load r f.offset 1
    .ok (decide (b = [0]))
  else .ok false

/-- `get<T>` (TableRecord.h:75-85) for a type of `n` bytes; `none`: the default value. -/
def get (r : Bytes) (f : Slot) (n : Nat) : Outcome (Option Bytes) := do
  if ← isNull r f then .ok none
  else do
    let b ← load r f.dataOff n
    .ok (some b)

/-- `set_null` (TableRecord.cpp:142-148). -/
def setNull (r : Bytes) (f : Slot) : Outcome Bytes :=
  if f.nullable then store r f.offset [0] else .throw

/-- `set_data` (TableRecord.cpp:150-158): `get_size()` bytes are copied behind the flag;
`v` is the caller's buffer. -/
def setData (r : Bytes) (f : Slot) (v : Bytes) : Outcome Bytes := do
  let r ← if f.nullable then store r f.offset [1] else .ok r
  let b ← load v 0 f.size
  store r f.dataOff b

/-- `set<T>` (TableRecord.h:93-97): the flag is not touched. -/
def set (r : Bytes) (f : Slot) (v : Bytes) : Outcome Bytes := store r f.dataOff v

/-- `Assign` (TableRecord.cpp:127-140). `mine` and `other` identify the tables of the
records (`none` for a record of no table): a record of no table is not checked, and then
`data_size` bytes are read from the other record whatever its size. -/
def assign (mine other : Option Nat) (r r' : Bytes) : Outcome Bytes :=
  if mine ≠ none ∧ (r'.length ≠ r.length ∨ other ≠ mine) then .throw
  else load r' 0 r.length

/-! ## Tables -/

/-- A table as far as scanning goes: the contents of the data file and the record length.
The data file is read as a byte array (C20, C22). Serves the model of Table.cpp:421-439. -/
structure Tab where
  file : Bytes
  reclen : Nat
  deriving DecidableEq, Repr

/-- The number of physical records (Table.cpp:421-439), a 32-bit number; the check against
the length of the file multiplies in 32 bits. -/
def physNum (t : Tab) : Outcome Nat :=
  let n := t.file.length / t.reclen % 2 ^ 32
  if n * t.reclen % 2 ^ 32 ≠ t.file.length then .throw else .ok n

/-- `get_record` (Table.cpp:637-655). -/
def getRecord (t : Tab) (num : Nat) : Outcome Bytes :=
  Blob.getData t.file (num * t.reclen % 2 ^ 32) t.reclen

/-- `TableIterator` (TableIterator.h): number, end flag and the buffer (whose contents are
irrelevant at the end). -/
structure Iter where
  num : Nat
  eof : Bool
  buf : Bytes
  deriving DecidableEq, Repr

/-- `find_first_not_removed` (TableIterator.cpp:31-51); the number is a `uint32_t`. At most
`fuel` turns. -/
def findFirst (t : Tab) (phys : Nat) : Nat → Iter → Outcome (Option Iter)
  | 0, _ => .ok none
  | fuel + 1, it =>
    if it.num ≥ phys then .ok (some { it with eof := true })
    else if it.eof then .ok (some it)
    else do
      let b ← getRecord t it.num
      let it := { it with buf := b }
      if ← isRemoved b then findFirst t phys fuel { it with num := (it.num + 1) % 2 ^ 32 }
      else .ok (some it)

/-- The constructor (TableIterator.cpp:24-29). -/
def iterStart (t : Tab) (phys fuel : Nat) : Outcome (Option Iter) := findFirst t phys fuel ⟨0, false, []⟩

/-- `next` (TableIterator.cpp:68-73). -/
def iterNext (t : Tab) (phys fuel : Nat) (it : Iter) : Outcome (Option Iter) :=
  findFirst t phys fuel { it with num := (it.num + 1) % 2 ^ 32 }

/-- A caller's loop `for (it; !it.eof(); it.next())`: the numbers and contents visited. Built on TableIterator.cpp:68-73. -/
def iterLoop (t : Tab) (phys fuel : Nat) : Nat → Iter → Outcome (Option (List (Nat × Bytes)))
  | 0, _ => .ok none
  | n + 1, it =>
    if it.eof then .ok (some [])
    else do
      match ← iterNext t phys fuel it with
      | none => .ok none
      | some it' =>
        match ← iterLoop t phys fuel n it' with
        | none => .ok none
        | some l => .ok (some ((it.num, it.buf) :: l))

/-- A whole scan. Built on TableIterator.cpp:24-29. -/
def scan (t : Tab) (phys fuel : Nat) : Outcome (Option (List (Nat × Bytes))) := do
  match ← iterStart t phys fuel with
  | none => .ok none
  | some it => iterLoop t phys fuel fuel it

/-- `fill_records_index` (Table.cpp:2303-2321) from record `i`, `n` records left. -/
def fillFrom (t : Tab) : Nat → Nat → Outcome (List Nat)
  | 0, _ => .ok []
  | n + 1, i => do
    let b ← getRecord t i
    let r ← isRemoved b
    let l ← fillFrom t n (i + 1)
    .ok (if r then l else i :: l)

/-- Built on Table.cpp:2303-2321. -/
def fillIndex (t : Tab) (phys : Nat) : Outcome (List Nat) := fillFrom t phys 0

/-- `IndexedTableIterator::find_first_not_removed` (TableIterator.cpp:83-110): `ix` is the
list of record numbers of the index (Index.cpp). -/
def findIndexed (t : Tab) (phys : Nat) (ix : List Nat) : Nat → Iter → Outcome (Option Iter)
  | 0, _ => .ok none
  | fuel + 1, it =>
    if it.num ≥ ix.length then .ok (some { it with eof := true })
    else
      match ix[it.num]? with
      | none => .ub
      | some p =>
        if p ≥ phys then .ok (some { it with eof := true })
        else if it.eof then .ok (some it)
        else do
          let b ← getRecord t p
          let it := { it with buf := b }
          if ← isRemoved b then findIndexed t phys ix fuel { it with num := (it.num + 1) % 2 ^ 32 }
          else .ok (some it)

/-- The caller's loop over an indexed iterator: contents visited. Built on TableIterator.cpp:83-110. -/
def indexedLoop (t : Tab) (phys : Nat) (ix : List Nat) (fuel : Nat) : Nat → Iter → Outcome (Option (List (Nat × Bytes)))
  | 0, _ => .ok none
  | n + 1, it =>
    if it.eof then .ok (some [])
    else do
      match ← findIndexed t phys ix fuel { it with num := (it.num + 1) % 2 ^ 32 } with
      | none => .ok none
      | some it' =>
        match ← indexedLoop t phys ix fuel n it' with
        | none => .ok none
        | some l => .ok (some ((it.num, it.buf) :: l))

/-- Built on TableIterator.cpp:83-110. -/
def scanIndexed (t : Tab) (phys : Nat) (ix : List Nat) (fuel : Nat) : Outcome (Option (List (Nat × Bytes))) := do
  match ← findIndexed t phys ix fuel ⟨0, false, []⟩ with
  | none => .ok none
  | some it => indexedLoop t phys ix fuel fuel it

/-! ## Lookup by name -/

/-- `find_field` (Table.cpp:2409-2419): the first `num` fields; also `find_index`
(2434-2444) with the names of the indexes. -/
def findName (name : Bytes) : Nat → List Bytes → Nat → Outcome (Option Nat)
  | 0, _, _ => .ok none
  | _ + 1, [], _ => .ub
  | num + 1, n :: ns, j => do
    if ← Unicode.equalIC n name then .ok (some j)
    else findName name num ns (j + 1)

/-- `get_field`/`get_index` by name (Table.cpp:2397-2407, 2421-2432). -/
def getName (name : Bytes) (num : Nat) (names : List Bytes) : Outcome Nat := do
  match ← findName name num names 0 with
  | some j => .ok j
  | none => .throw

end Verif.Record
