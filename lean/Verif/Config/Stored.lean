import Verif.Config.Files
import Verif.Field.Model
import Verif.Cli.Model

/-!
# Opening a table of files (src/tool1cd/TableFiles.cpp:65-215)

The records are bytes; names, part numbers, times and places of data are read from their fields.
Simplifications: the number of records is determined here (the table has it from its
opening, Table.cpp:421-439); the array of parts can be allocated whatever the greatest part number; the conversion
of the digits of a time by the C library (System.cpp:71-103) is a parameter.
-/

namespace Verif.Config
open Verif Record

/-- A column: its name and how its values are read. Serves the model of TableFiles.cpp:162-213. -/
structure Col where
  name : Bytes
  fld : Field.Fld
  deriving DecidableEq

/-- Switches and library functions: `showGUID`, `LowerCase` (C11), and the conversion of fourteen digits to a
time (Common.cpp:38-51). -/
structure Lib where
  sh : Field.Show
  lower : Str → Str
  clock : List Int → Nat

/-- `if (CompareIC(table->get_field(i)->get_name(), …)) throw` (TableFiles.cpp:162-213), one field after the other. -/
def wantNames : List Col → List String → Outcome Unit
  | _, [] => .ok ()
  | [], _ :: _ => .ub
  | c :: cs, w :: ws => do
    if ← Unicode.equalIC c.name (Cli.asc w) then wantNames cs ws else .throw

/-- `test_table` (TableFiles.cpp:146-215) of a table that is there. -/
def testTable (cols : List Col) : Outcome Unit :=
  if cols.length < 6 then .throw
  else if cols.length > 7 then .throw
  else do
    wantNames cols ["FILENAME", "CREATION", "MODIFIED", "ATTRIBUTES", "DATASIZE", "BINARYDATA"]
    if cols.length > 6 then wantNames (cols.drop 6) ["PARTNO"] else .ok ()

/-- `get_field(i)->…` (TableFiles.cpp:77-84). -/
def col (cols : List Col) (i : Nat) : Outcome Field.Fld :=
  match cols[i]? with
  | some c => .ok c.fld
  | none => .throw

/-- `get<table_blob_file>` (TableRecord.h:75-85, Common.h:45-49): start and length; zeros for null. -/
def blobOf (f : Field.Fld) (r : Bytes) : Outcome (Nat × Nat) := do
  match ← Record.get r f.slot 8 with
  | none => .ok (0, 0)
  | some v => do
    let s ← Field.rdU32 v 0
    let l ← Field.rdU32 v 4
    .ok (s, l)

/-- `time1CD_to_FileTime(…, record->get_data(field))` (TableFiles.cpp:109-110, Common.cpp:38-51): the digits are read whether
the value is null or not. -/
def timeOf (e : Lib) (f : Field.Fld) (r : Bytes) : Outcome Nat := do
  let d ← Decimal.dateOfRaw (r.drop f.slot.dataOff)
  .ok (e.clock (d.data.take 14))

/-- `if(partno) tr.partno = ToIntDef(record->get_string(partno), 0); else tr.partno = 0` (TableFiles.cpp:107-108). -/
def partOf (e : Lib) (cols : List Col) (r : Bytes) : Outcome Int :=
  if cols.length > 6 then do
    let f ← col cols 6
    let s ← Field.getString e.sh f r
    Cli.toIntDef (Field.toBytes s) 0
  else .ok 0

/-- What a record that has data adds to `allrec` (TableFiles.cpp:100-112). -/
def takeRow (e : Lib) (cols : List Col) (r : Bytes) (b : Nat × Nat) : Outcome (List Row) := do
  let f ← col cols 0
  let name ← Field.getString e.sh f r
  if name.isEmpty then .ok []
  else do
    let p ← partOf e cols r
    let fc ← col cols 1
    let c ← timeOf e fc r
    let fm ← col cols 2
    let m ← timeOf e fm r
    .ok [⟨false, b.1, b.2, name, p, c, m⟩]

/-- What a record adds to `allrec` (TableFiles.cpp:90-112). -/
def rowOf (e : Lib) (cols : List Col) (r : Bytes) : Outcome (List Row) := do
  if ← isRemoved r then .ok []
  else do
    let f ← col cols 5
    let b ← blobOf f r
    if b.1 = 0 ∨ b.2 = 0 then .ok [] else takeRow e cols r b

/-- The loop over the records (TableFiles.cpp:88-118), from record `i`, `n` records left. -/
def rowsFrom (e : Lib) (cols : List Col) (t : Record.Tab) : Nat → Nat → Outcome (List Row)
  | 0, _ => .ok []
  | n + 1, i => do
    let r ← getRecord t i
    let a ← rowOf e cols r
    let b ← rowsFrom e cols t n (i + 1)
    .ok (a ++ b)

/-- `TableFiles::TableFiles` (TableFiles.cpp:65-138): whether the store is ready, and its files. `none`: there is no such table. -/
def openStore (e : Lib) : Option (List Col × Record.Tab) → Outcome (Bool × List (Str × TFile))
  | none => .ok (false, [])
  | some (cols, t) => do
    testTable cols
    let n ← physNum t
    let rows ← rowsFrom e cols t n 0
    let files ← tableFiles e.lower rows
    .ok (true, files)

end Verif.Config
