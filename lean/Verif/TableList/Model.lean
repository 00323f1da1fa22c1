import Verif.Format.Model

/-!
# Testing the list of tables (src/tool1cd/Class_1CD.cpp:1400-1628, `T_1CD::test_list_of_tables`)

Tables, records and blobs are those of property C97, the bracket text that of property C41.
-/

namespace Verif.TableList
open Verif Verif.Tree

/-- The comparison of the fields' names (Class_1CD.cpp:1429-1444). The loop declares `index` and runs over `i`, which was given no value; `i0` is the
value it happens to have (reading it is undefined, and nothing is proved here of what the compiler makes of that). A negative one is a big
`size_t`. -/
def checkFrom (i0 : Int) (fields : List Bytes) (want : List String) : Outcome Unit :=
  if i0 < 0 ∨ (want.length : Int) ≤ i0 then .ok ()
  else Format.checkNames (fields.drop i0.toNat) (want.drop i0.toNat)

/-- The fields (Class_1CD.cpp:1415-1444). -/
def checkParams (i0 : Int) : Option Format.Tab → Outcome Format.Tab
  | none => .throw
  | some t =>
    if t.fields.length < 6 then .throw
    else if t.fields.length > 7 then .throw
    else do
      let want := ["FILENAME", "CREATION", "MODIFIED", "ATTRIBUTES", "DATASIZE", "BINARYDATA"] ++ (if t.fields.length > 6 then ["PARTNO"] else [])
      checkFrom i0 t.fields want
      .ok t

/-- The loop that looks for the record (Class_1CD.cpp:1453-1465). -/
def findNames : List Format.Rec → Outcome (Option Format.Rec)
  | [] => .ok none
  | q :: qs =>
    if q.removed then findNames qs
    else do
      if ← Unicode.equalIC q.name (Cli.asc "DBNames") then .ok (some q) else findNames qs

/-- The value, its size, and its decompression (Class_1CD.cpp:1466-1508); `zipped` is false in the versions 8.0.3 and 8.0.5. -/
def readNames (z : Format.Unzip) (zipped : Bool) (q : Format.Rec) : Outcome Bytes := do
  let b ← q.data
  let n ← Cli.stoi q.size
  if n ≠ (b.length : Int) then .throw
  else if zipped then z b
  else .ok b

/-- The text behind the mark (Class_1CD.cpp:1510-1521, 1615-1618). `TEncoding::Convert` throws if the text cannot be converted to UTF-16. -/
def decode (x : Bytes) : Outcome Bytes :=
  if x.take 3 = [0xEF, 0xBB, 0xBF] then
    if x.length - 3 > 0 then do
      let _ ← Unicode.fromUtf8 (x.drop 3)
      .ok (x.drop 3)
    else .throw
  else if x.take 2 = [0xFF, 0xFE] then
    if x.length - 2 > 0 then do
      let sf ← Unicode.toUtf8 x 2
      let _ ← Unicode.fromUtf8 sf
      .ok sf
    else .throw
  else .throw

/-- `first_symbol` (Class_1CD.cpp:1523-1533): the loop begins at the second character and goes one beyond the last, which is a NUL. -/
def firstSymbol (sf : Bytes) : UInt8 :=
  if sf = [] then 0 else (Format.firstSymbol 1 0 (sf.drop 1 ++ [0])).2

/-- `t->get_subnode(i)->get_value()` (Parse_tree.cpp:127-137): without such a child the pointer is null. -/
def subvalue (t : Node) (i : Nat) : Outcome Bytes :=
  match t.kids[i]? with
  | some k => .ok (Vendor.bytes k.value)
  | none => .ub

/-- One `EqualIC` after another. Serves the model of Class_1CD.cpp:1542-1600. -/
def anyOf (s : Bytes) : List String → Outcome Bool
  | [] => .ok false
  | w :: ws => do
    if ← Unicode.equalIC s (Cli.asc w) then .ok true else anyOf s ws

/-- `if (EqualIC(…)) is_slave = true`, both times (Class_1CD.cpp:1562-1563). -/
def slave (s : Bytes) : Outcome Bool := do
  let a ← Unicode.equalIC s (Cli.asc "VT")
  let b ← Unicode.equalIC s (Cli.asc "ExtDim")
  .ok (a || b)

/-- The loop over the tables (Class_1CD.cpp:1575-1591). -/
def search (isSlave : Bool) (name : Bytes) : List Bytes → Outcome Bool
  | [] => .ok false
  | t :: ts => do
    if ← (if isSlave then Unicode.endsWithIC t name else Unicode.equalIC t name) then .ok true else search isSlave name ts

/-- The words passed over (Class_1CD.cpp:1546-1561). -/
def SKIPPED : List String :=
  ["Fld", "LineNo", "Turnover", "TurnoverDt", "TurnoverCt", "ByField", "ByOwnerField", "ByParentField", "ByProperty", "ByPropRecorder",
    "ByResource", "ByDim", "ByDims", "ByDimension", "ByDimensions", "ByDimRecorder"]

/-- `EMPTY_GUID` (Constants.h:186). -/
def EMPTY_GUID : Bytes := Cli.asc "00000000-0000-0000-0000-000000000000"

/-- One turn of the loop over the entries (Class_1CD.cpp:1542-1600). -/
def testItem (tables : List Bytes) (t : Node) : Outcome Unit := do
  let name ← subvalue t 1
  if ← anyOf name SKIPPED then .ok ()
  else do
    let isSlave ← slave name
    let guid ← subvalue t 0
    let num ← subvalue t 2
    if guid = EMPTY_GUID then .ok ()
    else do
      if ← search isSlave (Cli.asc "_" ++ name ++ num) tables then .ok () else .throw

/-- The loop. Serves the model of Class_1CD.cpp:1534-1614. -/
def testItems (tables : List Bytes) : List Node → Outcome Unit
  | [] => .ok ()
  | t :: ts => do
    testItem tables t
    testItems tables ts

/-- `(*rt)[0][1][1]` and its successors (Class_1CD.cpp:1540-1542; Parse_tree.cpp:178-189): a child that is not there is a null reference, which is
undefined. -/
def items (rt : Node) : Outcome (List Node) := do
  let a ← Vendor.nth rt 0
  let b ← Vendor.nth a 1
  let _ ← Vendor.nth b 1
  .ok (b.kids.drop 1)

/-- The text (Class_1CD.cpp:1534-1614). -/
def testNames (tables : List Bytes) (sf : Bytes) : Outcome Bool :=
  if firstSymbol sf = 0x7B then do
    let rt ← parseText (Vendor.chars sf)
    let es ← items rt
    testItems tables es
    .ok true
  else .throw

/-- `T_1CD::test_list_of_tables` (Class_1CD.cpp:1400-1628) with the names of the tables. -/
def testTables (z : Format.Unzip) (zipped : Bool) (i0 : Int) (params : Option Format.Tab) (tables : List Bytes) : Outcome Bool := do
  let p ← checkParams i0 params
  match ← findNames p.recs with
  | none => .throw
  | some q => do
    let x ← readNames z zipped q
    let sf ← decode x
    testNames tables sf

end Verif.TableList
