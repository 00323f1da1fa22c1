import Verif.Field.Model
import Verif.Index.Walk
import Verif.Depot.Pack
import Verif.Container.Open

/-!
# The records of a table in the graphical program (src/gtool1cd/models/table_data_model.cpp)

`TableDataModel` answers what a grid asks for: how many rows and columns there are, what a cell shows, what it holds when it is
edited or copied, and how it is drawn.
-/

namespace Verif.View
open Verif Record


/-- A column: a field of the table with its name. Serves the model of table_data_model.cpp:31-32. -/
structure Column where
  name : Bytes
  fld : Field.Fld
  deriving DecidableEq, Repr

/-- What the model of the grid is made of (table_data_model.cpp:31-32): the table (its records and fields) and the index chosen, if any. -/
structure Grid where
  tab : Tab
  cols : List Column
  index : Option Index.Base
  deriving DecidableEq, Repr

/-- What is asked of a cell (table_data_model.cpp:66, 73, 125, 132). -/
inductive CellRole where
  | display | edit | font | align | other
  deriving DecidableEq, Repr

/-- What is answered: nothing (the default of the grid), a text, that a large value could not be had (table_data_model.cpp:95) or not be read (98; the
message is left out), the italic font (127-129), or alignment to the right (135). -/
inductive Cell where
  | nothing
  | text (s : Str)
  | noBlob
  | failedBlob
  | italic
  | right
  deriving DecidableEq, Repr

/-- What is known of the rest: reading a large value (`Table::readBlob`, property C30), inflating (property C16), and how many
turns are waited for. Serves the model of table_data_model.cpp:90-114. -/
structure Rest where
  fetch : Nat → Nat → Outcome Bytes
  inflate : Bytes → Bytes × Bool
  fuel : Nat

/-- An unsigned number of 32 bits returned as an `int`. Serves the model of table_data_model.cpp:34-40. -/
def asInt (n : Nat) : Int := if n < 2 ^ 31 then n else (n : Int) - 2 ^ 32

/-- `rowCount` (table_data_model.cpp:34-40). `none`: the walk of the index goes on. -/
def gridRows (g : Grid) (fuel : Nat) : Outcome (Option Int) :=
  match g.index with
  | none => do
    let n ← physNum g.tab
    .ok (some (asInt n))
  | some b => do
    let n ← Index.numRecords b fuel
    .ok (n.map asInt)

/-- `columnCount` (table_data_model.cpp:42-45). -/
def gridCols (g : Grid) : Nat := g.cols.length

/-- The record of a row (table_data_model.cpp:63-65). -/
def gridRecord (g : Grid) (fuel row : Nat) : Outcome (Option Bytes) :=
  match g.index with
  | none => do
    let r ← getRecord g.tab row
    .ok (some r)
  | some b => do
    let n ← Index.numRec b fuel row
    match n with
    | none => .ok none
    | some n => do
      let r ← getRecord g.tab n
      .ok (some r)

/-- `get_field(int32_t)` (Table.cpp:589-599) for a number that is not negative. -/
def gridField (g : Grid) (c : Nat) : Outcome Column :=
  match g.cols[c]? with
  | some f => .ok f
  | none => .throw

/-- `is_blob` (table_data_model.cpp:79-88). -/
def isLarge (t : FType) : Bool := t = .string || t = .text || t = .image

/-- The contents of a large value as a text (table_data_model.cpp:101-111): the text `{catalog}` for a container. A container that cannot be read counts
as none (V8Catalog.cpp:357-373). -/
def contentText (fuel : Nat) (image : Bool) (d : Bytes) : Outcome (Option Cell) := do
  let k ← Container.openCatalog fuel d
  match k with
  | none => .ok none
  | some (.container _) => .ok (some (.text "{catalog}".toList))
  | some _ =>
    if image then .ok (some (.text (Field.ofBytes d)))
    else do
      let s ← Field.utf16Str d
      .ok (some (.text s))

/-- Start and length of a large value (`table_blob_file`). Serves the model of table_data_model.cpp:90-114. -/
def blobPlace (r : Bytes) (f : Slot) : Outcome (Nat × Nat) := do
  let s ← load r f.dataOff 4
  let l ← load r (f.dataOff + 4) 4
  .ok (Verif.Index.ofLe s, Verif.Index.ofLe l)

/-- What becomes of a large value (table_data_model.cpp:93-111); only its reading is in the `try`. -/
def storedCell (fuel : Nat) (image : Bool) : Outcome (Option Bytes) → Outcome (Option Cell)
  | .throw => .ok (some .failedBlob)
  | .ub => .ub
  | .ok none => .ok (some .noBlob)
  | .ok (some d) => contentText fuel image d

/-- A large value when it is edited or copied (table_data_model.cpp:90-114). -/
def largeCell (x : Rest) (image : Bool) (r : Bytes) (f : Slot) : Outcome (Option Cell) := do
  let p ← blobPlace r f
  storedCell x.fuel image (Depot.storeData x.fetch x.inflate [] (fun _ => none) true (some p) none)

/-- Whether the field is a reference by its name (table_data_model.cpp:116-118). -/
def isRef (c : Column) : Outcome Bool :=
  if c.fld.ty.type = .binary ∧ c.fld.ty.length = 16 then Unicode.endsWithIC c.name [82, 69, 70] else .ok false

/-- The text of a value that is not large when it is edited or copied (table_data_model.cpp:119-123). -/
def smallText (sh : Field.Show) (c : Column) (r : Bytes) (ref : Bool) : Outcome Str :=
  if ref then Field.guidText false r c.fld.slot.dataOff else Field.getString sh c.fld r

/-- A value when it is edited or copied (table_data_model.cpp:73-124). -/
def editCell (x : Rest) (sh : Field.Show) (c : Column) (r : Bytes) : Outcome (Option Cell) := do
  let n ← isNull r c.fld.slot
  if n then .ok (some (.text []))
  else if isLarge c.fld.ty.type then largeCell x (decide (c.fld.ty.type = .image)) r c.fld.slot
  else do
    let ref ← isRef c
    let s ← smallText sh c r ref
    .ok (some (.text s))

/-- A value as it is shown (table_data_model.cpp:66-72). -/
def displayCell (sh : Field.Show) (c : Column) (r : Bytes) : Outcome (Option Cell) := do
  let n ← isNull r c.fld.slot
  if n then .ok (some (.text "{NULL}".toList))
  else do
    let s ← Field.getString sh c.fld r
    .ok (some (.text s))

/-- `data` (table_data_model.cpp:58-140) for a record. -/
def cellOf (x : Rest) (sh : Field.Show) (g : Grid) (r : Bytes) (col : Nat) : CellRole → Outcome (Option Cell)
  | .display => do
    let c ← gridField g col
    displayCell sh c r
  | .edit => do
    let c ← gridField g col
    editCell x sh c r
  | .font => do
    let d ← isRemoved r
    .ok (some (if d then .italic else .nothing))
  | .align => do
    let c ← gridField g col
    .ok (some (if c.fld.ty.type = .numeric then .right else .nothing))
  | .other => .ok (some .nothing)

/-- `data` (table_data_model.cpp:58-140): nothing for an invalid index; the record is read whatever is asked. -/
def gridData (x : Rest) (sh : Field.Show) (g : Grid) (row col : Int) (role : CellRole) : Outcome (Option Cell) :=
  if row < 0 ∨ col < 0 then .ok (some .nothing)
  else do
    let r ← gridRecord g x.fuel row.toNat
    match r with
    | none => .ok none
    | some r => cellOf x sh g r col.toNat role

/-- `headerData` (table_data_model.cpp:142-149) for a column and the role of showing; other headers are left to the grid. -/
def gridHeader (g : Grid) (c : Nat) : Outcome Bytes := do
  let f ← gridField g c
  .ok f.name

end Verif.View
