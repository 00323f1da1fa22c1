import Verif.Basic

/-!
# Exporting a table as XML (src/tool1cd/Table.cpp:876-1044, 2360-2393; src/ctool1cd/App.cpp:72-163)

The values of a record are parameters (`Access`; properties C68, C70), and so are the record numbers an
index gives (properties C39, C40). `lower` is `LowerCase`, and `EqualIC` compares lower-cased texts
(property C11). Texts are lists of characters.
-/

namespace Verif.Export
open Verif

/-- A field as far as the export goes. Serves the model of Table.cpp:918-929. -/
structure Column where
  name : Str
  type : Str
  length : Nat
  precision : Nat
  nullable : Bool
  image : Bool
  deriving DecidableEq

/-- An index: whether it is the primary one, and the records in its order. Serves the model of Table.cpp:910-914, 937-939, 955-956. -/
structure Idx where
  primary : Bool
  order : List Nat

/-- What is asked of a record: whether a value is null, its XML form and its text, the value saved in a
file at a path (`false`: null or empty). Serves the model of Table.cpp:2360-2393. -/
structure Access (R : Type) where
  null : R → Column → Outcome Bool
  xml : R → Column → Outcome Str
  text : R → Column → Outcome Str
  save : R → Column → List Str → Outcome Bool

/-- The head of the document (Table.cpp:884-885, 905-908). -/
def head (table : Str) : Str :=
  '\uFEFF' :: "<?xml version=\"1.0\" encoding=\"UTF-8\"?>\r\n<!--Файл сформирован программой Tool_1CD-->\r\n<Table Name=\"".toList ++ table ++
    "\">\r\n\t<Fields>\r\n".toList

/-- One field (Table.cpp:918-929). -/
def fieldText (c : Column) : Str :=
  "\t\t<Field Name=\"".toList ++ c.name ++ "\" Type=\"".toList ++ c.type ++ "\" Length=\"".toList ++ (Nat.repr c.length).toList ++
    "\" Precision=\"".toList ++ (Nat.repr c.precision).toList ++ "\" NotNull=\"".toList ++ (if c.nullable then "false".toList else "true".toList) ++ "\"/>\r\n".toList

/-- One value (Table.cpp:973-1034); `none` is written as an empty element. -/
def cellText (name : Str) : Option Str → Str
  | none => "\t\t\t<".toList ++ name ++ "/>\r\n".toList
  | some v => "\t\t\t<".toList ++ name ++ ('>' :: v) ++ "</".toList ++ name ++ ">\r\n".toList

/-- What the loop over the records keeps: the name of the last record and how often it was repeated,
the directory for blobs, whether it was made, and the paths at which blobs were to be saved. Serves the model of Table.cpp:958-966. -/
structure Blobs where
  recname : Str
  repeats : Nat
  dir : List Str
  made : Bool
  saved : List (List Str)
  deriving DecidableEq

/-- `get_file_name_for_record` (Table.cpp:2360-2393): the values of the fields of the primary index, or else of the
first one. -/
def recordName (acc : Access R) (keys : List Column) (r : R) : Outcome Str :=
  keys.foldlM (fun s c => do
    let t ← acc.text r c
    .ok ((if s.isEmpty then s else s ++ ['_']) ++ t)) []

/-- The name of the record and its repetitions (Table.cpp:958-966). -/
def nameRecord (lower : Str → Str) (acc : Access R) (keys : List Column) (images : Int) (r : R) (b : Blobs) : Outcome Blobs :=
  if images ≠ 0 then do
    let n ← recordName acc keys r
    .ok (if lower n = lower b.recname then { b with repeats := b.repeats + 1 } else { b with recname := n, repeats := 0 })
  else .ok b

/-- The name of the file for a blob (Table.cpp:997-1008). The number is appended as the character of this code. -/
def blobName (images : Int) (c : Column) (b : Blobs) : Str :=
  let v := b.recname
  let v := if images > 1 then (if v.isEmpty then v else v ++ ['_']) ++ c.name else v
  if b.repeats ≠ 0 then v ++ ['_', Char.ofNat ((b.repeats + 1) % 256)] else v

/-- A blob saved to a file (Table.cpp:977-1017); `mkdir` tells whether the directory can be made. -/
def blobCell (acc : Access R) (images : Int) (mkdir : Bool) (r : R) (c : Column) (b : Blobs) : Outcome (Option Str × Blobs) :=
  if b.made || mkdir then do
    let b := { b with made := true, dir := b.dir ++ [blobName images c b], saved := b.saved ++ [b.dir ++ [blobName images c b]] }
    let ok ← acc.save r c b.dir
    .ok (if ok then some (b.dir.getLastD []) else none, b)
  else .ok (some "{ERROR}".toList, b)

/-- A value in the document (Table.cpp:1018-1025). -/
def plainCell (acc : Access R) (r : R) (c : Column) : Outcome (Option Str) := do
  let n ← acc.null r c
  if n then .ok none
  else do
    let v ← acc.xml r c
    .ok (some v)

/-- One value (Table.cpp:967-1034). -/
def cell (acc : Access R) (toFile mkdir : Bool) (images : Int) (r : R) (c : Column) (b : Blobs) : Outcome (Str × Blobs) :=
  if toFile && c.image then do
    let x ← blobCell acc images mkdir r c b
    .ok (cellText c.name x.1, x.2)
  else do
    let v ← plainCell acc r c
    .ok (cellText c.name v, b)

/-- The loop over the fields (Table.cpp:967-1034). -/
def cells (acc : Access R) (toFile mkdir : Bool) (images : Int) (r : R) : List Column → Blobs → Outcome (Str × Blobs)
  | [], b => .ok ([], b)
  | c :: cs, b => do
    let x ← cell acc toFile mkdir images r c b
    let y ← cells acc toFile mkdir images r cs x.2
    .ok (x.1 ++ y.1, y.2)

/-- The loop over the records (Table.cpp:948-1037). -/
def records (lower : Str → Str) (acc : Access R) (keys cols : List Column) (toFile mkdir : Bool) (images : Int) : List R → Blobs → Outcome (Str × Blobs)
  | [], b => .ok ([], b)
  | r :: rs, b => do
    let b ← nameRecord lower acc keys images r b
    let x ← cells acc toFile mkdir images r cols b
    let y ← records lower acc keys cols toFile mkdir images rs x.2
    .ok ("\t\t<Record>\r\n".toList ++ x.1 ++ "\t\t</Record>\r\n".toList ++ y.1, y.2)

/-- The records exported (Table.cpp:910-914, 937-939, 955-956): in the order of the first primary index, else those found
so far. -/
def numbers (idxs : List Idx) (found : List Nat) : List Nat :=
  match idxs.find? (·.primary) with
  | some i => i.order
  | none => found

/-- `export_to_xml` (Table.cpp:876-1044): the document and the paths of the blobs. `image_count` is not initialised
(916): `junk` is the value it happens to have. `file` is the name of the document. -/
def exportXml (lower : Str → Str) (acc : Access R) (get : Nat → R) (table : Str) (cols keys : List Column) (idxs : List Idx) (found : List Nat)
    (toFile mkdir : Bool) (junk : Int) (file : Str) : Outcome (Str × List (List Str)) := do
  let images := junk + (cols.filter (·.image)).length
  let x ← records lower acc keys cols toFile mkdir images ((numbers idxs found).map get) ⟨[], 0, [file ++ ".blob".toList], false, []⟩
  .ok (head table ++ cols.flatMap fieldText ++ "\t</Fields>\r\n\t<Records>\r\n".toList ++ x.1 ++ "\t</Records>\r\n</Table>\r\n".toList, x.2.saved)

/-- The records known when a table is exported by `export_all_to_xml` (App.cpp:82-86): they are looked for
only if there is no index; before that none are known (Table.cpp:109-111). `live` are the records in
use (property C35). -/
def foundForAll (idxs : List Idx) (live : List Nat) : List Nat := if idxs.isEmpty then live else []

end Verif.Export
