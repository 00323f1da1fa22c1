import Verif.Object.Whole
import Verif.Unicode.Model

/-!
# Exporting the files of a table into a folder and importing them
(Table.cpp:1101-1320, `Table::export_table`, `Table::import_table`)

A table has up to four internal files: records, values of unlimited length, index, and the
text that describes it. Export saves each of them into a folder of the table's name
together with a record `root` of 36 bytes; import replaces the internal files by the saved ones.

Not modelled: a folder that cannot be created or written (`directory_exists` reports and the
call returns; a stream that could not be opened takes nothing and says nothing), the
flush at the end, and what the `Table` itself remembers about its records.
-/

namespace Verif.Object.Transfer
open Verif

/-- The internal files of a table (Table.h: `file_data`, `file_blob`, `file_index`,
`descr_table`); a null pointer is `none`. -/
structure Files where
  data : Option Obj
  blob : Option Obj
  index : Option Obj
  descr : Option Obj
  deriving DecidableEq

/-- The folder on disk; `none`: there is no such file. Serves the model of Table.cpp:1101-1160. -/
structure Folder where
  root : Option Bytes
  data : Option Bytes
  blob : Option Bytes
  index : Option Bytes
  descr : Option Bytes
  deriving DecidableEq, Repr

/-! ## Export -/

/-- One of the four flags `has_…` (Table.cpp:1109-1138), a `bool`. -/
def hasByte : Option Obj → UInt8
  | some _ => 1
  | none => 0

/-- One of the four pairs of versions (Table.cpp:1111-1113 and so on); without the file the eight
bytes are not assigned: `junk` is what they happen to be. -/
def verBytes (junk : Nat → UInt8) (k : Nat) : Option Obj → Bytes
  | some o => le32 (currentVersion o).1 ++ le32 (currentVersion o).2
  | none => (List.range 8).map (fun i => junk (8 * k + i))

/-- `export_import_table_root` (Table.h:91-105, Table.cpp:1108-1139, 1143). -/
def rootBytes (junk : Nat → UInt8) (t : Files) : Bytes :=
  [hasByte t.data, hasByte t.blob, hasByte t.index, hasByte t.descr] ++ verBytes junk 0 t.data ++
    verBytes junk 1 t.blob ++ verBytes junk 2 t.index ++ verBytes junk 3 t.descr

/-- `if (file) file->savetofile(…)` (Table.cpp:1147-1158). -/
def exportFile (pages : List Bytes) (P : Nat) (old : Option Bytes) : Option Obj → Outcome (Option Bytes)
  | none => .ok old
  | some o => do
    let b ← saveToFile pages P o
    .ok (some b)

/-- `export_table` (Table.cpp:1101-1160). `old` is what the folder held before. -/
def exportTable (pages : List Bytes) (P : Nat) (junk : Nat → UInt8) (t : Files) (old : Folder) : Outcome Folder := do
  let data ← exportFile pages P old.data t.data
  let blob ← exportFile pages P old.blob t.blob
  let index ← exportFile pages P old.index t.index
  let descr ← exportFile pages P old.descr t.descr
  .ok ⟨some (rootBytes junk t), data, blob, index, descr⟩

/-! ## Import -/

/-- A flag of the record `root` (Table.cpp:1187-1188, 1191 and so on). The record is not
initialised: a flag that was not read, or is not the image of a `bool`, is undefined. -/
def flag (root : Bytes) (k : Nat) : Outcome Bool :=
  match root[k]? with
  | some 0 => .ok false
  | some 1 => .ok true
  | _ => .ub

/-- A pair of versions of the record. Serves the model of Table.cpp:1269-1315. -/
def versions (root : Bytes) (k : Nat) : Outcome (Nat × Nat) := do
  let a ← rd32 root (4 + 8 * k)
  let b ← rd32 root (8 + 8 * k)
  .ok (a, b)

/-- `new V8Object(base)` (V8Object.cpp:284-298). -/
def newObj (e : Env) (is838 : Bool) (s : St) : Outcome (St × Obj) := do
  let (n, s) ← getFree e s
  let s ← touch e s n false
  let s ← poke s n 0 (List.replicate e.P 0)
  let s ← poke s n 0 (if is838 then [0x1c, 0xfd] else sigObj)
  let o ← init s.pages e.P is838 n
  .ok (s, o)

/-- `if(!file) file = new V8Object(base)`. Serves the model of Table.cpp:1191-1215, 1217-1241, 1243-1267. -/
def fileFor (e : Env) (is838 : Bool) (s : St) : Option Obj → Outcome (St × Obj)
  | some o => .ok (s, o)
  | none => newObj e is838 s

/-- `ob = (v8ob*)get_block_for_write(…); ob->version.version_1 = …; ob->version.version_2 = …`
(Table.cpp:1210-1212): the layout of format 8.0, whatever the format. -/
def putVersions (e : Env) (s : St) (block : Nat) (v : Nat × Nat) : Outcome St := do
  let s ← touch e s block true
  let s ← poke s block 12 (le32 v.1)
  poke s block 16 (le32 v.2)

/-- The import of one file (Table.cpp:1191-1215, 1217-1241, 1243-1267). A file that is
not there is an empty stream: the constructor of `TFileStream` does not throw
(TFileStream.cpp:40-51, TStream.cpp:183-191). -/
def importFile (e : Env) (ro : Bool) (fuel : Nat) (is838 : Bool) (s : St) (o : Option Obj) (file : Option Bytes)
    (v : Nat × Nat) : Outcome (Option (St × Obj)) := do
  let (s, o) ← fileFor e is838 s o
  match ← setWhole e ro fuel s o (file.getD []) with
  | none => .ok none
  | some (s, o) => do
    let s ← putVersions e s o.block v
    .ok (some (s, o))

/-- `if(root.has_…) { … }`. Serves the model of Table.cpp:1163-1320. -/
def importIf (e : Env) (ro : Bool) (fuel : Nat) (is838 : Bool) (root : Bytes) (k : Nat) (file : Option Bytes) (s : St)
    (o : Option Obj) : Outcome (Option (St × Option Obj)) := do
  let h ← flag root k
  if h then do
    let v ← versions root k
    match ← importFile e ro fuel is838 s o file v with
    | none => .ok none
    | some (s, o) => .ok (some (s, some o))
  else .ok (some (s, o))

/-- `std::to_string` of a page number. Serves the model of Table.cpp:1302-1307. -/
def decimal (n : Nat) : Bytes := (Nat.toDigits 10 n).map (fun c => UInt8.ofNat c.toNat)

/-- `file ? to_string(file->get_block_number()) : string("0")` (Table.cpp:1302-1307). -/
def numberOf : Option Obj → Bytes
  | some o => decimal o.block
  | none => [0x30]

/-- `{"Files",`. Serves the model of Table.cpp:1301-1308. -/
def filesMark : Bytes := [0x7B, 0x22, 0x46, 0x69, 0x6C, 0x65, 0x73, 0x22, 0x2C]

/-- `str.find(mark)` and `str.resize(…)` (Table.cpp:1295-1300): what is before the first occurrence. -/
def cut (mark : Bytes) : Bytes → Option Bytes
  | [] => if mark = [] then some [] else none
  | c :: cs => if mark.isPrefixOf (c :: cs) then some [] else (cut mark cs).map (c :: ·)

/-- The last section of the description (Table.cpp:1301-1308). -/
def filesText (d b i : Option Obj) : Bytes :=
  filesMark ++ numberOf d ++ [0x2C] ++ numberOf b ++ [0x2C] ++ numberOf i ++ [0x7D, 0x0A, 0x7D]

/-- The new description (Table.cpp:1287-1310). -/
def describe (file : Bytes) (d b i : Option Obj) : Outcome Bytes := do
  let text ← Unicode.toUtf8 file 0
  match cut filesMark text with
  | none => .throw
  | some pre => Unicode.fromUtf8 (pre ++ filesText d b i)

/-- `if (descr_changed && root.has_descr)` (Table.cpp:1269-1315): only when one of the files had to be
created. -/
def importDescr (e : Env) (ro : Bool) (fuel : Nat) (is838 : Bool) (root : Bytes) (file : Option Bytes) (changed : Bool) (s : St)
    (t : Files) : Outcome (Option (St × Files)) :=
  if changed then do
    let h ← flag root 3
    if h then do
      let (s, o) ← fileFor e is838 s t.descr
      let v ← versions root 3
      let s ← putVersions e s o.block v
      let text ← describe (file.getD []) t.data t.blob t.index
      match ← setWhole e ro fuel s o text with
      | none => .ok none
      | some (s, o) => .ok (some (s, { t with descr := some o }))
    else .ok (some (s, t))
  else .ok (some (s, t))

/-- `import_table` (Table.cpp:1163-1320). `none`: it does not return. -/
def importTable (e : Env) (ro : Bool) (fuel : Nat) (is838 : Bool) (f : Folder) (s : St) (t : Files) :
    Outcome (Option (St × Files)) := do
  let root := (f.root.getD []).take 36
  match ← importIf e ro fuel is838 root 0 f.data s t.data with
  | none => .ok none
  | some (s, data) =>
    match ← importIf e ro fuel is838 root 1 f.blob s t.blob with
    | none => .ok none
    | some (s, blob) =>
      match ← importIf e ro fuel is838 root 2 f.index s t.index with
      | none => .ok none
      | some (s, index) =>
        importDescr e ro fuel is838 root f.descr
          (decide (t.data = none ∧ data ≠ none) || decide (t.blob = none ∧ blob ≠ none) || decide (t.index = none ∧ index ≠ none))
          s ⟨data, blob, index, t.descr⟩

end Verif.Object.Transfer
