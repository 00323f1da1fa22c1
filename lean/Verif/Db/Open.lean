import Verif.Object.Base
import Verif.Cli.Model

/-!
# Opening a database file (src/tool1cd/Class_1CD.cpp)
-/

namespace Verif.Db
open Verif Verif.Object

/-- `db_ver` (db_ver.h:24-32), in the order of its values. -/
inductive Ver where
  | v8_0_3 | v8_0_5 | v8_1_0 | v8_2_0 | v8_2_14 | v8_3_8
  deriving DecidableEq, Repr

/-- What `open` establishes before it reads the first object. Serves the model of Class_1CD.cpp:236-334. -/
structure Header where
  ver : Ver
  readonly : Bool
  pagesize : Nat
  length : Nat
  deriving DecidableEq

/-- `SIG_CON` (Constants.h:29): "1CDBMSV8". -/
def sigCon : Bytes := [0x31, 0x43, 0x44, 0x42, 0x4d, 0x53, 0x56, 0x38]

/-- The version table (Class_1CD.cpp:271-307). `getver` (Class_1CD.h:72-81) writes the four
bytes as decimal numbers with dots between them, so comparing the texts is comparing
the bytes. -/
def version : Bytes → Option Ver
  | [8, 0, 3, 0] => some .v8_0_3
  | [8, 0, 5, 0] => some .v8_0_5
  | [8, 1, 0, 0] => some .v8_1_0
  | [8, 2, 0, 0] => some .v8_2_0
  | [8, 2, 14, 0] => some .v8_2_14
  | [8, 3, 8, 0] => some .v8_3_8
  | _ => none

/-- `readonly` for each version (Class_1CD.cpp:273-303). -/
def readonlyFor (monopoly : Bool) : Ver → Bool
  | .v8_0_3 | .v8_0_5 => true
  | _ => !monopoly

/-- The page size (Class_1CD.cpp:270, 302). -/
def filePageSize (file : Bytes) (v : Ver) : Outcome Nat := if v = .v8_3_8 then rd32 file 20 else .ok 4096

/-- `T_1CD::open` up to the first object (Class_1CD.cpp:236-334): `file` is the content of the file.
A file shorter than the 24 bytes of `v8con` leaves fields of the heap block unset; a
page size of 0 is a division by zero. `length` is an unsigned 32-bit number. -/
def openHeader (file : Bytes) (monopoly : Bool) : Outcome Header := do
  if file.length < 24 then .ub
  else if file.take 8 ≠ sigCon then .throw
  else
    match version ((file.drop 8).take 4) with
    | none => .throw
    | some v => do
      let pagesize ← filePageSize file v
      if pagesize = 0 then .ub
      else
        let length := file.length / pagesize % 2 ^ 32
        if length * pagesize ≠ file.length then .throw
        else do
          let l ← rd32 file 12
          if length ≠ l then .throw
          else .ok ⟨v, readonlyFor monopoly v, pagesize, length⟩

/-- The length of the language field of the root object: `root_80`, `root_81`
(Class_1CD.h:85-99). -/
def langSize : Ver → Nat
  | .v8_0_3 | .v8_0_5 => 8
  | _ => 32

/-- `n` consecutive 32-bit numbers. Serves the model of Class_1CD.cpp:340-386, 388-404. -/
def readBlocks (data : Bytes) (off : Nat) : Nat → Outcome (List Nat)
  | 0 => .ok []
  | n + 1 => do
    let b ← rd32 data off
    let r ← readBlocks data (off + 4) n
    .ok (b :: r)

/-- The table blocks named by the root object (Class_1CD.cpp:340-386, 388-404): `num_tables` is a
signed number, and the loop reads that many blocks. -/
def tableBlocks (v : Ver) (data : Bytes) : Outcome (List Nat) := do
  let n ← rd32 data (langSize v)
  if n ≥ 2 ^ 31 then .ok []
  else readBlocks data (langSize v + 4) n

/-- `locale` (Class_1CD.cpp:345-351, 375-380): the bytes of the root object up to the first NUL. -/
def locale (data : Bytes) : Outcome Bytes :=
  if data.contains 0 then .ok (data.takeWhile (· ≠ 0)) else .ub

/-- What kind of database has been opened. Serves the model of Class_1CD.cpp:441-479. -/
inductive Kind where
  | infobase | depot | other
  deriving DecidableEq, Repr

/-- The tables an information base must have. Serves the model of Class_1CD.cpp:441-479. -/
def infobaseTables : List Bytes :=
  [Cli.asc "CONFIG", Cli.asc "CONFIGSAVE", Cli.asc "PARAMS", Cli.asc "FILES", Cli.asc "DBSCHEMA"]

/-- The tables a configuration depot must have. Serves the model of Class_1CD.cpp:441-479. -/
def depotTables : List Bytes :=
  [Cli.asc "DEPOT", Cli.asc "USERS", Cli.asc "OBJECTS", Cli.asc "VERSIONS", Cli.asc "LABELS", Cli.asc "HISTORY",
   Cli.asc "LASTESTVERSIONS", Cli.asc "EXTERNALS", Cli.asc "SELFREFS", Cli.asc "OUTREFS"]

/-- `if(!CompareIC(tables[j]->get_name(), …)) table_… = tables[j]` over all tables
(Class_1CD.cpp:410-428): is there such a table? -/
def present (names : List Bytes) (wanted : Bytes) : Outcome Bool :=
  match names with
  | [] => .ok false
  | n :: r => do
    let b ← Unicode.equalIC n wanted
    let c ← present r wanted
    .ok (b || c)

/-- `present` for each of several tables. Serves the model of Class_1CD.cpp:441-479. -/
def presentAll (names : List Bytes) : List Bytes → Outcome (List Bool)
  | [] => .ok []
  | w :: r => do
    let b ← present names w
    let c ← presentAll names r
    .ok (b :: c)

/-- The classification (Class_1CD.cpp:441-479): a database with any of the tables of an
information base must have all of them, else one with any table of a depot must have all of those. -/
def classify (names : List Bytes) : Outcome Kind := do
  let i ← presentAll names infobaseTables
  let d ← presentAll names depotTables
  if i.any id then (if i.all id then .ok .infobase else .throw)
  else if d.any id then (if d.all id then .ok .depot else .throw)
  else .ok .other

/-- `get_ver_depot_config` (Class_1CD.cpp:1899-1935) of an open depot: `vers` are the `VERNUM` fields as
text of the records of VERSIONS in the order of the index PK. `ver` is an `int32_t`; negating the least one
is undefined. -/
def verDepot (vers : List Bytes) (ver : Int) : Outcome Int :=
  if ver > 0 then .ok ver
  else if ver = -2147483648 then .ub
  else if vers.length ≤ (-ver).toNat then .throw
  else
    match vers[(vers.length + ver - 1).toNat]? with
    | some t => Cli.stoi t
    | none => .ub

end Verif.Db
