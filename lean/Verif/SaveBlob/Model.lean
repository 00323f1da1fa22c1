import Verif.Blob.Model
import Verif.Value.Users
import Verif.Value.Storage
import Verif.Handle.Model
import Verif.Format.Model

/-!
# Saving the value of a field to a file (src/tool1cd/Field.cpp:216-436, `Field::save_blob_to_file`)

With `unpack` only values of at most 10 MiB are modelled (larger ones go through temporary files; for the tables of the user see property C65).
Whether a table is a system table is property C91, how a blob is read property C32, the file is the one of property C94.
How the disk looks after an exception is not modelled. `Outcome (Option _)`: `ok none` is a loop that does not end.
-/

namespace Verif.SaveBlob
open Verif Verif.Handle Verif.Format

/-- The value in the record (Field.cpp:224-231): null, or where the blob begins and its length. -/
structure Cell where
  null : Bool
  start : Nat
  length : Nat
  deriving DecidableEq, Repr

/-- The table: `get_issystem()`, `get_name()`, and the file of the blobs. Serves the model of Field.cpp:216-436. -/
structure Tab where
  system : Bool
  name : Bytes
  blobs : Option Bytes
  deriving DecidableEq, Repr

/-- `TFileStream temp_stream(path, fmCreate)`, then `CopyFrom(stream, 0)` of a stream with these bytes, and the destructor
(Field.cpp:349-350, 428-429). -/
def writeFile (d : Disk) (b : Bytes) : Outcome Disk :=
  let (h, d) := create d
  let (h, d) := copyAll d h b
  do
    destroy h
    .ok d

/-- The same with `SetSize(0)`, which is without effect on a new file, and `WriteBuffer` (Field.cpp:294-296). Also how `readBlob` writes to a
file (Field.cpp:234-235; the blocks go there one after the other, here at once). -/
def writeBuffer (d : Disk) (b : Bytes) : Outcome Disk :=
  let (h, d) := create d
  let (_, h, d) := write d h b
  do
    destroy h
    .ok d

/-- `is_users_usr` (Field.cpp:258-267); `first` is `rec->get_string(tab->get_field(0))` (property C68). -/
def isUsers (name : Bytes) (first : Outcome Bytes) : Outcome Bool := do
  if ← Unicode.equalIC name (Cli.asc "PARAMS") then do
    let s ← first
    Unicode.equalIC s (Cli.asc "users.usr")
  else Unicode.equalIC name (Cli.asc "V8USERS")

/-- `EqualIC(tabname, "CONFIG") || EqualIC(tabname, "CONFIGSAVE")` (Field.cpp:270). -/
def isConfig (name : Bytes) : Outcome Bool := do
  if ← Unicode.equalIC name (Cli.asc "CONFIG") then .ok true else Unicode.equalIC name (Cli.asc "CONFIGSAVE")

/-- `maybezipped_twice` (Field.cpp:269-273); `GUID_LEN` is 36 (BinaryGuid.h:29). -/
def maybeTwice (name : Bytes) (first : Outcome Bytes) : Outcome Bool := do
  if ← isConfig name then do
    let s ← first
    .ok (decide (s.length > 36 * 2))
  else .ok true

/-- A value that is inflated (Field.cpp:301-356). The inflation is that of `Verif.Format.unpack`; `cat->SaveToDir` is `Handle.saveEntries`, and what it
leaves on the disk is not modelled. A container without entries is written as it is; a new one was written first if there was nothing (V8Catalog.cpp:246-277). -/
def saveUnpacked (z : Unzip) (fuel depth : Nat) (d : Disk) (twice : Bool) (b : Bytes) : Outcome (Option Disk) := do
  let (x, zipped) ← unpack z twice b
  match ← Container.openCatalog fuel x with
  | none => .ok none
  | some (.container k) =>
    if k.ents = [] then do
      let d ← writeFile d k.cat.data.data
      .ok (some d)
    else do
      match ← saveEntries (codec z zipped) fuel depth k.cat k.ents with
      | none => .ok none
      | some _ => .ok (some d)
  | some _ => do
    let d ← writeFile d x
    .ok (some d)

/-- The branch for system tables (Field.cpp:253-359). -/
def saveSystem (z : Unzip) (fuel depth : Nat) (d : Disk) (name : Bytes) (first : Outcome Bytes) (b : Bytes) : Outcome (Option Disk) := do
  let users ← isUsers name first
  let twice ← maybeTwice name first
  if users then do
    let x ← Value.unmask b
    let d ← writeBuffer d x
    .ok (some d)
  else saveUnpacked z fuel depth d twice b

/-- `ZInflateStream` as property C65 takes it. Serves the model of Field.cpp:216-436. -/
def inflateOf (z : Unzip) (b : Bytes) : Option Bytes :=
  match z b with
  | .ok x => some x
  | _ => none

/-- `save_blob_to_file` (Field.cpp:216-436) with the file's path as `d`: the value returned, and the disk. -/
def saveBlob (z : Unzip) (fuel depth : Nat) (d : Disk) (t : Tab) (first : Outcome Bytes) (c : Cell) (unpack : Bool) : Outcome (Option (Bool × Disk)) :=
  if c.null then .ok (some (false, d))
  else if c.start = 0 || c.length = 0 then .ok (some (false, d))
  else do
    match ← Blob.readBlobTable t.blobs fuel c.start c.length with
    | none => .ok none
    | some b =>
      if !unpack then do
        let d ← writeBuffer d b
        .ok (some (true, d))
      else if b.length = 0 then .ok (some (false, d))
      else if t.system then do
        match ← saveSystem z fuel depth d t.name first b with
        | none => .ok none
        | some d => .ok (some (true, d))
      else do
        let x ← Value.exportValue (inflateOf z) b
        let d ← writeFile d x
        .ok (some (true, d))

end Verif.SaveBlob
