import Verif.Record.Edit

/-!
# Ending an editing session: writing the changes into the files of a table
(Table.cpp:1666-1719, 1763-1819, 1931-2186)

A `TableRecord` is an object with three members, a pointer to the bytes of the record, a
pointer to the table and a number (TableRecord.h:130-132): `mem` below is the memory of
such an object (24 bytes on a 64-bit platform), whose contents depend on addresses and are
arbitrary here. What the indexes do with a record is a parameter (leaf level: C60, C61).
Files are byte arrays (C20-C25). `flush` at the end (C18) is left out; the writable state
of the database was checked by `begin_edit`.
-/

namespace Verif.Record
open Verif

/-- A field as the functions of this file see it. Serves the model of Table.cpp:1996-2007. -/
structure SField where
  slot : Slot
  type : FType
  deriving DecidableEq, Repr

/-- Fields whose values lie in the blob file. Serves the model of Table.cpp:1996-2007. -/
def SField.isBlob (f : SField) : Bool := decide (f.type = .image ∨ f.type = .string ∨ f.type = .text)

/-- The indexes of a table: entering and removing one record. Serves the model of Table.cpp:1770-1779. -/
structure IxOps (X : Type) where
  del : X → Nat → Bytes → Outcome X
  ins : X → Nat → Bytes → Outcome X

/-- The parts of a `Table` that are written (Table.h): `file_data`, `recordlen`,
`phys_numrecords`, `file_blob`, the indexes, `edit`, and the record version of the data
file. -/
structure DSt (X : Type) where
  data : Option Bytes
  reclen : Nat
  phys : Nat
  blob : Option Bytes
  ix : X
  edit : Bool
  ver : Nat × Nat
  deriving DecidableEq, Repr

variable {X : Type}

/-- `set_len` (C25); bytes gained are unspecified, here zeros. Serves the model of Table.cpp:1666-1719. -/
def setLen (f : Bytes) (n : Nat) : Bytes := f.take n ++ List.replicate (n - f.length) 0

/-- The first record of a data file (Table.cpp:1812-1814, 2076-2078). -/
def recordZero (reclen : Nat) : Bytes := 1 :: List.replicate (reclen - 1) 0

/-- Record 0 is written in front of the first record (Table.cpp:1810-1817). -/
def withZero (s : DSt X) (f : Bytes) : Bytes := if s.phys = 0 then Blob.setData f 0 (recordZero s.reclen) else f

/-- `write_data_record` (Table.cpp:1782-1819): `set_data(rec, …)` writes the memory of the
object `rec`. A missing data file is not created (`create_file_data` returns at once,
1631-1636). -/
def writeData (s : DSt X) (n : Nat) (mem : Bytes) : Outcome (DSt X) :=
  if !s.edit then .throw
  else if n > s.phys ∧ ¬ (n = 1 ∧ s.phys = 0) then .throw
  else if n = 0 then .throw
  else
    match s.data with
    | none => .ub
    | some f => do
      let b ← load mem 0 s.reclen
      .ok { s with data := some (Blob.setData (withZero s f) (n * s.reclen % 2 ^ 32) b) }

/-- `delete_data_record` (Table.cpp:1666-1719): the four bytes at the beginning of the file
are stored in the memory of a new object and written back to where they came from. -/
def deleteData (s : DSt X) (n : Nat) (mem : Bytes) : Outcome (DSt X) :=
  if !s.edit then .throw
  else
    match s.data with
    | none => .throw
    | some f =>
      if n ≥ s.phys then .throw
      else if n = 0 then .throw
      else if n = s.phys - 1 then
        .ok { s with data := some (setLen f (n * s.reclen % 2 ^ 32)), phys := s.phys - 1 }
      else do
        let head ← Blob.getData f 0 4
        let mem ← store mem 0 head
        writeData { s with data := some (Blob.setData f 0 head) } n mem

/-- `get_record` (Table.cpp:645-656); without a data file a null pointer is used. -/
def readRecord (s : DSt X) (n : Nat) : Outcome Bytes :=
  match s.data with
  | none => .ub
  | some f => getRecord ⟨f, s.reclen⟩ n

/-- `delete_index_record` (Table.cpp:1770-1779). -/
def dropIndexed (ops : IxOps X) (s : DSt X) (n : Nat) (r : Bytes) : Outcome (DSt X) := do
  if ← isRemoved r then .throw
  else do
    let ix ← ops.del s.ix n r
    .ok { s with ix := ix }

/-- `write_index_record` (Table.cpp:1931-1940). -/
def enterIndexed (ops : IxOps X) (s : DSt X) (n : Nat) (r : Bytes) : Outcome (DSt X) := do
  if ← isRemoved r then .throw
  else do
    let ix ← ops.ins s.ix n r
    .ok { s with ix := ix }

/-- The number of the first block of a blob: four bytes at `off`. Serves the model of Table.cpp:1996-2007. -/
def blobStart (r : Bytes) (off : Nat) : Outcome Nat := do
  let b ← load r off 4
  Object.rd32 b 0

/-- `delete_blob_record` called with a number that is not zero (Table.cpp:2002-2005). -/
def dropBlob (fuel : Nat) (s : DSt X) (b : Nat) : Outcome (Option (DSt X)) :=
  if b = 0 then .ok (some s)
  else if !s.edit then .throw
  else do
    match ← Blob.deleteBlob s.blob fuel b with
    | none => .ok none
    | some f => .ok (some { s with blob := some f })

/-- The loop over the fields (Table.cpp:1996-2007); the address taken is `get_raw`, that of
the null flag if the field has one. -/
def dropBlobs (fuel : Nat) (r : Bytes) : List SField → DSt X → Outcome (Option (DSt X))
  | [], s => .ok (some s)
  | f :: fs, s =>
    if f.isBlob then do
      let b ← blobStart r f.slot.offset
      match ← dropBlob fuel s b with
      | none => .ok none
      | some s => dropBlobs fuel r fs s
    else dropBlobs fuel r fs s

/-- `delete_record` (Table.cpp:1988-2012). `none`: the search for the end of a blob does
not end within `fuel` turns. -/
def deleteRecord (ops : IxOps X) (fields : List SField) (fuel : Nat) (s : DSt X) (n : Nat) (mem : Bytes) :
    Outcome (Option (DSt X)) := do
  let r ← readRecord s n
  let s ← dropIndexed ops s n r
  match ← dropBlobs fuel r fields s with
  | none => .ok none
  | some s => do
    let s ← deleteData s n mem
    .ok (some s)

/-- A version as it is stored. Serves the model of Table.cpp:2028-2071. -/
def verBytes (v : Nat × Nat) : Bytes := Object.le32 v.1 ++ Object.le32 v.2

/-- `get_version_rec_and_increase` (V8Object.cpp:1343-1349). -/
def nextVer (v : Nat × Nat) : Nat × Nat := (v.1, (v.2 + 1) % 2 ^ 32)

/-- The loop over the fields of a new record (Table.cpp:2028-2071). For a blob field the
pointer to the stream is read at `rec + offset`, which counts in whole objects: offsets
are positive, so the place is outside the object. -/
def newFields : List SField → Bytes → Nat × Nat → Outcome (Bytes × (Nat × Nat))
  | [], r, v => .ok (r, v)
  | f :: fs, r, v =>
    if f.isBlob then .ub
    else if f.type = .version then do
      let r ← setData r f.slot (verBytes v ++ verBytes v)
      newFields fs r (nextVer v)
    else if f.type = .version8 then do
      let r ← setData r f.slot (verBytes v)
      newFields fs r (nextVer v)
    else newFields fs r v

/-- Where a new record goes (Table.cpp:2073-2092): the head of the chain of removed records
is at byte 1 of record 0, each of them has its successor at its byte 1. -/
def newPlace (f : Bytes) (reclen : Nat) : Outcome (Bytes × Nat) :=
  if f.length = 0 then .ok (Blob.setData f 0 (recordZero reclen), 1)
  else do
    let n ← Blob.getWord f 1
    if n ≠ 0 then do
      let k ← Blob.getWord f ((n * reclen + 1) % 2 ^ 32)
      .ok (Blob.setData f 1 (Object.le32 k), n)
    else if reclen = 0 then .ub
    else .ok (f, f.length / reclen % 2 ^ 32)

/-- `insert_record` (Table.cpp:2015-2097): `r` are the bytes of the new record, `mem` is the
memory of the object made for it. `phys_numrecords` is not changed. -/
def insertRecord (ops : IxOps X) (fields : List SField) (s : DSt X) (r mem : Bytes) : Outcome (DSt X) :=
  match s.data with
  | none => .ub
  | some f => do
    let (r, v) ← newFields fields r s.ver
    let (f, n) ← newPlace f s.reclen
    let s ← writeData { s with data := some f, ver := v } n mem
    enterIndexed ops s n r

/-! ## Changed records -/

/-- A new blob for a field of a changed record (Table.cpp:2134-2141, 2150-2157): the record
holds a pointer to a stream, whose bytes are given by `streams`. -/
def storeBlob (streams : Bytes → Bytes) (s : DSt X) (rec : Bytes) (f : SField) : Outcome (DSt X × Nat × Nat) := do
  let p ← load rec f.slot.dataOff 8
  if p = List.replicate 8 0 then .ok (s, 0, 0)
  else if !s.edit then .throw
  else do
    let (b, n) ← Blob.writeBlob Blob.packStream s.blob (streams p)
    .ok ({ s with blob := b }, n, (streams p).length)

/-- The old and the new blob of a field (Table.cpp:2121-2158). For a field that can be null
the old blob is looked at only if the field is null, and then it is `{0, 0}`. -/
def swapBlob (fuel : Nat) (streams : Bytes → Bytes) (s : DSt X) (rec orec : Bytes) (f : SField) :
    Outcome (Option (DSt X × Nat × Nat)) :=
  if f.slot.nullable then do
    if ← isNull rec f.slot then .ok (some (s, 0, 0))
    else do
      let r ← storeBlob streams s rec f
      .ok (some r)
  else do
    let b ← blobStart orec f.slot.dataOff
    match ← dropBlob fuel s b with
    | none => .ok none
    | some s => do
      let r ← storeBlob streams s rec f
      .ok (some r)

/-- `orec->set_data(f, &new_blob)` and `set_null` (Table.cpp:2159-2164). -/
def putBlob (orec : Bytes) (f : SField) (start len : Nat) : Outcome Bytes := do
  let r ← setData orec f.slot (Object.le32 start ++ Object.le32 len)
  if start = 0 ∧ f.slot.nullable = true then setNull r f.slot else .ok r

/-- The loop over the fields of a changed record (Table.cpp:2110-2180). `memcpy(orec + …)`
counts in whole objects and writes outside of the object. -/
def changeFields (fuel : Nat) (streams : Bytes → Bytes) (rec : Bytes) :
    List SField → List Bool → Bytes → DSt X → Outcome (Option (Bytes × DSt X))
  | [], _, orec, s => .ok (some (orec, s))
  | _ :: _, [], _, _ => .ub
  | f :: fs, m :: ms, orec, s =>
    if m then
      if f.isBlob then do
        match ← swapBlob fuel streams s rec orec f with
        | none => .ok none
        | some (s, b, l) => do
          let orec ← putBlob orec f b l
          changeFields fuel streams rec fs ms orec s
      else .ub
    else if f.type = .version ∨ f.type = .version8 then .ub
    else changeFields fuel streams rec fs ms orec s

/-- `update_record` (Table.cpp:2100-2186). The object created with `new` is released with
`delete[]`. -/
def updateRecord (ops : IxOps X) (fields : List SField) (fuel : Nat) (streams : Bytes → Bytes) (s : DSt X) (n : Nat)
    (rec : Bytes) (marks : List Bool) (mem : Bytes) : Outcome (Option (DSt X)) := do
  let orec ← readRecord s n
  let s ← dropIndexed ops s n orec
  match ← changeFields fuel streams rec fields marks orec s with
  | none => .ok none
  | some (orec, s) => do
    let s ← enterIndexed ops s n orec
    let _ ← writeData s n mem
    .ub

/-! ## The end of a session -/

/-- The environment of `end_edit`: `mem c` is the memory of the record object made for the
entry `c` of the list. Serves the model of Table.cpp:1965-1969. -/
structure SEnv (X : Type) where
  ops : IxOps X
  fields : List SField
  fuel : Nat
  streams : Bytes → Bytes
  mem : ChRec → Bytes

/-- The first loop (Table.cpp:1965-1969). -/
def endDeleted (e : SEnv X) : List ChRec → DSt X → Outcome (Option (DSt X))
  | [], s => .ok (some s)
  | c :: cs, s =>
    if c.kind = .deleted then do
      match ← deleteRecord e.ops e.fields e.fuel s c.num (e.mem c) with
      | none => .ok none
      | some s => endDeleted e cs s
    else endDeleted e cs s

/-- The second loop (Table.cpp:1972-1976). -/
def endChanged (e : SEnv X) : List ChRec → DSt X → Outcome (Option (DSt X))
  | [], s => .ok (some s)
  | c :: cs, s =>
    if c.kind = .changed then
      match c.bufs with
      | .live marks rec => do
        match ← updateRecord e.ops e.fields e.fuel e.streams s c.num rec marks (e.mem c) with
        | none => .ok none
        | some s => endChanged e cs s
      | _ => .ub
    else endChanged e cs s

/-- The third loop (Table.cpp:1979-1983). -/
def endInserted (e : SEnv X) : List ChRec → DSt X → Outcome (DSt X)
  | [], s => .ok s
  | c :: cs, s =>
    if c.kind = .inserted then
      match c.bufs with
      | .live _ rec => do
        let s ← insertRecord e.ops e.fields s rec (e.mem c)
        endInserted e cs s
      | _ => .ub
    else endInserted e cs s

/-- `end_edit` (Table.cpp:1960-1987): the files, and the state of the session after
`cancel_edit`. -/
def endEdit (e : SEnv X) (t : ESt) (s : DSt X) : Outcome (Option (DSt X × ESt)) := do
  match ← endDeleted e t.chs s with
  | none => .ok none
  | some s => do
    match ← endChanged e t.chs s with
    | none => .ok none
    | some s => do
      let s ← endInserted e t.chs s
      let t ← cancelEdit t
      .ok (some ({ s with edit := false }, t))

end Verif.Record
