import Verif.Container.Open
import Verif.Cli.Model
import Verif.Vendor.Model
import Verif.Unicode.Spec

/-!
# Testing the stored streams (src/tool1cd/Class_1CD.cpp:609-1190, `T_1CD::test_stream_format`)

Streams of at most 10 MiB are tested in memory; only those are modelled (for others temporary files are used). The memory streams are their bytes
(property C14), the container is that of property C66, the bracket text that of property C41, the records and blobs those of properties C28 and C32.
`Outcome (Option _)`: `ok none` is a loop that does not end.
-/

namespace Verif.Format
open Verif Verif.Container

/-- `ZInflateStream(_s2, _s)` (UZLib.cpp:101-153, property C15) from one memory stream to another: the contents of the latter, or an
exception. -/
abbrev Unzip := Bytes → Outcome Bytes

/-- `SIG_MOXCEL`, `SIG_SKD` (Constants.h:31-32). -/
def SIG_MOXCEL : Bytes := [0x4D, 0x4F, 0x58, 0x43, 0x45, 0x4C, 0]
/-- Serves the model of Class_1CD.cpp:1085-1105. -/
def SIG_SKD : Bytes := [0, 0, 0, 0, 1, 0, 0, 0]

/-- A `try` block with its `catch (...)` (Class_1CD.cpp:1031-1041, 1047-1057): the bytes, and whether they could be inflated. -/
def tryUnzip (z : Unzip) (b : Bytes) : Outcome (Bytes × Bool) :=
  match z b with
  | .ok x => .ok (x, true)
  | .throw => .ok (b, false)
  | .ub => .ub

/-- Inflating once, or twice (Class_1CD.cpp:1030-1058): the bytes `_s` and `zipped2`. -/
def unpack (z : Unzip) (twice : Bool) (b : Bytes) : Outcome (Bytes × Bool) := do
  let (x, zipped1) ← tryUnzip z b
  if zipped1 && twice then tryUnzip z x else .ok (x, false)

/-- `_s->Seek(n, soFromBeginning); _s2->CopyFrom(_s, _s->GetSize() - n)` (Class_1CD.cpp:1091-1095, 1099-1103): seeking beyond the end
throws, and a count of 0 copies everything (TStream.cpp:60-69, 102-111). -/
def skip (n : Nat) (b : Bytes) : Outcome Bytes :=
  if n > b.length then .throw else if b.length - n = 0 then .ok b else .ok (b.drop n)

/-- The header is left out (Class_1CD.cpp:1085-1105). -/
def skipHeader (b : Bytes) : Outcome Bytes :=
  if b.length ≥ 16 then
    if (b.take 8).take 7 = SIG_MOXCEL then skip 13 b
    else if b.take 8 = SIG_SKD then skip 24 b
    else .ok b
  else .ok b

/-- `{ХАРАКТЕРИСТИКИ` in the source file, which is UTF-8 (Class_1CD.cpp:1132). -/
def EXCLUDED : Bytes := Unicode.Spec.utf8Text ("{ХАРАКТЕРИСТИКИ".toList.map Char.toNat)

/-- The loop that looks for a character that is not blank (Class_1CD.cpp:1121-1131): `i` and `first_symbol`. -/
def firstSymbol : Nat → UInt8 → Bytes → Nat × UInt8
  | i, c, [] => (i, c)
  | i, _, c :: s => if c ≠ 13 && c ≠ 10 && c ≠ 9 && c ≠ 32 then (i, c) else firstSymbol (i + 1) c s

/-- A text `sf` (Class_1CD.cpp:1120-1141). `parse_1Ctext` throws, or returns a tree. -/
def testString (sf : Bytes) : Outcome Bool :=
  let (i, c) := firstSymbol 0 0 sf
  if c = 0x7B then do
    if ← Unicode.equalIC ((sf.drop i).take 15) EXCLUDED then .ok true
    else do
      let _ ← Tree.parseText (Vendor.chars sf)
      .ok true
  else .ok true

/-- A stream that is not a container with entries (Class_1CD.cpp:1084-1145). -/
def testText (x : Bytes) : Outcome Bool := do
  let x ← skipHeader x
  if x.take 3 = [0xEF, 0xBB, 0xBF] then
    if x.length - 3 > 0 then testString (x.drop 3) else .ok true
  else if x.take 2 = [0xFF, 0xFE] then
    if x.length - 2 > 0 then do
      let s ← Unicode.toUtf8 x 2
      testString s
    else .ok true
  else .throw

/-- `"PARAMS/users.usr"` (Class_1CD.cpp:1017). -/
def USERS : Bytes := Cli.asc "PARAMS/users.usr"

/-- `fname != "module" && fname != "text"` (Class_1CD.cpp:1179). -/
def tested (name : Bytes) : Bool := name ≠ Cli.asc "module" && name ≠ Cli.asc "text"

/-- The loop over the entries of a container (Class_1CD.cpp:1158-1188), with the value of `result` so far and whether a stream was opened on an
entry: `v8f->get_stream()` makes a stream that is never deleted, so it stays in the set of streams of the entry (property C93).
`leaf` tests a stream, `inner` a container, with the same result. Reading the entry and finding out if it is a container is `V8File::get_catalog`
(V8File.cpp:387-405); an inner container whose directory cannot be read has no entries. `v8fp->close()` deletes the inner container and with it its
entries, which is undefined if a stream is open on one of them (V8File.cpp:584-594). Nothing was modified, so nothing is written. -/
def testEntries (leaf : Bytes → Bytes → Outcome (Option Bool)) (inner : Catalog → Bytes → Outcome (Option (Bool × Bool))) (cd : Codec) (fuel : Nat)
    (c : Cat) (path : Bytes) : List File → Bool × Bool → Outcome (Option (Bool × Bool))
  | [], r => .ok (some r)
  | e :: es, r => do
    match ← openFile cd fuel c e with
    | none => .ok none
    | some f => do
      let b := f.content.getD []
      let here := path ++ Cli.asc "/" ++ e.name
      if ← isCatalog b then do
        match ← initCatalog fuel b with
        | none => .ok none
        | some (.container k) => do
          match ← inner k here with
          | none => .ok none
          | some (_, true) => .ub
          | some (res, false) => testEntries leaf inner cd fuel c path es (res, r.2)
        | some _ => testEntries leaf inner cd fuel c path es (true, r.2)
      else if tested e.name then do
        match ← leaf here b with
        | none => .ok none
        | some res => testEntries leaf inner cd fuel c path es (res, true)
      else testEntries leaf inner cd fuel c path es r

/-- What a container in a value does with the contents of its entries: `zipped2` (Class_1CD.cpp:1064). -/
def codec (z : Unzip) (zipped : Bool) : Codec := if zipped then ⟨.ok, z⟩ else plainCodec

mutual
/-- `recursive_test_stream_format(TStream*, const string&, bool)` (Class_1CD.cpp:997-1155); the first number bounds the depth of the
recursion. `delete cat` (1150) is undefined if a stream is open on an entry. -/
def testStream (z : Unzip) (fuel : Nat) : Nat → Bool → Bytes → Bytes → Outcome (Option Bool)
  | 0, _, _, _ => .ok none
  | d + 1, twice, path, b =>
    if path = USERS then .ok (some true)
    else if b.length = 0 then .ok (some true)
    else do
      let (x, zipped) ← unpack z twice b
      match ← openCatalog fuel x with
      | none => .ok none
      | some (.container k) =>
        if k.ents = [] then do
          let r ← testText k.cat.data.data
          .ok (some r)
        else do
          match ← testCat z fuel d (codec z zipped) k path with
          | none => .ok none
          | some (_, true) => .ub
          | some (r, false) => .ok (some r)
      | some _ => do
        let r ← testText x
        .ok (some r)
/-- `recursive_test_stream_format(V8Catalog*, const string&)` (Class_1CD.cpp:1158-1188): the result, and whether a stream stays open. -/
def testCat (z : Unzip) (fuel : Nat) : Nat → Codec → Catalog → Bytes → Outcome (Option (Bool × Bool))
  | 0, _, _, _ => .ok none
  | d + 1, cd, k, path =>
    testEntries (testStream z fuel d false) (testCat z fuel d plainCodec) cd fuel k.cat path k.ents (true, false)
end

/-! ## The tables -/

/-- A record: `is_removed()`, `get_string` of the fields 0 and 4, and what `readBlob` gives for field 5 (field 0 in `DBSCHEMA`). Serves the model of Class_1CD.cpp:922-971. -/
structure Rec where
  removed : Bool
  name : Bytes
  size : Bytes
  data : Outcome Bytes

/-- A table: its name, the names of its fields, and its records, also the removed ones. Serves the model of Class_1CD.cpp:616-678, 680-740, 742-802, 804-868. -/
structure Tab where
  name : Bytes
  fields : List Bytes
  recs : List Rec

/-- The tables (Class_1CD.h); a pointer may be null. -/
structure Db where
  config : Option Tab
  configsave : Option Tab
  params : Option Tab
  files : Option Tab
  dbschema : Option Tab

/-- `if (CompareIC(get_field(i)->get_name(), …)) throw`, one field after the other. Serves the model of Class_1CD.cpp:616-678, 680-740, 742-802, 804-868. -/
def checkNames : List Bytes → List String → Outcome Unit
  | _, [] => .ok ()
  | [], _ :: _ => .ub
  | f :: fs, w :: ws => do
    if ← Unicode.equalIC f (Cli.asc w) then checkNames fs ws else .throw

/-- The fields of `CONFIG`, `CONFIGSAVE`, `PARAMS` and `FILES` (Class_1CD.cpp:616-678, 680-740, 742-802, 804-868). -/
def checkFields : Option Tab → Outcome Tab
  | none => .throw
  | some t =>
    if t.fields.length < 6 then .throw
    else if t.fields.length > 7 then .throw
    else do
      checkNames t.fields ["FILENAME", "CREATION", "MODIFIED", "ATTRIBUTES", "DATASIZE", "BINARYDATA"]
      if t.fields.length > 6 then checkNames (t.fields.drop 6) ["PARTNO"]
      .ok t

/-- The field of `DBSCHEMA` (Class_1CD.cpp:870-886). -/
def checkSchema : Option Tab → Outcome Tab
  | none => .throw
  | some t => if t.fields.length ≠ 1 then .throw else do checkNames t.fields ["SERIALIZEDDATA"]; .ok t

/-- `recursive_test_stream_format(Table*, uint32_t)` (Class_1CD.cpp:922-971); `GUID_LEN` is 36. -/
def testRec (z : Unzip) (fuel depth : Nat) (table : Bytes) (r : Rec) : Outcome (Option Bool) :=
  if r.removed then .ok (some true)
  else do
    let b ← r.data
    let n ← Cli.stoi r.size
    if n ≠ (b.length : Int) then .throw
    else testStream z fuel depth (decide (r.name.length > 36 * 2)) (table ++ Cli.asc "/" ++ r.name) b

/-- `recursive_test_stream_format2` (Class_1CD.cpp:974-1000). -/
def testRec2 (z : Unzip) (fuel depth : Nat) (table : Bytes) (r : Rec) : Outcome (Option Bool) :=
  if r.removed then .ok (some true)
  else do
    let b ← r.data
    testStream z fuel depth false table b

/-- A loop over the records of a table (Class_1CD.cpp:891-913): `result = result && res`. -/
def testAll (f : Rec → Outcome (Option Bool)) : List Rec → Bool → Outcome (Option Bool)
  | [], result => .ok (some result)
  | r :: rs, result => do
    match ← f r with
    | none => .ok none
    | some res => testAll f rs (result && res)

/-- One table after another. Serves the model of Class_1CD.cpp:609-919. -/
def testNext (f : Rec → Outcome (Option Bool)) (rs : List Rec) (o : Outcome (Option Bool)) : Outcome (Option Bool) := do
  match ← o with
  | none => .ok none
  | some result => testAll f rs result

/-- `T_1CD::test_stream_format` (Class_1CD.cpp:609-919). -/
def testDb (z : Unzip) (fuel depth : Nat) (db : Db) : Outcome (Option Bool) := do
  let config ← checkFields db.config
  let configsave ← checkFields db.configsave
  let params ← checkFields db.params
  let _ ← checkFields db.files
  let dbschema ← checkSchema db.dbschema
  match ← testNext (testRec z fuel depth params.name) params.recs
      (testNext (testRec z fuel depth configsave.name) configsave.recs
        (testAll (testRec z fuel depth config.name) config.recs true)) with
  | none => .ok none
  | some result =>
    if dbschema.recs.length < 2 then .throw
    else testAll (testRec2 z fuel depth dbschema.name) dbschema.recs result

end Verif.Format
