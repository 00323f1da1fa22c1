import Verif.Config.Handle
import Verif.Container.Open
import Verif.Tree.Model
import Verif.Cli.Model

/-!
# Vendor configurations (src/tool1cd/SupplierConfigBuilder.cpp, SupplierConfig.cpp, Class_1CD.cpp, ctool1cd/App.cpp)

Reading and inflating a file of the table is the model of property C80, the container that of property C66, the bracket
texts those of property C41. `std::string` is a list of bytes; a text is parsed byte by byte, so a byte is shown to the
parser as the character of that number. `cd` is what a zipped container does with contents. `Outcome (Option _)`: `none`
is a loop that does not end.
-/

namespace Verif.Vendor
open Verif Verif.Config Verif.Container Verif.Tree

/-- The bytes of a `std::string` as the characters the parser sees. Serves the model of V8File.cpp:683-701. -/
def chars (b : Bytes) : Str := b.map fun x => Char.ofNat x.toNat

/-- The characters of the parser as bytes. Serves the model of SupplierConfigBuilder.cpp:170-194. -/
def bytes (s : Str) : Bytes := s.map fun c => UInt8.ofNat c.toNat

/-- `TEncoding::GetBufferEncoding` and `toUtf8` (System.SysUtils.cpp:44-53, 78-85, 127-143) as `V8File::get_tree` uses them
(V8File.cpp:689-696): the text behind the preamble. -/
def bufferText (b : Bytes) : Outcome Bytes :=
  if b.take 3 = [0xEF, 0xBB, 0xBF] then .ok (b.drop 3)
  else if b.take 2 = [0xFF, 0xFE] then Unicode.toUtf8 b 2
  else .throw

/-- `V8File::get_tree` (V8File.cpp:683-701) for contents `b`. The tree is never null. -/
def getTree (b : Bytes) : Outcome Node := do
  let t ← bufferText b
  parseText (chars t)

/-- `Tree::operator[]` (Parse_tree.cpp:178-189): behind the last child, or before the first, the result is a null reference or
the counter overflows. -/
def nth (n : Node) (i : Nat) : Outcome Node :=
  match n.kids[i]? with
  | some k => .ok k
  | none => .ub

/-- The value at the end of a path of indices. Serves the model of SupplierConfigBuilder.cpp:170-194. -/
def pathValue : Node → List Nat → Outcome Bytes
  | n, [] => .ok (bytes n.value)
  | n, i :: is => do
    let k ← nth n i
    pathValue k is

/-- `V8Catalog::get_file` (V8Catalog.cpp:402-411) and the contents of what it gives. A stream that is no container has no
files; if the directory could not be read, the map still has the files read before. -/
def lookupIn (cd : Codec) (fuel : Nat) (o : Opening) (name : Bytes) : Outcome (Option (Option Bytes)) :=
  match o with
  | .container k => content cd fuel k name
  | .other => do
    let _ ← Unicode.lowerCase name
    .ok (some none)
  | .broken stale => do
    let key ← Unicode.lowerCase name
    match Entry.find stale key with
    | none => .ok (some none)
    | some _ => .ub

/-- `SupplierConfigBuilder::get_version` (SupplierConfigBuilder.cpp:170-194). -/
def getVersion (cd : Codec) (fuel : Nat) (o : Opening) : Outcome (Option Int) := do
  match ← lookupIn cd fuel o (Cli.asc "version") with
  | none => .ok none
  | some none => .throw
  | some (some b) => do
    let t ← getTree b
    let v ← pathValue t [0, 0, 0]
    let n ← Cli.stoi v
    .ok (some n)

/-- The file of format 8.0, in the container inside the entry `metadata` (SupplierConfigBuilder.cpp:200-214), which is
not zipped (V8Catalog.cpp:275-301). -/
def getNested (fuel : Nat) (md : Option Bytes) (name : Bytes) : Outcome (Option (Option Bytes)) :=
  match md with
  | none => .throw
  | some b => do
    if ← isCatalog b then do
      match ← initCatalog fuel b with
      | none => .ok none
      | some o => lookupIn plainCodec fuel o name
    else .throw

/-- `SupplierConfigBuilder::get_file` (SupplierConfigBuilder.cpp:196-220), with the contents of what it gives. -/
def getFileIn (cd : Codec) (fuel : Nat) (o : Opening) (name : Bytes) : Outcome (Option (Option Bytes)) := do
  match ← getVersion cd fuel o with
  | none => .ok none
  | some v =>
    if v < 100 then do
      match ← lookupIn cd fuel o (Cli.asc "metadata") with
      | none => .ok none
      | some md => getNested fuel md name
    else lookupIn cd fuel o name

/-- `name()`, `supplier()`, `version()` of a `SupplierConfig`. Serves the model of SupplierConfigBuilder.cpp:111-140. -/
structure Info where
  name : Bytes
  supplier : Bytes
  version : Bytes
  deriving DecidableEq, Repr

/-- `NODE_GENERAL` (SupplierConfigBuilder.cpp:34-36). -/
def nodeGeneral : Bytes := Cli.asc "9cd510cd-abfc-11d4-9434-004095e12fc7"

/-- The properties of the configuration (SupplierConfigBuilder.cpp:111-140); only version 15 of them differs. -/
def confInfo (node : Node) : Outcome Info := do
  let a ← nth node 1
  let c ← nth a 1
  let v ← pathValue c [0]
  let ver ← Cli.stoi v
  let name ← pathValue c [1, 1, 2]
  let supplier ← pathValue c [if ver = 15 then 11 else 14]
  let version ← pathValue c [if ver = 15 then 12 else 15]
  .ok ⟨name, supplier, version⟩

/-- The loop over the nodes (SupplierConfigBuilder.cpp:107-143), with `k` turns left at node `3 + i`; without a general node all
three stay empty (145-153). The addition `3 + i` is not taken modulo 2^32. -/
def findGeneral (m : Node) : Nat → Nat → Outcome Info
  | 0, _ => .ok ⟨[], [], []⟩
  | k + 1, i => do
    let node ← nth m (3 + i)
    let ty ← pathValue node [0]
    if ← Unicode.equalIC ty nodeGeneral then confInfo node else findGeneral m k (i + 1)

/-- The rest of `build` (SupplierConfigBuilder.cpp:99-168), from the contents of the metadata file on. -/
def buildMeta (b : Bytes) : Outcome Info := do
  let mt ← getTree b
  let m ← nth mt 0
  let num ← pathValue m [2]
  let n ← Cli.stoi num
  findGeneral m n.toNat 0

/-- `build` (SupplierConfigBuilder.cpp:63-168). -/
def build (cd : Codec) (fuel : Nat) (o : Opening) : Outcome (Option Info) := do
  match ← getFileIn cd fuel o (Cli.asc "root") with
  | none => .ok none
  | some none => .throw
  | some (some rb) => do
    let rt ← getTree rb
    let file ← pathValue rt [0, 1]
    match ← getFileIn cd fuel o file with
    | none => .ok none
    | some none => .throw
    | some (some mb) => do
      let i ← buildMeta mb
      .ok (some i)

/-- A `TableFile` of a configuration: its key in the map of files, its name, its parts. Serves the model of SupplierConfigBuilder.cpp:41-56. -/
structure VFile where
  key : Bytes
  name : Str
  parts : List (Nat × Nat)
  deriving DecidableEq

/-- `LowerCase`, reading and inflating, and the zipped containers. Serves the model of SupplierConfigBuilder.cpp:41-56. -/
structure World where
  lower : Str → Str
  io : Io
  cd : Codec

/-- What `stream` of an opened file holds, read from its beginning. Serves the model of SupplierConfigBuilder.cpp:41-56. -/
def streamData (h : Handle) : Outcome Bytes :=
  match h.stream with
  | none => .ub
  | some p => h.data p

/-- The contents of the file, inflated once more (SupplierConfigBuilder.cpp:41-56; SupplierConfig.cpp:45-67): what is written, and
whether inflating came to its end. -/
def unpacked (w : World) (f : VFile) : Outcome (Bytes × Bool) := do
  let x ← Handle.init.open w.lower w.io f.name f.parts
  if x.2 then do
    let d ← streamData x.1
    .ok (w.io.inflate d)
  else .throw

/-- `SupplierConfig::create_supplier_config` (SupplierConfig.cpp:85-89; SupplierConfigBuilder.cpp:38-61). -/
def create (w : World) (fuel : Nat) (f : VFile) : Outcome (Option Info) := do
  let r ← unpacked w f
  if r.2 then do
    match ← openCatalog fuel r.1 with
    | none => .ok none
    | some o => build w.cd fuel o
  else .throw

/-- `_supplier_configs` and `supplier_configs_defined`. Serves the model of Class_1CD.cpp:2339-2345, 520-538. -/
structure Found where
  configs : List (VFile × Info)
  defined : Bool
  deriving DecidableEq

/-- The two loops of `T_1CD::find_supplier_configs` (Class_1CD.cpp:520-546) over `CONFIGSAVE` and then `CONFIG`: the list so
far and whether the end was reached (`false`: an exception). -/
def findLoop (w : World) (fuel : Nat) : List VFile → List (VFile × Info) → Outcome (Option (List (VFile × Info) × Bool))
  | [], acc => .ok (some (acc, true))
  | f :: fs, acc =>
    if f.key.length = 73 then
      match create w fuel f with
      | .ub => .ub
      | .throw => .ok (some (acc, false))
      | .ok none => .ok none
      | .ok (some i) => findLoop w fuel fs (acc ++ [(f, i)])
    else findLoop w fuel fs acc

/-- `T_1CD::supplier_configs` (Class_1CD.cpp:2339-2345, 520-538): the state it leaves and whether it returns it. -/
def supplierConfigs (w : World) (fuel : Nat) (save main : List VFile) (st : Found) : Outcome (Option (Found × Bool)) :=
  if st.defined then .ok (some (st, true))
  else do
    match ← findLoop w fuel (save ++ main) st.configs with
    | none => .ok none
    | some (l, ok) => .ok (some (⟨l, ok⟩, ok))

/-- The files of a directory. Serves the model of SupplierConfig.cpp:38-70. -/
abbrev Disk := Bytes → Option Bytes

/-- The name of the file (App.cpp:362). -/
def fileName (i : Info) : Bytes := i.name ++ Cli.asc " " ++ i.version ++ Cli.asc ".cf"

/-- `SupplierConfig::save_to_file` (SupplierConfig.cpp:38-70). `TFileStream` does not tell whether the file could be created
(TFileStream.cpp:41-51), and writing to one that could not be is not noticed (TStream.cpp:209-225); then nothing is
written. `creatable` says which files can be created. -/
def saveToFile (w : World) (creatable : Bytes → Bool) (f : VFile) (path : Bytes) (d : Disk) : Outcome (Disk × Bool) := do
  let r ← unpacked w f
  .ok (if creatable path then fun p => if p = path then some r.1 else d p else d, r.2)

/-- `App::save_vendors_configs` (App.cpp:355-372): the directory and what is reported. -/
def saveAll (w : World) (creatable : Bytes → Bool) : List (VFile × Info) → Disk → Outcome (Disk × List Bool)
  | [], d => .ok (d, [])
  | (f, i) :: l, d => do
    let x ← saveToFile w creatable f (fileName i) d
    let y ← saveAll w creatable l x.1
    .ok (y.1, x.2 :: y.2)

end Verif.Vendor
