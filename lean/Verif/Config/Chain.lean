import Verif.Config.Stored
import Verif.Config.Save
import Verif.Config.Whole
import Verif.Blob.Model

/-!
# The configuration of a database, from its table to a container file

`ConfigStorageTableConfig` (src/tool1cd/ConfigStorage.cpp:577-683) over the files of the table (`openStore`) and
`save_config` (516-554) over what it found. The names in the table are bytes.
Simplifications: bytes of a name that are not UTF-8 are refused (the code fails when it compares them); a blob that is not
read to its end counts as an exception without anything written; unpacking and parsing are parameters.
-/

namespace Verif.Config
open Verif

/-- `LowerCase` (String.cpp:117-133) of a `std::string`. -/
def lowerStr (s : Str) : Str :=
  match Unicode.lowerCase (Field.toBytes s) with
  | .ok b => Field.ofBytes b
  | _ => s

/-- Insertion into a list in the order of keys. Serves the model of ConfigStorage.cpp:577-683. -/
def insKey {α : Type} (p : Str × α) : List (Str × α) → List (Str × α)
  | [] => [p]
  | q :: l => if Field.toBytes p.1 ≤ Field.toBytes q.1 then p :: q :: l else q :: insKey p l

/-- The order in which a `std::map` keyed by `std::string` is walked. Serves the model of ConfigStorage.cpp:577-683. -/
def byKey {α : Type} (l : List (Str × α)) : List (Str × α) := l.foldr insKey []

/-- What the code is surrounded by: the switch, the C library's time, zlib, the parser (C41, C42), the conversion of times
for containers (C13) and the clock. Serves the model of ConfigStorage.cpp:600-606. -/
structure Around where
  sh : Field.Show
  clock : List Int → Nat
  inflate : Bytes → Bytes × Bool
  parse : Bytes → Outcome Tree.Node
  stamp : Time.FileTime → Int
  now : Nat

/-- `Table::readBlob` (Table.cpp:729-798) on the blobs of the table. -/
def blobIo (blob : Option Bytes) (fuel : Nat) (inflate : Bytes → Bytes × Bool) : Io :=
  ⟨fun s l => match Blob.readBlobTable blob fuel s l with
    | .ok (some d) => (d, true)
    | _ => ([], false), inflate⟩

/-- What `stream` points to. Serves the model of ConfigStorage.cpp:600-606. -/
def streamData (h : Handle) : Outcome Bytes :=
  match h.stream with
  | none => .ub
  | some p => h.data p

/-- Opening a file and parsing it (ConfigStorage.cpp:600-606). -/
def treeOf (a : Around) (io : Io) (f : TFile) : Outcome Tree.Node := do
  let x ← Handle.init.open lowerStr io f.name f.addr
  if x.2 then do
    let d ← streamData x.1
    a.parse d
  else .throw

/-- `ConfigStorageTableConfig` (ConfigStorage.cpp:577-683), of a table that is ready. -/
def openConfig (a : Around) (io : Io) (store : List (Str × TFile)) : Outcome (List (Str × Chosen TFile)) := do
  let dynup ← guidsOf lowerStr (treeOf a io) store "DynamicallyUpdated".toList
  configFiles lowerStr dynup (((byKey store).filter (taken lowerStr "DynamicallyUpdated".toList)).map (fun p => (p.2.name, p.2))) []

/-- The text of a name. Serves the model of Class_1CD.cpp:2263-2272. -/
def nameText (s : Str) : Outcome Str := do
  let cps ← Unicode.decodeAll (Field.toBytes s).length (Field.toBytes s)
  .ok (cps.map Char.ofNat)

/-- The files of the configuration as `save_config` walks them. Built on Class_1CD.cpp:2263-2272. -/
def itemsOf : List (Str × Chosen TFile) → Outcome (List Item)
  | [] => .ok []
  | p :: l => do
    let n ← nameText p.2.name
    let r ← itemsOf l
    .ok (⟨n, p.2.file.addr, .ofInt p.2.file.created, .ofInt p.2.file.modified, Handle.init⟩ :: r)

/-- `LowerCase` of a text. Serves the model of ConfigStorage.cpp:880-884, 1036-1040. -/
def lowerText (s : Str) : Str := s.map (fun c => Char.ofNat (Unicode.toLower c.toNat))

/-- The result of the export and the file of the given name after it. The table is its columns, its records and its blobs; `none`
if there is none. Built on ConfigStorage.cpp:880-884, 1036-1040. -/
def exportConfig (a : Around) (fuel : Nat) (tab : Option (List Col × Record.Tab × Option Bytes)) (old : Option Bytes) :
    Outcome (Option (Bool × Option Bytes)) :=
  match tab with
  | none => .ok (some (false, old))
  | some (cols, t, blob) => do
    let o ← openStore ⟨a.sh, lowerStr, a.clock⟩ (some (cols, t))
    let m ← openConfig a (blobIo blob fuel a.inflate) o.2
    let its ← itemsOf (byKey m)
    let r ← saveConfig ⟨lowerText, blobIo blob fuel a.inflate, a.stamp, a.now⟩ fuel o.1 old its
    .ok (r.map (fun x => (x.1, x.2.1)))

end Verif.Config
