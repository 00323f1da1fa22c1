import Verif.Config.Map

/-!
# Files stored in a table (src/tool1cd/TableFiles.cpp, ConfigStorage.cpp)

`lower` is `LowerCase` (property C11). Times are opaque numbers (property C13).
-/

namespace Verif.Config
open Verif

/-- A record of a table of files: FILENAME, CREATION, MODIFIED, BINARYDATA, PARTNO (0 without such a
field). Serves the model of TableFiles.cpp:88-103. -/
structure Row where
  removed : Bool
  start : Nat
  length : Nat
  name : Str
  part : Int
  created : Nat
  modified : Nat
  deriving DecidableEq

/-- The records taken into `allrec` (TableFiles.cpp:88-103). -/
def live (r : Row) : Bool := !r.removed && !(r.start == 0 || r.length == 0) && !r.name.isEmpty

/-- `TableFile` (TableFiles.h). -/
structure TFile where
  name : Str
  addr : List (Nat × Nat)
  created : Nat
  modified : Nat
  deriving DecidableEq

/-- The map of greatest part numbers (TableFiles.cpp:114-117). -/
def maxParts (lower : Str → Str) : List Row → List (Str × Int) → List (Str × Int)
  | [], m => m
  | r :: rs, m =>
    maxParts lower rs (upd m (lower r.name) (fun
      | none => r.part
      | some p => if p < r.part then r.part else p))

/-- `TableFile::TableFile` (TableFiles.cpp:37-52): one part more than the greatest number. -/
def newFile (key : Str) (maxpart : Int) : TFile := ⟨key, List.replicate (maxpart.toNat + 1) (0, 0), 0, 0⟩

/-- The last loop (TableFiles.cpp:125-136) for one record. The file is always there; `none` is the
dereferenced `end()`, which does not happen. -/
def place (r : Row) : Option TFile → TFile
  | none => newFile [] 0
  | some f =>
    let f := { f with addr := f.addr.set r.part.toNat (r.start, r.length) }
    if r.part = 0 then { f with created := r.created, modified := r.modified, name := r.name } else f

/-- Serves the model of TableFiles.cpp:65-138. -/
def placeAll (lower : Str → Str) : List Row → List (Str × TFile) → List (Str × TFile)
  | [], m => m
  | r :: rs, m => placeAll lower rs (upd m (lower r.name) (place r))

/-- `TableFiles::TableFiles` (TableFiles.cpp:65-138). A negative part number writes before the array
(after trying to allocate it); this is taken as undefined at once. -/
def tableFiles (lower : Str → Str) (rows : List Row) : Outcome (List (Str × TFile)) :=
  let recs := rows.filter live
  if recs.any (fun r => r.part < 0) then .ub
  else .ok (placeAll lower recs ((maxParts lower recs []).map (fun p => (p.1, newFile p.1 p.2))))

/-- `TableFiles::get_file` (TableFiles.cpp:218-228). -/
def getFile (lower : Str → Str) (files : List (Str × TFile)) (name : Str) : Option TFile := find files (lower name)

/-- The loop over the parts in `ContainerFile::open` and `ropen` (ConfigStorage.cpp:276-278, 321). -/
def readParts (readBlob : Nat → Nat → Outcome Bytes) : List (Nat × Nat) → Bytes → Outcome Bytes
  | [], acc => .ok acc
  | (s, l) :: ps, acc => do
    let d ← readBlob s l
    readParts readBlob ps (acc ++ d)

end Verif.Config
