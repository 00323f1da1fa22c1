import Verif.Hex.Model

/-!
# Packed and loose objects of a depot (src/tool1cd/Packdata.cpp, PackDirectory.cpp)

Files are their contents. The order of the packs is that of the directory iterator, which is
not specified; it is the order of a list here.
-/

namespace Verif.Depot
open Verif Verif.Hex

/-- Bytes as a number, least significant first. Serves the model of Packdata.h:37-41. -/
def leNat : Bytes → Nat
  | [] => 0
  | b :: bs => b.toNat + 256 * leNat bs

/-- A 64-bit pattern as `int64_t`. Serves the model of Packdata.h:37-41. -/
def int64 (n : Nat) : Int := if n < 2 ^ 63 then n else (n : Int) - 2 ^ 64

/-- A fixed-size variable, zero beforehand, filled by a read that may end early. Serves the model of Packdata.cpp:31-44. -/
def padTo (n : Nat) (b : Bytes) : Bytes := b ++ List.replicate (n - b.length) 0

/-- `record_data_hash` (Packdata.h:37-41) in the vector: 20 bytes of hash and an offset. -/
def packEntries : Nat → Bytes → List (Bytes × Int)
  | 0, _ => []
  | n + 1, b => (b.take 20, int64 (leNat ((b.drop 20).take 8))) :: packEntries n (b.drop 28)

/-- The index file (Packdata.cpp:31-44): seeking to 8 throws in a shorter file; a file without a whole
count leaves `count` indeterminate; a short table leaves the rest of the vector zero. -/
def readPackIndex (ind : Bytes) : Outcome (List (Bytes × Int)) :=
  if ind.length < 8 then .throw
  else if ind.length < 12 then .ub
  else
    let count := leNat ((ind.drop 8).take 4)
    .ok (packEntries count (padTo (count * 28) ((ind.drop 12).take (count * 28))))

/-- `buffer->CopyFrom(pack.get(), packlen)` into a new stream (TStream.cpp:91-113, 124-134), the pack
being at position `pos`: a length of 0 copies the whole file, a negative one is replaced by the file's size,
and a read that meets the end at once makes zeros. -/
def copyOut (pack : Bytes) (pos : Nat) (len : Int) : Bytes :=
  if len = 0 then pack
  else
    let n := if len < 0 then pack.length else len.toNat
    let got := (pack.drop pos).take n
    if got.isEmpty then List.replicate n 0 else got

/-- The data of one record of the index (Packdata.cpp:63-68). At a negative offset nothing is read. -/
def packData (pack : Bytes) (off : Int) : Outcome Bytes :=
  if off > pack.length then .throw
  else
    let head := if off < 0 then [] else (pack.drop off.toNat).take 8
    .ok (copyOut pack (off.toNat + head.length) (int64 (leNat (padTo 8 head))))

/-- A pack: its index and the open file *.pck. Serves the model of Packdata.cpp:29-55. -/
structure Pack where
  index : List (Bytes × Int)
  file : Bytes

/-- `Packdata::Packdata` (Packdata.cpp:29-55). -/
def openPack (ind pck : Bytes) : Outcome Pack := do
  let index ← readPackIndex ind
  .ok ⟨index, pck⟩

/-- The loop of `Packdata::get_data` (Packdata.cpp:57-73): it does not stop at a match. -/
def packLoop (file hash : Bytes) : List (Bytes × Int) → Option Bytes → Outcome (Option Bytes)
  | [], acc => .ok acc
  | (h, off) :: rs, acc =>
    if hash = h then do
      let d ← packData file off
      packLoop file hash rs (some d)
    else packLoop file hash rs acc

/-- `binary_datahash` (PackDirectory.cpp:66-72): 20 pairs of digits. Reading at the end of the string
gives the terminating zero, past it is undefined. -/
def binaryHash (s : Str) : Outcome Bytes :=
  if s.length < 39 then .ub
  else .ok ((List.range 20).map (fun i =>
    (fromHexDigit (s.getD (i * 2) '\x00') <<< (4 : UInt8)) ||| fromHexDigit (s.getD (i * 2 + 1) '\x00')))

/-- The loop over the packs (PackDirectory.cpp:81-86). -/
def searchPacks (hash : Bytes) : List Pack → Outcome (Option Bytes)
  | [] => .ok none
  | p :: ps => do
    match ← packLoop p.file hash p.index none with
    | some d => .ok (some d)
    | none => searchPacks hash ps

/-- `object_path` (PackDirectory.cpp:29-33): directory and file below data/objects. -/
def objectPath (hash : Str) : Str × Str := (hash.take 2, hash.drop 2)

/-- `PackDirectory::get_data` (PackDirectory.cpp:74-103). `files` are the readable files below
data/objects. -/
def getData (packs : List Pack) (files : Str × Str → Option Bytes) (hash : Str) : Outcome (Option Bytes) := do
  let b ← binaryHash hash
  match ← searchPacks b packs with
  | some d => .ok (some d)
  | none => .ok (files (objectPath hash))

/-- `TableRecord::try_store_blob_data` (TableRecord.cpp:173-199) and `try_store_blob_data`
(save_depot_config.cpp:575-593). `blob` is the value of the data field (`none` for null) as start and length,
`readBlob` reads it (property C30), `inflate` gives what was written and whether it ended without `ZError`
(property C16), `hash` the text of the hash field if the table has one. -/
def storeData (readBlob : Nat → Nat → Outcome Bytes) (inflate : Bytes → Bytes × Bool) (packs : List Pack)
    (files : Str × Str → Option Bytes) (unpack : Bool) (blob : Option (Nat × Nat)) (hash : Option Str) :
    Outcome (Option Bytes) :=
  match blob with
  | some (s, l) =>
    if s = 0 ∧ l = 0 then fromHash
    else do
      let raw ← readBlob s l
      if unpack then
        let r := inflate raw
        .ok (some (if r.2 then r.1 else r.1 ++ raw))
      else .ok (some raw)
  | none => fromHash
where
  fromHash : Outcome (Option Bytes) :=
    match hash with
    | none => .ok none
    | some h => getData packs files h

end Verif.Depot
