import Verif.Unicode.Model
import Verif.Stream.Model

/-!
# Container entries: the table of names and the entry header
(src/tool1cd/cfapi/V8Catalog.cpp, V8File.cpp)

`V8File` objects are entries of a list in the order of the `first`/`next` chain, each
with an identity (its address). The `std::map` of names is an association list
without repeated keys. The stored blocks are the subject of `Verif.Container`.
-/

namespace Verif.Entry
open Verif

/-- The part of a `V8File` the name table uses: its address and its name. Serves the model of V8Catalog.cpp:385-399. -/
structure Ent where
  id : Nat
  name : Bytes
  deriving DecidableEq, Repr

/-- `V8Catalog::first … last` and `V8Catalog::files`; `fresh` is the next unused address. Serves the model of V8Catalog.cpp:402-412. -/
structure Dir where
  chain : List Ent
  files : List (Bytes × Nat)
  fresh : Nat
  deriving DecidableEq, Repr

/-- `files.find(key)`. Serves the model of V8Catalog.cpp:402-412. -/
def find (files : List (Bytes × Nat)) (key : Bytes) : Option Nat :=
  (files.find? (fun p => p.1 == key)).map Prod.snd

/-- `files.erase(key)`. Serves the model of V8File.cpp:413-462. -/
def erase (files : List (Bytes × Nat)) (key : Bytes) : List (Bytes × Nat) :=
  files.filter (fun p => p.1 != key)

/-- `files[key] = id`. Serves the model of V8File.cpp:33-62. -/
def assign (files : List (Bytes × Nat)) (key : Bytes) (id : Nat) : List (Bytes × Nat) :=
  (key, id) :: erase files key

/-- `V8Catalog::get_file` (V8Catalog.cpp:402-412). -/
def getFile (d : Dir) (name : Bytes) : Outcome (Option Nat) := do
  let key ← Unicode.lowerCase name
  .ok (find d.files key)

/-- The constructor `V8File::V8File` (V8File.cpp:33-62): appended to the chain, and
entered in the map under the lower-cased name. -/
def newFile (d : Dir) (name : Bytes) : Outcome (Nat × Dir) := do
  let key ← Unicode.lowerCase name
  .ok (d.fresh, { chain := d.chain ++ [⟨d.fresh, name⟩], files := assign d.files key d.fresh, fresh := d.fresh + 1 })

/-- `V8Catalog::createFile` (V8Catalog.cpp:421-441). -/
def createFile (d : Dir) (name : Bytes) : Outcome (Nat × Dir) := do
  match ← getFile d name with
  | some id => .ok (id, d)
  | none => newFile d name

/-- `V8File::delete_file` (V8File.cpp:413-462) on the entry with address `id`: unlinked
from the chain and erased from the map under its own lower-cased name. Calling
it on anything but a live entry is undefined. -/
def deleteEntry (d : Dir) (id : Nat) : Outcome Dir :=
  match d.chain.find? (fun e => e.id == id) with
  | none => .ub
  | some e => do
    let key ← Unicode.lowerCase e.name
    .ok { d with chain := d.chain.filter (fun x => x.id != id), files := erase d.files key }

/-- The loop of `V8Catalog::delete_file` (V8Catalog.cpp:385-399) over the rest of the
chain. After a match the object is deleted and `f->get_next()` is then called on
it, and again on whatever that yields: undefined. -/
def deleteLoop (name : Bytes) : List Ent → Dir → Outcome Dir
  | [], d => .ok d
  | e :: es, d => do
    if ← Unicode.equalIC e.name name then .ub
    else deleteLoop name es d

/-- `V8Catalog::delete_file` (V8Catalog.cpp:385-399). -/
def deleteFile (d : Dir) (name : Bytes) : Outcome Dir := deleteLoop name d.chain d

/-! ## The entry header -/

/-- Eight bytes, least significant first (`V8Time::write_to_stream`, V8Time.cpp:82-84; the
`int64_t` as its 64-bit pattern). -/
def le64 (n : Nat) : Bytes :=
  [UInt8.ofNat n, UInt8.ofNat (n / 256), UInt8.ofNat (n / 65536), UInt8.ofNat (n / 16777216),
   UInt8.ofNat (n / 4294967296), UInt8.ofNat (n / 1099511627776), UInt8.ofNat (n / 281474976710656),
   UInt8.ofNat (n / 72057594037927936)]

/-- The header block written by `V8File::close`, `flush` and `write_and_close`
(V8File.cpp:508-520, 557-570, 662-675). -/
def headerBytes (created modified : Nat) (name : Bytes) : Outcome Bytes := do
  let n ← Unicode.fromUtf8 name
  .ok (le64 created ++ le64 modified ++ [0, 0, 0, 0] ++ n ++ [0, 0, 0, 0])

/-- `*(int64_t*)buf`: eight bytes as a number. Serves the model of V8Catalog.cpp:336-352. -/
def rd64 : Bytes → Outcome Nat
  | b0 :: b1 :: b2 :: b3 :: b4 :: b5 :: b6 :: b7 :: _ =>
    .ok (b0.toNat + 256 * (b1.toNat + 256 * (b2.toNat + 256 * (b3.toNat + 256 * (b4.toNat + 256 *
      (b5.toNat + 256 * (b6.toNat + 256 * b7.toNat)))))))
  | _ => .ub

/-- What `V8Catalog::initialize` makes of a header block (V8Catalog.cpp:336-352): the
name is everything from byte 20 on, the creation time the first eight bytes, and
the modification time the *creation time plus eight* (`*(int64_t*)buf + 8`). -/
def parseHeader (b : Bytes) : Outcome (Nat × Nat × Bytes) := do
  let name ← Unicode.toUtf8 b 20
  let t ← rd64 b
  .ok (t, (t + 8) % 2 ^ 64, name)

end Verif.Entry
