import Verif.Container.Model
import Verif.Entry.Model
import Verif.Zlib.Model

/-!
# Containers: recognising, opening, changing and flushing (src/tool1cd/cfapi/V8Catalog.cpp, V8File.cpp)

The stream of the container is the memory stream of `Verif.Container`. `V8File` objects are the
members of a list, in the order of the `first`/`next` chain, each with an identity. `Codec` is what
`zipped` selects: deflate and inflate (property C16), or nothing. Catalogs inside entries, `.cfu` wrapping, a
`_selfzipped` entry of a catalog that is not zipped, and locks are not modelled; one thread works on the container.
-/

namespace Verif.Container
open Verif Verif.Stream

/-- `_EMPTY_CATALOG_TEMPLATE` (APIcfBase.h:36). -/
def template : Bytes := [0xff, 0xff, 0xff, 0x7f, 0, 2, 0, 0, 0, 0, 0, 0, 0, 0, 0, 0]

/-- The `int32_t` or `uint32_t` at an offset, as its bit pattern; bytes beyond the end are `dflt`. Serves the model of V8Catalog.cpp:120-136. -/
def rdWord (dflt : UInt8) (d : Bytes) (off : Nat) : Nat :=
  (d.getD off dflt).toNat + 256 * ((d.getD (off + 1) dflt).toNat + 256 * ((d.getD (off + 2) dflt).toNat +
    256 * (d.getD (off + 3) dflt).toNat))

/-- The four bytes of an `int32_t`. Serves the model of V8Catalog.cpp:848-857. -/
def word32 (n : Nat) : Bytes :=
  [UInt8.ofNat n, UInt8.ofNat (n / 256), UInt8.ofNat (n / 65536), UInt8.ofNat (n / 16777216)]

/-! ## Recognising -/

/-- The test of the first free page (V8Catalog.cpp:120-136; V8File.cpp:352-368): the number `_startempty` was -1 before the read, the
addition of 31 is modulo 2^32, and `Seek` beyond the end throws. -/
def freeTest (d : Bytes) : Outcome Bool :=
  let e := rdWord 0xff d 0
  if e = LAST then .ok true
  else if (e + 31) % 2 ^ 32 ≥ d.length then .ok false
  else if e > d.length then .throw
  else .ok (isCorrect ((d.drop e).take 31))

/-- The test of the directory block's header (V8Catalog.cpp:137-150; V8File.cpp:369-383). -/
def dirTest (d : Bytes) : Bool :=
  if d.length < 31 + 16 then false else isCorrect ((d.drop 16).take 31)

/-- `V8Catalog::is_catalog` (V8Catalog.cpp:86-151) and `V8File::is_catalog` (V8File.cpp:316-388), asked for the first time. The
latter fails to release the lock when it throws; so does the former. -/
def isCatalog (d : Bytes) : Outcome Bool :=
  if d.length = 16 then .ok (d == template)
  else do
    if ← freeTest d then .ok (dirTest d) else .ok false

/-! ## Opening -/

/-- A `V8File`: its address, name, times, the addresses of its two blocks, the opened stream (`none` while
`!is_opened`), `_datamodified` and `is_headermodified`. Serves the model of V8Catalog.cpp:331-352. -/
structure File where
  id : Nat
  name : Bytes
  created : Nat
  modified : Nat
  header : Nat
  data : Nat
  content : Option Bytes
  dataMod : Bool
  headerMod : Bool
  deriving DecidableEq, Repr

/-- A `V8Catalog` that is a container: the stream with the page chains, `storage_ver`, the chain of
`V8File`s, the map of names, `_fatmodified`, and the next unused identity. Serves the model of V8Catalog.cpp:357-373. -/
structure Catalog where
  cat : Cat
  ver : Nat
  ents : List File
  files : List (Bytes × Nat)
  fatMod : Bool
  fresh : Nat
  deriving DecidableEq, Repr

/-- The result of constructing a `V8Catalog`: a container; no container; or a container whose directory could not be
read, in which case all `V8File`s are deleted (V8Catalog.cpp:357-373) but the map of names still points to them. -/
inductive Opening where
  | container (k : Catalog)
  | other
  | broken (stale : List (Bytes × Nat))
  deriving DecidableEq, Repr

/-- One turn of the loop of `initialize` (V8Catalog.cpp:331-352): the entry whose addresses are the 12 bytes `elem`. -/
def loadEntry (fuel : Nat) (src : Mem) (elem : Bytes) (id : Nat) : Outcome (Option File) := do
  match ← readBlock fuel src (rdWord 0 elem 0) with
  | none => .ok none
  | some m => do
    let (created, modified, name) ← Entry.parseHeader m.data
    .ok (some ⟨id, name, created, modified, rdWord 0 elem 0, rdWord 0 elem 4, none,
      rdWord 0 elem 4 = 0, rdWord 0 elem 0 = 0⟩)

/-- The entry is appended to the chain and put into the map (V8File.cpp:33-62). -/
def addEntry (k : Catalog) (e : File) : Outcome Catalog := do
  let key ← Unicode.lowerCase e.name
  .ok { k with ents := k.ents ++ [e], files := Entry.assign k.files key e.id, fresh := k.fresh + 1 }

/-- The loop (V8Catalog.cpp:331-362) with its `catch(...)`. -/
def loadLoop (fuel : Nat) (src : Mem) : Nat → Bytes → Catalog → Outcome (Option Opening)
  | 0, _, k => .ok (some (.container k))
  | n + 1, fat, k =>
    match loadEntry fuel src (fat.take 12) k.fresh with
    | .throw => .ok (some (.broken k.files))
    | .ub => .ub
    | .ok none => .ok none
    | .ok (some e) =>
      match addEntry k e with
      | .throw => .ok (some (.broken k.files))
      | .ub => .ub
      | .ok k => loadLoop fuel src n (fat.drop 12) k

/-- `initialize` (V8Catalog.cpp:304-382). -/
def initCatalog (fuel : Nat) (d : Bytes) : Outcome (Option Opening) :=
  let k : Catalog := ⟨⟨⟨d, 16⟩, rdWord 0 d 0, rdWord 0 d 4, false, false⟩, rdWord 0 d 8, [], [], false, 0⟩
  if d.length > 16 then
    match readBlock fuel k.cat.data 16 with
    | .throw => .ok (some (.broken []))
    | .ub => .ub
    | .ok none => .ok none
    | .ok (some fat) => loadLoop fuel k.cat.data (fat.data.length / 12) fat.data k
  else .ok (some (.container k))

/-- `V8Catalog::V8Catalog(TStream*, bool, bool)` (V8Catalog.cpp:246-277). -/
def openCatalog (fuel : Nat) (d : Bytes) : Outcome (Option Opening) :=
  let d := if d.length = 0 then template else d
  do if ← isCatalog d then initCatalog fuel d else .ok (some .other)

/-! ## Reading and changing entries -/

/-- What `zipped` selects in `read_datablock` and `write_datablock`. Serves the model of V8Catalog.cpp:454-473. -/
structure Codec where
  pack : Bytes → Outcome Bytes
  unpack : Bytes → Outcome Bytes

/-- `zipped == false`. Serves the model of Class_1CD.cpp:1064. -/
def plainCodec : Codec := ⟨.ok, .ok⟩

/-- `zipped == true`: `ZDeflateStream` and `ZInflateStream` with the library `z`, `i`. The numbers bound the turns of their
loops (property C16); running out of them is shown as an exception. Built on V8Catalog.cpp:454-473. -/
def zipCodec {σ τ : Type} (z : Zlib.Deflater σ) (i : Zlib.Inflater τ) (fd fi : Nat) : Codec where
  pack b := match Zlib.deflateStream z fd b with
    | some (_, c) => .ok c
    | none => .throw
  unpack c := match Zlib.inflateStream i fi c with
    | some r => r
    | none => .throw

/-- `read_datablock` (V8Catalog.cpp:454-473). -/
def readData (cd : Codec) (fuel : Nat) (c : Cat) (start : Nat) : Outcome (Option Bytes) :=
  if start = 0 then .ok (some [])
  else do
    match ← readBlock fuel c.data start with
    | none => .ok none
    | some m => do
      let b ← cd.unpack m.data
      .ok (some b)

/-- `V8File::open` (V8File.cpp:473-487): the entry with its stream. -/
def openFile (cd : Codec) (fuel : Nat) (c : Cat) (e : File) : Outcome (Option File) :=
  match e.content with
  | some _ => .ok (some e)
  | none => do
    match ← readData cd fuel c e.data with
    | none => .ok none
    | some b => .ok (some { e with content := some b })

/-- The members of the chain with the given identity are replaced (there is one). Serves the model of V8File.cpp:222-239. -/
def update (ents : List File) (e : File) : List File := ents.map fun x => if x.id = e.id then e else x

/-- `V8Catalog::get_file` (V8Catalog.cpp:402-412): the pointer in the map; following one whose `V8File` is gone
is undefined. -/
def getFile (k : Catalog) (name : Bytes) : Outcome (Option File) := do
  let key ← Unicode.lowerCase name
  match Entry.find k.files key with
  | none => .ok none
  | some id =>
    match k.ents.find? (fun e => e.id = id) with
    | none => .ub
    | some e => .ok (some e)

/-- `createFile` (V8Catalog.cpp:421-441) at time `now`. -/
def createFile (k : Catalog) (name : Bytes) (now : Nat) : Outcome (File × Catalog) := do
  match ← getFile k name with
  | some e => .ok (e, k)
  | none => do
    let e : File := ⟨k.fresh, name, now, now, 0, 0, none, true, true⟩
    let k ← addEntry k e
    .ok (e, { k with fatMod := true })

/-- The stream operations of `write(const void*, int)` (V8File.cpp:233-235): shorten, rewind, write. -/
def replaceAll (old buf : Bytes) : Outcome Bytes := do
  let m ← if old.length > buf.length then Mem.setSize ⟨old, 0⟩ buf.length else .ok ⟨old, 0⟩
  let m ← seekB m 0
  let (_, m) ← m.write buf
  .ok m.data

/-- `V8File::write(const void*, int)` (V8File.cpp:222-239) at time `now`. -/
def writeFile (cd : Codec) (fuel : Nat) (k : Catalog) (e : File) (buf : Bytes) (now : Nat) : Outcome (Option Catalog) := do
  match ← openFile cd fuel k.cat e with
  | none => .ok none
  | some e => do
    let b ← replaceAll (e.content.getD []) buf
    let e := { e with content := some b, modified := now, headerMod := true, dataMod := true }
    .ok (some { k with ents := update k.ents e })

/-- Storing under a name: `createFile`, then `write`. Built on V8File.cpp:222-239. -/
def put (cd : Codec) (fuel : Nat) (k : Catalog) (name buf : Bytes) (now : Nat) : Outcome (Option Catalog) := do
  let (e, k) ← createFile k name now
  writeFile cd fuel k e buf now

/-- `V8File::delete_file` (V8File.cpp:413-462) on an entry of the container. -/
def deleteFile (fuel : Nat) (k : Catalog) (e : File) : Outcome (Option Catalog) := do
  match ← freeBlock fuel k.cat e.data with
  | none => .ok none
  | some c => do
    match ← freeBlock fuel c e.header with
    | none => .ok none
    | some c => do
      let key ← Unicode.lowerCase e.name
      .ok (some { k with cat := c, ents := k.ents.filter (fun x => x.id ≠ e.id), files := Entry.erase k.files key,
                         fatMod := true })

/-- Looking a name up and deleting what is found. Built on V8File.cpp:413-462. -/
def remove (fuel : Nat) (k : Catalog) (name : Bytes) : Outcome (Option Catalog) := do
  match ← getFile k name with
  | none => .ok (some k)
  | some e => deleteFile fuel k e

/-- Reading under a name: `get_file`, `open`, the whole stream (`save_to_stream`, V8File.cpp:121-128). -/
def content (cd : Codec) (fuel : Nat) (k : Catalog) (name : Bytes) : Outcome (Option (Option Bytes)) := do
  match ← getFile k name with
  | none => .ok (some none)
  | some e => do
    match ← openFile cd fuel k.cat e with
    | none => .ok none
    | some e => .ok (some e.content)

/-! ## Flushing -/

/-- `if(_datamodified)` (V8File.cpp:657-661): a block of the packed stream. -/
def flushData (cd : Codec) (fuel : Nat) (c : Cat) (e : File) (b : Bytes) : Outcome (Option (Cat × File)) :=
  if e.dataMod then do
    let p ← cd.pack b
    match ← writeBlock fuel c ⟨p, 0⟩ e.data false none with
    | none => .ok none
    | some (c, a) => .ok (some (c, { e with data := a, dataMod := false }))
  else .ok (some (c, e))

/-- `if(is_headermodified)` (V8File.cpp:662-675). -/
def flushHeader (fuel : Nat) (c : Cat) (e : File) : Outcome (Option (Cat × File)) :=
  if e.headerMod then do
    let h ← Entry.headerBytes e.created e.modified e.name
    match ← writeBlock fuel c ⟨h, h.length⟩ e.header false none with
    | none => .ok none
    | some (c, a) => .ok (some (c, { e with header := a, headerMod := false }))
  else .ok (some (c, e))

/-- `V8File::flush` (V8File.cpp:629-681): nothing while the entry is not opened. -/
def flushFile (cd : Codec) (fuel : Nat) (c : Cat) (e : File) : Outcome (Option (Cat × File)) :=
  match e.content with
  | none => .ok (some (c, e))
  | some b => do
    match ← flushData cd fuel c e b with
    | none => .ok none
    | some (c, e) => flushHeader fuel c e

/-- The loop over the entries (V8Catalog.cpp:837-842). -/
def flushFiles (cd : Codec) (fuel : Nat) : Cat → List File → List File → Outcome (Option (Cat × List File))
  | c, done, [] => .ok (some (c, done))
  | c, done, e :: rest => do
    match ← flushFile cd fuel c e with
    | none => .ok none
    | some (c, e) => flushFiles cd fuel c (done ++ [e]) rest

/-- The directory: for each entry the addresses of its header and data blocks and `LAST_BLOCK`
(V8Catalog.cpp:848-857). -/
def fatBytes (ents : List File) : Bytes :=
  ents.flatMap fun e => word32 e.header ++ word32 e.data ++ word32 LAST

/-- `if(_fatmodified)` (V8Catalog.cpp:846-860). -/
def flushFat (fuel : Nat) (c : Cat) (ents : List File) (fatMod : Bool) : Outcome (Option Cat) :=
  if fatMod then do
    match ← writeBlock fuel c ⟨fatBytes ents, (fatBytes ents).length⟩ 16 true none with
    | none => .ok none
    | some (c, _) => .ok (some c)
  else .ok (some c)

/-- `Seek` and `WriteBuffer` of one word. Serves the model of V8Catalog.cpp:862-873. -/
def putWord (m : Mem) (off n : Nat) : Outcome Mem := do
  let m ← seekB m off
  let (_, m) ← m.write (word32 n)
  .ok m

/-- A word of the file header is written if it has changed (V8Catalog.cpp:862-873). -/
def putIf (b : Bool) (m : Mem) (off n : Nat) : Outcome Mem := if b then putWord m off n else .ok m

/-- The file header (V8Catalog.cpp:862-873) and the flags. -/
def flushHead (c : Cat) (ver : Nat) : Outcome (Cat × Nat) := do
  let m ← putIf c.emptyMod c.data 0 c.next
  let m2 ← putIf c.modified m 8 (ver + 1)
  .ok ({ c with data := m2, emptyMod := false, modified := false }, if c.modified then ver + 1 else ver)

/-- `V8Catalog::Flush` (V8Catalog.cpp:824-899) of a catalog that is not inside an entry. -/
def flush (cd : Codec) (fuel : Nat) (k : Catalog) : Outcome (Option Catalog) := do
  match ← flushFiles cd fuel k.cat [] k.ents with
  | none => .ok none
  | some (c, ents) => do
    match ← flushFat fuel c ents k.fatMod with
    | none => .ok none
    | some c => do
      let (c, ver) ← flushHead c k.ver
      .ok (some { k with cat := c, ver := ver, ents := ents, fatMod := false })

/-- Flushing, and opening the stream again. Built on V8Catalog.cpp:824-899. -/
def reopen (cd : Codec) (fuel : Nat) (k : Catalog) : Outcome (Option Opening) := do
  match ← flush cd fuel k with
  | none => .ok none
  | some k => openCatalog fuel k.cat.data.data

end Verif.Container
