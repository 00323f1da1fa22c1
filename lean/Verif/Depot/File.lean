import Verif.Depot.Export
import Verif.Tree.Model
import Verif.Guid.Model
import Verif.Config.Whole
import Verif.Nested.Model
import Verif.Db.Open
import Verif.Cli.Model

/-!
# The file a version of a depot is saved into (src/tool1cd/save_depot_config.cpp:44-272, 391-573)

The choice of the records is the model of property C52, the container that of property C66. The blobs, the library that
compresses and the random identifiers are parameters.
-/

namespace Verif.Depot.File
open Verif Verif.Container

/-! ## `std::map` -/

/-- `operator<` of `std::string`. Simplification: of the code points; UTF-8 has the same order. Serves the model of save_depot_config.cpp:340-356. -/
def before : Str → Str → Bool
  | [], [] => false
  | [], _ :: _ => true
  | _ :: _, [] => false
  | a :: s, b :: t => if a.toNat < b.toNat then true else if b.toNat < a.toNat then false else before s t

/-- `map[key] = value`; the list is in the order in which the map is walked. Serves the model of save_depot_config.cpp:340-356. -/
def put (m : List (Str × α)) (k : Str) (v : α) : List (Str × α) :=
  match m with
  | [] => [(k, v)]
  | (a, w) :: m => if k = a then (a, v) :: m else if before k a then (k, v) :: (a, w) :: m else (a, w) :: put m k v

/-! ## Versions -/

/-- `depot_ver` (Constants.h). -/
inductive Format where
  | ver3 | ver5 | ver6 | ver7
  deriving DecidableEq, Repr

/-- `get_depot_version` (Class_1CD.cpp:2317-2337). -/
def depotFormat (t : Bytes) : Outcome Format := do
  if ← Unicode.equalIC t (Cli.asc "0300000000000000") then .ok .ver3
  else if ← Unicode.equalIC t (Cli.asc "0500000000000000") then .ok .ver5
  else if ← Unicode.equalIC t (Cli.asc "0600000000000000") then .ok .ver6
  else if ← Unicode.equalIC t (Cli.asc "0700000000000000") then .ok .ver7
  else .throw

/-- The version of the structure of the configuration (save_depot_config.cpp:164-182); `cver` is the field CVERSION. -/
def configVer (f : Format) (db : Db.Ver) (cver : Bytes) : Outcome (Nat × Nat) :=
  match f with
  | .ver3 =>
    .ok (if db = .v8_0_3 ∨ db = .v8_0_5 then 6 else if db = .v8_1_0 then 106 else 216, 0)
  | _ =>
    match cver with
    | a :: b :: c :: d :: _ => .ok (256 * a.toNat + b.toNat, 256 * c.toNat + d.toNat)
    | _ => .ub

/-! ## Texts -/

/-- `to_string`, as a number in a tree. Serves the model of save_depot_config.cpp:44-56. -/
def num (n : Nat) : Tree.Node := .leaf .number (Nat.toDigits 10 n)

/-- `serialize_version` (save_depot_config.cpp:44-56). -/
def versionText (major minor : Nat) : Str := Tree.outtext (.list [.list [.list [num major, num minor]]])

/-- Names with identifiers (save_depot_config.cpp:414-419, 439-443). -/
def pairs (m : List (Str × Str)) : List Tree.Node := m.flatMap fun p => [.leaf .string p.1, .leaf .guid p.2]

/-- The file `versions` (save_depot_config.cpp:235-241, 401-412, 437-446). -/
def versionsText (vers : List (Str × Str)) : Str := Tree.outtext (.list [.list (.leaf .number ['1'] :: num vers.length :: pairs vers)])

/-- The file `root` (save_depot_config.cpp:237-238, 257-270, 403-421). -/
def rootText (old : Bool) (rootobj : Bytes) (roots : List (Str × Str)) : Str :=
  if old then
    Tree.outtext (.list [.list (.leaf .number ['1'] :: .leaf .guid (Guid.asMS rootobj) :: num roots.length :: pairs roots)])
  else Tree.outtext (.list [.list (.leaf .number ['2'] :: .leaf .guid (Guid.asMS rootobj) :: pairs roots)])

/-- A text with the mark of UTF-8 before it (save_depot_config.cpp:246-248, 423-425, 448-453). -/
def marked (t : Str) : Bytes := [0xEF, 0xBB, 0xBF] ++ Config.textBytes t

/-! ## The files -/

/-- What the records hold, and the environment. A blob that is not to be had is `none`; the flag says that the contents of an object are
to be inflated. Random identifiers are numbered in the order in which they are made. Serves the model of save_depot_config.cpp:340-356. -/
structure Source where
  objId : Hist → Bytes
  objVer : Hist → Bytes
  objData : Bool → Hist → Outcome (Option Bytes)
  extName : Ext → Str
  extVer : Ext → Bytes
  extData : Ext → Outcome (Option Bytes)
  deflate : Bytes → Bytes
  gen : Nat → Bytes

/-- `vermap`, `rootmap`, `extmap`, `metamap` (save_depot_config.cpp:230-233). -/
structure Maps where
  vers : List (Str × Str)
  roots : List (Str × Str)
  files : List (Str × Bytes)
  metas : List (Str × Bytes)

/-- The contents, or an exception (save_depot_config.cpp:291-296, 347-352). -/
def need (x : Outcome (Option Bytes)) : Outcome Bytes := do
  match ← x with
  | some b => .ok b
  | none => .throw

/-- The loop over the external data of an object (save_depot_config.cpp:340-356). -/
def addExts (S : Source) : List Ext → Maps → Outcome Maps
  | [], m => .ok m
  | e :: es, m => do
    let b ← need (S.extData e)
    addExts S es { m with vers := put m.vers (S.extName e) (Guid.asMS (S.extVer e)), files := put m.files (S.extName e) b }

/-- One object (save_depot_config.cpp:288-307). -/
def addObject (S : Source) (old : Bool) (r : Hist) (m : Maps) : Outcome Maps := do
  let b ← need (S.objData old r)
  if old then
    .ok { m with roots := put m.roots (Guid.asMS (S.objId r)) (Guid.asMS (S.objVer r)), metas := put m.metas (Guid.asMS (S.objId r)) b }
  else
    .ok { m with vers := put m.vers (Guid.asMS (S.objId r)) (Guid.asMS (S.objVer r)), files := put m.files (Guid.asMS (S.objId r)) b }

/-- All objects (save_depot_config.cpp:276-391), once they are chosen. -/
def addObjects (S : Source) (old : Bool) : List (Hist × List Ext) → Maps → Outcome Maps
  | [], m => .ok m
  | (r, es) :: out, m => do
    let m ← addObject S old r m
    let m ← addExts S es m
    addObjects S old out m

/-- The maps before the first object (save_depot_config.cpp:243-255). -/
def start (S : Source) (major minor : Nat) : Maps :=
  { vers := put [([], Guid.asMS (S.gen 0))] "version".toList (Guid.asMS (S.gen 1)), roots := []
    files := [("version".toList, S.deflate (marked (versionText major minor)))], metas := [] }

/-- The lists of versions, and the files `root` and `versions` (save_depot_config.cpp:399-458). -/
def finish (S : Source) (old : Bool) (rootobj : Bytes) (m : Maps) : Maps :=
  let vers := put m.vers "versions".toList (Guid.asMS (S.gen 2))
  if old then
    { vers := vers, roots := m.roots, files := put m.files "versions".toList (S.deflate (marked (versionsText vers)))
      metas := put m.metas "root".toList (marked (rootText true rootobj m.roots)) }
  else
    let vers := put vers "root".toList (Guid.asMS (S.gen 3))
    { vers := vers, roots := m.roots
      files := put (put m.files "root".toList (S.deflate (marked (rootText false rootobj m.roots)))) "versions".toList
        (S.deflate (marked (versionsText vers)))
      metas := m.metas }

/-- The maps in the end (save_depot_config.cpp:228-458). -/
def maps (S : Source) (major minor : Nat) (rootobj : Bytes) (out : List (Hist × List Ext)) : Outcome Maps := do
  let m ← addObjects S (decide (major < 100)) out (start S major minor)
  .ok (finish S (decide (major < 100)) rootobj m)

/-! ## The container -/

/-- `cat->createFile(…)->write_and_close(…)` for each file (save_depot_config.cpp:469-473). -/
def storeAll (fuel now : Nat) : Catalog → List (Str × Bytes) → Outcome (Option Catalog)
  | k, [] => .ok (some k)
  | k, (n, b) :: fs => do
    let x ← createFile k (Config.textBytes n) now
    match ← writeAndClose plainCodec fuel x.2 x.1 b with
    | none => .ok none
    | some k => storeAll fuel now k fs

/-- The new container with the files of the map (save_depot_config.cpp:223-226, 469-475), for a configuration not of the old format. `old` is
what the file held: it is removed. -/
def storeFiles (fuel now : Nat) (old : Option Bytes) (fs : List (Str × Bytes)) : Outcome (Option Bytes) := do
  let o ← openNamed fuel (if old.isSome then none else old)
  match o with
  | some (.container k) => do
    match ← storeAll fuel now k fs with
    | none => .ok none
    | some k => destroy plainCodec fuel k
  | _ => .ok none

/-- The entry `metadata` of a configuration of the old format is packed when it is closed, and only it (`_selfzipped`, V8Catalog.cpp:434,
V8File.cpp:506): `i` is its place in the chain, `b` what its inner container left in its stream, `m` whether that changed. Simplification: it is packed when
the container is about to close its entries, not when it is its turn. -/
def packEntry (deflate : Bytes → Bytes) (i : Nat) (b : Bytes) (m : Bool) (es : List Container.File) : List Container.File :=
  Nested.putBack es (List.replicate i none ++ [some (deflate b, m)])

/-- The new container of a configuration of the old format (save_depot_config.cpp:223-226, 460-475): `CreateCatalog("metadata", true)`, the files
of `metamap` in it, those of `extmap` beside it, and the destructors. No name of `extmap` is `metadata`. -/
def storeOld (deflate : Bytes → Bytes) (fuel now : Nat) (old : Option Bytes) (metas fs : List (Str × Bytes)) : Outcome (Option Bytes) := do
  let o ← openNamed fuel (if old.isSome then none else old)
  match o with
  | some (.container k) => do
    match ← Nested.createCatalog plainCodec fuel ⟨k, .blank k.ents.length⟩ (Config.textBytes "metadata".toList) now with
    | some (i, some inner, n) => do
      match ← storeAll fuel now inner.k metas with
      | none => .ok none
      | some ki => do
        match ← storeAll fuel now n.k fs with
        | none => .ok none
        | some k => do
          match ← Nested.destroyMarked plainCodec fuel ki with
          | none => .ok none
          | some (b, m) => destroy plainCodec fuel { k with ents := packEntry deflate i b m k.ents }
    | _ => .ok none
  | _ => .ok none

/-! ## Snapshots -/

/-- A record of VERSIONS: `VERNUM` as text, `SNAPSHOTMAKER`, `SNAPSHOTCRC`, `CVERSION`. Serves the model of save_depot_config.cpp:480-573. -/
structure Row where
  vernum : Bytes
  maker : Bytes
  crc : Nat
  cver : Bytes
  deriving DecidableEq

/-- The directory `cache` beside the database and the libraries: `inflate` gives what is written before it ends, and whether it throws. Serves the model of save_depot_config.cpp:480-573. -/
structure Cache where
  file : Str → Option Bytes
  inflate : Bytes → Bytes × Bool
  crc : Bytes → Nat

/-- The name of the snapshot (save_depot_config.cpp:489-490). -/
def snapName (ver : Int) : Str :=
  let p := "00000".toList ++ (toString ver).toList
  "ddb".toList ++ p.drop (p.length - 5) ++ ".snp".toList

/-- `SNAPSHOT_VER1` and `SNAPSHOT_VER2` (Constants.h:187-188). -/
def maker1 : Bytes := [0x9e, 0xca, 0x21, 0x37, 0x72, 0xa2, 0x6b, 0x49, 0xa0, 0x93, 0x20, 0x6e, 0xa7, 0x62, 0x95, 0x74]
/-- Serves the model of save_depot_config.cpp:525-533. -/
def maker2 : Bytes := [0x78, 0xdf, 0xdf, 0x6f, 0x2a, 0x06, 0xbb, 0x46, 0x84, 0x02, 0x62, 0x14, 0x5a, 0xe5, 0x57, 0x64]

/-- The snapshot is stored as it is (save_depot_config.cpp:525-533). -/
def verbatim (rootobj maker : Bytes) : Bool :=
  if Guid.eq rootobj maker || Guid.eq maker maker1 then false else Guid.eq maker maker2

/-- `try_save_snapshot` (save_depot_config.cpp:480-573): what the file holds afterwards (`none`: untouched), and whether it is the
snapshot. -/
def snapshot (C : Cache) (rootobj : Bytes) (ver : Int) (r : Row) : Option Bytes × Bool :=
  if Guid.isEmpty r.maker then (none, false)
  else
    match C.file (snapName ver) with
    | none => (none, false)
    | some s =>
      if verbatim rootobj r.maker then (some s, decide (C.crc s = r.crc))
      else if (C.inflate s).2 then (some (C.inflate s).1, false)
      else (some (C.inflate s).1, decide (C.crc (C.inflate s).1 = r.crc))

/-! ## All of it -/

/-- The search in VERSIONS (save_depot_config.cpp:136-152). -/
def findRow (ver : Int) : List Row → Outcome Row
  | [] => .throw
  | r :: rs => do
    let n ← Cli.toIntDef r.vernum 0
    if n = ver then .ok r else findRow ver rs

/-- The tables of a depot. `vernums` is `VERNUM` in the order of the index of VERSIONS, `rows` are its records in the order of the
table; `depot` is `DEPOTVER` and `ROOTOBJID` of the first record of DEPOT. Serves the model of save_depot_config.cpp:122-152. -/
structure Depot where
  db : Db.Ver
  depot : Option (Bytes × Bytes)
  vernums : List Bytes
  rows : List Row
  hist : List Hist
  exts : List Ext

/-- What is done before the snapshot is tried (save_depot_config.cpp:122-152): the format, the root object, the version and its record. -/
def header (D : Depot) (ver : Int) : Outcome (Format × Bytes × Int × Row) :=
  match D.depot with
  | none => .throw
  | some (dv, rootobj) => do
    let f ← depotFormat dv
    let v ← Db.verDepot D.vernums ver
    let r ← findRow v D.rows
    .ok (f, rootobj, v, r)

/-- `T_1CD::save_depot_config` (save_depot_config.cpp:81-477) of an open depot: the contents of the file afterwards. `none`: it does not
return. -/
def save (S : Source) (C : Cache) (fold : Bytes → Bytes) (fuel now : Nat) (D : Depot) (ver : Int) (old : Option Bytes) :
    Outcome (Option Bytes) := do
  let (f, rootobj, v, r) ← header D ver
  let s := snapshot C rootobj v r
  if s.2 then .ok s.1
  else do
    let n ← configVer f D.db r.cver
    let out ← exportDepot fold v D.hist D.exts
    let m ← maps S n.1 n.2 rootobj out
    if n.1 < 100 then storeOld S.deflate fuel now (s.1.or old) m.metas m.files
    else storeFiles fuel now (s.1.or old) m.files

/-- What the file holds when `save` throws before the first entry is written: the container is made, with nothing in it, before the objects
are read (save_depot_config.cpp:223-226), and it is never destroyed. -/
def left (D : Depot) (ver : Int) (old : Option Bytes) : Option Bytes :=
  match header D ver with
  | .ok _ => some template
  | _ => old

end Verif.Depot.File
