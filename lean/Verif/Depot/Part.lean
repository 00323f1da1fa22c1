import Verif.Basic

/-!
# Exporting what changed between two versions of a configuration depot
(src/tool1cd/save_part_depot_config.cpp:49-510)

Object identifiers are numbers, as in `Verif.Depot.Export`. Records carry the contents of their blobs
(property C30). Inflating (property C16), the pack directory (property C54) and case folding (property C11) are
parameters. A file that is a container is saved as a directory of its contents (447-452): here it is its
contents. Records are never freed while they are in use.
-/

namespace Verif.Depot.Part
open Verif

/-- A record of HISTORY, in the order of the index PK. `packed`: DATAPACKED is neither null nor false; `data`: the
contents of OBJDATA, `none` for a null value or an empty reference; `hash`: DATAHASH. Serves the model of save_part_depot_config.cpp:269-320. -/
structure Hist where
  obj : Nat
  ver : Int
  removed : Bool
  packed : Bool
  data : Option Bytes
  hash : Bytes
  deriving DecidableEq

/-- A record of EXTERNALS, in the order of the index PK. Serves the model of save_part_depot_config.cpp:391-416. -/
structure Ext where
  obj : Nat
  ver : Int
  name : Bytes
  verid : Nat
  packed : Bool
  data : Option Bytes
  hash : Bytes
  deriving DecidableEq

/-- What the export uses: whether the depot has hashes (version 6 and later), `ZInflateStream` (what was
written, and whether it ended without `ZError`), `PackDirectory::get_data`, case folding. Serves the model of save_part_depot_config.cpp:269-320. -/
structure Env where
  hashes : Bool
  inflate : Bytes → Bytes × Bool
  pack : Bytes → Outcome (Option Bytes)
  fold : Bytes → Bytes

/-- A file written: one of an object, or an external file of it. Serves the model of save_part_depot_config.cpp:49-510. -/
inductive Item where
  | object (o : Nat) (contents : Bytes)
  | file (o : Nat) (name contents : Bytes)
  deriving DecidableEq

/-- A line in the list of what was deleted. Serves the model of save_part_depot_config.cpp:49-510. -/
inductive Gone where
  | object (o : Nat)
  | file (name : Bytes)
  deriving DecidableEq

/-- What was written, and the stream `in`. Serves the model of save_part_depot_config.cpp:257-358. -/
structure Out where
  items : List Item := []
  gone : List Gone := []
  buf : Bytes := []
  deriving DecidableEq

/-- Whether the object changed, and whether `in` is taken for its data (save_part_depot_config.cpp:269-320). Both blobs are read into
`out`, `in` is compared with the second. The hashes are compared through a field that is a null pointer
in a depot without hashes. -/
def changed (E : Env) (buf : Bytes) (rech1 : Option Hist) (r2 : Hist) : Outcome (Bool × Bool) :=
  match rech1 with
  | none => .ok (true, false)
  | some r1 =>
    if r1.packed then
      match r1.data with
      | none => .ok (true, false)
      | some _ =>
        let c : Bool × Bool := match r2.data with
          | some d2 => (decide (buf ≠ d2), true)
          | none => (true, false)
        if E.hashes then .ok (if r1.hash = r2.hash then (false, c.2) else c) else .ub
    else .ok (true, false)

/-- The data of a record: its blob, read into `in`, or else what the pack directory has (save_part_depot_config.cpp:328-352,
417-438). The second part is `in` afterwards. -/
def dataOf (E : Env) (buf : Bytes) (data : Option Bytes) (hash : Bytes) : Outcome (Bytes × Bytes) :=
  match data with
  | some d => .ok (d, d)
  | none =>
    if E.hashes then do
      match ← E.pack hash with
      | some d => .ok (d, buf)
      | none => .throw
    else .throw

/-- The file of the object (save_part_depot_config.cpp:257-358). A failure to inflate is not caught. -/
def objectFile (E : Env) (rech1 : Option Hist) (r2 : Hist) (o : Out) : Outcome Out :=
  if r2.packed then do
    let c ← changed E o.buf rech1 r2
    if c.1 then do
      let d ← if c.2 then .ok (o.buf, o.buf) else dataOf E o.buf r2.data r2.hash
      let r := E.inflate d.1
      if r.2 then .ok { o with items := o.items ++ [.object r2.obj r.1], buf := d.2 } else .throw
    else .ok o
  else .ok o

/-- The search for the record with the data of an external file (save_part_depot_config.cpp:391-416), backwards: the records before, the
version and the mark of the record looked at, and that record. -/
def searchBack (E : Env) (vb : Int) (cur : Nat) (name : Bytes) (verid : Nat) : List Ext → Int → Bool → Ext → Ext × Bool
  | [], _, packed, rece => (rece, packed)
  | x :: xs, v, packed, rece =>
    if packed = false ∧ v > vb then
      if x.obj ≠ cur then (x, packed)
      else if E.fold x.name ≠ E.fold name then searchBack E vb cur name verid xs v packed x
      else if verid = x.verid then
        if x.ver < vb then (x, packed) else searchBack E vb cur name verid xs x.ver x.packed x
      else searchBack E vb cur name verid xs v packed x
    else (rece, packed)

/-- One record of EXTERNALS of the object (375-462); `seen` are this record and those before it, backwards.
`ZInflateOrCopy` appends the data itself to what was inflated before a failure (UZLib.cpp:155-165). -/
def extOne (E : Env) (vb lastver : Int) (removed : Bool) (seen : List Ext) (e : Ext) (o : Out) : Outcome Out :=
  if e.ver = lastver then
    if removed then .ok { o with gone := o.gone ++ [.file e.name] }
    else
      let x := searchBack E vb e.obj e.name e.verid seen e.ver e.packed e
      if x.2 then do
        let d ← dataOf E o.buf x.1.data x.1.hash
        let r := E.inflate d.1
        .ok { o with items := o.items ++ [.file e.obj e.name (if r.2 then r.1 else r.1 ++ d.1)], buf := d.2 }
      else .ok o
  else .ok o

/-- The loop over EXTERNALS (save_part_depot_config.cpp:361-473): the records passed, backwards, and those left. -/
def takeExts (E : Env) (vb lastver : Int) (cur : Nat) (removed : Bool) : List Ext → List Ext → Out → Outcome ((List Ext × List Ext) × Out)
  | seen, [], o => .ok ((seen, []), o)
  | seen, e :: es, o =>
    if e.obj > cur then .ok ((seen, e :: es), o)
    else if e.obj = cur then do
      let o ← extOne E vb lastver removed (e :: seen) e o
      takeExts E vb lastver cur removed (e :: seen) es o
    else takeExts E vb lastver cur removed (e :: seen) es o

/-- The variables of the loop over HISTORY. Serves the model of save_part_depot_config.cpp:236-475. -/
structure St where
  cur : Nat := 0
  rech1 : Option Hist := none
  rech2 : Option Hist := none
  seen : List Ext := []
  rest : List Ext
  out : Out := {}

/-- The end of an object (save_part_depot_config.cpp:236-475). -/
def emit (E : Env) (vb : Int) (st : St) : Outcome St :=
  match st.rech2 with
  | none => .ok st
  | some r2 =>
    if r2.removed then
      if st.rech1.isSome then do
        let t ← takeExts E vb r2.ver st.cur true st.seen st.rest { st.out with gone := st.out.gone ++ [.object r2.obj] }
        .ok { st with seen := t.1.1, rest := t.1.2, out := t.2 }
      else .ok st
    else do
      let o ← objectFile E st.rech1 r2 st.out
      let t ← takeExts E vb r2.ver st.cur false st.seen st.rest o
      .ok { st with seen := t.1.1, rest := t.1.2, out := t.2 }

/-- The second half of the loop body (save_part_depot_config.cpp:482-496). -/
def look (vb ve : Int) (h : Hist) (st : St) : St :=
  if h.ver < vb then { st with rech1 := some h }
  else if h.ver ≤ ve then { st with rech2 := some h }
  else st

/-- One pass of the loop for a record (save_part_depot_config.cpp:228-496). -/
def step (E : Env) (vb ve : Int) (h : Hist) (st : St) : Outcome St :=
  if h.obj ≠ st.cur then do
    let st ← emit E vb st
    .ok (look vb ve h { st with cur := h.obj, rech1 := none, rech2 := none })
  else .ok (look vb ve h st)

/-- Serves the model of save_part_depot_config.cpp:49-510. -/
def loop (E : Env) (vb ve : Int) : List Hist → St → Outcome St
  | [], st => emit E vb st
  | h :: hs, st => do
    let st ← step E vb ve h st
    loop E vb ve hs st

/-- The loop over the versions (save_part_depot_config.cpp:124-146): a row counts for each of the two versions it is; the row with
which two are counted is kept. -/
def findRow (vb ve : Int) : Nat → List (Int × Nat) → Option (Int × Nat)
  | _, [] => none
  | n, r :: rs =>
    let n := n + (if r.1 = vb then 1 else 0) + (if r.1 = ve then 1 else 0)
    if n ≥ 2 then some r else findRow vb ve n rs

/-- `save_part_depot_config` (save_part_depot_config.cpp:49-510) with both versions normalised (property C53). `rows` are the versions
with the major versions of their structure, in the order of the table; `dir` is where to export to and `db` the file of the
database, both as the names in a path. The result is the directory of the files, the files, and the
list of what was deleted with the file it is written to. With an empty history a null pointer is used (234). -/
def savePart (E : Env) (rows : List (Int × Nat)) (a b : Int) (dir db : List Str) (hist : List Hist) (exts : List Ext) :
    Outcome (List Str × List Item × Option (List Str × List Gone)) :=
  let vb := if b < a then b else a
  let ve := if b < a then a else b
  match findRow vb ve 0 rows with
  | none => .throw
  | some row =>
    if hist.isEmpty then .ub
    else do
      let st ← loop E vb ve hist { rest := exts }
      .ok (if row.2 < 100 then dir ++ ["metadata".toList] else dir, st.out.items,
        if st.out.gone.isEmpty then none else some (db ++ ["deleted".toList], st.out.gone))

end Verif.Depot.Part
