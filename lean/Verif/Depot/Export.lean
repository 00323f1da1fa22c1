import Verif.Basic

/-!
# Exporting a version of a configuration depot (src/tool1cd/save_depot_config.cpp:272-391)

Object identifiers are numbers: a GUID is compared byte by byte (BinaryGuid.cpp:50-64,
208-219), which is the order of the 16 bytes read as one number. `fold` is the case folding
behind `EqualIC` (property C11). The contents of records and the writing of the result
are left out; a record of the result stands for the data and identifiers stored under it.
-/

namespace Verif.Depot
open Verif

/-- A record of HISTORY, in the order of the index PK. `packed` says that DATAPACKED is neither null
nor false. Serves the model of save_depot_config.cpp:366-390. -/
structure Hist where
  obj : Nat
  ver : Int
  removed : Bool
  packed : Bool
  tag : Nat
  deriving DecidableEq

/-- A record of EXTERNALS, in the order of the index PK. Serves the model of save_depot_config.cpp:321-332. -/
structure Ext where
  obj : Nat
  ver : Int
  name : Bytes
  packed : Bool
  tag : Nat
  deriving DecidableEq

/-- The search in `reces` (save_depot_config.cpp:321-332): the first record with this name is
replaced, or the record is added. -/
def putRec (fold : Bytes → Bytes) (e : Ext) : List Ext → List Ext
  | [] => [e]
  | r :: rs => if fold e.name = fold r.name then e :: rs else r :: putRec fold e rs

/-- The loop over EXTERNALS (save_depot_config.cpp:310-339) for the object `cur`: the records left
to the iterator, `reces` and `extnames`. -/
def takeExts (fold : Bytes → Bytes) (ver lastver : Int) (cur : Nat) :
    List Ext → List Ext → List Bytes → List Ext × List Ext × List Bytes
  | [], reces, names => ([], reces, names)
  | e :: es, reces, names =>
    if e.obj > cur then (e :: es, reces, names)
    else if e.obj = cur then
      takeExts fold ver lastver cur es (if e.ver ≤ ver ∧ e.packed then putRec fold e reces else reces)
        (if e.ver = lastver then names ++ [e.name] else names)
    else takeExts fold ver lastver cur es reces names

/-- The variables of the loop over HISTORY. Serves the model of save_depot_config.cpp:286-360. -/
structure St where
  cur : Nat := 0
  lastver : Int := -1
  lastremoved : Bool := true
  rech1 : Option Hist := none
  exts : List Ext
  out : List (Hist × List Ext) := []

/-- `if(!lastremoved) { … }` (save_depot_config.cpp:286-360). `rech1` is a pointer. -/
def emit (fold : Bytes → Bytes) (ver : Int) (st : St) : Outcome St :=
  if st.lastremoved then .ok st
  else
    match st.rech1 with
    | none => .ub
    | some r =>
      let t := takeExts fold ver st.lastver st.cur st.exts [] []
      .ok { st with
        exts := t.1
        out := st.out ++ [(r, t.2.1.filter (fun e => t.2.2.any (fun n => fold n = fold e.name)))] }

/-- The second half of the loop body (save_depot_config.cpp:366-390). -/
def look (ver : Int) (h : Hist) (st : St) : St :=
  if h.ver ≤ ver then
    if h.removed then { st with lastremoved := true }
    else if h.packed then { st with rech1 := some h, lastremoved := false, lastver := h.ver }
    else st
  else st

/-- One pass of the loop for a record (save_depot_config.cpp:278-390). -/
def step (fold : Bytes → Bytes) (ver : Int) (h : Hist) (st : St) : Outcome St :=
  if h.obj ≠ st.cur then do
    let st ← emit fold ver st
    .ok (look ver h { st with cur := h.obj, lastremoved := true })
  else .ok (look ver h st)

/-- Serves the model of save_depot_config.cpp:284. -/
def loop (fold : Bytes → Bytes) (ver : Int) : List Hist → St → Outcome St
  | [], st => emit fold ver st
  | h :: hs, st => do
    let st ← step fold ver h st
    loop fold ver hs st

/-- The objects exported for version `ver` with their external data. With an empty history the
last pass dereferences a null pointer (save_depot_config.cpp:284). -/
def exportDepot (fold : Bytes → Bytes) (ver : Int) (hist : List Hist) (exts : List Ext) :
    Outcome (List (Hist × List Ext)) :=
  if hist.isEmpty then .ub
  else do
    let st ← loop fold ver hist { exts := exts }
    .ok st.out

end Verif.Depot
