import Verif.Db.Open
import Verif.Lost.Model
import Verif.Object.Transfer
import Verif.Object.Whole

/-!
# The list of tables (Class_1CD.cpp:1705-1870)

`T_1CD::delete_table` gives the pages of a table back and takes it off the list kept in the root object;
`T_1CD::find_and_create_lost_tables` puts descriptions of tables that no open object covers onto the list.
-/

namespace Verif.Tables
open Verif Object

/-- `delete_object` (Class_1CD.cpp:1760-1766) of a file that may be missing: nothing to do. -/
def deleteOpt (e : Env) (o : Option Obj) (s : St) : Outcome St :=
  match o with
  | none => .ok s
  | some o => deleteObject id (setFree e) o s

/-- The first half of `delete_table` (Class_1CD.cpp:1713-1718): description, data, blobs, index. The number of the description's header
page is read first; without a description a null pointer is used. -/
def deleteFiles (e : Env) (t : Transfer.Files) (s : St) : Outcome (Nat × St) :=
  match t.descr with
  | none => .ub
  | some d => do
    let s ← deleteObject id (setFree e) d s
    let s ← deleteOpt e t.data s
    let s ← deleteOpt e t.blob s
    let s ← deleteOpt e t.index s
    .ok (d.block, s)

/-- `for(; i < n; i++) a[i] = a[i + 1]`, `n` one less than the number of entries (Class_1CD.cpp:1730, 1742, 1749): the entries move down by
one, the last one stays in its place as well. -/
def shiftDown {α : Type} : List α → List α
  | [] => []
  | [b] => [b]
  | _ :: c :: r => c :: shiftDown (c :: r)

/-- The two loops (Class_1CD.cpp:1728-1730, 1740-1742, 1747-1749): find the first entry equal to `bl`, move the entries after it. -/
def shiftOut {α : Type} [DecidableEq α] (bl : α) : List α → List α
  | [] => []
  | b :: r => if b = bl then shiftDown (b :: r) else b :: shiftOut bl r

/-- The list of tables in memory after `num_tables--` (Class_1CD.cpp:1728-1730). Simplification: tables are compared by the objects they
hold, not by address. -/
def removeTable (t : Transfer.Files) (ts : List Transfer.Files) : List Transfer.Files := (shiftOut t ts).dropLast

/-- What becomes of the contents of the root object (Class_1CD.cpp:1737-1750). `numblocks` is signed: with a negative number only the
number changes. -/
def removeBlock (v : Db.Ver) (data : Bytes) (bl : Nat) : Outcome Bytes := do
  let n ← rd32 data (Db.langSize v)
  if n = 2 ^ 31 then .ub
  else if n > 2 ^ 31 then .ok (splice data (Db.langSize v) (le32 (n - 1)))
  else do
    let bs ← Db.readBlocks data (Db.langSize v + 4) n
    .ok (splice (splice data (Db.langSize v) (le32 ((n + (2 ^ 32 - 1)) % 2 ^ 32))) (Db.langSize v + 4) ((shiftOut bl bs).flatMap le32))

/-- Reading, changing and writing the root object (Class_1CD.cpp:1733-1751). -/
def dropFromList (e : Env) (v : Db.Ver) (readonly : Bool) (fuel : Nat) (s : St) (root : Obj) (bl : Nat) : Outcome (Option (St × Obj)) := do
  let data ← getPart s.pages e.P root 0 root.len
  let data ← removeBlock v data bl
  setWhole e readonly fuel s root (data.take (root.len - 4))

/-- The database as `delete_table` sees it. Serves the model of Class_1CD.cpp:1705-1757. -/
structure Base where
  st : St
  root : Obj
  tables : List Transfer.Files

/-- `T_1CD::delete_table` (Class_1CD.cpp:1705-1757), with the value it returns. `none`: storing the list does not return within `fuel`
turns. -/
def deleteTable (e : Env) (v : Db.Ver) (readonly : Bool) (fuel : Nat) (b : Base) (t : Transfer.Files) : Outcome (Option (Base × Bool)) :=
  if t.descr = none then .ub
  else if b.tables = [] then .ok (some (b, false))
  else do
    let (bl, s) ← deleteFiles e t b.st
    match ← dropFromList e v readonly fuel s b.root bl with
    | none => .ok none
    | some (s, root) => .ok (some (⟨s, root, removeTable t b.tables⟩, true))

/-- `SIG_TABDESCR` (Constants.h:33). -/
def sigDescr : Bytes := [0x7b, 0, 0x22, 0]

/-- The first bytes of a lost object are those of a description (Class_1CD.cpp:1829-1846); an exception while reading is ignored. -/
def isDescr (pages : List Bytes) (P : Nat) (o : Obj) : Outcome Bool :=
  if getLen o > 3 then
    match getPart pages P o 0 4 with
    | .ok b => .ok (decide (b = sigDescr))
    | .throw => .ok false
    | .ub => .ub
  else .ok false

/-- The search of `find_and_create_lost_tables` (Class_1CD.cpp:1807-1849). An object that cannot be opened ends it with an exception. -/
def lostTables (pages : List Bytes) (P : Nat) (is838 : Bool) (r : Lost.Registry) : List Nat → Outcome (List Nat)
  | [] => .ok []
  | i :: is => do
    let lost ← Lost.isLost pages r i
    if lost then do
      let o ← init pages P is838 i
      let d ← isDescr pages P o
      let rest ← lostTables pages P is838 r is
      .ok (if d then i :: rest else rest)
    else lostTables pages P is838 r is

/-- What becomes of the contents of the root object (Class_1CD.cpp:1853-1866): the buffer is longer by the new entries and otherwise
uninitialised; the entries are put after the last one, wherever the contents end. -/
def addBlocks (v : Db.Ver) (junk : Nat → UInt8) (data : Bytes) (ls : List Nat) : Outcome Bytes := do
  let n ← rd32 data (Db.langSize v)
  let b := data ++ (List.range (4 * ls.length)).map junk
  if n ≥ 2 ^ 31 ∨ Db.langSize v + 4 + 4 * (n + ls.length) > b.length then .ub
  else .ok (splice (splice b (Db.langSize v + 4 + 4 * n) (ls.flatMap le32)) (Db.langSize v) (le32 ((n + ls.length) % 2 ^ 32)))

/-- `T_1CD::find_and_create_lost_tables` (Class_1CD.cpp:1798-1874), with the number it reports. -/
def restore (e : Env) (v : Db.Ver) (readonly : Bool) (fuel : Nat) (junk : Nat → UInt8) (r : Lost.Registry) (s : St) (root : Obj) :
    Outcome (Option (St × Obj × Nat)) := do
  let ls ← lostTables s.pages e.P (decide (v = .v8_3_8)) r (Lost.candidates s.pages)
  if ls = [] then .ok (some (s, root, 0))
  else do
    let data ← getPart s.pages e.P root 0 root.len
    let data ← addBlocks v junk data ls
    match ← setWhole e readonly fuel s root data with
    | none => .ok none
    | some (s, root) => .ok (some (s, root, ls.length))

end Verif.Tables
