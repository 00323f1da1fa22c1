import Verif.Tables.Model

/-! # Creating a table from a folder (Class_1CD.cpp:1204-1387, `T_1CD::create_table`) -/

namespace Verif.Tables
open Verif Object

/-- The loop that deletes the tables of the same name (Class_1CD.cpp:1254-1258): the number goes on by one also after a table has been taken
out of the list. `same` compares the name of a table with that in the folder; `n` is the number of turns left. -/
def deleteSame (e : Env) (v : Db.Ver) (ro : Bool) (fuel : Nat) (same : Transfer.Files → Bool) : Nat → Nat → Base → Outcome (Option Base)
  | 0, _, b => .ok (some b)
  | n + 1, j, b =>
    match b.tables[j]? with
    | none => .ok (some b)
    | some t =>
      if same t then do
        match ← deleteTable e v ro fuel b t with
        | none => .ok none
        | some (b, _) => deleteSame e v ro fuel same n (j + 1) b
      else deleteSame e v ro fuel same n (j + 1) b

/-- `if(root->has_descr) { … if(fopen) …` (Class_1CD.cpp:1326-1339): `fopen` has not been given a value. -/
def createDescr (root : Bytes) (b : Base) : Outcome (Option (Base × Bool)) := do
  let h ← Transfer.flag root 3
  if h then .ub else .ok (some (b, true))

/-- `T_1CD::create_table` (Class_1CD.cpp:1204-1387). `none`: it does not return. The folder is there; `named` is the name the description in
the folder gives (parsing may fail), `same` compares a table with a name. Not modelled: the flush at the end. -/
def createTable (e : Env) (v : Db.Ver) (ro : Bool) (fuel : Nat) (named : Bytes → Outcome Bytes) (same : Bytes → Transfer.Files → Bool)
    (f : Transfer.Folder) (b : Base) : Outcome (Option (Base × Bool)) := do
  let root := (f.root.getD []).take 36
  let name ← named (f.descr.getD [])
  match ← deleteSame e v ro fuel (same name) b.tables.length 0 b with
  | none => .ok none
  | some b =>
    match ← Transfer.importIf e ro fuel (decide (v = .v8_3_8)) root 0 f.data b.st none with
    | none => .ok none
    | some (s, _) =>
      match ← Transfer.importIf e ro fuel (decide (v = .v8_3_8)) root 1 f.blob s none with
      | none => .ok none
      | some (s, _) =>
        match ← Transfer.importIf e ro fuel (decide (v = .v8_3_8)) root 2 f.index s none with
        | none => .ok none
        | some (s, _) => createDescr root { b with st := s }

end Verif.Tables
