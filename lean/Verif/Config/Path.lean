import Verif.Basic

/-!
# Paths inside a container (src/tool1cd/ConfigStorage.cpp)

Directories and entries are abstract: `getFile` is `V8Catalog::get_file`, `catalog` is `V8File::get_catalog`
(null as `none`). The container is open.
-/

namespace Verif.Config
open Verif

/-- Serves the model of ConfigStorage.cpp:127-141. -/
structure Cats (C F : Type) where
  getFile : C → Str → Option F
  catalog : F → Option C

/-- `StringReplace(path, "/", "\\", rfReplaceAll)` (property C09). Serves the model of ConfigStorage.cpp:119-152. -/
def backslashes (path : Str) : Str := path.map (fun c => if c = '/' then '\\' else c)

/-- `fname.find("\\")`. Serves the model of ConfigStorage.cpp:127-141. -/
def findSep : Str → Option Nat
  | [] => none
  | c :: s => if c = '\\' then some 0 else (findSep s).map (· + 1)

/-- `fname.substr(0, i - 1)` with `size_t` arithmetic: for `i = 0` the count is `npos`. Serves the model of ConfigStorage.cpp:127-141. -/
def beforeSep (s : Str) (i : Nat) : Str := if i = 0 then s else s.take (i - 1)

/-- The loop of `ConfigStorageCFFile::readfile` (ConfigStorage.cpp:127-141) and of
`ConfigStorageTable::readfile` inside a file (ConfigStorage.cpp:442-459). Each pass shortens the name, so its length
bounds the passes. -/
def walkPath (K : Cats C F) : Nat → C → Str → Option F
  | 0, _, _ => none
  | fuel + 1, c, fname =>
    match findSep fname with
    | none => K.getFile c fname
    | some i =>
      match K.getFile c (beforeSep fname i) with
      | none => none
      | some f =>
        match K.catalog f with
        | none => none
        | some c => walkPath K fuel c (fname.drop (i + 1))

/-- `ConfigStorageCFFile::readfile` (ConfigStorage.cpp:119-152) up to opening the entry. -/
def readPath (K : Cats C F) (root : C) (path : Str) : Option F :=
  walkPath K (path.length + 1) root (backslashes path)

/-- `ConfigStorageCFFile::fileexists` (ConfigStorage.cpp:192-210). -/
def pathExists (K : Cats C F) (root : C) (path : Str) : Bool :=
  let fname := backslashes path
  let fname := match findSep fname with
    | some i => beforeSep fname i
    | none => fname
  (K.getFile root fname).isSome

/-- The directories created by `ConfigStorageCFFile::writefile` (ConfigStorage.cpp:155-173), outermost first, and the entry
written in the last of them. -/
def writeTarget : Nat → Str → List Str × Str
  | 0, fname => ([], fname)
  | fuel + 1, fname =>
    match findSep fname with
    | none => ([], fname)
    | some i =>
      let r := writeTarget fuel (fname.drop (i + 1))
      (beforeSep fname i :: r.1, r.2)

/-- Built on ConfigStorage.cpp:155-173. -/
def writePath (path : Str) : List Str × Str := writeTarget (path.length + 1) (backslashes path)

/-- The file of the table addressed by `ConfigStorageTable::readfile` (ConfigStorage.cpp:421-437) and what is left of
the path. -/
def topLevel (path : Str) : Str × Str :=
  let fname := backslashes path
  match findSep fname with
  | some i => (beforeSep fname i, fname.drop (i + 1))
  | none => (fname, [])

end Verif.Config
