import Verif.Cli.Model
import Verif.Vendor.Model

/-!
# Running the program (src/ctool1cd/App.cpp, cTool_1CD_Main.cpp; src/tool1cd/Messenger.cpp, MessageRegistration.cpp, Common.cpp)

What the library does for a command (saving, exporting) is given by the opened database, a parameter. A command may change files,
emit messages and then fail, so a step gives the new state also when it raises an exception. The text of a message is not modelled,
only what it is about and whether it is an error. Paths are the POSIX ones; two different paths are taken to be
different files.
-/

namespace Verif.App
open Verif Verif.Cli

/-- Serves the model of Common.cpp:172-188. -/
abbrev Path := Bytes

/-- What is at a path. Serves the model of Messenger.cpp:45-63. -/
inductive Entry where
  | dir
  | file (contents : Bytes)
  deriving DecidableEq

/-- Serves the model of Messenger.cpp:45-63. -/
abbrev Fs := Path → Option Entry

/-- The messages of the program itself (App.cpp; Common.cpp:172-188; MessageRegistration.h). `other` is one of the library or of
a command that is a parameter, `true`: an error. -/
inductive Msg where
  | note (n : Note)
  | noDatabase | noFile (p : Path) | opened (p : Path) | notOpened
  | notInfobase | notDepot | noVersion (v : Int)
  | noDir (p : Path) | notDir (p : Path)
  | saved (p : Path) | notSaved (p : Path)
  | thrown
  | other (error : Bool)
  deriving DecidableEq

/-- `MessageState::Error` (MessageRegistration.h:28-36) of the messages. -/
def Msg.error : Msg → Bool
  | .opened _ => false
  | .saved _ => false
  | .other e => e
  | _ => true

/-- `Messenger` (Messenger.h:26-42; Messenger.cpp:29-35). `noverbose` is stored; `has_error` too. -/
structure Messenger where
  logfile : Bytes := []
  noverbose : Bool := false
  hasError : Bool := false
  deriving DecidableEq

/-- Files, the state of the opened database, the messages to the console, and to the log file. Serves the model of Messenger.cpp:45-63. -/
structure Sys (σ : Type) where
  fs : Fs
  db : σ
  mess : Messenger := {}
  console : List Msg := []
  log : List (Path × Msg) := []

/-- A step: undefined, or the state it leaves and its result, `none` for an exception. Serves the model of Common.cpp:172-188. -/
def Step (σ α : Type) := Sys σ → Outcome (Sys σ × Option α)

namespace Step
variable {σ α β : Type}

/-- Built on Common.cpp:172-188. -/
def ret (a : α) : Step σ α := fun s => .ok (s, some a)

/-- Serves the model of App.cpp:615-682. -/
def throw : Step σ α := fun s => .ok (s, none)

/-- Built on App.cpp:615-682. -/
def next (m : Step σ α) (f : α → Step σ β) : Step σ β := fun s =>
  match m s with
  | .ok (s', some a) => f a s'
  | .ok (s', none) => .ok (s', none)
  | .throw => .throw
  | .ub => .ub

end Step

instance {σ : Type} : Monad (Step σ) where
  pure := Step.ret
  bind := Step.next

/-- A computation without effects whose exception is one of the program. Serves the model of App.cpp:408-446. -/
def lift {σ α : Type} (x : Outcome α) : Step σ α := fun s =>
  match x with
  | .ok a => .ok (s, some a)
  | .throw => .ok (s, none)
  | .ub => .ub

/-- `Messenger::AddDetailedMessage` (Messenger.cpp:45-63) through `Registrator` (MessageRegistration.cpp:77-83): to the log
file if one is set, else to `cerr`. `minimal_state` is `Empty`, below all others. Neither `noverbose` nor `has_error` is touched. That
a log file cannot be opened is not modelled. -/
def Sys.add {σ : Type} (s : Sys σ) (m : Msg) : Sys σ :=
  if s.mess.logfile.isEmpty then { s with console := s.console ++ [m] } else { s with log := s.log ++ [(s.mess.logfile, m)] }

/-- Serves the model of App.cpp:306-312. -/
def say {σ : Type} (m : Msg) : Step σ Unit := fun s => .ok (s.add m, some ())

/-- `path::extension` (boost, as the program uses it) on the path's text: from the last point of the last component; none
for a path that ends with a slash, and for `.` and `..`. Serves the model of App.cpp:299-304, 332-337, 433-438. -/
def extension (p : Path) : Bytes :=
  let name := (p.reverse.takeWhile (· ≠ 47)).reverse
  if name = [46] ∨ name = [46, 46] then []
  else if name.contains 46 then 46 :: (name.reverse.takeWhile (· ≠ 46)).reverse else []

/-- `boost::iequals(…, ".cf")`: in the classic locale. Serves the model of App.cpp:299-304, 332-337, 433-438. -/
def isCf (e : Bytes) : Bool :=
  decide (e.map (fun c => if 65 ≤ c.toNat ∧ c.toNat ≤ 90 then c + 32 else c) = asc ".cf")

/-- `path::operator/=` (boost): a slash between them unless there is one. Serves the model of App.cpp:299-304, 332-337, 433-438. -/
def slash (p name : Path) : Path :=
  if p = [] ∨ p.getLast? = some 47 ∨ name.head? = some 47 then p ++ name else p ++ 47 :: name

/-- The surroundings: `boost::filesystem::absolute`, which files can be created, which directories can be. Serves the model of Common.cpp:172-188. -/
structure Env where
  absolute : Path → Path
  creatable : Fs → Path → Bool
  makable : Fs → Path → Bool

/-- A table, for its sizes: name, number of records, lengths of its files if it has them. Serves the model of App.cpp:530-534. -/
structure TableSize where
  name : Bytes
  records : Nat
  data : Option Nat
  blob : Option Nat
  index : Option Nat
  deriving DecidableEq

/-- A vendor configuration of the list. Serves the model of App.cpp:361-371. -/
structure Vendor (σ : Type) where
  name : Bytes
  version : Bytes
  save : Path → Step σ Bool

/-- What the opened database does for the commands. Serves the model of App.cpp:291-314, 325-345. -/
structure Base (σ : Type) where
  infobase : Bool
  depot : Bool
  tables : List TableSize
  saveConfig : Path → Step σ Bool
  saveConfigSave : Path → Step σ Bool
  vendors : Step σ (List (Vendor σ))
  depotVersion : Int → Step σ Int
  saveDepot : Path → Int → Step σ Bool
  savePart : Path → Int → Int → Step σ Bool
  saveLost : Path → Step σ Unit
  exportAll : Path → Step σ Unit
  exportXml : Path → Bytes → Step σ Unit
  exportBinary : Path → Bytes → Step σ Unit
  importBinary : Path → Bytes → Step σ Unit

/-- `directory_exists` (Common.cpp:172-188). -/
def directoryExists {σ : Type} (e : Env) (p : Path) (create : Bool) : Step σ Bool := fun s =>
  match s.fs p with
  | none =>
    if create then
      if e.makable s.fs p then .ok ({ s with fs := fun q => if q = p then some .dir else s.fs q }, some true)
      else .ok (s, none)
    else .ok (s.add (.noDir p), some false)
  | some (.file _) => .ok (s.add (.notDir p), some false)
  | some .dir => .ok (s, some true)

/-- `if (!boost::iequals(cfpath.extension().string(), CF_STR)) …` (App.cpp:299-304, 332-337, 433-438): where a
configuration is saved, nowhere if the directory is not there. -/
def place {σ : Type} (e : Env) (p : Path) (name : Bytes) : Step σ (Option Path) :=
  if isCf (extension p) then pure (some p)
  else do
    let b ← directoryExists e p false
    pure (if b then some (slash p name) else none)

/-- The message about the outcome (for example App.cpp:306-312). -/
def report {σ : Type} (p : Path) (ok : Bool) : Step σ Unit := say (if ok then .saved p else .notSaved p)

/-- Save to the place, if there is one. Serves the model of App.cpp:291-314, 325-345. -/
def saveAt {σ : Type} (save : Path → Step σ Bool) : Option Path → Step σ Unit
  | none => pure ()
  | some p => do
    let ok ← save p
    report p ok

/-- `App::save_config(const path&)` and `App::save_configsave(const path&)` (App.cpp:291-314, 325-345). -/
def saveConf {σ : Type} (e : Env) (b : Base σ) (save : Path → Step σ Bool) (name : Bytes) (p : Path) : Step σ Unit :=
  if b.infobase then do
    let q ← place e p name
    saveAt save q
  else say .notInfobase

/-- The loop of `App::save_vendors_configs(const path&)` (App.cpp:361-371). -/
def saveVendorList {σ : Type} (p : Path) : List (Vendor σ) → Step σ Unit
  | [] => pure ()
  | v :: vs => do
    saveAt v.save (some (slash p (v.name ++ asc " " ++ v.version ++ asc ".cf")))
    saveVendorList p vs

/-- `App::save_vendors_configs(const path&)` (App.cpp:355-372). -/
def saveVendors {σ : Type} (b : Base σ) (p : Path) : Step σ Unit :=
  if b.infobase then do
    let vs ← b.vendors
    saveVendorList p vs
  else say .notInfobase

/-- `App::save_all_configs` (App.cpp:387-405) in the directory. -/
def saveAllConfigs {σ : Type} (e : Env) (b : Base σ) (p : Path) : Step σ Unit :=
  if b.infobase then do
    saveConf e b b.saveConfig (asc "dbcf.cf") (slash p (asc "dbcf.cf"))
    saveConf e b b.saveConfigSave (asc "cf.cf") (slash p (asc "cf.cf"))
    saveVendors b p
  else say .notInfobase

/-- Run the rest if the directory is there. Serves the model of App.cpp:475-501. -/
def inDir {σ : Type} (e : Env) (p : Path) (create : Bool) (rest : Step σ Unit) : Step σ Unit := do
  let b ← directoryExists e p create
  if b then rest else pure ()

/-- `std::to_string`. Serves the model of App.cpp:421-445. -/
def toString (z : Int) : Bytes :=
  (if z < 0 then [45] else []) ++ (Nat.toDigits 10 z.natAbs).map fun c => UInt8.ofNat c.toNat

/-- The rest of `App::save_depot_config` once the version is known (App.cpp:421-445). -/
def saveDepotVersion {σ : Type} (e : Env) (b : Base σ) (p : Path) (v : Int) : Step σ Unit :=
  if v = 0 then say (.noVersion 0)
  else do
    let q ← place e (e.absolute p) (asc "v" ++ toString v ++ asc ".cf")
    saveAt (fun q => b.saveDepot q v) q

/-- `App::save_depot_config` (App.cpp:408-446). -/
def saveDepotConfig {σ : Type} (e : Env) (b : Base σ) (pc : Parsed) : Step σ Unit :=
  if b.depot then do
    let n ← lift (if pc.param1 = asc "0" then .ok 0 else toIntDef pc.param1 0)
    let v ← b.depotVersion n
    saveDepotVersion e b pc.param2 v
  else say .notDepot

/-- The rest of `App::save_depot_config_part` (App.cpp:475-501). -/
def saveDepotPart {σ : Type} (e : Env) (b : Base σ) (p : Path) (r : Int × Int) : Step σ Unit := do
  let v ← b.depotVersion r.1
  if v = 0 then say (.noVersion v)
  else do
    let w ← b.depotVersion r.2
    if w = 0 then say (.noVersion w)
    else inDir e p true (do
      let ok ← b.savePart p v w
      report p ok)

/-- `App::save_depot_config_part` (App.cpp:449-502). -/
def saveDepotConfigPart {σ : Type} (e : Env) (b : Base σ) (pc : Parsed) : Step σ Unit :=
  if b.depot then do
    let r ← lift (versionRange pc.param1)
    saveDepotPart e b pc.param2 r
  else say .notDepot

/-- A number as `int`. Serves the model of App.cpp:49-55. -/
def int32 (n : Nat) : Int := if n % 2 ^ 32 < 2 ^ 31 then (n % 2 ^ 32 : Nat) else ((n % 2 ^ 32 : Nat) : Int) - (2 ^ 32 : Nat)

/-- `object_size` (App.cpp:49-55): `uint64_t` as `int`. -/
def objectSize : Option Nat → Int
  | none => 0
  | some n => int32 n

/-- One line of the file of sizes (App.cpp:530-534). -/
def sizeLine (t : TableSize) : Bytes :=
  t.name ++ asc "|" ++ toString t.records ++ asc "|" ++ toString (objectSize t.data) ++ asc "|" ++
    toString (objectSize t.blob) ++ asc "|" ++ toString (objectSize t.index) ++ [13, 10]

/-- The file of sizes (App.cpp:521-536). -/
def sizesText (ts : List TableSize) : Bytes :=
  [0xEF, 0xBB, 0xBF] ++ asc "table_name|records_count|data_size|blob_size|index_size" ++ [13, 10] ++ ts.flatMap sizeLine

/-- `App::save_tables_sizes` (App.cpp:516-537); whether the file could be created is not looked at. -/
def saveSizes {σ : Type} (e : Env) (b : Base σ) (p : Path) : Step σ Unit := fun s =>
  .ok (if e.creatable s.fs p then { s with fs := fun q => if q = p then some (.file (sizesText b.tables)) else s.fs q } else s,
    some ())

/-- One command (App.cpp:616-666). -/
def command {σ : Type} (e : Env) (b : Base σ) (pc : Parsed) : Step σ Unit :=
  match pc.command with
  | .export_all_to_xml => inDir e pc.param1 false (b.exportAll pc.param1)
  | .export_to_xml => inDir e pc.param1 false (b.exportXml pc.param1 pc.param2)
  | .save_config => saveConf e b b.saveConfig (asc "dbcf.cf") pc.param1
  | .save_configsave => saveConf e b b.saveConfigSave (asc "cf.cf") pc.param1
  | .save_vendors_configs => inDir e pc.param1 false (saveVendors b pc.param1)
  | .save_all_configs => inDir e pc.param1 false (saveAllConfigs e b pc.param1)
  | .save_depot_config => saveDepotConfig e b pc
  | .save_depot_config_part => saveDepotConfigPart e b pc
  | .export_to_binary => inDir e pc.param1 false (b.exportBinary pc.param1 pc.param2)
  | .import_from_binary => inDir e pc.param1 false (b.importBinary pc.param1 pc.param2)
  | .find_and_save_lost_objects => inDir e pc.param1 false (b.saveLost pc.param1)
  | .save_tables_size => saveSizes e b pc.param1
  | _ => pure ()

/-- One turn of the second loop: whatever a command raises is caught and reported (App.cpp:615-682). -/
def turn {σ : Type} (e : Env) (b : Base σ) (pc : Parsed) : Step σ Unit := fun s =>
  match command e b pc s with
  | .ok (s', some ()) => .ok (s', some ())
  | .ok (s', none) => .ok (s'.add .thrown, some ())
  | .throw => .throw
  | .ub => .ub

/-- The second loop of `App::Run` (App.cpp:614-683). -/
def turns {σ : Type} (e : Env) (b : Base σ) : List Parsed → Step σ Unit
  | [] => pure ()
  | pc :: cs => do
    turn e b pc
    turns e b cs

/-- `Messenger::setlogfile` (Messenger.cpp:66-70). -/
def setLog {σ : Type} (e : Env) (p : Path) : Step σ Unit := fun s =>
  .ok ({ s with mess := { s.mess with logfile := e.absolute p },
                fs := fun q => if q = e.absolute p ∧ (s.fs q).isSome then none else s.fs q }, some ())

/-- Effects of the first loop of `App::Run` (App.cpp:559-583), the values of the options apart: `false` if help was asked
for. -/
def prepare {σ : Type} (e : Env) : List Parsed → Step σ Bool
  | [] => pure true
  | pc :: cs =>
    match pc.command with
    | .help => pure false
    | .no_verbose => fun s => prepare e cs { s with mess := { s.mess with noverbose := true } }
    | .logfile => do
      setLog e pc.param1
      prepare e cs
    | .xml_blob_to_file => do
      let _ ← lift (isTrueString pc.param1)
      prepare e cs
    | .xml_parse_blob => do
      let _ ← lift (isTrueString pc.param1)
      prepare e cs
    | _ => prepare e cs

/-- `ErrorCode.h`. -/
def invalidArgument : Int := -71
/-- Serves the model of App.cpp:585-599. -/
def fileNotExists : Int := -81
/-- Serves the model of App.cpp:548-686. -/
def fileNotOpen : Int := -82
/-- Serves the model of cTool_1CD_Main.cpp:34-53. -/
def anyError : Int := -50

/-- `App::Run` (App.cpp:548-686) from the opening on, for the path of the database. `openBase` is the constructor of `T_1CD` and
`is_open`; an exception of it leaves the program (`App::Run` has no handler around it). -/
def runOpen {σ : Type} (e : Env) (openBase : Path → Step σ (Option (Base σ))) (cs : List Parsed) (p : Path) : Step σ Int := do
  let o ← openBase p
  match o with
  | none => do
    say .notOpened
    pure fileNotOpen
  | some b => do
    say (.opened p)
    turns e b cs
    pure 0

/-- `boost::filesystem::exists`. Serves the model of App.cpp:585-599. -/
def fileExists {σ : Type} (p : Path) : Step σ Bool := fun s => .ok (s, some (s.fs p).isSome)

/-- `App::Run` (App.cpp:585-599) behind the first loop. -/
def runFile {σ : Type} (e : Env) (openBase : Path → Step σ (Option (Base σ))) (cs : List Parsed) (file : Bytes) : Step σ Int :=
  if file = [] then do
    say .noDatabase
    pure invalidArgument
  else do
    let x ← fileExists (e.absolute file)
    if x then runOpen e openBase cs (e.absolute file)
    else do
      say (.noFile (e.absolute file))
      pure fileNotExists

/-- `App::Run` (App.cpp:548-686). -/
def run {σ : Type} (e : Env) (openBase : Path → Step σ (Option (Base σ))) (cs : List Parsed) (file : Bytes) : Step σ Int :=
  if cs = [] then pure 0
  else do
    let go ← prepare e cs
    if go then runFile e openBase cs file else pure 0

/-- The messages of the parser, emitted while `App` is constructed. Serves the model of cTool_1CD_Main.cpp:34-53. -/
def sayAll {σ : Type} : List Msg → Step σ Unit
  | [] => pure ()
  | m :: ms => do
    say m
    sayAll ms

/-- `has_error` of the messenger, looked at by `main`. Serves the model of Messenger.h:26-42. -/
def hasError {σ : Type} : Step σ Bool := fun s => .ok (s, some s.mess.hasError)

/-- `main` (cTool_1CD_Main.cpp:34-53) on what the parser made of the command line. -/
def main {σ : Type} (e : Env) (openBase : Path → Step σ (Option (Base σ))) (st : State) : Step σ Int := do
  sayAll (st.notes.map .note)
  let r ← run e openBase st.commands st.filename
  if r ≠ 0 then pure r
  else do
    let x ← hasError
    pure (if x then anyError else 0)

end Verif.App
