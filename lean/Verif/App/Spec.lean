import Verif.App.Model

/-! # Specification vocabulary: running the program -/

namespace Verif.App.Spec
open Verif Verif.Cli

/-- A text. -/
def word (s : String) : Bytes := s.toList.map fun c => UInt8.ofNat c.toNat

/-- The path ends with `.cf`, in any case. -/
def EndsCf (p : Path) : Prop :=
  ∃ pre a b, p = pre ++ [46, a, b] ∧ (a = 99 ∨ a = 67) ∧ (b = 102 ∨ b = 70)

/-- The file of this name in a directory. -/
def Within (dir leaf p : Path) : Prop :=
  (dir ≠ [] ∧ dir.getLast? ≠ some 47 ∧ p = dir ++ [47] ++ leaf) ∨ ((dir = [] ∨ dir.getLast? = some 47) ∧ p = dir ++ leaf)

/-- Where a configuration given this path is saved: there, if it ends with `.cf`, else under the default name in this
directory. -/
def Target (p leaf q : Path) : Prop := (EndsCf p ∧ q = p) ∨ (¬ EndsCf p ∧ Within p leaf q)

/-- Decimal digits of a number, without leading zeros. -/
def Decimal (b : Bytes) (n : Nat) : Prop :=
  ∃ ds : List Nat, b = ds.map (fun d => UInt8.ofNat (48 + d)) ∧ (∀ d ∈ ds, d < 10) ∧ ds.foldl (fun a d => 10 * a + d) 0 = n ∧
    (ds = [0] ∨ ∃ d r, ds = d :: r ∧ d ≠ 0)

/-- What the messages of a step are added to: the console, or the log file. -/
def Adds {σ : Type} (s s' : Sys σ) (ms : List Msg) : Prop :=
  if s.mess.logfile = [] then s'.console = s.console ++ ms ∧ s'.log = s.log
  else s'.console = s.console ∧ s'.log = s.log ++ ms.map fun m => (s.mess.logfile, m)

/-- A step of the library touches these paths only, says something, and leaves the messenger as it is. -/
def Touches {σ α : Type} (m : Step σ α) (P : Path → Prop) : Prop :=
  ∀ s s' r, m s = .ok (s', r) → (∀ q, ¬ P q → s'.fs q = s.fs q) ∧ s'.mess = s.mess ∧ ∃ ms, Adds s s' ms

/-- Below a directory, by name. -/
def Below (p q : Path) : Prop := ∃ r, q = p ++ r ∧ r ≠ []

/-- The library keeps to the paths it is given, and to the database's own file. -/
structure Lawful {σ : Type} (b : Base σ) (own : Path) : Prop where
  config : ∀ p, Touches (b.saveConfig p) (fun q => q = p ∨ q = own)
  configSave : ∀ p, Touches (b.saveConfigSave p) (fun q => q = p ∨ q = own)
  vendors : Touches b.vendors (fun q => q = own)
  vendor : ∀ s s' vs, b.vendors s = .ok (s', some vs) → ∀ v ∈ vs, ∀ p, Touches (v.save p) (fun q => q = p ∨ q = own)
  version : ∀ v, Touches (b.depotVersion v) (fun q => q = own)
  depot : ∀ p v, Touches (b.saveDepot p v) (fun q => q = p ∨ q = own)
  part : ∀ p v w, Touches (b.savePart p v w) (fun q => Below p q ∨ q = own)
  lost : ∀ p, Touches (b.saveLost p) (fun q => Below p q ∨ q = own)
  all : ∀ p, Touches (b.exportAll p) (fun q => Below p q ∨ q = own)
  xml : ∀ p f, Touches (b.exportXml p f) (fun q => Below p q ∨ q = own)
  binary : ∀ p f, Touches (b.exportBinary p f) (fun q => Below p q ∨ q = own)
  load : ∀ p f, Touches (b.importBinary p f) (fun q => q = own)

/-- Opening touches the database's own file only, and gives a lawful database. -/
def Opens {σ : Type} (openBase : Path → Step σ (Option (Base σ))) : Prop :=
  ∀ p, Touches (openBase p) (fun q => q = p) ∧ ∀ s s' b, openBase p s = .ok (s', some (some b)) → Lawful b p

/-- The paths a command may write to. -/
def Writes (e : Env) (pc : Parsed) (q : Path) : Prop :=
  match pc.command with
  | .save_config => Target pc.param1 (word "dbcf.cf") q
  | .save_configsave => Target pc.param1 (word "cf.cf") q
  | .save_vendors_configs => ∃ n v, q = slash pc.param1 (n ++ word " " ++ v ++ word ".cf")
  | .save_all_configs => Within pc.param1 (word "dbcf.cf") q ∨ Within pc.param1 (word "cf.cf") q ∨
      ∃ n v, q = slash pc.param1 (n ++ word " " ++ v ++ word ".cf")
  | .save_depot_config => ∃ v, Target (e.absolute pc.param2) (word "v" ++ v ++ word ".cf") q
  | .save_depot_config_part => q = pc.param2 ∨ Below pc.param2 q
  | .save_tables_size => q = pc.param1
  | .export_all_to_xml | .export_to_xml | .export_to_binary | .find_and_save_lost_objects => Below pc.param1 q
  | .logfile => q = e.absolute pc.param1
  | _ => False

/-- The commands of a list, one after the other, each once and from the state the one before has left, with an error message
behind each that raises an exception. -/
inductive InTurn {σ : Type} (e : Env) (b : Base σ) : List Parsed → Sys σ → Sys σ → Prop
  | done (s) : InTurn e b [] s s
  | ok {pc cs s s1 s2} : command e b pc s = .ok (s1, some ()) → InTurn e b cs s1 s2 → InTurn e b (pc :: cs) s s2
  | failed {pc cs s s1 s1' s2} : command e b pc s = .ok (s1, none) → s1'.fs = s1.fs → s1'.db = s1.db → s1'.mess = s1.mess →
      Adds s1 s1' [.thrown] → InTurn e b cs s1' s2 → InTurn e b (pc :: cs) s s2

/-- A line of the file of sizes, read by someone else: five texts divided by bars. -/
def Line (l : Bytes) (name : Bytes) (records data blob index : Nat) : Prop :=
  ∃ r d b i, l = name ++ [124] ++ r ++ [124] ++ d ++ [124] ++ b ++ [124] ++ i ∧
    Decimal r records ∧ Decimal d data ∧ Decimal b blob ∧ Decimal i index

end Verif.App.Spec
