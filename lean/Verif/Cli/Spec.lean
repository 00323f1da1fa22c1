import Verif.Basic
import Verif.Unicode.Spec
import Verif.Cli.Model

/-!
# Specification vocabulary: command lines

`documented` is the list of switches as the help text gives it
(ParseCommandLine.cpp:80-155), `Reads` says how a command line divides into switches with
their parameters and other arguments.
-/

namespace Verif.Cli.Spec
open Verif Verif.Unicode.Spec

/-- The parameter without its enclosing quotes. -/
def unquote (p : Bytes) : Bytes :=
  if 2 ≤ p.length ∧ p.head? = some 34 ∧ p.getLast? = some 34 then (p.drop 1).dropLast else p

/-- No quote at the end besides an enclosing pair, and something between the quotes. -/
def Clean (p : Bytes) : Prop :=
  p.length < 2 ∨ (unquote p ≠ [] ∧ (unquote p).getLast? ≠ some 34)

instance (p : Bytes) : Decidable (Clean p) := by unfold Clean; infer_instance

/-- Short and long name, the command, the number of parameters. -/
def documented : List (List String × Command × Nat) :=
  [(["h", "help", "?"], .help, 0), (["nv", "noverbose"], .no_verbose, 0), (["q", "quit"], .quit, 0),
   (["l", "logfile"], .logfile, 1), (["ne", "notexclusively"], .not_exclusively, 0),
   (["eax", "exportalltoxml"], .export_all_to_xml, 1), (["ex", "exporttoxml"], .export_to_xml, 2),
   (["bf", "blobtofile"], .xml_blob_to_file, 1), (["pb", "parseblob"], .xml_parse_blob, 1),
   (["dc", "dumpconfig"], .save_configsave, 1), (["ddc", "dumpdbconfig"], .save_config, 1),
   (["dvc", "dumpvendorsconfigs"], .save_vendors_configs, 1),
   (["dac", "dumpallconfigs"], .save_all_configs, 1),
   (["drc", "dumpdepotconfig"], .save_depot_config, 2),
   (["dpc", "dumppartdepotconfig"], .save_depot_config_part, 2),
   (["eb", "exporttobinary"], .export_to_binary, 2),
   (["ib", "importfrombinary"], .import_from_binary, 2),
   (["slo", "savelostobjects"], .find_and_save_lost_objects, 1),
   (["sts", "savetablessize"], .save_tables_size, 1)]

/-- The switches: name, command, number of parameters. -/
def switches : List (String × Command × Nat) := documented.flatMap (fun d => d.1.map (fun n => (n, d.2)))

/-- The letters of a name as code points. -/
def letters (s : String) : List Nat := s.toList.map Char.toNat

/-- A text without NUL. -/
def Word (w : List Nat) : Prop := ∀ c ∈ w, Scalar c ∧ c ≠ 0

/-- The word, whatever its case, is the name of a switch. -/
def Names (w : List Nat) (s : String × Command × Nat) : Prop := s ∈ switches ∧ SameText w (letters s.1)

/-- One part of a command line. -/
inductive Item where
  /-- a switch with all its parameters -/
  | full (s : String × Command × Nat) (ps : List Bytes)
  /-- a switch at the end of the line with too few parameters -/
  | short (s : String × Command × Nat) (ps : List Bytes)
  /-- an argument that begins with `-` and is no switch -/
  | unknown (w : List Nat)
  /-- any other argument -/
  | other (a : Bytes)

/-- How a command line divides into parts. -/
inductive Reads : List Bytes → List Item → Prop where
  | nil : Reads [] []
  | full {w s ps rest items} : Word w → Names w s → ps.length = s.2.2 → (∀ p ∈ ps, Clean p) →
      Reads rest items → Reads ((45 :: utf8Text w) :: (ps ++ rest)) (.full s ps :: items)
  | short {w s ps} : Word w → Names w s → ps.length < s.2.2 → (∀ p ∈ ps, Clean p) →
      Reads ((45 :: utf8Text w) :: ps) [.short s ps]
  | unknown {w rest items} : Word w → (∀ s, ¬ Names w s) → Reads rest items →
      Reads ((45 :: utf8Text w) :: rest) (.unknown w :: items)
  | other {a rest items} : a ≠ [] → a.head? ≠ some 45 → Clean a → Reads rest items →
      Reads (a :: rest) (.other a :: items)

/-- The value that follows the parameters of `-bf` and `-pb`. -/
def default : Command → List Bytes
  | .xml_blob_to_file => [[48]]
  | .xml_parse_blob => [[49]]
  | _ => []

/-- The values a switch is recorded with. -/
def values (s : String × Command × Nat) (ps : List Bytes) : List Bytes :=
  ps.map unquote ++ List.replicate (s.2.2 - ps.length) [] ++ default s.2.1

/-- The commands, in the order of the switches. -/
def commands : List Item → List Parsed
  | [] => []
  | .full s ps :: r | .short s ps :: r =>
    ⟨s.2.1, (values s ps).getD 0 [], (values s ps).getD 1 [], (values s ps).getD 2 []⟩ :: commands r
  | .unknown _ :: r | .other _ :: r => commands r

/-- The first other argument. -/
def file : List Item → Bytes
  | [] => []
  | .other a :: _ => unquote a
  | .full _ _ :: r | .short _ _ :: r | .unknown _ :: r => file r

/-- The reports: one for every missing parameter, unknown switch and further file name. -/
def reports (seen : Option Bytes) : List Item → List Note
  | [] => []
  | .full _ _ :: r => reports seen r
  | .short s ps :: r => List.replicate (s.2.2 - ps.length) (.missing (asc s.1)) ++ reports seen r
  | .unknown w :: r =>
    .unknown (utf8Text (w.map Verif.Unicode.toLower)) :: reports seen r
  | .other a :: r =>
    match seen with
    | none => reports (some (unquote a)) r
    | some f => .again f a :: reports seen r

/-- The decimal value of a list of digits. -/
def value (ds : List Nat) : Nat := ds.foldl (fun v d => v * 10 + d) 0

/-- The digits as characters. -/
def digits (ds : List Nat) : Bytes := ds.map (fun d => UInt8.ofNat (48 + d))

end Verif.Cli.Spec
