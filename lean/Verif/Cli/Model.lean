import Verif.Basic
import Verif.Unicode.Model

/-!
# The command line (src/ctool1cd/ParseCommandLine.cpp, App.cpp)

A result is `Outcome (Option α)`: `ok none` means that the modelled number of loop
iterations was used up, that is, a call that has not returned yet.
-/

namespace Verif.Cli
open Verif Verif.Unicode

/-- Run the second computation when the first one has returned. Serves the model of ParseCommandLine.cpp:203-228. -/
def andThen {α β : Type} (r : Outcome (Option α)) (f : α → Outcome (Option β)) : Outcome (Option β) :=
  match r with
  | .ok (some a) => f a
  | .ok none => .ok none
  | .throw => .throw
  | .ub => .ub

/-- `while (result.back() == '\"') result = result.substr(0, str.size() - 1)`
(ParseCommandLine.cpp:168-170), at most `fuel` tests of the condition; `n` is
`str.size() - 1`. `back()` of an empty string is undefined. -/
def dequoteLoop (n : Nat) : Nat → Bytes → Outcome (Option Bytes)
  | 0, _ => .ok none
  | fuel + 1, r =>
    match r.getLast? with
    | none => .ub
    | some c => if c = 34 then dequoteLoop n fuel (r.take n) else .ok (some r)

/-- `dequote` (ParseCommandLine.cpp:159-172). -/
def dequote (fuel : Nat) (str : Bytes) : Outcome (Option Bytes) :=
  if str.length < 2 then .ok (some str)
  else
    let result := if str.head? = some 34 ∧ str.getLast? = some 34 then (str.drop 1).take (str.length - 2)
      else str
    dequoteLoop (str.length - 1) fuel result

/-- `Command` (ParseCommandLine.h:29-50). -/
inductive Command where
  | help | no_verbose | quit | export_all_to_xml | xml_blob_to_file | xml_parse_blob
  | export_to_xml | not_exclusively | save_config | save_configsave | save_vendors_configs
  | save_all_configs | save_depot_config | save_depot_config_part | logfile
  | export_to_binary | import_from_binary | find_and_save_lost_objects | save_tables_size
  deriving DecidableEq, Repr

/-- The bytes of an ASCII literal of the source. Serves the model of ParseCommandLine.cpp:36-77. -/
def asc (s : String) : Bytes := s.toList.map (fun c => UInt8.ofNat c.toNat)

/-- `CommandDefinition` (ParseCommandLine.h:52-58). -/
structure Def where
  key : Bytes
  command : Command
  npar : Nat
  predef : Bytes
  deriving DecidableEq

/-- `CommandParse::definitions` (ParseCommandLine.cpp:36-77). -/
def definitions : List Def :=
  [⟨asc "h", .help, 0, []⟩, ⟨asc "help", .help, 0, []⟩, ⟨asc "?", .help, 0, []⟩,
   ⟨asc "nv", .no_verbose, 0, []⟩, ⟨asc "noverbose", .no_verbose, 0, []⟩,
   ⟨asc "q", .quit, 0, []⟩, ⟨asc "quit", .quit, 0, []⟩,
   ⟨asc "eax", .export_all_to_xml, 1, []⟩, ⟨asc "exportalltoxml", .export_all_to_xml, 1, []⟩,
   ⟨asc "bf", .xml_blob_to_file, 1, asc "0"⟩, ⟨asc "blobtofile", .xml_blob_to_file, 1, asc "0"⟩,
   ⟨asc "pb", .xml_parse_blob, 1, asc "1"⟩, ⟨asc "parseblob", .xml_parse_blob, 1, asc "1"⟩,
   ⟨asc "ex", .export_to_xml, 2, []⟩, ⟨asc "exporttoxml", .export_to_xml, 2, []⟩,
   ⟨asc "ne", .not_exclusively, 0, []⟩, ⟨asc "notexclusively", .not_exclusively, 0, []⟩,
   ⟨asc "ddc", .save_config, 1, []⟩, ⟨asc "dumpdbconfig", .save_config, 1, []⟩,
   ⟨asc "dc", .save_configsave, 1, []⟩, ⟨asc "dumpconfig", .save_configsave, 1, []⟩,
   ⟨asc "dvc", .save_vendors_configs, 1, []⟩, ⟨asc "dumpvendorsconfigs", .save_vendors_configs, 1, []⟩,
   ⟨asc "dac", .save_all_configs, 1, []⟩, ⟨asc "dumpallconfigs", .save_all_configs, 1, []⟩,
   ⟨asc "drc", .save_depot_config, 2, []⟩, ⟨asc "dumpdepotconfig", .save_depot_config, 2, []⟩,
   ⟨asc "dpc", .save_depot_config_part, 2, []⟩, ⟨asc "dumppartdepotconfig", .save_depot_config_part, 2, []⟩,
   ⟨asc "l", .logfile, 1, []⟩, ⟨asc "logfile", .logfile, 1, []⟩,
   ⟨asc "eb", .export_to_binary, 2, []⟩, ⟨asc "exporttobinary", .export_to_binary, 2, []⟩,
   ⟨asc "ib", .import_from_binary, 2, []⟩, ⟨asc "importfrombinary", .import_from_binary, 2, []⟩,
   ⟨asc "slo", .find_and_save_lost_objects, 1, []⟩, ⟨asc "savelostobjects", .find_and_save_lost_objects, 1, []⟩,
   ⟨asc "sts", .save_tables_size, 1, []⟩, ⟨asc "savetablessize", .save_tables_size, 1, []⟩]

/-- `ParsedCommand` (ParseCommandLine.h:60-66). -/
structure Parsed where
  command : Command
  param1 : Bytes := []
  param2 : Bytes := []
  param3 : Bytes := []
  deriving DecidableEq

/-- The `switch(l)` storing parameter `l` (ParseCommandLine.cpp:207-221, 231-245). -/
def Parsed.put (pc : Parsed) (l : Nat) (v : Bytes) : Parsed :=
  match l with
  | 0 => { pc with param1 := v }
  | 1 => { pc with param2 := v }
  | 2 => { pc with param3 := v }
  | _ => pc

/-- The error messages of the parser (ParseCommandLine.cpp:226, 250, 261). -/
inductive Note where
  /-- too few parameters for the switch -/
  | missing (key : Bytes)
  /-- no such switch -/
  | unknown (key : Bytes)
  /-- a second database file name -/
  | again (first second : Bytes)
  deriving DecidableEq

/-- What the constructor fills in, and the messages it emits. Serves the model of ParseCommandLine.cpp:181-265. -/
structure State where
  filename : Bytes := []
  commands : List Parsed := []
  notes : List Note := []
  deriving DecidableEq

/-- The loop over the parameters of one switch (ParseCommandLine.cpp:203-228):
`n` parameters still to come, the next is number `l`; `args` are the arguments not
looked at yet. -/
def takeParams (df : Nat) (key : Bytes) : Nat → Nat → List Bytes → Parsed → List Note →
    Outcome (Option (List Bytes × Parsed × List Note))
  | 0, _, args, pc, ns => .ok (some (args, pc, ns))
  | n + 1, l, [], pc, ns => takeParams df key n (l + 1) [] pc (ns ++ [.missing key])
  | n + 1, l, a :: args, pc, ns =>
    andThen (dequote df a) fun v => takeParams df key n (l + 1) args (pc.put l v) ns

/-- `if (!definitions[j].predefine_par.empty()) …` (ParseCommandLine.cpp:229-246);
`l` equals `num_add_par` after the loop. -/
def putPredef (d : Def) (pc : Parsed) : Parsed :=
  if d.predef.isEmpty then pc else pc.put d.npar d.predef

/-- The loop of `CommandParse::CommandParse` (ParseCommandLine.cpp:181-265), at most
`fuel` arguments that are not parameters. `front()` of an empty string is undefined. -/
def parseLoop (df : Nat) : Nat → List Bytes → State → Outcome (Option State)
  | _, [], st => .ok (some st)
  | 0, _ :: _, _ => .ok none
  | fuel + 1, arg :: args, st =>
    match arg with
    | [] => .ub
    | c :: word =>
      if c = 45 then
        match lowerCase word with
        | .ok key =>
          match definitions.find? (fun d => decide (d.key = key)) with
          | some d =>
            andThen (takeParams df key d.npar 0 args ⟨d.command, [], [], []⟩ st.notes) fun r =>
              parseLoop df fuel r.1
                { st with commands := st.commands ++ [putPredef d r.2.1], notes := r.2.2 }
          | none => parseLoop df fuel args { st with notes := st.notes ++ [.unknown key] }
        | .throw => .throw
        | .ub => .ub
      else if !st.filename.isEmpty then
        parseLoop df fuel args { st with notes := st.notes ++ [.again st.filename arg] }
      else andThen (dequote df arg) fun f => parseLoop df fuel args { st with filename := f }

/-- `CommandParse::CommandParse` (ParseCommandLine.cpp:176-266) on the arguments after
the program name; `df` bounds the iterations inside one `dequote`. -/
def parse (df : Nat) (args : List Bytes) : Outcome (Option State) := parseLoop df args.length args {}

/-- `App::IsTrueString` (App.cpp:64-69). -/
def isTrueString (s : Bytes) : Outcome Bool := do
  let s ← lowerCase s
  .ok (decide (s = asc "1") || decide (s = asc "y") || decide (s = asc "yes") ||
    decide (s = [0xd0, 0xb4]) || decide (s = [0xd0, 0xb4, 0xd0, 0xb0]))

/-- The options the first loop of `App::Run` collects (App.cpp:558-583; App.h:48-50). -/
structure Options where
  helpShown : Bool := false
  verbose : Bool := true
  log : Option Bytes := none
  notExclusively : Bool := false
  blobToFile : Bool := false
  parseBlob : Bool := true
  deriving DecidableEq

/-- First loop of `App::Run` (App.cpp:559-583). -/
def collect : List Parsed → Options → Outcome Options
  | [], o => .ok o
  | pc :: r, o =>
    match pc.command with
    | .help => .ok { o with helpShown := true }
    | .no_verbose => collect r { o with verbose := false }
    | .logfile => collect r { o with log := some pc.param1 }
    | .not_exclusively => collect r { o with notExclusively := true }
    | .xml_blob_to_file => do
      let b ← isTrueString pc.param1
      collect r { o with blobToFile := b }
    | .xml_parse_blob => do
      let b ← isTrueString pc.param1
      collect r { o with parseBlob := b }
    | _ => collect r o

/-- The digits `std::stoi` takes: the value of the longest run of digits. Serves the model of String.cpp:184-191. -/
def digitsVal : Nat → Bytes → Nat
  | v, [] => v
  | v, c :: s => if 48 ≤ c.toNat ∧ c.toNat ≤ 57 then digitsVal (v * 10 + (c.toNat - 48)) s else v

/-- `isspace` in the C locale. Serves the model of String.cpp:184-191. -/
def isSpace (c : UInt8) : Bool := decide (c = 32) || (decide (9 ≤ c.toNat) && decide (c.toNat ≤ 13))

/-- The sign `std::stoi` takes: is the number negative, and what follows. Serves the model of String.cpp:184-191. -/
def sign : Bytes → Bool × Bytes
  | c :: s => if c = 45 then (true, s) else if c = 43 then (false, s) else (false, c :: s)
  | [] => (false, [])

/-- What `std::stoi` reads: white space is skipped, a sign and digits are taken, the rest is
ignored; `none` if there are no digits. Serves the model of String.cpp:184-191. -/
def readInt (s : Bytes) : Option Int :=
  let p := sign (s.dropWhile isSpace)
  match p.2 with
  | [] => none
  | c :: r =>
    if 48 ≤ c.toNat ∧ c.toNat ≤ 57 then
      let v : Int := digitsVal 0 (c :: r)
      some (if p.1 then -v else v)
    else none

/-- The value fits in `int`. Serves the model of String.cpp:184-191. -/
def fitsInt (v : Int) : Bool := decide (-2147483648 ≤ v) && decide (v ≤ 2147483647)

/-- `std::stoi`: `invalid_argument` or `out_of_range` if there is no number or it is too big. Serves the model of Class_1CD.cpp:1899-1935. -/
def stoi (s : Bytes) : Outcome Int :=
  match readInt s with
  | none => .throw
  | some v => if fitsInt v then .ok v else .throw

/-- `ToIntDef` (String.cpp:184-191): `invalid_argument` gives the default; `out_of_range` is not
caught. -/
def toIntDef (s : Bytes) (dflt : Int) : Outcome Int :=
  match readInt s with
  | none => .ok dflt
  | some v => if fitsInt v then .ok v else .throw

/-- `version_number_param.find(':')`: position of the first colon. Serves the model of App.cpp:457-473. -/
def findColon : Bytes → Option Nat
  | [] => none
  | c :: s => if c = 58 then some 0 else (findColon s).map (· + 1)

/-- `substr(0, n - 1)` with `size_t` arithmetic: for `n = 0` the count is `SIZE_MAX`. Serves the model of App.cpp:457-473. -/
def substrTo (s : Bytes) (n : Nat) : Bytes := if n = 0 then s else s.take (n - 1)

/-- The version range of `App::save_depot_config_part` (App.cpp:457-473): the begin and
the end version, before they are looked up in the depot. -/
def versionRange (s : Bytes) : Outcome (Int × Int) :=
  match findColon s with
  | some i => do
    let e ← toIntDef (s.drop (i + 1)) 0
    let b ← toIntDef (substrTo s i) 0
    .ok (b, e)
  | none => do
    let b ← toIntDef s 0
    .ok (b, b)

end Verif.Cli
