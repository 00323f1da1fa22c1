import Verif.Text.Theorems
import Verif.Tree.Regex

/-!
# Selecting tables by a list of patterns (src/ctool1cd/App.cpp:109-153, 172-216, 235-279)

Patterns and table names are taken as texts of ASCII characters, one byte each (the
program works on bytes). Regular expressions are modelled as far as the program itself
produces them: `.`, `.*` and literal characters.
-/

namespace Verif.Cli
open Verif Verif.Tree Verif.Text

/-- Pieces of a text between newlines. Serves the model of String.cpp:75-83. -/
def splitNl : Str → List Str
  | [] => [[]]
  | c :: s =>
    if c = '\n' then [] :: splitNl s
    else match splitNl s with
      | [] => [[c]]
      | w :: ws => (c :: w) :: ws

/-- `TStringList::SetText` (String.cpp:75-83): `getline` until it fails; an empty piece at
the end is no line. -/
def setText (s : Str) : List Str :=
  let l := splitNl s
  if l.getLast? = some [] then l.dropLast else l

/-- The replacements (App.cpp:117-122). -/
def rewrite (filter : Str) : Option Str := do
  let f ← stringReplace (filter.length + 1) filter ['*'] ['.', '*'] true
  let f ← stringReplace (f.length + 1) f ['?'] ['.'] true
  let f ← stringReplace (f.length + 1) f [' '] ['\n'] true
  let f ← stringReplace (f.length + 1) f ['\t'] ['\n'] true
  let f ← stringReplace (f.length + 1) f [','] ['\n'] true
  stringReplace (f.length + 1) f [';'] ['\n'] true

/-- `LowerCase` on ASCII text (String.cpp:117-133). -/
def lower (s : Str) : Str := s.map Char.toLower

/-- The lines that are kept, lower-cased (App.cpp:124-133); `^` and `$` are left out, since
`regex_match` matches the whole text anyway. -/
def patterns (filter : Str) : Option (List Str) :=
  (rewrite filter).map fun f => ((setText f).filter (fun l => !l.isEmpty)).map lower

/-- Characters with a meaning of their own in a regular expression. Serves the model of App.cpp:141-144. -/
def isMeta (c : Char) : Bool := ".[]{}()\\*+?|^$".toList.contains c

/-- `boost::regex(…)` (App.cpp:141-144) for the expressions the program produces itself;
`none` stands for any other expression, which is not modelled. -/
def compile : Str → Option Re
  | [] => some .eps
  | '.' :: '*' :: r => (compile r).map (Re.seq (.star (.cls fun _ => true)))
  | '.' :: r => (compile r).map (Re.seq (.cls fun _ => true))
  | c :: r => if isMeta c then none else (compile r).map (Re.seq (.chr c))

/-- What comes of a filter. Serves the model of App.cpp:115-151. -/
inductive Selection where
  /-- the tables to export, in the order of the database -/
  | tables (names : List Str)
  /-- the error message about an empty list (App.cpp:135-139) -/
  | emptyList
  /-- a pattern outside the modelled part of regular expressions -/
  | notModelled
  deriving DecidableEq

/-- The selection of tables by `-ex`, `-eb` and `-ib` (App.cpp:115-151). -/
def select (filter : Str) (names : List Str) : Selection :=
  match patterns filter with
  | none => .notModelled
  | some [] => .emptyList
  | some ps =>
    match ps.mapM compile with
    | none => .notModelled
    | some exprs => .tables (names.filter fun n => exprs.any fun e => e.test (lower n))

end Verif.Cli
