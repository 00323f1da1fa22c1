import Verif.Config.Map
import Verif.Guid.Model

/-!
# Choosing among stored variants of a configuration file (src/tool1cd/ConfigStorage.cpp:577-683)

`lower` is `LowerCase`, and `EqualIC` compares lower-cased texts (property C11).
-/

namespace Verif.Config
open Verif Verif.Guid

/-- `pat` begins at position `i` of `s`. Serves the model of ConfigStorage.cpp:624-633. -/
def startsAt (pat s : Str) (i : Nat) : Bool := pat.isPrefixOf (s.drop i)

/-- `s.rfind(pat)`: the last position, `none` for `npos`. Serves the model of ConfigStorage.cpp:624-633. -/
def rfind (pat s : Str) : Option Nat := (List.range (s.length + 1)).reverse.find? (startsAt pat s)

/-- `sdynupdate` (ConfigStorage.cpp:36). -/
def dynMark : Str := "_dynupdate_".toList

/-- Name and extension (ConfigStorage.cpp:624-633). -/
def splitExt (s : Str) : Str × Str :=
  match rfind ['.'] s with
  | some m => (s.take m, s.drop (m + 1))
  | none => (s, [])

/-- `std::find(dynup.begin(), dynup.end(), g) - dynup.begin()`, -2 if absent
(ConfigStorage.cpp:647-656); an empty list gives -2 too. -/
def position (dynup : List Bytes) (g : Bytes) : Int :=
  match dynup.findIdx? (fun x => x == g) with
  | some i => i
  | none => -2

/-- The part of a name before the update mark and the number of the update (ConfigStorage.cpp:641-658); `dynno` is the
number so far. The identifier is taken from one character before the end of the mark
(`m + lsdynupdate - 1`), and is that many characters long as there are after the mark. -/
def splitUpdate (dynup : List Bytes) (name : Str) (dynno : Int) : Outcome (Str × Int) :=
  match rfind dynMark name with
  | some m => do
    let g ← ofText ((name.drop (m + 11 - 1)).take (name.length - m - 11))
    .ok (name.take m, position dynup g)
  | none => .ok (name, dynno)

/-- What a stored name stands for: the name of the file and the number of the variant
(ConfigStorage.cpp:623-663). -/
def variant (lower : Str → Str) (dynup : List Bytes) (s : Str) : Outcome (Str × Int) := do
  let p := splitExt s
  let isNew := lower p.2 = lower "new".toList
  let r ← splitUpdate dynup p.1 (if isNew then -2 else -1)
  .ok (if isNew ∨ p.2.isEmpty then r.1 else r.1 ++ '.' :: p.2, r.2)

/-- `ContainerFile` as far as the choice goes. Serves the model of ConfigStorage.cpp:665-680. -/
structure Chosen (α : Type) where
  name : Str
  file : α
  dynno : Int
  deriving DecidableEq

/-- The map of files (ConfigStorage.cpp:665-680). -/
def choose (name : Str) (file : α) (dynno : Int) : Option (Chosen α) → Chosen α
  | none => ⟨name, file, dynno⟩
  | some c => if c.dynno < dynno then { c with file := file, dynno := dynno } else c

/-- The loop (ConfigStorage.cpp:615-681) over the files other than DynamicallyUpdated whose first part is not empty,
given as their names and contents. -/
def configFiles (lower : Str → Str) (dynup : List Bytes) :
    List (Str × α) → List (Str × Chosen α) → Outcome (List (Str × Chosen α))
  | [], m => .ok m
  | (s, f) :: fs, m => do
    let v ← variant lower dynup s
    configFiles lower dynup fs (upd m (lower v.1) (choose v.1 f v.2))

end Verif.Config
