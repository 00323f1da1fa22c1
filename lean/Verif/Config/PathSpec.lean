import Verif.Config.Path

/-! # Specification vocabulary: paths -/

namespace Verif.Config.Spec
open Verif

/-- A name without separators. -/
def Plain (s : Str) : Prop := '\\' ∉ s ∧ '/' ∉ s

/-- The path through the directories `dirs` to `file`. -/
def joinPath : List Str → Str → Str
  | [], file => file
  | d :: ds, file => d ++ '\\' :: joinPath ds file

/-- The entry `file` of the directory reached through the entries `dirs`. -/
def entryAt (K : Cats C F) : C → List Str → Str → Option F
  | c, [], file => K.getFile c file
  | c, d :: ds, file =>
    match K.getFile c d with
    | some f =>
      match K.catalog f with
      | some c' => entryAt K c' ds file
      | none => none
    | none => none

/-- The names under which the directories of a path are looked for, as the program has it: a name without its last character, and
for an empty name all that is left of the path, from the separator on. -/
def lookedFor : List Str → Str → List Str
  | [], _ => []
  | d :: ds, file => (if d = [] then '\\' :: joinPath ds file else d.dropLast) :: lookedFor ds file

end Verif.Config.Spec
