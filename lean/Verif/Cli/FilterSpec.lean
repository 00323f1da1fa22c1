import Verif.Basic

/-! # Specification vocabulary: lists of name patterns -/

namespace Verif.Cli.Spec
open Verif

/-- A name matches a pattern: `*` stands for any text, `?` for one character, and letters agree up
to case. -/
inductive Glob : Str → Str → Prop where
  | nil : Glob [] []
  | star {p s t} : Glob p t → Glob ('*' :: p) (s ++ t)
  | one {p c t} : Glob p t → Glob ('?' :: p) (c :: t)
  | same {p c d t} : c ≠ '*' → c ≠ '?' → c.toLower = d.toLower → Glob p t → Glob (c :: p) (d :: t)

/-- What separates the patterns of a list. -/
def isSep (c : Char) : Bool := c == ' ' || c == '\t' || c == ',' || c == ';' || c == '\n'

/-- The pieces of a list between separators. -/
def pieces : Str → List Str
  | [] => [[]]
  | c :: s =>
    if isSep c then [] :: pieces s
    else match pieces s with
      | [] => [[c]]
      | w :: ws => (c :: w) :: ws

/-- The patterns of a list. -/
def words (s : Str) : List Str := (pieces s).filter (fun w => !w.isEmpty)

/-- A list whose patterns use no special characters besides `*` and `?`. -/
def PlainList (s : Str) : Prop := ∀ c ∈ s, c ∉ ".[]{}()\\+|^$".toList

/-- The name is on the list. -/
def Listed (s : Str) (name : Str) : Prop := ∃ w ∈ words s, Glob w name

end Verif.Cli.Spec
