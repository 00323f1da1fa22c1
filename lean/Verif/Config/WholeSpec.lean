import Verif.Config.Whole
import Verif.Config.HandleSpec
import Verif.Container.OpenSpec

/-! # Specification vocabulary: saving a whole configuration -/

namespace Verif.Config.Whole.Spec
open Verif Verif.Config Verif.Unicode.Spec

/-- The code points of a text. -/
def codes (s : Str) : List Nat := s.map Char.toNat

/-- The file has these raw contents, and it is in a state in which a history of opening and closing it, which may
be empty, has left it. -/
def Ready (w : World) (it : Item) (raw : Bytes) : Prop :=
  Opening.Spec.Raw w.io it.parts raw ∧ (∃ b, isPacked w.lower it.name = .ok b) ∧
    (it.handle = Handle.init ∨ ∃ plain ops, Opening.Spec.Plain w.lower w.io it.name raw plain ∧
      Opening.Spec.run w.lower w.io it.name it.parts ops Handle.init = .ok it.handle)

/-- The names of two files are the same text, but for the case of letters. -/
def SameName (a b : Str) : Prop := SameText (codes a) (codes b)

/-- No name has a NUL in it, and no two are the same: they come from a map whose keys are the names in lower case. -/
def Names (its : List (Item × Bytes)) : Prop :=
  (∀ p ∈ its, ∀ c ∈ p.1.name, c.toNat ≠ 0) ∧ its.Pairwise fun p q => ¬ SameName p.1.name q.1.name

/-- The unsigned 64-bit number that has the same bits as the signed one. -/
def Same64 (x : Int) (n : Nat) : Prop := n < 2 ^ 64 ∧ (2 ^ 64 : Int) ∣ x - n

/-- A bound on the length of the container: for each file its contents, its name as UTF-16 and 86 bytes; and the
directory. -/
def room (its : List (Item × Bytes)) : Nat :=
  2 ^ 17 + 31 + max (2 ^ 16) (12 * its.length) + (its.map fun p => p.2.length + (utf16Text (codes p.1.name)).length + 86).sum

end Verif.Config.Whole.Spec
