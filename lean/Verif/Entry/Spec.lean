import Verif.Unicode.Theorems

/-! # Specification vocabulary: entries of a container -/

namespace Verif.Entry.Spec
open Verif Verif.Unicode Verif.Unicode.Spec

/-- The entries of a container, oldest first: a name (as code points) and the entry's
identity. -/
abbrev Names := List (List Nat × Nat)

/-- What a user expects to find under a name: the entry whose name agrees with it up to
the case of letters, or nothing if there is none. -/
def Finds (s : Names) (n : List Nat) : Option Nat → Prop
  | some id => ∃ m, (m, id) ∈ s ∧ SameText m n
  | none => ∀ p ∈ s, ¬ SameText p.1 n

/-- What a user does: create an entry by name, or look a name up and delete the entry
found. -/
inductive Op
  | create (n : List Nat)
  | remove (n : List Nat)

/-- The expected effect; `id` is the identity of the new entry if one is made. -/
inductive Effect : Names → Op → Names → Prop
  | existing {s n i} : Finds s n (some i) → Effect s (.create n) s
  | new {s n} (i : Nat) : Finds s n none → (∀ p ∈ s, p.2 ≠ i) → Effect s (.create n) (s ++ [(n, i)])
  | removed {s n i} : Finds s n (some i) → Effect s (.remove n) (s.filter (fun p => p.2 != i))
  | absent {s n} : Finds s n none → Effect s (.remove n) s

end Verif.Entry.Spec
