import Verif.Container.Open
import Verif.Container.Spec
import Verif.Entry.Spec

/-!
# What a container holds for its user

A list of named contents; a name, as code points, is looked up without regard to the case of
letters.
-/

namespace Verif.Container.Spec
open Verif Verif.Unicode Verif.Unicode.Spec

instance (a b : Nat) : Decidable (SameLetter a b) := by unfold SameLetter; infer_instance

instance decSameText : ∀ a b : List Nat, Decidable (SameText a b)
  | [], [] => isTrue trivial
  | [], _ :: _ => isFalse (fun h => h)
  | _ :: _, [] => isFalse (fun h => h)
  | x :: a, y :: b =>
    match inferInstanceAs (Decidable (SameLetter x y)), decSameText a b with
    | isTrue h1, isTrue h2 => isTrue ⟨h1, h2⟩
    | isFalse h1, _ => isFalse (fun h => h1 h.1)
    | _, isFalse h2 => isFalse (fun h => h2 h.2)

abbrev Contents := List (List Nat × Bytes)

/-- What the user does. -/
inductive UserOp where
  | put (n : List Nat) (b : Bytes) (now : Nat)
  | remove (n : List Nat)
  | flush
  | reopen

/-- The content under a name is replaced, or added at the end. -/
def store (n : List Nat) (b : Bytes) : Contents → Contents
  | [] => [(n, b)]
  | p :: ps => if SameText p.1 n then (p.1, b) :: ps else p :: store n b ps

/-- The content under a name is removed. -/
def drop (n : List Nat) (ps : Contents) : Contents := ps.filter fun p => ¬ SameText p.1 n

/-- The expected effect: flushing and reopening change nothing. -/
def after (ps : Contents) : UserOp → Contents
  | .put n b _ => store n b ps
  | .remove n => drop n ps
  | .flush => ps
  | .reopen => ps

/-- What the user finds under a name. -/
def lookup (ps : Contents) (n : List Nat) : Option Bytes := (ps.find? fun p => SameText p.1 n).map Prod.snd

end Verif.Container.Spec
