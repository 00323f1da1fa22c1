import Verif.Basic

/-!
# Specification: allocation of pages

`free` is the stack of reusable pages, `own` the pages that hold the list itself,
`used` the pages handed out, `total` the number of pages in the database. Pages 0
and 1 are the database header and the header of the free-page file.
-/

namespace Verif.Object.FreeSpec

structure State where
  free : List Nat
  own : List Nat
  used : List Nat
  total : Nat

/-- Every page of the database is in exactly one of the five roles. -/
def Sound (s : State) : Prop :=
  (0 :: 1 :: (s.free ++ s.own ++ s.used)).Perm (List.range s.total)

/-- Handing out: the most recently freed page, or a new one at the end of the file. -/
def alloc (s : State) : Nat × State :=
  match s.free.getLast? with
  | some p => (p, { s with free := s.free.dropLast, used := p :: s.used })
  | none => (s.total, { s with used := s.total :: s.used, total := s.total + 1 })

/-- Giving back: onto the stack while its 1024-entry pages have room, otherwise the
page itself becomes a page of the list. -/
def release (s : State) (p : Nat) : State :=
  if s.free.length / 1024 < s.own.length then
    { s with free := s.free ++ [p], used := s.used.erase p }
  else { s with own := s.own ++ [p], used := s.used.erase p }

inductive Op where
  | alloc
  | release (p : Nat)

def step (s : State) : Op → State × Option Nat
  | .alloc => ((alloc s).2, some (alloc s).1)
  | .release p => (release s p, none)

def run (s : State) : List Op → State × List (Option Nat)
  | [] => (s, [])
  | o :: os =>
    let (s', r) := step s o
    let (s'', rs) := run s' os
    (s'', r :: rs)

/-- Only pages that are in use are released. -/
def Legal (s : State) : List Op → Prop
  | [] => True
  | o :: os => (match o with | .release p => p ∈ s.used | .alloc => True) ∧ Legal (step s o).1 os

end Verif.Object.FreeSpec
