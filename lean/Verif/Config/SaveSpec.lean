import Verif.Config.Save
import Verif.Config.SelectSpec
import Verif.Config.CasSpec

/-! # Specification vocabulary: the configuration being edited -/

namespace Verif.Config.Spec
open Verif Tree

/-- The tree lists these identifiers: the second value of its first list is their number, then they
follow. -/
def ListsIds (tt : Node) (gs : List Bytes) : Prop :=
  ∃ t v a n ids extra more, tt.kids = .mk t v (a :: n :: (ids ++ extra)) :: more ∧ n.type = .number ∧ IsNumber n.value gs.length ∧
    ids.map Node.value = gs.map Guid.as1C

/-- The file of this name in the table lists these identifiers; without such a file there are
none. -/
def HasIds (lower : Str → Str) (read : TFile → Outcome Node) (tab : List (Str × TFile)) (name : Str) (gs : List Bytes) : Prop :=
  (∃ f tt, Stored lower tab name f ∧ read f = .ok tt ∧ ListsIds tt gs) ∨ ((∀ f, ¬ Stored lower tab name f) ∧ gs = [])

/-- A file of the table other than the list, and not empty. -/
def Present (lower : Str → Str) (list : Str) (tab : List (Str × TFile)) (f : TFile) : Prop :=
  ∃ key b l rest, (key, f) ∈ tab ∧ key ≠ lower list ∧ f.addr = (b, l) :: rest ∧ l ≠ 0

/-- A table with every file under its own name. -/
def Keyed (lower : Str → Str) (tab : List (Str × TFile)) : Prop :=
  (∀ p ∈ tab, p.1 = lower p.2.name) ∧ tab.Pairwise (fun a b => a.1 ≠ b.1)

/-- A name with no extension and no mark of an update. -/
def PlainName (s : Str) : Prop := '.' ∉ s ∧ ¬ "_dynupdate_".toList <:+: s

/-- The storage gives this file for a name. -/
def Picks (lower : Str → Str) (out : List (Str × Chosen TFile)) (name : Str) (f : TFile) : Prop := ∃ c, find out (lower name) = some c ∧ c.file = f

end Verif.Config.Spec
