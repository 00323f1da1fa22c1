import Verif.Unicode.Spec
import Verif.Tree.Model

/-!
# What the list of tables says

The record `DBNames` of `PARAMS` holds a bracket text. The second element of its list is a list; behind its first element, a number, come the
entries, each with an identifier, a word and a number. An entry requires a table, unless its word is one of those that name fields and indexes.
-/

namespace Verif.TableList.Spec
open Verif Verif.Unicode.Spec

def word (w : String) : List Nat := w.toList.map Char.toNat

/-- The words that require no table. -/
def fieldWords : List String :=
  ["Fld", "LineNo", "Turnover", "TurnoverDt", "TurnoverCt", "ByField", "ByOwnerField", "ByParentField", "ByProperty", "ByPropRecorder",
    "ByResource", "ByDim", "ByDims", "ByDimension", "ByDimensions", "ByDimRecorder"]

/-- The words of tables that belong to others, whose names come before. -/
def partWords : List String := ["VT", "ExtDim"]

/-- The identifier of nothing. -/
def noGuid : List Nat := word "00000000-0000-0000-0000-000000000000"

/-- An entry, as code points. -/
structure Item where
  guid : List Nat
  name : List Nat
  num : List Nat

/-- The name of the table. -/
def Item.table (e : Item) : List Nat := word "_" ++ e.name ++ e.num

/-- The entry requires a table. -/
def Item.Required (e : Item) : Prop := e.guid ≠ noGuid ∧ ∀ w ∈ fieldWords, ¬ SameText e.name (word w)

/-- The table of the entry is among the given ones. -/
def Item.Present (e : Item) (tables : List (List Nat)) : Prop :=
  ((∃ w ∈ partWords, SameText e.name (word w)) ∧ ∃ t ∈ tables, ∃ p q, t = p ++ q ∧ SameText q e.table) ∨
  ((∀ w ∈ partWords, ¬ SameText e.name (word w)) ∧ ∃ t ∈ tables, SameText t e.table)

/-- The text is made of code points below 128 other than NUL. -/
def Ascii (n : List Nat) : Prop := ∀ c ∈ n, 0 < c ∧ c < 128

/-- The nodes of the tree are these entries; there may be more in a node. -/
inductive Entries : List Tree.Node → List Item → Prop
  | nil : Entries [] []
  | cons {t ts a b c} {e : Item} {es} : t.kids[0]? = some a → t.kids[1]? = some b → t.kids[2]? = some c →
      a.value = (utf8Text e.guid).map (fun x => Char.ofNat x.toNat) → b.value = (utf8Text e.name).map (fun x => Char.ofNat x.toNat) →
      c.value = (utf8Text e.num).map (fun x => Char.ofNat x.toNat) → Entries ts es → Entries (t :: ts) (e :: es)

/-- The tree lists these entries (at least one). -/
def Lists (rt : Tree.Node) (es : List Item) : Prop :=
  ∃ a b first nodes, rt.kids[0]? = some a ∧ a.kids[1]? = some b ∧ b.kids = first :: nodes ∧ nodes ≠ [] ∧ Entries nodes es

end Verif.TableList.Spec
