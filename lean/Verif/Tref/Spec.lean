import Verif.Record.Spec
import Verif.Unicode.Theorems
import Verif.Cli.Spec

/-!
# What is expected of the replacement of type numbers

A column of the base whose name ends with `TREF` and which holds four bytes holds the number of a table, most significant byte
first. The user gives a file with a line for each number: the new number, a tab, the old number. After the call, where a record had an old number
it has the new one.
-/

namespace Verif.Tref.Spec
open Verif Verif.Record

/-- One line of the user's file. -/
structure Entry where
  new : Nat
  old : Nat
  deriving DecidableEq, Repr

/-- The bytes are the decimal digits of this number. -/
def Number (b : Bytes) (n : Nat) : Prop :=
  ∃ ds : List Nat, ds ≠ [] ∧ (∀ d ∈ ds, d < 10) ∧ b = Cli.Spec.digits ds ∧ Cli.Spec.value ds = n

/-- The line says this. -/
def Line (b : Bytes) (e : Entry) : Prop :=
  ∃ x y, Number x e.new ∧ Number y e.old ∧ b = x ++ 9 :: y

/-- A file of these lines. -/
def file (ls : List Bytes) : Bytes := (ls.map (· ++ [10])).flatten

/-- The new number of an old one: the last line that tells it counts, and 0 stands for none. -/
def newOf (es : List Entry) (n : Nat) : Nat := (((es.filter (·.old = n)).getLast?).map (·.new)).getD 0

/-- The greatest old number. -/
def greatest (es : List Entry) : Nat := (es.map (·.old)).foldl max 0

/-- A column: its name, its type and length, its place in a record. -/
structure Column where
  name : List Nat
  type : FType
  length : Int
  slot : Slot

/-- The name has letters, digits and signs of ASCII only. -/
def Plain (name : List Nat) : Prop := ∀ c ∈ name, 0 < c ∧ c < 128

/-- The column holds numbers of tables: its name ends with `TREF`, in letters of either case, and it holds four bytes. -/
def IsRef (c : Column) : Prop :=
  (∃ p q, c.name = p ++ q ∧ Unicode.Spec.SameText q [84, 82, 69, 70]) ∧ c.type = .binary ∧ c.length = 4

/-- A table of the base. -/
structure Table where
  tab : Tab
  records : Nat
  columns : List Column

/-- The file of the table holds whole records, and its columns lie in them. -/
def Table.Good (t : Table) : Prop :=
  Spec.Whole t.tab t.records ∧ ∀ c ∈ t.columns, Plain c.name ∧ c.slot.offset + c.slot.size ≤ t.tab.reclen ∧ c.slot.width = 4

/-- The number in a record: most significant byte first; 0 for an absent value. -/
def number (r : Bytes) (f : Slot) : Nat :=
  if f.nullable ∧ (r.drop f.offset).head? = some 0 then 0
  else (Record.Spec.value r f).foldl (fun v x => v * 256 + x.toNat) 0

/-- There is nothing to replace in this column: it holds no numbers of tables, or the table has no records but removed ones. -/
def Idle (t : Table) (c : Column) : Prop := IsRef c → ∀ i, i < t.records → ¬ Record.Spec.Live t.tab i

end Verif.Tref.Spec
