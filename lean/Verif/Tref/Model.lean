import Verif.Record.Model
import Verif.Unicode.Model
import Verif.Cli.Model

/-!
# Replacing type numbers (`T_1CD::replaceTREF`, Class_1CD.cpp:1630-1697)

The tables are those of property C35 with the fields of the function's interest. `Outcome (Option _)`: `none` is a loop that has not ended after `fuel`
turns. Not modelled: the messages, the change of the editing mode of the table and back (`set_edit`), the memory for the map.
-/

namespace Verif.Tref
open Verif Verif.Record

/-- What the function asks of a field (Field.h). -/
structure Fld where
  name : Bytes
  type : FType
  length : Int
  slot : Slot

/-- What it asks of a table: the file of records, `get_phys_numrecords`, the fields. Serves the model of Class_1CD.cpp:1670-1690. -/
structure Table where
  tab : Tab
  phys : Nat
  fields : List Fld

/-- Pieces of a text between newlines. Serves the model of String.cpp:107-115. -/
def splitNl : Bytes → List Bytes
  | [] => [[]]
  | c :: s =>
    if c = 10 then [] :: splitNl s
    else match splitNl s with
      | [] => [[c]]
      | w :: ws => (c :: w) :: ws

/-- `TStringList::LoadFromFile` (String.cpp:107-115) of a file with these bytes: `getline` until it fails; an empty piece at the end is no line. -/
def linesOf (b : Bytes) : List Bytes :=
  let l := splitNl b
  if l.getLast? = some [] then l.dropLast else l

/-- `str.find("\t")`, and the parts before and behind (Class_1CD.cpp:1644-1648, 1657-1662). -/
def atTab : Bytes → Option (Bytes × Bytes)
  | [] => none
  | c :: s => if c = 9 then some ([], s) else (atTab s).map fun p => (c :: p.1, p.2)

/-- The first loop (Class_1CD.cpp:1642-1652): the greatest second number, 0 at least. -/
def highest : List Bytes → Int → Outcome Int
  | [], m => .ok m
  | l :: ls, m =>
    match atTab l with
    | none => highest ls m
    | some (_, y) => do
      let j ← Cli.stoi y
      highest ls (if m < j then j else m)

/-- The second loop (Class_1CD.cpp:1656-1664): `map[j] = i`, which is undefined for a negative number. -/
def fill : List Bytes → List Int → Outcome (List Int)
  | [], m => .ok m
  | l :: ls, m =>
    match atTab l with
    | none => fill ls m
    | some (x, y) => do
      let i ← Cli.stoi x
      let j ← Cli.stoi y
      if 0 ≤ j ∧ j.toNat < m.length then fill ls (m.set j.toNat i) else .ub

/-- The map (Class_1CD.cpp:1638-1664); `max_size + 1` is a sum of `int`. -/
def readMap (b : Bytes) : Outcome (List Int) := do
  let m ← highest (linesOf b) 0
  if m + 1 > 2147483647 then .ub
  else fill (linesOf b) (List.replicate (m + 1).toNat 0)

/-- `reverse_byte_order` (Common.cpp:54-62) of a number loaded from these bytes. -/
def bigEndian (b : Bytes) : Nat := b.foldl (fun v x => v * 256 + x.toNat) 0

/-- The bytes of a number stored after `reverse_byte_order`. Serves the model of Class_1CD.cpp:1680-1687. -/
def bytesOf (z : Int) : Bytes :=
  let n := (z % 4294967296).toNat
  [UInt8.ofNat (n / 16777216), UInt8.ofNat (n / 65536), UInt8.ofNat (n / 256), UInt8.ofNat n]

/-- One turn of the inner loop (Class_1CD.cpp:1680-1687), on a copy of the record; the copy is changed and forgotten. -/
def visit (map : List Int) (f : Fld) (r : Bytes) : Outcome Unit := do
  let v ← get r f.slot 4
  let ii := bigEndian (v.getD [])
  if ii = 0 then .ok ()
  else
    match map[ii]? with
    | none => .ub
    | some z => do
      let _ ← set r f.slot (bytesOf z)
      .ok ()

/-- The inner loop (Class_1CD.cpp:1679-1688): nothing in it moves the iterator. -/
def turns (map : List Int) (f : Fld) (it : Iter) : Nat → Outcome (Option Unit)
  | 0 => .ok none
  | n + 1 =>
    if it.eof then .ok (some ())
    else do
      visit map f it.buf
      turns map f it n

/-- One field of a table (Class_1CD.cpp:1670-1690). -/
def column (map : List Int) (fuel : Nat) (t : Table) (f : Fld) : Outcome (Option Unit) := do
  if ← Unicode.endsWithIC f.name [84, 82, 69, 70] then
    if f.type ≠ .binary ∨ f.length ≠ 4 then .ok (some ())
    else
      match ← iterStart t.tab t.phys fuel with
      | none => .ok none
      | some it => turns map f it fuel
  else .ok (some ())

/-- All fields of a table (Class_1CD.cpp:1669-1691). -/
def columns (map : List Int) (fuel : Nat) (t : Table) : List Fld → Outcome (Option Unit)
  | [] => .ok (some ())
  | f :: fs => do
    match ← column map fuel t f with
    | none => .ok none
    | some () => columns map fuel t fs

/-- All tables (Class_1CD.cpp:1666-1692). -/
def tables (map : List Int) (fuel : Nat) : List Table → Outcome (Option Unit)
  | [] => .ok (some ())
  | t :: ts => do
    match ← columns map fuel t t.fields with
    | none => .ok none
    | some () => tables map fuel ts

/-- `replaceTREF` (Class_1CD.cpp:1631-1697): the value returned and the tables afterwards; the line that wrote the record is commented out (1686), so
they are those before. -/
def replace (fuel : Nat) (b : Bytes) (ts : List Table) : Outcome (Option (Bool × List Table)) := do
  let map ← readMap b
  match ← tables map fuel ts with
  | none => .ok none
  | some () => .ok (some (true, ts))

end Verif.Tref
