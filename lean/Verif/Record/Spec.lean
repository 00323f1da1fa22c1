import Verif.Record.Model
import Verif.Unicode.Spec

/-! # Specification vocabulary: tables -/

namespace Verif.Record.Spec
open Verif Record

/-! ## Layout of a record -/

/-- Bytes a value of a declared type takes in a record. -/
def valueBytes (d : Decl) : Nat :=
  let n := d.length.toNat
  match d.type with
  | .binary => n
  | .varbinary => n + 2          -- two bytes of length
  | .bool => 1
  | .numeric => (n + 2) / 2      -- a sign and n digits, two to a byte
  | .char => 2 * n               -- UTF-16
  | .varchar => 2 * n + 2
  | .version => 16
  | .version8 => 8
  | .datetime => 7
  | .string | .text | .image => 8 -- start and length of a blob

/-- … and with its null flag. -/
def fieldBytes (d : Decl) : Nat := (if d.nullExists then 1 else 0) + valueBytes d

/-- The fields lie one behind the other from `a` to `b`. -/
def Tiles : Nat → List Field → Nat → Prop
  | a, [], b => a = b
  | a, f :: fs, b => f.offset = (a : Int) ∧ Tiles (a + fieldBytes f.decl) fs b

/-- The fields in the order they have in a record: row versions first. -/
def inOrder (fs : List Field) : List Field :=
  fs.filter (fun f => f.decl.type = .version ∨ f.decl.type = .version8) ++
  fs.filter (fun f => ¬ (f.decl.type = .version ∨ f.decl.type = .version8))

/-- Bytes needed by all fields. -/
def total (fs : List Field) : Nat := (fs.map (fun f => fieldBytes f.decl)).sum

/-- What may be declared: no negative length, nor one at the very end of the range of
`int`. -/
def Sane (d : Decl) : Prop := 0 ≤ d.length ∧ d.length + 2 < 2147483648

/-- Two fields share no byte of the record. -/
def Apart (f g : Field) : Prop :=
  f.offset + fieldBytes f.decl ≤ g.offset ∨ g.offset + fieldBytes g.decl ≤ f.offset

/-! ## Table descriptions -/

/-- The letters for the types that can be declared. -/
def typeName : FType → Option Str
  | .binary => some ['B'] | .bool => some ['L'] | .numeric => some ['N'] | .char => some ['N', 'C']
  | .varchar => some ['N', 'V', 'C'] | .version => some ['R', 'V'] | .string => some ['N', 'T']
  | .text => some ['T'] | .image => some ['I'] | .datetime => some ['D', 'T'] | .varbinary => some ['V', 'B']
  | .version8 => none

/-- The decimal text of a number, possibly with leading zeros. -/
def Numeral (s : Str) (n : Nat) : Prop :=
  s ≠ [] ∧ (∀ c ∈ s, '0' ≤ c ∧ c ≤ '9') ∧ s.foldl (fun a c => a * 10 + (c.toNat - 48)) 0 = n

/-- A node of a table description that describes the field `name` of type `d`:
`{"name","type",null,length,precision,"case"}`. -/
def Describes (n : Tree.Node) (name : Str) (d : Decl) : Prop :=
  ∃ ty len prec : Str, typeName d.type = some ty ∧ 0 ≤ d.length ∧ d.length < 2147483648 ∧ 0 ≤ d.precision ∧ d.precision < 2147483648 ∧
    Numeral len d.length.toNat ∧ Numeral prec d.precision.toNat ∧
    n.kids = [.leaf .string name, .leaf .string ty, .leaf .number (if d.nullExists then ['1'] else ['0']),
      .leaf .number len, .leaf .number prec, .leaf .string (if d.caseSensitive then ['C', 'S'] else ['C', 'I'])]

/-! ## Records -/

/-- The bytes of a field, null flag included. -/
def raw (r : Bytes) (f : Slot) : Bytes := (r.drop f.offset).take ((if f.nullable then 1 else 0) + f.width)

/-- The bytes of its value. -/
def value (r : Bytes) (f : Slot) : Bytes := (r.drop (f.offset + (if f.nullable then 1 else 0))).take f.width

/-- Two slots share no byte. -/
def SlotsApart (f g : Slot) : Prop := f.offset + f.size ≤ g.offset ∨ g.offset + g.size ≤ f.offset

/-! ## Tables -/

/-- The contents of physical record `i`. -/
def record (t : Tab) (i : Nat) : Bytes := (t.file.drop (i * t.reclen)).take t.reclen

/-- A record is live if its first byte is zero. -/
def Live (t : Tab) (i : Nat) : Prop := (record t i).head? = some 0

instance (t : Tab) (i : Nat) : Decidable (Live t i) := by unfold Live; infer_instance

/-- The live ones among some records, with their contents. -/
def liveOf (t : Tab) (l : List Nat) : List (Nat × Bytes) :=
  (l.filter (fun i => decide (Live t i))).map (fun i => (i, record t i))

/-- The file consists of `n` whole records. -/
def Whole (t : Tab) (n : Nat) : Prop := 0 < t.reclen ∧ t.file.length = n * t.reclen ∧ t.file.length < 2 ^ 32

end Verif.Record.Spec
