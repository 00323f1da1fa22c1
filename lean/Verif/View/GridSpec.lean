import Verif.View.Grid
import Verif.Index.WalkSpec
import Verif.Record.Spec
import Verif.Field.NumberSpec

/-! # Specification: what a grid of the records of a table shows -/

namespace Verif.View.Spec
open Verif Record Verif.View

/-- The rows of the grid are these records of the table: all of them in the order of the data file, or, with an index, those on its
leaves in their order. -/
inductive Rows (g : Grid) : List Nat → Prop where
  | plain {n} : g.index = none → Record.Spec.Whole g.tab n → Rows g (List.range n)
  | sorted {b n root len c l page ls} : g.index = some b → Record.Spec.Whole g.tab n → b.room = n →
      Index.Spec.Header b root len → Index.Spec.PageAt b root page → Index.Spec.At page 2 2 c → 0 < c →
      Index.Spec.Leftmost b len root l → Index.Spec.Leaves b l ls → ls.flatten.Nodup → (∀ x ∈ ls.flatten, x < n) → Rows g ls.flatten

/-- The field is null in the record: it may be, and its flag is 0. -/
def Null (f : Field.Fld) (r : Bytes) : Prop := f.nullable = true ∧ ∃ pre post : Bytes, r = pre ++ 0 :: post ∧ pre.length = f.offset

/-- The record holds this value in the field. -/
def Holds (f : Field.Fld) (v r : Bytes) : Prop := Field.Spec.HasValue f.offset f.nullable v r

/-- How the value of a field is written, by its type. -/
inductive Text (sh : Field.Show) (f : Field.Fld) (r : Bytes) : Str → Prop where
  | no : f.ty.type = .bool → Holds f [0] r → Text sh f r "false".toList
  | yes {b} : f.ty.type = .bool → b ≠ 0 → Holds f [b] r → Text sh f r "true".toList
  | char {cps} : f.ty.type = .char → (∀ c ∈ cps, Unicode.Spec.Scalar c) → (Unicode.Spec.utf16Text cps).length = f.ty.length * 2 →
      Holds f (Unicode.Spec.utf16Text cps) r → Text sh f r (Field.Spec.utf8Str cps)
  | varchar {cps} {fill : Bytes} : f.ty.type = .varchar → (∀ c ∈ cps, Unicode.Spec.Scalar c) → f.ty.length < 32768 →
      (Unicode.Spec.utf16Text cps ++ fill).length = 2 * f.ty.length →
      Holds f (Unicode.Spec.le16 ((Unicode.Spec.utf16Text cps).length / 2) ++ Unicode.Spec.utf16Text cps ++ fill) r →
      Text sh f r (Field.Spec.utf8Str cps)
  | reference {v} : f.ty.type = .binary → f.ty.isGuid = true → v.length = 16 → Holds f v r → Text sh f r (Field.Spec.guid1C v)
  | identifier {v} : f.ty.type = .binary → f.ty.isGuid = false → f.ty.length = 16 → v.length = 16 → sh.guid = true → Holds f v r →
      Text sh f r (if sh.ms then Field.Spec.guidMS v else Field.Spec.guid1C v)
  | version {a b c d} : f.ty.type = .version → a.length = 4 → b.length = 4 → c.length = 4 → d.length = 4 → Holds f (a ++ b ++ c ++ d) r →
      Text sh f r (Field.Spec.decimal (Field.Spec.signed a) ++ ':' :: Field.Spec.decimal (Field.Spec.signed b) ++
        ':' :: Field.Spec.decimal (Field.Spec.signed c) ++ ':' :: Field.Spec.decimal (Field.Spec.signed d))
  | version8 {a b} : f.ty.type = .version8 → a.length = 4 → b.length = 4 → Holds f (a ++ b) r →
      Text sh f r (Field.Spec.decimal (Field.Spec.signed a) ++ ':' :: Field.Spec.decimal (Field.Spec.signed b))
  | number {minus ip fp v} : f.ty.type = .numeric → f.ty.length = (ip ++ fp).length → f.ty.precision = fp.length → ip ++ fp ≠ [] →
      Field.Spec.IsNumber minus (ip ++ fp) v → Holds f v r →
      Text sh f r ((if minus then ['-'] else []) ++ Decimal.Spec.canonical (Field.Spec.digitsValue (ip ++ fp)) fp.length)
  | memo {v} : f.ty.type = .string → Holds f v r → Text sh f r "{MEMO}".toList
  | text {v} : f.ty.type = .text → Holds f v r → Text sh f r "{TEXT}".toList
  | image {v} : f.ty.type = .image → Holds f v r → Text sh f r "{IMAGE}".toList

/-- The column is one the program made for a declared field (C68). -/
def Declared (c : Column) : Prop := ∃ d : Decl, 0 ≤ d.length ∧ Field.manager c.name d = .ok c.fld.ty

/-- The grid answers thus when it waits long enough. -/
def Answers (x : Rest) (sh : Field.Show) (g : Grid) (row col : Nat) (role : CellRole) (a : Cell) : Prop :=
  ∃ fuel, ∀ k, fuel ≤ k → gridData { x with fuel := k } sh g row col role = .ok (some a)

end Verif.View.Spec
