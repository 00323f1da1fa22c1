import Verif.Config.Stored
import Verif.Config.FilesSpec
import Verif.Field.Spec
import Verif.Unicode.Theorems
import Verif.Lex
import Verif.Format.Spec

/-! # Specification vocabulary: tables of files, from the bytes of their records -/

namespace Verif.Config.Spec
open Verif

/-- The digits of some bytes, two to a byte. -/
def nibbles (b : Bytes) : List Int := b.flatMap (fun x => [((x.toNat / 16 : Nat) : Int), ((x.toNat % 16 : Nat) : Int)])

/-- The columns have the names of a table of files, in any case of letters. -/
def Named (cols : List Col) : Prop :=
  ∃ ns, (∀ n ∈ ns, Unicode.Spec.Name n) ∧ Format.Spec.FileFields ns ∧ cols.map (·.name) = ns.map Unicode.Spec.utf8Text

/-- The columns as the platform declares them: the name is a string of variable length, the part number, if
there is one, a whole number. -/
structure Columns (cols : List Col) : Prop where
  name : ∀ c, cols[0]? = some c → c.fld.ty.type = .varchar ∧ c.fld.ty.length < 32768
  part : ∀ c, cols[6]? = some c → c.fld.ty.type = .numeric ∧ c.fld.ty.precision = 0

/-- The record holds a text of variable length in the column: the count of its 16-bit units, the units, and filling. -/
def HoldsText (c : Col) (r : Bytes) (cps : List Nat) : Prop :=
  (∀ x ∈ cps, Unicode.Spec.Scalar x) ∧ ∃ fill : Bytes, (Unicode.Spec.utf16Text cps ++ fill).length = 2 * c.fld.ty.length ∧
    Field.Spec.HasValue c.fld.offset c.fld.nullable
      (Unicode.Spec.le16 ((Unicode.Spec.utf16Text cps).length / 2) ++ Unicode.Spec.utf16Text cps ++ fill) r

/-- The record holds a whole number in the column: a sign that is not 0 and the digits, two to a byte. -/
def HoldsNumber (c : Col) (r : Bytes) (n : Nat) : Prop :=
  ∃ (ds : List Nat) (v : Bytes), ds ≠ [] ∧ ds.length = c.fld.ty.length ∧ (∀ d ∈ ds, d < 10) ∧ val 10 ds = n ∧
    Decimal.writeTo ⟨true, 0, ds.map Int.ofNat, 1⟩ = .ok v ∧ Field.Spec.HasValue c.fld.offset c.fld.nullable v r

/-- The record holds the place of data: start and length, or null for none. -/
def HoldsPlace (c : Col) (r : Bytes) (start length : Nat) : Prop :=
  (∃ a b : Bytes, a.length = 4 ∧ b.length = 4 ∧ Field.Spec.value a = start ∧ Field.Spec.value b = length ∧
    Field.Spec.HasValue c.fld.offset c.fld.nullable (a ++ b) r) ∨
  (c.fld.nullable = true ∧ start = 0 ∧ length = 0 ∧ r[c.fld.offset]? = some 0)

/-- The record holds a time in the column, with at least three more bytes behind it. -/
def HoldsTime (clock : List Int → Nat) (c : Col) (r : Bytes) (t : Nat) : Prop :=
  ∃ (pre v post : Bytes), r = pre ++ v ++ post ∧ pre.length = c.fld.offset + (if c.fld.nullable then 1 else 0) ∧ v.length = 7 ∧
    3 ≤ post.length ∧ t = clock (nibbles v)

/-- The record, as bytes, holds the row. Of removed records only the mark counts. -/
inductive Held (clock : List Int → Nat) (cols : List Col) (r : Bytes) (row : Row) : Prop
  | removed (b : UInt8) (rest : Bytes) : r = b :: rest → b ≠ 0 → row.removed = true → Held clock cols r row
  | here (rest : Bytes) (cps : List Nat) : r = 0 :: rest → row.removed = false →
      (∀ c, cols[0]? = some c → HoldsText c r cps) → row.name = Field.Spec.utf8Str cps →
      (∀ c, cols[1]? = some c → HoldsTime clock c r row.created) →
      (∀ c, cols[2]? = some c → HoldsTime clock c r row.modified) →
      (∀ c, cols[5]? = some c → HoldsPlace c r row.start row.length) →
      (∀ c, cols[6]? = some c → ∃ n : Nat, row.part = n ∧ n < 2 ^ 31 ∧ HoldsNumber c r n) →
      (cols.length = 6 → row.part = 0) → Held clock cols r row

/-- A file: its name, and for each of its parts the place and the bytes stored there. -/
structure SFile where
  name : Str
  parts : List ((Nat × Nat) × Bytes)

/-- What the records of the table say: the parts of the files, in any order, and nothing else. The case of the letters
of a name may differ from record to record. -/
def Says (lower : Str → Str) (rows : List Row) (files : List SFile) : Prop :=
  List.Perm ((rows.filter (fun r => !r.removed && (r.start ≠ 0 && r.length ≠ 0 && r.name ≠ []))).map
      (fun r => (lower r.name, r.part, r.start, r.length)))
    (files.flatMap (fun f => f.parts.mapIdx (fun i p => (lower f.name, (i : Int), p.1.1, p.1.2))))

end Verif.Config.Spec
