import Verif.Record.Spec
import Verif.Unicode.Theorems
import Verif.Object.Spec

/-! # Specification vocabulary: which bytes records are made of -/

namespace Verif.Template.Spec
open Verif Record Unicode.Spec

/-- The byte writes a number `lo … hi` with two decimal digits. -/
def Digits (lo hi : Nat) (b : UInt8) : Prop := ∃ n, lo ≤ n ∧ n ≤ hi ∧ b.toNat = 16 * (n / 10) + n % 10

/-- Fields that must have a date. -/
def requiredNames : List (List Nat) := ["_DATE_TIME".toList.map Char.toNat, "_NUMBERPREFIX".toList.map Char.toNat]

/-- The field has a proper name: a text without NUL. -/
def Named (f : Field) : Prop := ∃ cps, Name cps ∧ f.name = utf8Text cps

/-- The field is one of those that must have a date, whatever the case of the letters. -/
def Required (f : Field) : Prop := ∃ cps n, Name cps ∧ f.name = utf8Text cps ∧ n ∈ requiredNames ∧ SameText cps n

/-- The values byte `k` of a value may have. -/
def ByteOk (f : Field) (k : Nat) (b : UInt8) : Prop :=
  let n := f.decl.length.toNat
  match f.decl.type with
  | .bool => b.toNat ≤ 1
  | .numeric => Digits 0 99 b
  | .varchar | .varbinary =>
    (k = 0 → b.toNat ≤ n) ∧ (k = 1 → b.toNat ≤ n / 256)  -- the number of characters or bytes
  | .datetime =>
    (k = 0 → Digits 0 39 b) ∧ (k = 1 → Digits 0 99 b) ∧       -- year
    (k = 2 → Digits 0 12 b ∧ (Required f → b ≠ 0)) ∧           -- month
    (k = 3 → Digits 0 31 b ∧ (Required f → b ≠ 0)) ∧           -- day
    (k = 4 → Digits 0 23 b) ∧ (5 ≤ k → Digits 0 59 b)         -- hours, minutes, seconds
  | _ => True

/-- The values byte `k` of a field may have, its null flag included. -/
def FieldByteOk (f : Field) (k : Nat) (b : UInt8) : Prop :=
  if f.decl.nullExists then if k = 0 then b.toNat ≤ 1 else ByteOk f (k - 1) b else ByteOk f k b

/-- The values byte `k` of a record in use may have: 0 at the beginning, else what the
field it belongs to allows. A byte that belongs to no field is never right. -/
def RecordByteOk (fs : List Field) (k : Nat) (b : UInt8) : Prop :=
  (k = 0 ∧ b = 0) ∨
  ∃ f ∈ fs, f.offset ≤ k ∧ (k : Int) < f.offset + Record.Spec.fieldBytes f.decl ∧ FieldByteOk f (k - f.offset.toNat) b

/-- The page fits as page `i` of records of `rlen` bytes: on the first page the record 0
says that there are no removed records and the other bytes of this record do not matter,
all other bytes are right at their place. -/
def Fits (fs : List Field) (rlen i : Nat) (page : Bytes) : Prop :=
  (i = 0 → page.take 5 = [1, 0, 0, 0, 0]) ∧
  ∀ q (b : UInt8), page[q]? = some b → (i = 0 → rlen ≤ q) → RecordByteOk fs ((i * 4096 + q) % rlen) b

/-! ## Valid records, value by value -/

/-- Two decimal digits in a byte. -/
def bcd (n : Nat) : UInt8 := UInt8.ofNat (16 * (n / 10) + n % 10)

/-- `v` is a valid value of the field: numbers are packed decimal digits, dates real times
of the day of years up to 3999, texts and byte strings not longer than declared. -/
def ValueOk (f : Field) (v : Bytes) : Prop :=
  let n := f.decl.length.toNat
  match f.decl.type with
  | .bool => v = [0] ∨ v = [1]
  | .numeric => ∃ ds : List Nat, ds.length = (n + 2) / 2 ∧ (∀ x ∈ ds, x ≤ 99) ∧ v = ds.map bcd
  | .datetime => ∃ y y' mo d h mi s : Nat, y ≤ 39 ∧ y' ≤ 99 ∧ mo ≤ 12 ∧ d ≤ 31 ∧ h ≤ 23 ∧ mi ≤ 59 ∧ s ≤ 59 ∧
      (Required f → 1 ≤ mo ∧ 1 ≤ d) ∧ v = [y, y', mo, d, h, mi, s].map bcd
  | .varchar | .varbinary => v.length = Record.Spec.valueBytes f.decl ∧
      ∃ c rest, c ≤ n ∧ v = UInt8.ofNat (c % 256) :: UInt8.ofNat (c / 256) :: rest
  | _ => v.length = Record.Spec.valueBytes f.decl

/-- A valid record in use. -/
def RecordOk (fs : List Field) (rlen : Nat) (r : Bytes) : Prop :=
  r.length = rlen ∧ r[0]? = some 0 ∧
  ∀ f ∈ fs, ∃ flag v, r.drop f.offset.toNat = (if f.decl.nullExists then [flag] else []) ++ v ++ r.drop (f.offset.toNat + Record.Spec.fieldBytes f.decl) ∧
    flag.toNat ≤ 1 ∧ ValueOk f v

/-- Every byte of a record but the first belongs to a field. -/
def Covered (fs : List Field) (rlen : Nat) : Prop :=
  ∀ k, 1 ≤ k → k < rlen → ∃ f ∈ fs, f.offset ≤ (k : Int) ∧ (k : Int) < f.offset + Record.Spec.fieldBytes f.decl

/-- A table without removed records: record 0, which says so, and valid records. -/
def TableOk (fs : List Field) (rlen : Nat) (data : Bytes) : Prop :=
  ∃ (first : Bytes) (recs : List Bytes), first.length = rlen ∧ first.take 5 = [1, 0, 0, 0, 0] ∧ (∀ r ∈ recs, RecordOk fs rlen r) ∧
    data = first ++ recs.flatten

/-- Page `i` of data. -/
def pageOf (data : Bytes) (i : Nat) : Bytes := (data.drop (i * 4096)).take 4096

/-! ## Repairing -/

/-- Page `r` of the file may be page `i` of the records; the first five pages of a
database never are. -/
def Good (file : List Bytes) (fs : List Field) (rlen i r : Nat) : Prop :=
  5 ≤ r ∧ ∃ p, file[r]? = some p ∧ Fits fs rlen i p

/-- What becomes of the page number `d` of page `i`: it stays if the page may be there;
else it becomes the only page that may be there; it also stays if there are several. -/
def Repaired (file : List Bytes) (fs : List Field) (rlen i d d' : Nat) : Prop :=
  (Good file fs rlen i d ∧ d' = d) ∨
  (¬ Good file fs rlen i d ∧ Good file fs rlen i d' ∧ ∀ r, Good file fs rlen i r → r = d') ∨
  (¬ Good file fs rlen i d ∧ (∃ r r', r ≠ r' ∧ Good file fs rlen i r ∧ Good file fs rlen i r') ∧ d' = d)

/-- Records of `n` full pages whose root page is `block`; the placement pages are
`tab 0`, `tab 1`, …, all different pages of the database. -/
structure Placed (pages : List Bytes) (block n : Nat) (tab : Nat → Nat) : Prop where
  size : ∀ p ∈ pages, p.length = 4096
  root : ∃ hp, pages[block]? = some hp ∧ hp.take 8 = [0x31, 0x43, 0x44, 0x42, 0x4F, 0x42, 0x56, 0x38] ∧
    Object.Spec.word hp 8 = some (n * 4096) ∧ ∀ k, k * 1023 < n → Object.Spec.word hp (24 + 4 * k) = some (tab k)
  start : 5 ≤ block
  tabs : ∀ k, k * 1023 < n → 5 ≤ tab k ∧ tab k < pages.length ∧ tab k ≠ block
  diff : ∀ k k', k * 1023 < n → k' * 1023 < n → tab k = tab k' → k = k'
  small : n ≤ 1018 * 1023

/-- The number of page `i` of the records. -/
def number (pages : List Bytes) (block i : Nat) : Option Nat := Object.Spec.dataPage pages Object.Spec.file80 block i

end Verif.Template.Spec
