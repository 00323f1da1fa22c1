import Mathlib.Data.List.Forall2
import Verif.Object.Spec
import Verif.Record.Spec
import Verif.TableOpen.Model

/-!
# Specification: what the description of a table says

A description is `{"name",0,{"Fields",…},{"Indexes",…},{"Recordlock","1"},{"Files",a,b,c}}`.
-/

namespace Verif.TableOpen.Spec
open Verif Record Tree

/-- An index: its name, whether it is the primary one, its fields and their lengths. -/
structure IndexD where
  name : Str
  primary : Bool
  fields : List (Str × Int)

/-- What a description says. The files are given by the numbers of their first pages; 0 for
a missing one. -/
structure TableD where
  name : Str
  fields : List (Str × Decl)
  indexes : List IndexD
  recordlock : Bool
  data : Int
  blob : Int
  index : Int

/-! ## How it is written -/

/-- A text beginning with the decimal form of a number of 32 bits. -/
def Number (s : Str) (z : Int) : Prop :=
  ∃ (neg : Bool) (ds rest : Str), s = (if neg then ['-'] else []) ++ ds ++ rest ∧ ds ≠ [] ∧
    (∀ c ∈ ds, '0' ≤ c ∧ c ≤ '9') ∧ (∀ c, rest.head? = some c → ¬ ('0' ≤ c ∧ c ≤ '9')) ∧
    z = (if neg then -1 else 1) * ((ds.foldl (fun a c => a * 10 + (c.toNat - 48)) 0 : Nat) : Int) ∧
    -2147483648 ≤ z ∧ z < 2147483648

def IsStr (n : Node) (s : Str) : Prop := n.type = .string ∧ n.value = s
def IsNum (n : Node) (z : Int) : Prop := n.type = .number ∧ Number n.value z
/-- A number that is exactly `0` or `1`. -/
def IsBit (n : Node) (b : Bool) : Prop := n.type = .number ∧ n.value = (if b then ['1'] else ['0'])

/-- `{"name","type",null,length,precision,"case"}` -/
def FieldNode (n : Node) (f : Str × Decl) : Prop :=
  ∃ a b c d e g ty, n.kids = [a, b, c, d, e, g] ∧ IsStr a f.1 ∧ Record.Spec.typeName f.2.type = some ty ∧ IsStr b ty ∧
    IsBit c f.2.nullExists ∧ IsNum d f.2.length ∧ IsNum e f.2.precision ∧
    IsStr g (if f.2.caseSensitive then ['C', 'S'] else ['C', 'I'])

/-- `{"field",length}` -/
def IndexFieldNode (n : Node) (f : Str × Int) : Prop :=
  ∃ a b, n.kids = [a, b] ∧ IsStr a f.1 ∧ IsNum b f.2

/-- `{"name",primary,{"field",length},…}` with at least one field -/
def IndexNode (n : Node) (i : IndexD) : Prop :=
  n.type = .list ∧ i.fields ≠ [] ∧ ∃ a b rs, n.kids = a :: b :: rs ∧ IsStr a i.name ∧ IsBit b i.primary ∧
    List.Forall₂ IndexFieldNode rs i.fields

/-- The whole description. -/
def TableNode (n : Node) (d : TableD) : Prop :=
  ∃ a u fs is l fl, n.kids = [a, u, fs, is, l, fl] ∧ IsStr a d.name ∧
    (fs.type = .list ∧ d.fields ≠ [] ∧ ∃ h rs, fs.kids = h :: rs ∧ IsStr h "Fields".toList ∧ List.Forall₂ FieldNode rs d.fields) ∧
    (is.type = .list ∧ ∃ h rs, is.kids = h :: rs ∧ (d.indexes ≠ [] → IsStr h "Indexes".toList) ∧
      List.Forall₂ IndexNode rs d.indexes) ∧
    (∃ h v, l.kids = [h, v] ∧ IsStr h "Recordlock".toList ∧ IsStr v (if d.recordlock then ['1'] else ['0'])) ∧
    (∃ h x y z, fl.kids = [h, x, y, z] ∧ IsStr h "Files".toList ∧ IsNum x d.data ∧ IsNum y d.blob ∧ IsNum z d.index)

/-! ## Names -/

/-- The characters of a text as numbers. -/
def codes (s : Str) : List Nat := s.map Char.toNat

/-- Equal up to the case of letters. -/
def Same (a b : Str) : Prop := Unicode.Spec.SameText (codes a) (codes b)

/-- The UTF-8 form. -/
def utf8 (s : Str) : Bytes := Unicode.Spec.utf8Text (codes s)

/-- Tables of the system: those without a leading underscore, and some more. -/
def System (name : Str) : Prop :=
  name.head? ≠ some '_' ∨ (∃ p q, name = p ++ q ∧ Same q "STORAGE".toList) ∨
  ∃ w ∈ ["_SYSTEMSETTINGS", "_COMMONSETTINGS", "_REPSETTINGS", "_REPVARSETTINGS", "_FRMDTSETTINGS", "_SCHEDULEDJOBS"],
    Same name w.toList

/-- A field whose name ends like that of a reference. -/
def RefName (name : Str) : Prop :=
  ∃ p q, name = p ++ q ∧ (Same q "REF".toList ∨ Same q "ID".toList)

/-- The last `k` bytes of the UTF-8 form, if it has that many, do not begin inside a
character. -/
def WholeTail (k : Nat) (s : Str) : Prop :=
  (utf8 s).length < k ∨ ∃ p q, s = p ++ q ∧ (utf8 q).length = k

/-- The first field with the given name. -/
def FirstNamed (fs : List (Str × Decl)) (name : Str) (j : Nat) : Prop :=
  (∃ f, fs[j]? = some f ∧ Same f.1 name) ∧ ∀ i f, i < j → fs[i]? = some f → ¬ Same f.1 name

/-! ## When a table is opened -/

/-- No name has a NUL in it. -/
def NoNul (d : TableD) : Prop :=
  '\x00' ∉ d.name ∧ (∀ f ∈ d.fields, '\x00' ∉ f.1) ∧ ∀ i ∈ d.indexes, ∀ f ∈ i.fields, '\x00' ∉ f.1

/-- No length of a field is negative and a record is shorter than 2 GB. -/
def Sane (d : TableD) : Prop :=
  (∀ f ∈ d.fields, Record.Spec.Sane f.2) ∧ 1 + (d.fields.map (fun f => Record.Spec.fieldBytes f.2)).sum < 2147483648

/-- Bytes of a record: the removal mark and the fields, but at least five. -/
def recordBytes (d : TableD) : Nat := max 5 (1 + (d.fields.map (fun f => Record.Spec.fieldBytes f.2)).sum)

/-- 16 bits, least significant first. -/
def word16 (p : Bytes) (off : Nat) : Option Nat := do
  let a ← p[off]?
  let b ← p[off + 1]?
  return a.toNat + 256 * b.toNat

/-- Where index number `k` (from 0) begins in the index file. -/
def startOf (base : Base) (file : Bytes) (k : Nat) : Option Nat :=
  (Object.Spec.word file (4 * (k + 1))).map (fun w => if base.is838 then w * base.pageSize else w)

/-- An index file for `n` indexes: whole pages, with room for the table at its front; each
index begins inside; so does the first free page, computed in 32 bits. -/
def IndexFileOk (base : Base) (n : Nat) (f : Bytes) : Prop :=
  f.length < 2 ^ 32 ∧ base.pageSize ∣ f.length ∧ 4 * (n + 1) ≤ f.length ∧
  (∃ w, Object.Spec.word f 0 = some w ∧ w * base.pageSize % 2 ^ 32 < f.length) ∧
  ∀ k < n, ∃ s, startOf base f k = some s ∧ s < f.length ∧ (base.is838 = false → 4096 ∣ s)

/-- What must hold of the names and files. -/
structure Acceptable (base : Base) (d : TableD) : Prop where
  tableName : d.name.head? = some '_' → WholeTail 7 d.name
  fieldNames : ∀ f ∈ d.fields, WholeTail 3 f.1 ∧ WholeTail 2 f.1
  indexFields : ∀ i ∈ d.indexes, ∀ f ∈ i.fields, ∃ g ∈ d.fields, Same g.1 f.1
  data : d.data ≠ 0 ∧ ∃ f, base.file d.data = .ok f ∧ f.length < 2 ^ 32 ∧ recordBytes d ∣ f.length
  blob : d.blob ≠ 0 → ∃ f, base.file d.blob = .ok f
  noIndex : d.indexes = [] → d.index = 0
  index : d.indexes ≠ [] → d.index ≠ 0 ∧ ∃ f, base.file d.index = .ok f ∧ IndexFileOk base d.indexes.length f

/-! ## What the opened table is -/

/-- The index `x` is as described by `i`, the `k`-th description. -/
structure IndexIs (base : Base) (d : TableD) (file : Bytes) (k : Nat) (i : IndexD) (x : Ix) : Prop where
  name : x.name = utf8 i.name
  primary : x.primary = i.primary
  fields : List.Forall₂ (fun f g => FirstNamed d.fields f.1 g.1 ∧ g.2 = f.2) i.fields x.fields
  start : startOf base file k = some x.start
  /-- an index that begins at 0 has no pages -/
  none : x.start = 0 → x.rootblock = 0 ∧ x.length = 0
  root : x.start ≠ 0 → ∃ r, Object.Spec.word file x.start = some r ∧
    x.rootblock = (if base.is838 then r * base.pageSize % 2 ^ 32 else r)
  /-- a signed word -/
  length : x.start ≠ 0 → ∃ l, word16 file (x.start + 4) = some l ∧
    x.length = (if l < 32768 then l else l + 4294901760)

/-- The hidden field of tables with record locks but no row version. -/
def hiddenFields (d : TableD) : List (Bytes × Decl) :=
  if d.recordlock = true ∧ ∀ f ∈ d.fields, f.2.type ≠ .version then [(utf8 "VERSION".toList, ⟨.version8, false, 0, 0, false⟩)] else []

structure Opened (base : Base) (d : TableD) (t : Table) : Prop where
  name : t.name = utf8 d.name
  system : t.issystem = true ↔ System d.name
  numFields : t.numFields = d.fields.length
  fields : t.fields.map (fun f => (f.field.name, f.field.decl)) = d.fields.map (fun f => (utf8 f.1, f.2)) ++ hiddenFields d
  guid : List.Forall₂ (fun f g => g.isGuid = true ↔ f.2.type = .binary ∧ f.2.length = 16 ∧ RefName f.1)
    d.fields (t.fields.take d.fields.length)
  /-- row versions first, the other fields behind them, without gaps -/
  layout : Record.Spec.Tiles 1 (Record.Spec.inOrder ((t.fields.take d.fields.length).map FieldInfo.field))
    (1 + (d.fields.map (fun f => Record.Spec.fieldBytes f.2)).sum)
  recordlen : t.recordlen = recordBytes d
  lock : t.recordlock = d.recordlock
  data : base.file d.data = .ok t.data
  phys : t.data.length = t.phys * recordBytes d
  blob : (d.blob = 0 → t.blob = none) ∧ (d.blob ≠ 0 → ∃ f, base.file d.blob = .ok f ∧ t.blob = some f)
  numIndexes : t.indexes.length = d.indexes.length
  noIndex : d.indexes = [] → t.index = none
  index : d.indexes ≠ [] → ∃ f, base.file d.index = .ok f ∧ t.index = some f ∧
    ∀ k i, d.indexes[k]? = some i → ∃ x, t.indexes[k]? = some x ∧ IndexIs base d f k i x

end Verif.TableOpen.Spec
