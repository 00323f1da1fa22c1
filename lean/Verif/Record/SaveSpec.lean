import Verif.Record.Save
import Verif.Record.EditSpec
import Verif.Blob.Spec

/-! # Specification vocabulary: the files of a table and what a session does to them -/

namespace Verif.Record.Spec
open Verif Record

variable {X : Type}

/-- The records of a table with their numbers, as a scan shows them. -/
def rows (s : DSt X) : List (Nat × Bytes) :=
  match s.data with
  | none => []
  | some f => liveOf ⟨f, s.reclen⟩ (List.range s.phys)

/-- Four bytes of a record, little-endian. -/
def wordAt (r : Bytes) (off : Nat) : Nat :=
  (r.getD off 0).toNat + 256 * (r.getD (off + 1) 0).toNat + 65536 * (r.getD (off + 2) 0).toNat +
    16777216 * (r.getD (off + 3) 0).toNat

/-- The numbers of the first blocks of the blobs of a record; 0 stands for no blob. -/
def blobsOf (fields : List SField) (r : Bytes) : List Nat :=
  ((fields.filter (fun f => decide (f.type = .image ∨ f.type = .string ∨ f.type = .text))).map
    (fun f => wordAt r (f.slot.offset + if f.slot.nullable then 1 else 0))).filter (· ≠ 0)

/-- The blob file holds the blobs of `b`; a table without one has no blobs. -/
def BlobFile (f : Option Bytes) (b : Blob.Spec.State) : Prop :=
  match f with
  | none => b.blobs = []
  | some f => Blob.Spec.Represents f b ∧ f.length < 2 ^ 32

/-- A table being edited, in good order: whole records behind a record 0 that is marked
removed, and every blob belongs to one field of one record. -/
structure Sound (fields : List SField) (s : DSt X) (b : Blob.Spec.State) : Prop where
  editing : s.edit = true
  data : ∃ f, s.data = some f ∧ Whole ⟨f, s.reclen⟩ s.phys ∧ (0 < s.phys → ¬ Live ⟨f, s.reclen⟩ 0)
  five : 5 ≤ s.reclen
  blobs : BlobFile s.blob b
  owned : ((rows s).flatMap (fun x => blobsOf fields x.2)).Nodup
  known : ∀ x ∈ rows s, ∀ n ∈ blobsOf fields x.2, n ∈ b.blobs.map (·.first)
  inside : ∀ f ∈ fields, f.isBlob = true → f.slot.nullable = false ∧ f.slot.offset + 8 ≤ s.reclen

/-- The indexes follow the deletion of records: `I ix l` says that the indexes are `ix`
for a table with the records `l`. -/
def Tracks (ops : IxOps X) (I : X → List (Nat × Bytes) → Prop) : Prop :=
  ∀ ix l x, I ix l → x ∈ l → ∃ ix', ops.del ix x.1 x.2 = .ok ix' ∧ I ix' (l.filter (fun y => y.1 ≠ x.1))

end Verif.Record.Spec
