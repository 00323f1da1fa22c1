import Verif.Config.Files

/-! # Specification vocabulary: files stored in a table -/

namespace Verif.Config.Spec
open Verif

/-- The record counts: it is not removed, it has data and a name. -/
def Counts (r : Row) : Prop := r.removed = false ∧ r.start ≠ 0 ∧ r.length ≠ 0 ∧ r.name ≠ []

/-- The record is the last that counts for part `i` of the file `name`, up to case. -/
def LastPart (lower : Str → Str) (rows : List Row) (name : Str) (i : Nat) (r : Row) : Prop :=
  ∃ before after, rows = before ++ r :: after ∧ Counts r ∧ lower r.name = lower name ∧ r.part = i ∧
    ∀ r' ∈ after, Counts r' → lower r'.name = lower name → r'.part ≠ i

/-- The bytes are the parts one after the other: for each part the data of its last record, nothing for a part without
records. -/
inductive Parts (readBlob : Nat → Nat → Outcome Bytes) (lower : Str → Str) (rows : List Row) (name : Str) :
    Nat → Bytes → Prop where
  | zero : Parts readBlob lower rows name 0 []
  | data (n : Nat) (b d : Bytes) (r : Row) : Parts readBlob lower rows name n b → LastPart lower rows name n r →
      readBlob r.start r.length = .ok d → Parts readBlob lower rows name (n + 1) (b ++ d)
  | gap (n : Nat) (b : Bytes) : Parts readBlob lower rows name n b → (∀ r, ¬ LastPart lower rows name n r) →
      Parts readBlob lower rows name (n + 1) b

end Verif.Config.Spec
