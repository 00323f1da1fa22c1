import Verif.Field.Spec

/-! # Specification: numbers in a record -/

namespace Verif.Field.Spec

/-- The halves of the bytes, high half first. -/
def halves (v : Bytes) : List Nat := v.flatMap fun b => [b.toNat / 16, b.toNat % 16]

/-- The number these digits write, the most significant first. -/
def digitsValue (ds : List Nat) : Nat := ds.foldl (fun a d => a * 10 + d) 0

/-- A number of these digits as it is stored: in halves of bytes a sign (0 for minus) and the digits, filled up to whole bytes. -/
def IsNumber (minus : Bool) (ds : List Nat) (v : Bytes) : Prop :=
  v.length = (ds.length + 2) / 2 ∧ (∀ d ∈ ds, d < 10) ∧
    ∃ sign fill, halves v = sign :: ds ++ fill ∧ (minus = true ↔ sign = 0)

end Verif.Field.Spec
