import Verif.Depot.Pack

/-! # Specification vocabulary: packed and loose objects -/

namespace Verif.Depot.Spec
open Verif

/-- A number in `k` bytes, least significant first. -/
def bytesLE : Nat → Nat → Bytes
  | 0, _ => []
  | k + 1, n => UInt8.ofNat n :: bytesLE k (n / 256)

/-- An index file: eight bytes, the number of objects, and for each its hash and where it is in the pack. -/
def indexFile (header : Bytes) (entries : List (Bytes × Nat)) : Bytes :=
  header ++ bytesLE 4 entries.length ++ entries.flatMap (fun e => e.1 ++ bytesLE 8 e.2)

/-- At this offset the pack holds this object: its length in eight bytes, then its data. -/
def Holds (pck : Bytes) (off : Nat) (data : Bytes) : Prop :=
  ∃ before after, pck = before ++ bytesLE 8 data.length ++ data ++ after ∧ before.length = off

/-- The pack has an object with this hash. -/
def Contains (p : Pack) (hash : Bytes) : Prop := ∃ e ∈ p.index, e.1 = hash

instance (p : Pack) (hash : Bytes) : Decidable (Contains p hash) := by unfold Contains; infer_instance

/-- Every object of this hash in the pack is `data`. -/
def Only (p : Pack) (hash data : Bytes) : Prop := ∀ e ∈ p.index, e.1 = hash → ∃ off : Nat, e.2 = off ∧ Holds p.file off data

end Verif.Depot.Spec
