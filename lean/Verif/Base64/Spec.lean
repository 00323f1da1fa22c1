import Verif.Basic

/-! # Specification vocabulary: the base64 alphabet -/

namespace Verif.Base64.Spec

/-- `u` is one of the 64 characters of the base64 alphabet. -/
def InAlphabet (u : Nat) : Prop :=
  (65 ≤ u ∧ u ≤ 90) ∨ (97 ≤ u ∧ u ≤ 122) ∨ (48 ≤ u ∧ u ≤ 57) ∨ u = 43 ∨ u = 47

instance (u : Nat) : Decidable (InAlphabet u) := by unfold InAlphabet; infer_instance

end Verif.Base64.Spec
