import Verif.Decimal.Theorems

/-! # Property theorems: texts that are empty or too short, keys that do not fit (C02, C04) -/

namespace Verif.Decimal
open Verif Spec

/-- **C02, boundary.** Storing an empty text leaves the whole record as it was,
whatever the field. -/
theorem empty_number_keeps (old : Bytes) (L p : Nat) : numericStore old L p [] = .ok old := by
  simp [numericStore]

example : numericStore [0x10, 0x42] 3 0 [] = .ok [0x10, 0x42] := by decide

/-- **C04, boundary.** A date text that ends before its format does is read as if
zeros followed; how many zeros one adds makes no difference. -/
theorem short_date_zeros (s format : Str) (n : Nat) :
    dateOfString (s ++ List.replicate n '0') format = dateOfString s format := by
  have h : ∀ c, datePart (s ++ List.replicate n '0') format c = datePart s format c := by
    intro c
    unfold datePart
    refine List.map_congr_left fun p _ => ?_
    by_cases hp : p.2 < s.length
    · rw [List.getElem?_append_left hp]
    · rw [List.getElem?_append_right (by omega), List.getElem?_eq_none (l := s) (by omega), List.getElem?_replicate]
      split
      · rename_i h1
        split at h1
        · injection h1 with h1
          subst h1
          decide
        · cases h1
      · rfl
  unfold dateOfString
  rw [show datePart (s ++ List.replicate n '0') format = datePart s format from funext h]

example : dateOfString ['2', '0', '1', '8', '0', '3'] fmt1C =
    ⟨false, 0, [2, 0, 1, 8, 0, 3, 0, 0, 0, 0, 0, 0, 0, 0], 1⟩ := by decide

/-- **C04, keys.** The index key of a date never overruns the space there is for
it, and it fails exactly when there are fewer than seven bytes. -/
theorem date_key_fits (rec : Bytes) (h : 7 ≤ rec.length) (maxlen : Nat) :
    (datetimeSortKey rec maxlen = .throw ↔ maxlen < 7) ∧ datetimeSortKey rec maxlen ≠ .ub ∧
    ∀ k, datetimeSortKey rec maxlen = .ok k → k.length ≤ maxlen ∧ k <+: rec := by
  unfold datetimeSortKey
  by_cases h0 : maxlen = 0
  · rw [if_pos h0]
    exact ⟨⟨fun _ => by omega, fun _ => rfl⟩, by simp, fun k hk => (by cases hk)⟩
  · rw [if_neg h0]
    by_cases h1 : maxlen < 7
    · rw [if_pos h1]
      exact ⟨⟨fun _ => h1, fun _ => rfl⟩, by simp, fun k hk => (by cases hk)⟩
    · rw [if_neg h1, if_neg (by omega)]
      refine ⟨⟨fun e => (by cases e), fun e => absurd e h1⟩, by simp, fun k hk => ?_⟩
      injection hk with hk
      subst hk
      exact ⟨by rw [List.length_take]; omega, List.take_prefix _ _⟩

example : datetimeSortKey [0x20, 0x18, 0x03, 0x31, 0x23, 0x59, 0x58, 0xff] 7 = .ok [0x20, 0x18, 0x03, 0x31, 0x23, 0x59, 0x58] ∧
    datetimeSortKey [0x20, 0x18, 0x03, 0x31, 0x23, 0x59, 0x58, 0xff] 6 = .throw := by decide

end Verif.Decimal
