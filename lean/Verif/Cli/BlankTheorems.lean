import Verif.Cli.Theorems

/-! # Property theorems: blanks and missing numbers in version ranges (C62) -/

namespace Verif.Cli
open Verif

/-- Blanks of any kind (space, tab, line feed, vertical tab, form feed, return) before a number make no difference. -/
theorem blanks_skipped (bl s : Bytes) (h : ∀ c ∈ bl, c ∈ [(32 : UInt8), 9, 10, 11, 12, 13]) (dflt : Int) :
    toIntDef (bl ++ s) dflt = toIntDef s dflt := by
  have hd : (bl ++ s).dropWhile isSpace = s.dropWhile isSpace := by
    induction bl with
    | nil => rfl
    | cons c bl ih =>
      have hc : isSpace c = true := by
        have := h c (by simp)
        simp only [List.mem_cons, List.not_mem_nil, or_false] at this
        rcases this with rfl | rfl | rfl | rfl | rfl | rfl <;> decide
      rw [List.cons_append, List.dropWhile_cons_of_pos hc]
      exact ih (fun c hc => h c (by simp [hc]))
  have hr : readInt (bl ++ s) = readInt s := by
    unfold readInt
    rw [hd]
  unfold toIntDef
  rw [hr]

example : toIntDef (asc " \t\n\r12") 0 = .ok 12 := by decide

/-- A range without a begin starts with version 0, whatever number is its end. -/
theorem range_without_begin (neg : Bool) (ds : List Nat) (hne : ds ≠ []) (hd : ∀ d ∈ ds, d < 10) (hv : Spec.value ds < 2147483648) :
    versionRange (58 :: Spec.number neg ds) = .ok (0, Spec.meaning neg ds) := by
  have hf : findColon (58 :: Spec.number neg ds) = some 0 := by simp [findColon]
  have hb : toIntDef (substrTo (58 :: Spec.number neg ds) 0) 0 = .ok 0 := rfl
  have he := toIntDef_number neg ds hne hd hv [] (by simp) 0
  rw [List.append_nil] at he
  have he' : toIntDef (Spec.number neg ds) 0 = .ok (Spec.meaning neg ds) := he
  unfold versionRange
  rw [hf]
  simp only [Nat.zero_add, List.drop_succ_cons, List.drop_zero]
  rw [he', hb]
  rfl

example : versionRange (asc ":12") = .ok (0, 12) := by decide

/-- **Finding.** A range whose begin has one digit also starts with version 0, whatever the digit: together with
`range_begin_cut` no range from a number without a sign starts where it should, but from 0. -/
theorem range_digit_begin (d : Nat) (hd10 : d < 10) (neg : Bool) (ds : List Nat) (hne : ds ≠ []) (hd : ∀ d ∈ ds, d < 10)
    (hv : Spec.value ds < 2147483648) :
    versionRange (Spec.number false [d] ++ 58 :: Spec.number neg ds) = .ok (0, Spec.meaning neg ds) := by
  have hc := number_no_colon false [d] (by simp [hd10])
  have he := toIntDef_number neg ds hne hd hv [] (by simp) 0
  rw [List.append_nil] at he
  have he' : toIntDef (Spec.number neg ds) 0 = .ok (Spec.meaning neg ds) := he
  unfold versionRange
  rw [findColon_at _ _ hc]
  simp only
  rw [show (Spec.number false [d] ++ 58 :: Spec.number neg ds).drop ((Spec.number false [d]).length + 1) = Spec.number neg ds by
      rw [← List.drop_drop, List.drop_left' rfl]; rfl]
  have hb : toIntDef (substrTo (Spec.number false [d] ++ 58 :: Spec.number neg ds) (Spec.number false [d]).length) 0 = .ok 0 := rfl
  rw [he', hb]
  rfl

example : versionRange (asc "7:12") = .ok (0, 12) := by decide

end Verif.Cli
