import Verif.Time.Model

/-! # Property theorems: time conversions (C13) -/

namespace Verif.Time

/-- Helper: the two halves of a 64-bit pattern put together again. -/
theorem val_ofInt (x : Int) : (FileTime.ofInt x).val = x % 18446744073709551616 := by
  unfold FileTime.val FileTime.ofInt
  simp only
  rw [Int.toNat_of_nonneg (Int.emod_nonneg _ (by decide)), Int.toNat_of_nonneg (Int.emod_nonneg _ (by decide))]
  rw [show (2 : Int) ^ 32 = 4294967296 from rfl]
  omega

theorem toInt64_mod (x : Int) (h1 : -9223372036854775808 ≤ x) (h2 : x < 9223372036854775808) :
    toInt64 (x % 18446744073709551616) = x := by
  unfold toInt64
  rw [show (2 : Int) ^ 63 = 9223372036854775808 from rfl, show (2 : Int) ^ 64 = 18446744073709551616 from rfl]
  omega

theorem toInt64_self (x : Int) (h1 : -9223372036854775808 ≤ x) (h2 : x < 9223372036854775808) :
    toInt64 x = x := by
  unfold toInt64
  rw [show (2 : Int) ^ 63 = 9223372036854775808 from rfl, show (2 : Int) ^ 64 = 18446744073709551616 from rfl]
  omega

theorem val_unix (t : Int) : (unixToFileTime t).val = (t % 4294967296) * 10000000 + 11644473600 := by
  unfold unixToFileTime FileTime.val secToUnixEpoch
  simp only
  rw [show (2 : Int) ^ 32 = 4294967296 from rfl]
  have h0 : 0 ≤ t % 4294967296 := Int.emod_nonneg _ (by decide)
  rw [Int.toNat_of_nonneg (Int.emod_nonneg _ (by decide)),
    Int.toNat_of_nonneg (Int.ediv_nonneg (by omega) (by decide))]
  omega

theorem posix_val (pad : Nat) (f : FileTime) (h1 : f.val < 9223372036854775808) :
    fileTimeToPosix true pad f = (f.val - 116444736000000).tdiv 10000000 := by
  have h0 : 0 ≤ f.val := by
    unfold FileTime.val
    rw [show (2 : Int) ^ 32 = 4294967296 from rfl]
    omega
  have hd : fileTimeToPosix true pad f = (toInt64 f.val - secToUnixEpoch * 10000).tdiv 10000000 := by
    unfold fileTimeToPosix FileTime.val
    simp only [if_true]
  rw [hd, toInt64_self _ (by omega) h1]
  have : secToUnixEpoch * 10000 = 116444736000000 := by unfold secToUnixEpoch; omega
  rw [this]

/-- **C13 (partial).** If the operating system's local/UTC conversions are inverse to
each other, a container timestamp survives the conversion to a file time and
back. Missing: the conversions the library supplies are *not* inverse
(`v8time_not_roundtrip`). -/
theorem v8time_roundtrip_partial (l2u u2l : FileTime → FileTime) (hinv : ∀ f, u2l (l2u f) = f)
    (data : Int) (h1 : -9 * 10 ^ 15 ≤ data - epochStartWin) (h2 : data - epochStartWin ≤ 9 * 10 ^ 15) :
    fromFileTimeWith u2l (toFileTimeWith l2u data) = data := by
  unfold fromFileTimeWith toFileTimeWith
  rw [hinv]
  have hv : toInt64 (FileTime.ofInt (scaleOut data)).val = scaleOut data := by
    rw [val_ofInt]
    exact toInt64_mod _ (by unfold scaleOut; omega) (by unfold scaleOut; omega)
  rw [hv]
  unfold scaleIn scaleOut
  rw [Int.mul_tdiv_cancel _ (by decide)]
  omega

/-- **C13, negation for POSIX times.** Even where `long` has 32 bits, converting a POSIX
time to a file time and back is never the identity: every time from mid-May 1970
on comes back 11643310 seconds (about 135 days) earlier. -/
theorem posix_filetime_shift (pad : Nat) (t : Int) (h1 : 11643310 ≤ t) (h2 : t < 2 ^ 32) :
    fileTimeToPosix true pad (unixToFileTime t) = t - 11643310 := by
  have hv := val_unix t
  rw [show t % 4294967296 = t by omega] at hv
  rw [posix_val pad _ (by rw [hv]; omega), hv, Int.tdiv_eq_ediv_of_nonneg (by omega)]
  omega

theorem posix_filetime_not_inverse (pad : Nat) (t : Int) (h1 : 11643310 ≤ t) (h2 : t < 2 ^ 32) :
    fileTimeToPosix true pad (unixToFileTime t) ≠ t := by
  rw [posix_filetime_shift pad t h1 h2]; omega

/-- 2018-01-01 comes back as 2017-08-19. -/
example : fileTimeToPosix true 0 (unixToFileTime 1514764800) = 1503121490 := by decide

/-- Where `long` has 64 bits the result does not even depend on the high half of the
file time: it depends on uninitialised padding. -/
theorem posix_from_padding (pad lo hi hi' : Nat) :
    fileTimeToPosix false pad ⟨lo, hi⟩ = fileTimeToPosix false pad ⟨lo, hi'⟩ := rfl

theorem posix_depends_on_padding : fileTimeToPosix false 0 ⟨0, 0⟩ ≠ fileTimeToPosix false 1 ⟨0, 0⟩ := by
  decide

theorem scaleOut_val (data : Int) (h1 : 621355968000000 ≤ data) (h2 : data ≤ 662380416000000) :
    (FileTime.ofInt (scaleOut data)).val = (data - 504911232000000) * 1000 := by
  rw [val_ofInt]
  have : scaleOut data = (data - 504911232000000) * 1000 := by unfold scaleOut epochStartWin; rfl
  rw [this]
  exact Int.emod_eq_of_lt (by omega) (by omega)

theorem back_shift (B T : Int) (hB0 : 0 ≤ B) (hB1 : B < 4294967296)
    (hT : T = (B * 10000000 + 11644473600 - 116444736000000).tdiv 10000000) :
    (11643310 ≤ B ∧ T = B - 11643310) ∨ (B < 11643310 ∧ -11644474 ≤ T ∧ T ≤ 0) := by
  by_cases hb : 11643310 ≤ B
  · left
    rw [Int.tdiv_eq_ediv_of_nonneg (by omega)] at hT
    omega
  · right
    rw [show B * 10000000 + 11644473600 - 116444736000000
      = -(116444736000000 - (B * 10000000 + 11644473600)) by omega, Int.neg_tdiv,
      Int.tdiv_eq_ediv_of_nonneg (by omega)] at hT
    omega

theorem final_shift (data A B T : Int) (h1 : 621355968000000 ≤ data) (h2 : data ≤ 662380416000000)
    (hA : ((data - 504911232000000) * 1000 - 116444736000000) / 10000000 = A)
    (hB : A % 4294967296 = B)
    (hT : (11643310 ≤ B ∧ T = B - 11643310) ∨ (B < 11643310 ∧ -11644474 ≤ T ∧ T ≤ 0)) :
    (T % 4294967296 * 10000000 + 11644473600) / 1000 + 504911232000000 ≠ data := by
  omega

theorem roundtrip_value (pad : Nat) (data A B T : Int)
    (h1 : 621355968000000 ≤ data) (h2 : data ≤ 662380416000000)
    (hA : ((data - 504911232000000) * 1000 - 116444736000000) / 10000000 = A)
    (hB : A % 4294967296 = B)
    (hT : T = (B * 10000000 + 11644473600 - 116444736000000).tdiv 10000000) :
    fromFileTime true pad (toFileTime true pad id data) =
      (T % 4294967296 * 10000000 + 11644473600) / 1000 + 504911232000000 := by
  have hx := scaleOut_val data h1 h2
  have p1 : fileTimeToPosix true pad (FileTime.ofInt (scaleOut data)) = A := by
    rw [posix_val pad _ (by rw [hx]; omega), hx, Int.tdiv_eq_ediv_of_nonneg (by omega)]
    exact hA
  have hB0 : 0 ≤ B ∧ B < 4294967296 := by omega
  have p2 : fileTimeToPosix true pad (unixToFileTime A) = T := by
    rw [posix_val pad _ (by rw [val_unix]; omega), val_unix, hB]
    exact hT.symm
  have hT0 : 0 ≤ T % 4294967296 ∧ T % 4294967296 < 4294967296 := by omega
  have hval : toInt64 (unixToFileTime T).val = T % 4294967296 * 10000000 + 11644473600 := by
    rw [val_unix]
    exact toInt64_self _ (by omega) (by omega)
  have e : fromFileTime true pad (toFileTime true pad id data) =
      scaleIn (toInt64 (unixToFileTime (fileTimeToPosix true pad
        (unixToFileTime (fileTimeToPosix true pad (FileTime.ofInt (scaleOut data)))))).val) := by
    unfold fromFileTime toFileTime fromFileTimeWith toFileTimeWith fileTimeToLocal localToFileTime
    rw [id_eq]
  rw [e, p1, p2, hval]
  unfold scaleIn epochStartWin
  rw [Int.tdiv_eq_ediv_of_nonneg (by omega)]

/-- **C13, negation for container timestamps.** With the conversions the library
supplies, in UTC and with a 32-bit `long`, no timestamp of the years 1970–2100
survives the round trip. -/
theorem v8time_not_roundtrip (pad : Nat) (data : Int)
    (h1 : 621355968000000 ≤ data) (h2 : data ≤ 662380416000000) :
    fromFileTime true pad (toFileTime true pad id data) ≠ data := by
  rw [roundtrip_value pad data _ _ _ h1 h2 rfl rfl rfl]
  refine final_shift data _ _ _ h1 h2 rfl rfl (back_shift _ _ ?_ ?_ rfl)
  · exact Int.emod_nonneg _ (by decide)
  · exact Int.emod_lt_of_pos _ (by decide)

end Verif.Time
