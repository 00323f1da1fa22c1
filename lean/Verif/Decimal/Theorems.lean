import Verif.Decimal.SortKey

/-!
# Properties of packed decimals and dates (C01–C05)
-/

namespace Verif.Decimal
open Verif Spec

/-! ## C01 -/

/-- **C01.** Writing a signed number of `L ≥ 1` digits and decoding the bytes
again (whatever follows them in memory) yields the same sign, digits and decimal
point, and exactly `(L + 2) / 2` bytes are used. -/
theorem packed_roundtrip (digits : List Int) (precision : Nat) (sign : Int)
    (hne : digits ≠ []) (hd : ∀ d ∈ digits, IsDigit d) (hs : sign = 1 ∨ sign = -1) :
    ∃ bs, writeTo ⟨true, precision, digits, sign⟩ = .ok bs ∧
      bs.length = (digits.length + 2) / 2 ∧
      ∀ after : Bytes,
        ofRaw (bs ++ after) digits.length precision true = .ok ⟨true, precision, digits, sign⟩ := by
  cases digits with
  | nil => exact absurd rfl hne
  | cons d ds =>
    obtain ⟨n, rfl⟩ := digit_cases (hd d (by simp))
    refine ⟨_, rfl, by simp [packPairs_length], fun after => ?_⟩
    have h1 := rawLoop_packPairs ds (fun d hd' => hd d (by simp [hd'])) 1 after
    have h2 := sgn_toNat (decide (sign = -1)) n
    simp only [decide_eq_true_eq] at h2
    simp only [ofRaw, List.cons_append, List.length_cons]
    rw [Nat.add_comm 1] at h1
    rw [h1]
    simp only [Outcome.ok_bind, if_true, Outcome.pure_eq, lo_nat, h2]
    generalize hb : (((if sign = -1 then 0 else 0x10) : UInt8) ||| UInt8.ofInt (n.val : Int)) = b at *
    have hb' : b >>> 4 ≠ 0 ↔ b.toNat / 16 ≠ 0 := by
      refine forall_byte (p := fun b => b >>> 4 ≠ 0 ↔ b.toNat / 16 ≠ 0) ?_ b
      decide +kernel
    rcases hs with rfl | rfl
    · have : b >>> 4 ≠ 0 := by rw [hb', h2]; simp
      simp [this]; omega
    · have : ¬ (b >>> 4 ≠ 0) := by rw [hb', h2]; simp; omega
      simp [this]; omega

example : (writeTo ⟨true, 2, [0, 1, 2, 3], -1⟩) = .ok [0x00, 0x12, 0x30] := by decide

/-! ## C02 -/

/-- Helper: a digit string of the declared length is stored and presented. -/
theorem present_of_digits (ip fp : List Nat) (hne : ip ++ fp ≠ []) (hi : ∀ x ∈ ip, x < 10)
    (hf : ∀ x ∈ fp, x < 10) :
    ∃ bs, writeTo ⟨true, fp.length, (ip ++ fp).map Int.ofNat, 1⟩ = .ok bs ∧
      bs.length = numericSize (ip ++ fp).length ∧
      numericPresent bs (ip ++ fp).length fp.length
        = .ok (canonical (val 10 (ip ++ fp)) fp.length) := by
  obtain ⟨bs, h1, h2, h3⟩ := packed_roundtrip ((ip ++ fp).map Int.ofNat) fp.length 1
    (by simpa using hne)
    (by intro d hd
        simp only [List.mem_map] at hd
        obtain ⟨n, hn, rfl⟩ := hd
        have : n < 10 := by
          rcases List.mem_append.mp hn with h | h
          · exact hi n h
          · exact hf n h
        exact ⟨by simp, by simp; omega⟩) (.inl rfl)
  refine ⟨bs, h1, by rw [h2]; simp [numericSize], ?_⟩
  have := h3 []
  rw [List.append_nil, List.length_map] at this
  unfold numericPresent
  rw [this]
  simp only [Outcome.ok_bind]
  have := presentation_nat ip fp hi hf true 1
  simpa using this

theorem resize_digits (fd : List Nat) (p : Nat) :
    resize (fd.map Int.ofNat) p 0
      = (fd.take p ++ List.replicate (p - fd.length) 0).map Int.ofNat := by
  simp [resize]

theorem resize_val (x fd : List Nat) (p : Nat) (hfd : ∀ d ∈ fd, d < 10) :
    val 10 (x ++ (fd.take p ++ List.replicate (p - fd.length) 0))
      = val 10 (x ++ fd) * 10 ^ p / 10 ^ fd.length := by
  have hz : ∀ n, val 10 (List.replicate n 0) = 0 := by
    intro n; induction n with
    | zero => rfl
    | succ n ih => rw [List.replicate_succ, val_cons, ih]; simp
  by_cases h : fd.length ≤ p
  · rw [List.take_of_length_le h, ← List.append_assoc, val_append, hz, List.length_replicate,
      Nat.add_zero]
    have : 10 ^ p = 10 ^ (p - fd.length) * 10 ^ fd.length := by
      rw [← Nat.pow_add]; congr 1; omega
    rw [this, ← Nat.mul_assoc, Nat.mul_div_cancel _ (Nat.pow_pos (by omega))]
  · have hB := val_lt 10 (fd.drop p) (fun d hd => hfd d (List.mem_of_mem_drop hd))
    rw [show p - fd.length = 0 by omega, List.replicate_zero, List.append_nil]
    have e : val 10 (x ++ fd) = val 10 (x ++ fd.take p) * 10 ^ (fd.drop p).length + val 10 (fd.drop p) := by
      rw [← val_append, List.append_assoc, List.take_append_drop]
    have e2 : 10 ^ fd.length = 10 ^ (fd.drop p).length * 10 ^ p := by
      rw [← Nat.pow_add]; congr 1; simp; omega
    rw [e, e2, Nat.mul_div_mul_right _ _ (Nat.pow_pos (by omega)), Nat.mul_comm (val 10 _),
      Nat.mul_add_div (Nat.pow_pos (by omega)), Nat.div_eq_of_lt hB, Nat.add_zero]

/-- **C02 (partial).** A non-negative decimal text `ip.fp` whose integer part has
at most `L - p` digits is stored in a numeric field of length `L` and precision
`p > 0`, and the field then presents the canonical text of the same number
(digits beyond the precision are cut off); nothing outside the field is written.
Missing from the full claim: negative texts (`numeric_negative_text_is_lost`),
precision `0` with a fraction (`numeric_fraction_with_precision_zero`). -/
theorem numeric_text_roundtrip_partial (old : Bytes) (L p : Nat) (ip fp : Str)
    (hold : old.length = numericSize L) (hL : 1 ≤ L) (hp : 0 < p) (hpL : p ≤ L)
    (hip : ∀ c ∈ ip, IsDigitChar c) (hfp : ∀ c ∈ fp, IsDigitChar c)
    (hfit : ip.length ≤ L - p) :
    ∃ bs, numericStore old L p (ip ++ '.' :: fp) = .ok bs ∧ bs.length = numericSize L ∧
      numericPresent bs L p
        = .ok (canonical (textValue (ip ++ fp) * 10 ^ p / 10 ^ fp.length) p) := by
  have hsplit : splitParts (ip ++ '.' :: fp) 0 [] []
      = .ok ((textDigits ip).map Int.ofNat, (textDigits fp).map Int.ofNat) := by
    rw [splitParts_int _ _ hip, splitParts, if_pos rfl, splitParts_frac _ hfp]; simp
  have hl1 : (textDigits ip).length = ip.length := by simp [textDigits]
  have hl2 : (textDigits fp).length = fp.length := by simp [textDigits]
  let ip' := List.replicate (L - ip.length - p) 0 ++ textDigits ip
  let fp' := (textDigits fp).take p ++ List.replicate (p - (textDigits fp).length) 0
  have hfl : fp'.length = p := by simp [fp']; omega
  have hil : (ip' ++ fp').length = L := by simp [ip', fp', hl1]; omega
  obtain ⟨bs, h1, h2, h3⟩ := present_of_digits ip' fp'
    (by intro h; rw [h] at hil; simp at hil; omega)
    (by intro x hx; simp only [ip', List.mem_append, List.mem_replicate] at hx
        rcases hx with ⟨_, rfl⟩ | hx
        · omega
        · exact textDigits_lt ip hip x hx)
    (by intro x hx; simp only [fp', List.mem_append, List.mem_replicate] at hx
        rcases hx with hx | ⟨_, rfl⟩
        · exact textDigits_lt fp hfp x (List.mem_of_mem_take hx)
        · omega)
  rw [hfl, hil] at h3
  rw [hil] at h2
  refine ⟨bs, ?_, h2, ?_⟩
  · unfold numericStore ofString
    rw [if_neg (by simp), hsplit]
    simp only [Outcome.ok_bind]
    rw [if_pos (by omega : p ≠ 0), if_pos (by omega : L ≠ 0), resize_digits, List.length_map,
      List.length_map]
    rw [if_neg (by show ¬ ((L : Int) - (textDigits ip).length - (fp'.length : Nat) < 0)
                   rw [hl1, hfl]; omega)]
    have hdata : (⟨true, p,
        List.replicate ((L : Int) - (textDigits ip).length - (fp'.length : Nat)).toNat (0 : Int)
          ++ (textDigits ip).map Int.ofNat ++ fp'.map Int.ofNat, 1⟩ : Dec)
        = ⟨true, fp'.length, (ip' ++ fp').map Int.ofNat, 1⟩ := by
      rw [hfl, hl1]
      congr 1
      simp only [ip', List.map_append, List.map_replicate]
      congr 3; omega
    show (writeTo (⟨true, p, _, 1⟩ : Dec) >>= _) = _
    rw [hdata, h1]
    simp only [Outcome.ok_bind]
    rw [if_pos (by omega), List.drop_eq_nil_of_le (by omega), List.append_nil]
  · rw [h3, textValue_eq]
    congr 2
    have := resize_val (textDigits ip) (textDigits fp) p (textDigits_lt fp hfp)
    have hz : ∀ n (l : List Nat), val 10 (List.replicate n 0 ++ l) = val 10 l := by
      intro n l; induction n with
      | zero => rfl
      | succ n ih => rw [List.replicate_succ, List.cons_append, val_cons, ih]; simp
    show val 10 (List.replicate _ 0 ++ textDigits ip ++ fp') = _
    rw [List.append_assoc, hz, this, hl2]
    simp [textDigits]


example : numericStore [0, 0, 0, 0] 5 2 ['7', '.', '5', '0', '9'] = .ok [0x10, 0x07, 0x50, 0]
    ∧ numericPresent [0x10, 0x07, 0x50, 0] 5 2 = .ok ['7', '.', '5'] := by
  decide

/-- **C02 (partial), whole numbers.** The same for a text without a decimal point
and any precision, including 0. -/
theorem numeric_text_roundtrip_whole_partial (old : Bytes) (L p : Nat) (ip : Str)
    (hold : old.length = numericSize L) (hL : 1 ≤ L) (hpL : p ≤ L) (hne : ip ≠ [])
    (hip : ∀ c ∈ ip, IsDigitChar c) (hfit : ip.length ≤ L - p) :
    ∃ bs, numericStore old L p ip = .ok bs ∧ bs.length = numericSize L ∧
      numericPresent bs L p = .ok (canonical (textValue ip * 10 ^ p) p) := by
  have hsplit : splitParts ip 0 [] [] = .ok ((textDigits ip).map Int.ofNat, []) := by
    have := splitParts_int ip [] hip [] []
    rw [List.append_nil] at this
    rw [this]; simp [splitParts]
  have hl1 : (textDigits ip).length = ip.length := by simp [textDigits]
  let ip' := List.replicate (L - ip.length - p) 0 ++ textDigits ip
  let fp' := List.replicate p 0
  have hfl : fp'.length = p := by simp [fp']
  have hil : (ip' ++ fp').length = L := by simp [ip', fp', hl1]; omega
  obtain ⟨bs, h1, h2, h3⟩ := present_of_digits ip' fp'
    (by intro h; rw [h] at hil; simp at hil; omega)
    (by intro x hx; simp only [ip', List.mem_append, List.mem_replicate] at hx
        rcases hx with ⟨_, rfl⟩ | hx
        · omega
        · exact textDigits_lt ip hip x hx)
    (by intro x hx; simp only [fp', List.mem_replicate] at hx; omega)
  rw [hfl, hil] at h3
  rw [hil] at h2
  have hz : ∀ n (l : List Nat), val 10 (List.replicate n 0 ++ l) = val 10 l := by
    intro n l; induction n with
    | zero => rfl
    | succ n ih => rw [List.replicate_succ, List.cons_append, val_cons, ih]; simp
  refine ⟨bs, ?_, h2, ?_⟩
  · unfold numericStore ofString
    rw [if_neg (by simpa using hne), hsplit]
    simp only [Outcome.ok_bind]
    have hfp : (if p ≠ 0 then resize [] p 0 else []) = fp'.map Int.ofNat := by
      by_cases h0 : p = 0
      · subst h0; simp [fp']
      · simp [h0, fp', resize]
    rw [hfp, if_pos (by omega : L ≠ 0), List.length_map, List.length_map]
    rw [if_neg (by rw [hl1, hfl]; omega)]
    have hdata : (⟨true, p,
        List.replicate ((L : Int) - (textDigits ip).length - (fp'.length : Nat)).toNat (0 : Int)
          ++ (textDigits ip).map Int.ofNat ++ fp'.map Int.ofNat, 1⟩ : Dec)
        = ⟨true, fp'.length, (ip' ++ fp').map Int.ofNat, 1⟩ := by
      rw [hfl, hl1]
      congr 1
      simp only [ip', List.map_append, List.map_replicate]
      congr 3; omega
    show (writeTo (⟨true, p, _, 1⟩ : Dec) >>= _) = _
    rw [hdata, h1]
    simp only [Outcome.ok_bind]
    rw [if_pos (by omega), List.drop_eq_nil_of_le (by omega), List.append_nil]
  · rw [h3, textValue_eq]
    congr 2
    show val 10 (List.replicate _ 0 ++ textDigits ip ++ fp') = _
    have hz0 := hz p []
    rw [List.append_nil, val_nil] at hz0
    rw [List.append_assoc, hz, val_append, hfl, show fp' = List.replicate p 0 from rfl, hz0,
      Nat.add_zero]

example : numericStore [0, 0] 3 0 ['0', '4', '2'] = .ok [0x10, 0x42]
    ∧ numericPresent [0x10, 0x42] 3 0 = .ok ['4', '2'] := by decide

/-- **C02, saturation.** A text with more integer digits than the field can hold
stores nines in the integer part; the fraction digits are kept. -/
theorem numeric_overflow_saturates (old : Bytes) (L p : Nat) (ip fp : Str)
    (hold : old.length = numericSize L) (hL : 1 ≤ L) (hp : 0 < p) (hpL : p ≤ L)
    (hip : ∀ c ∈ ip, IsDigitChar c) (hfp : ∀ c ∈ fp, IsDigitChar c)
    (hbig : L - p < ip.length) :
    ∃ bs, numericStore old L p (ip ++ '.' :: fp) = .ok bs ∧ bs.length = numericSize L ∧
      numericPresent bs L p
        = .ok (canonical ((10 ^ (L - p) - 1) * 10 ^ p
                 + textValue fp * 10 ^ p / 10 ^ fp.length) p) := by
  have hsplit : splitParts (ip ++ '.' :: fp) 0 [] []
      = .ok ((textDigits ip).map Int.ofNat, (textDigits fp).map Int.ofNat) := by
    rw [splitParts_int _ _ hip, splitParts, if_pos rfl, splitParts_frac _ hfp]; simp
  have hl1 : (textDigits ip).length = ip.length := by simp [textDigits]
  have hl2 : (textDigits fp).length = fp.length := by simp [textDigits]
  let ip' := List.replicate (L - p) 9
  let fp' := (textDigits fp).take p ++ List.replicate (p - (textDigits fp).length) 0
  have hfl : fp'.length = p := by simp [fp']; omega
  have hil : (ip' ++ fp').length = L := by simp [ip', fp']; omega
  obtain ⟨bs, h1, h2, h3⟩ := present_of_digits ip' fp'
    (by intro h; rw [h] at hil; simp at hil; omega)
    (by intro x hx; simp only [ip', List.mem_replicate] at hx; omega)
    (by intro x hx; simp only [fp', List.mem_append, List.mem_replicate] at hx
        rcases hx with hx | ⟨_, rfl⟩
        · exact textDigits_lt fp hfp x (List.mem_of_mem_take hx)
        · omega)
  rw [hfl, hil] at h3
  rw [hil] at h2
  refine ⟨bs, ?_, h2, ?_⟩
  · unfold numericStore ofString
    rw [if_neg (by simp), hsplit]
    simp only [Outcome.ok_bind]
    rw [if_pos (by omega : p ≠ 0), if_pos (by omega : L ≠ 0), resize_digits, List.length_map,
      List.length_map]
    rw [if_pos (by show ((L : Int) - (textDigits ip).length - (fp'.length : Nat) < 0)
                   rw [hl1, hfl]; omega), if_neg (by omega)]
    have hdata : (⟨true, p, resize [] (L - p) 9 ++ fp'.map Int.ofNat, 1⟩ : Dec)
        = ⟨true, fp'.length, (ip' ++ fp').map Int.ofNat, 1⟩ := by
      rw [hfl]; congr 1
      simp [ip', resize]
    show (writeTo (⟨true, p, _, 1⟩ : Dec) >>= _) = _
    rw [hdata, h1]
    simp only [Outcome.ok_bind]
    rw [if_pos (by omega), List.drop_eq_nil_of_le (by omega), List.append_nil]
  · rw [h3, textValue_eq]
    congr 2
    have h9 : ∀ n, val 10 (List.replicate n 9) = 10 ^ n - 1 := by
      intro n; induction n with
      | zero => rfl
      | succ n ih =>
        rw [List.replicate_succ, val_cons, ih, List.length_replicate, Nat.pow_succ]
        have : 0 < 10 ^ n := Nat.pow_pos (by omega)
        omega
    have := resize_val [] (textDigits fp) p (textDigits_lt fp hfp)
    simp only [List.nil_append] at this
    rw [val_append, h9, hfl, this, hl2]

example : numericStore [0, 0, 0] 4 1 ['1', '2', '3', '4', '.', '5'] = .ok [0x19, 0x99, 0x50]
    ∧ numericPresent [0x19, 0x99, 0x50] 4 1 = .ok ['9', '9', '9', '.', '5'] := by decide

/-- **C02, counterexample.** A negative text is not understood: storing `-5` in a
3-digit field and presenting it again gives `=5`. -/
theorem numeric_negative_text_is_lost :
    ∃ bs, numericStore [0, 0] 3 0 ['-', '5'] = .ok bs ∧
      numericPresent bs 3 0 = .ok ['=', '5'] := ⟨[0x10, 0xd5], by decide, by decide⟩

/-- **C02, counterexample.** With precision 0 the decimal point is dropped:
storing `1.5` presents `15`. -/
theorem numeric_fraction_with_precision_zero :
    ∃ bs, numericStore [0, 0] 3 0 ['1', '.', '5'] = .ok bs ∧
      numericPresent bs 3 0 = .ok ['1', '5'] := ⟨[0x10, 0x15], by decide, by decide⟩

/-- **C02, counterexample.** With precision 0, a fraction and too many integer
digits, the packed number is longer than the field and is written past its end. -/
theorem numeric_store_overflows_buffer :
    numericStore (List.replicate (numericSize 2) 0) 2 0 ['1', '2', '3', '.', '4', '5'] = .ub := by
  decide

/-- **C02, counterexample.** Leading zeros count as digits: `007` does not fit a
2-digit field and becomes 99. -/
theorem numeric_leading_zeros_saturate :
    ∃ bs, numericStore [0, 0] 2 0 ['0', '0', '7'] = .ok bs ∧
      numericPresent bs 2 0 = .ok ['9', '9'] := ⟨[0x19, 0x90], by decide, by decide⟩

/-! ## C03 -/

/-- Signed value of a number, in units of its last digit. -/
def Spec.signedValue (d : Dec) : Int := d.sign * digitsValue d.data

/-- **C03.** Index keys of two values of a numeric field of length `L` compare
byte by byte like the numbers, and are equal exactly when the numbers are. -/
theorem numeric_sort_key_order (a b : Dec) (ba bb : Bytes) (L p maxlen : Nat)
    (ha : a.hasSign = true ∧ a.precision = p ∧ a.data.length = L ∧ (∀ d ∈ a.data, IsDigit d)
            ∧ (a.sign = 1 ∨ a.sign = -1))
    (hb : b.hasSign = true ∧ b.precision = p ∧ b.data.length = L ∧ (∀ d ∈ b.data, IsDigit d)
            ∧ (b.sign = 1 ∨ b.sign = -1))
    (hL : 1 ≤ L) (h64 : numericSize L ≤ 64) (hmax : numericSize L ≤ maxlen)
    (hwa : writeTo a = .ok ba) (hwb : writeTo b = .ok bb) :
    ∃ ka kb, numericSortKey ba L maxlen = .ok ka ∧ numericSortKey bb L maxlen = .ok kb ∧
      (ka < kb ↔ signedValue a < signedValue b) ∧ (ka = kb ↔ signedValue a = signedValue b) := by
  have key : ∀ (x : Dec) (bx : Bytes), (x.hasSign = true ∧ x.precision = p ∧ x.data.length = L ∧
      (∀ d ∈ x.data, IsDigit d) ∧ (x.sign = 1 ∨ x.sign = -1)) → writeTo x = .ok bx →
      ∃ k s out, numericSortKey bx L maxlen = .ok k ∧ k.length = numericSize L ∧
        nibs k = s :: out ++ pad L ∧ out.length = L ∧ s < 10 ∧ (∀ d ∈ out, d < 10) ∧
        ((val 10 (s :: out) : Nat) : Int) = ((10 ^ L : Nat) : Int) + signedValue x := by
    rintro ⟨hs, pr, data, sign⟩ bx ⟨h1, h2, h3, h4, h5⟩ hw
    simp only at h1 h2 h3 h4 h5
    subst h1 h2
    obtain ⟨ns, rfl, hns⟩ := exists_nat_digits data h4
    have hlen : ns.length = L := by simpa using h3
    have hne : ns ≠ [] := by intro h; subst h; simp at hlen; omega
    obtain ⟨bs, e1, e2, e3⟩ := writeTo_nibs ns hne hns pr sign
    rw [hw] at e1
    have e1 : bx = bs := by injection e1
    subst e1
    have hn : nibs bx = (if (decide (sign = -1)) then 0 else 1) :: ns ++ pad ns.length := by
      rw [e3]; simp
    obtain ⟨k, s, out, r1, r2, r3, r4, r5, r6, r7⟩ :=
      sortKey_nibs ns hne hns (decide (sign = -1)) bx e2 hn maxlen (by rw [hlen]; omega) (by rw [hlen]; omega)
    rw [hlen] at r1 r2 r3 r4 r7
    refine ⟨k, s, out, r1, r2, r3, r4, r5, r6, ?_⟩
    rw [val_cons, r4, r7]
    unfold signedValue
    simp only
    rw [digitsValue_nat]
    rcases h5 with rfl | rfl <;> simp
  obtain ⟨ka, sa, oa, a1, a2, a3, a4, a5, a6, a7⟩ := key a ba ha hwa
  obtain ⟨kb, sb, ob, b1, b2, b3, b4, b5, b6, b7⟩ := key b bb hb hwb
  have hda : ∀ d ∈ sa :: oa, d < 10 := by
    intro d hd; rcases List.mem_cons.mp hd with h | h
    · omega
    · exact a6 d h
  have hdb : ∀ d ∈ sb :: ob, d < 10 := by
    intro d hd; rcases List.mem_cons.mp hd with h | h
    · omega
    · exact b6 d h
  have hp : ∀ d ∈ pad L, d < 16 := by unfold pad; split <;> simp
  have hlt : ∀ (k k' : Bytes) s s' o o', k.length = k'.length → nibs k = s :: o ++ pad L →
      nibs k' = s' :: o' ++ pad L → o.length = o'.length → (∀ d ∈ s :: o, d < 10) →
      (∀ d ∈ s' :: o', d < 10) → (k < k' ↔ val 10 (s :: o) < val 10 (s' :: o')) := by
    intro k k' s s' o o' e1 e2 e3 e4 e5 e6
    rw [bytes_lt_iff_nibs _ _ e1, e2, e3,
      lex_append_right _ _ _ (by simp [e4]) (fun d hd => by have := e5 d hd; omega)
        (fun d hd => by have := e6 d hd; omega) hp,
      lex_iff_val_lt 10 _ _ (by simp [e4]) e5 e6]
  have h1 := hlt ka kb sa sb oa ob (by rw [a2, b2]) a3 b3 (by rw [a4, b4]) hda hdb
  have h2 := hlt kb ka sb sa ob oa (by rw [a2, b2]) b3 a3 (by rw [a4, b4]) hdb hda
  refine ⟨ka, kb, a1, b1, h1.trans (by omega), ?_⟩
  have h3 : ka = kb ↔ ¬ ka < kb ∧ ¬ kb < ka := by
    constructor
    · rintro rfl; exact ⟨List.lt_irrefl _, List.lt_irrefl _⟩
    · rintro ⟨g1, g2⟩
      exact List.le_antisymm (List.not_lt.mp g2) (List.not_lt.mp g1)
  rw [h3, h1, h2]
  omega

example : (∃ k1 k2, writeTo ⟨true, 0, [0, 7, 5], -1⟩ = .ok [0x00, 0x75] ∧
      writeTo ⟨true, 0, [0, 0, 3], 1⟩ = .ok [0x10, 0x03] ∧
      numericSortKey [0x00, 0x75] 3 16 = .ok k1 ∧ numericSortKey [0x10, 0x03] 3 16 = .ok k2 ∧
      k1 < k2) := ⟨[0x09, 0x25], [0x10, 0x03], by decide, by decide, by decide, by decide, by decide⟩

/-- **C03, boundary.** The key buffer on the stack has 64 bytes: building the key
of a field of more than 127 digits (a length the table description may declare)
overflows it. -/
theorem numeric_sort_key_overflow (rec : Bytes) (L maxlen : Nat) (hL : 127 < L) (hm : maxlen ≠ 0) :
    numericSortKey rec L maxlen = .ub := by
  unfold numericSortKey
  simp only
  rw [if_neg hm, if_pos (by unfold numericSize; omega)]

/-! ## C04 -/

/-- Helper: a date given by 14 digits, packed and decoded with enough memory behind it. -/
theorem date_digits_roundtrip (ds : List Int) (h14 : ds.length = 14) (hd : ∀ d ∈ ds, IsDigit d)
    (after : Bytes) (h3 : 3 ≤ after.length) :
    ∃ more, dateOfRaw (packPairs ds ++ after) = .ok ⟨false, 0, ds ++ more, 1⟩ := by
  match ds, h14 with
  | d :: e :: rest, h14 =>
    have hr : rest.length = 12 := by simpa using h14
    obtain ⟨n, rfl⟩ := digit_cases (hd d (by simp))
    obtain ⟨m, rfl⟩ := digit_cases (hd e (by simp))
    obtain ⟨more, hm, _, _⟩ := rawLoop_of_enough 19 13 after (by omega)
    refine ⟨more, ?_⟩
    have := rawLoop_pairs rest (fun d h => hd d (by simp [h])) (by omega) 19 1 after (by omega)
    rw [hr, hm] at this
    unfold dateOfRaw ofRaw
    simp only [packPairs, List.cons_append]
    rw [this]
    simp only [Outcome.ok_bind, Bool.false_eq_true, if_false, Outcome.pure_eq, hi_nat, lo_nat,
      pack_toNat]
    rw [show ((n.val * 16 + m.val) / 16) = n.val by omega,
        show ((n.val * 16 + m.val) % 16) = m.val by omega]

/-- Helper: digits of a text. -/
def intDigits (s : Str) : List Int := s.map (fun c => (c.toNat : Int) - 48)

theorem intDigits_isDigit (s : Str) (hd : ∀ c ∈ s, IsDigitChar c) : ∀ d ∈ intDigits s, IsDigit d := by
  intro d h
  simp only [intDigits, List.mem_map] at h
  obtain ⟨c, hc, rfl⟩ := h
  have := hd c hc
  unfold IsDigitChar at this; unfold IsDigit; omega

theorem digitChar_intDigit (c : Char) (_h : IsDigitChar c) : digitChar ((c.toNat : Int) - 48) = c := by
  unfold digitChar
  rw [show (48 + ((c.toNat : Int) - 48)).toNat = c.toNat by omega]
  exact Char.ofNat_toNat c

theorem list14 {α : Type} (s : List α) (hs : s.length = 14) :
    ∃ a b c d e f g h' i j k l m n, s = [a, b, c, d, e, f, g, h', i, j, k, l, m, n] := by
  match s, hs with
  | [a, b, c, d, e, f, g, h', i, j, k, l, m, n], _ =>
    exact ⟨a, b, c, d, e, f, g, h', i, j, k, l, m, n, rfl⟩

/-- **C04 (partial).** Packing a 14-digit `yyyyMMddhhmmss` text gives 7 bytes, and
rendering them gives the text back, *provided at least 3 more bytes follow the
field in memory* (see `date_decode_overreads`: the decoder reads 10 bytes). -/
theorem date1C_roundtrip_partial (s : Str) (hlen : s.length = 14) (hd : ∀ c ∈ s, IsDigitChar c) :
    ∃ bs, string1CToDate s = .ok bs ∧ bs.length = 7 ∧
      ∀ after : Bytes, 3 ≤ after.length → dateToString1C (bs ++ after) = .ok s := by
  have hdata : dateOfString s fmt1C = ⟨false, 0, intDigits s, 1⟩ := by
    obtain ⟨a, b, c, d, e, f, g, h', i, j, k, l, m, n, rfl⟩ := list14 s hlen
    rfl
  have hil : (intDigits s).length = 14 := by simp [intDigits, hlen]
  refine ⟨packPairs (intDigits s), ?_, by rw [packPairs_length, hil], fun after h3 => ?_⟩
  · unfold string1CToDate
    rw [hdata]; rfl
  · obtain ⟨more, hm⟩ := date_digits_roundtrip (intDigits s) hil (intDigits_isDigit s hd) after h3
    unfold dateToString1C
    rw [hm]
    simp only [Outcome.ok_bind, Outcome.pure_eq, getPart, List.drop_zero]
    rw [List.take_left' hil]
    congr 1
    rw [intDigits, List.map_map]
    refine (List.map_congr_left (g := id) fun c hc => ?_).trans (List.map_id s)
    exact digitChar_intDigit c (hd c hc)

example : string1CToDate ['2','0','1','8','0','3','3','1','2','3','5','9','5','8']
    = .ok [0x20, 0x18, 0x03, 0x31, 0x23, 0x59, 0x58] := by decide

/-- **C04 (partial), dotted form.** A text `dd.MM.yyyy hh:mm:ss` made of digits
with these separators is packed to 7 bytes and rendered back, under the same
proviso. -/
theorem date_text_roundtrip_partial (dd MM yyyy hh mm ss : Str)
    (l1 : dd.length = 2) (l2 : MM.length = 2) (l3 : yyyy.length = 4) (l4 : hh.length = 2)
    (l5 : mm.length = 2) (l6 : ss.length = 2)
    (hd : ∀ c ∈ dd ++ MM ++ yyyy ++ hh ++ mm ++ ss, IsDigitChar c) :
    ∃ bs, stringToDate (dd ++ ['.'] ++ MM ++ ['.'] ++ yyyy ++ [' '] ++ hh ++ [':'] ++ mm ++ [':'] ++ ss)
        = .ok bs ∧ bs.length = 7 ∧
      ∀ after : Bytes, 3 ≤ after.length →
        dateToString (bs ++ after)
          = .ok (dd ++ ['.'] ++ MM ++ ['.'] ++ yyyy ++ [' '] ++ hh ++ [':'] ++ mm ++ [':'] ++ ss) := by
  match dd, l1, MM, l2, yyyy, l3, hh, l4, mm, l5, ss, l6 with
  | [d1, d2], _, [M1, M2], _, [y1, y2, y3, y4], _, [h1, h2], _, [m1, m2], _, [s1, s2], _ =>
    let s : Str := [y1, y2, y3, y4, M1, M2, d1, d2, h1, h2, m1, m2, s1, s2]
    have hs : ∀ c ∈ s, IsDigitChar c := by
      intro c hc; apply hd; simp only [s, List.mem_cons, List.mem_append] at hc ⊢; grind
    have hdata : dateOfString ([d1, d2] ++ ['.'] ++ [M1, M2] ++ ['.'] ++ [y1, y2, y3, y4] ++ [' ']
        ++ [h1, h2] ++ [':'] ++ [m1, m2] ++ [':'] ++ [s1, s2]) fmtDefault
        = ⟨false, 0, intDigits s, 1⟩ := rfl
    have hil : (intDigits s).length = 14 := rfl
    refine ⟨packPairs (intDigits s), ?_, by rw [packPairs_length, hil], fun after h3 => ?_⟩
    · unfold stringToDate
      rw [hdata]; rfl
    · obtain ⟨more, hm⟩ := date_digits_roundtrip (intDigits s) hil (intDigits_isDigit s hs) after h3
      unfold dateToString
      rw [hm]
      simp only [Outcome.ok_bind, Outcome.pure_eq]
      have hc : ∀ c ∈ s, digitChar ((c.toNat : Int) - 48) = c := fun c h => digitChar_intDigit c (hs c h)
      simp only [s, List.mem_cons, List.not_mem_nil, or_false, forall_eq_or_imp, forall_eq] at hc
      obtain ⟨e1, e2, e3, e4, e5, e6, e7, e8, e9, e10, e11, e12, e13, e14⟩ := hc
      simp [datePresentation, getPart, intDigits, s, e1, e2, e3, e4, e5, e6, e7, e8, e9, e10, e11,
        e12, e13, e14]

example : stringToDate ['3','1','.','0','3','.','2','0','1','8',' ','2','3',':','5','9',':','5','8']
    = .ok [0x20, 0x18, 0x03, 0x31, 0x23, 0x59, 0x58] := by decide

/-- **C04, order.** Packed dates (which are also the index keys) compare byte by
byte like the numbers `yyyyMMddhhmmss`, i.e. chronologically. -/
theorem date_order (s t : Str) (bs bt : Bytes) (hs : s.length = 14) (ht : t.length = 14)
    (ds : ∀ c ∈ s, IsDigitChar c) (dt : ∀ c ∈ t, IsDigitChar c) (maxlen : Nat) (hm : 7 ≤ maxlen)
    (h1 : string1CToDate s = .ok bs) (h2 : string1CToDate t = .ok bt) :
    ∃ ks kt, datetimeSortKey bs maxlen = .ok ks ∧ datetimeSortKey bt maxlen = .ok kt ∧
      (ks < kt ↔ textValue s < textValue t) := by
  have key : ∀ (s : Str) bs, s.length = 14 → (∀ c ∈ s, IsDigitChar c) → string1CToDate s = .ok bs →
      bs.length = 7 ∧ nibs bs = textDigits s := by
    intro s bs hs ds h1
    have hdata : dateOfString s fmt1C = ⟨false, 0, intDigits s, 1⟩ := by
      obtain ⟨a, b, c, d, e, f, g, h', i, j, k, l, m, n, rfl⟩ := list14 s hs
      rfl
    have hnat : intDigits s = (textDigits s).map Int.ofNat := by
      simp only [intDigits, textDigits, List.map_map]
      refine List.map_congr_left fun c hc => ?_
      have := ds c hc; unfold IsDigitChar at this
      show _ = (((c.toNat - 48 : Nat)) : Int); omega
    unfold string1CToDate at h1
    rw [hdata] at h1
    have : bs = packPairs (intDigits s) := by
      simp only [writeTo, Bool.false_eq_true, if_false] at h1
      injection h1 with h1; exact h1.symm
    subst this
    refine ⟨by rw [packPairs_length]; simp [intDigits, hs], ?_⟩
    rw [hnat, nibs_packPairs _ (textDigits_lt s ds)]
    simp [textDigits, hs]
  obtain ⟨k1, k2⟩ := key s bs hs ds h1
  obtain ⟨k3, k4⟩ := key t bt ht dt h2
  refine ⟨bs, bt, ?_, ?_, ?_⟩
  · unfold datetimeSortKey
    rw [if_neg (by omega), if_neg (by omega), if_neg (by omega), List.take_of_length_le (by omega)]
  · unfold datetimeSortKey
    rw [if_neg (by omega), if_neg (by omega), if_neg (by omega), List.take_of_length_le (by omega)]
  · rw [bytes_lt_iff_nibs _ _ (by rw [k1, k3]), k2, k4, textValue_eq, textValue_eq]
    exact lex_iff_val_lt 10 _ _ (by simp [textDigits, hs, ht]) (textDigits_lt s ds) (textDigits_lt t dt)

/-- **C04, boundary.** A text shorter than 19 characters is stored as the bytes
`00 01 01 01 00 00 00`; the year nibbles are `0001`, month `01`, day `01`. -/
theorem datetime_store_short (s : Str) (h : s.length < 19) :
    datetimeStore s = .ok [0, 1, 1, 1, 0, 0, 0] := by
  simp [datetimeStore, h]

/-! ## C05 -/

/-- **C05 (numbers).** Decoding a numeric field of `L ≥ 1` digits looks only at its
`(L + 2) / 2` bytes: it never leaves them, and the result is the same whatever
bytes follow. -/
theorem numeric_decode_local (field after after' : Bytes) (L p : Nat) (hL : 1 ≤ L)
    (hlen : field.length = (L + 2) / 2) :
    ofRaw (field ++ after) L p true ≠ .ub ∧
    ofRaw (field ++ after) L p true = ofRaw (field ++ after') L p true := by
  cases field with
  | nil => simp at hlen
  | cons b rest =>
    simp only [List.length_cons] at hlen
    have hr : ∀ x : Bytes, (L - 1 + 1) / 2 ≤ (rest ++ x).length := by intro x; simp; omega
    obtain ⟨ds, h1, _, h3⟩ := rawLoop_of_enough L 1 (rest ++ after) (hr after)
    have htake : (rest ++ after).take ((L - 1 + 1) / 2) = rest := by
      rw [List.take_left']; omega
    have h2 := h3 after'
    rw [htake] at h2
    simp only [ofRaw, List.cons_append]
    rw [h1, h2]
    simp

/-- **C05, counterexample (dates).** Decoding a date needs 10 bytes although a
date field has 7: with fewer than 10 readable bytes the decoder reads outside
the buffer. -/
theorem date_decode_overreads (buf : Bytes) (h : buf.length < 10) :
    dateOfRaw buf = .ub := by
  unfold dateOfRaw ofRaw
  cases buf with
  | nil => rfl
  | cons b rest =>
    simp only [List.length_cons] at h
    simp only
    rw [rawLoop_short 19 1 rest (by omega)]
    rfl

/-- The 7-byte buffers that `string_to_date` fills are such buffers. -/
example : ∃ bs, string1CToDate ['2','0','1','8','0','3','3','1','2','3','5','9','5','8'] = .ok bs ∧
    dateToString1C bs = .ub := ⟨[0x20, 0x18, 0x03, 0x31, 0x23, 0x59, 0x58], by decide, by decide⟩

end Verif.Decimal
