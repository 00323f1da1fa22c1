import Verif.Decimal.Model
import Verif.Decimal.Spec
import Verif.Lex

namespace Verif.Decimal
open Verif Spec

/-! ### Nibbles -/

theorem hi_nat (b : UInt8) : hi b = (b.toNat / 16 : Nat) := by
  refine forall_byte (p := fun b => hi b = (b.toNat / 16 : Nat)) ?_ b
  decide +kernel

theorem lo_nat (b : UInt8) : lo b = (b.toNat % 16 : Nat) := by
  refine forall_byte (p := fun b => lo b = (b.toNat % 16 : Nat)) ?_ b
  decide +kernel

theorem pack_toNat : ∀ d e : Fin 10,
    (UInt8.ofInt ((d.val : Int) * 16) ||| UInt8.ofInt (e.val : Int)).toNat = d.val * 16 + e.val := by
  decide +kernel

theorem pack1_toNat : ∀ d : Fin 10,
    (UInt8.ofInt ((d.val : Int) * 16)).toNat = d.val * 16 := by
  decide +kernel

theorem sgn_toNat : ∀ s : Bool, ∀ d : Fin 10,
    (((if s then 0 else 0x10) : UInt8) ||| UInt8.ofInt (d.val : Int)).toNat
      = (if s then 0 else 1) * 16 + d.val := by
  decide +kernel

theorem digit_cases {d : Int} (h : IsDigit d) : ∃ n : Fin 10, d = (n.val : Int) := by
  obtain ⟨h0, h9⟩ := h
  exact ⟨⟨d.toNat, by omega⟩, by simp; omega⟩

theorem packPairs_length (ds : List Int) : (packPairs ds).length = (ds.length + 1) / 2 := by
  fun_induction packPairs ds with
  | case1 => rfl
  | case2 => simp
  | case3 d e rest ih => simp [ih]; omega

theorem rawLoop_done (length i : Nat) (buf : Bytes) (h : length ≤ i) :
    rawLoop length i buf = .ok [] := by
  cases buf <;> simp [rawLoop] <;> omega

/-- Reading the packed digits back. `i` counts digits already read. -/
theorem rawLoop_packPairs (ds : List Int) (h : ∀ d ∈ ds, IsDigit d) (i : Nat) (tail : Bytes) :
    rawLoop (i + ds.length) i (packPairs ds ++ tail) = .ok ds := by
  fun_induction packPairs ds generalizing i with
  | case1 => exact rawLoop_done _ _ _ (by simp)
  | case2 d =>
    obtain ⟨n, rfl⟩ := digit_cases (h d (by simp))
    simp only [List.cons_append, List.nil_append, rawLoop, List.length_cons, List.length_nil]
    rw [if_pos (by omega), if_neg (by omega), rawLoop_done _ _ _ (by omega)]
    simp only [Outcome.ok_bind, Outcome.pure_eq, hi_nat, pack1_toNat]
    congr 2; omega
  | case3 d e rest ih =>
    obtain ⟨n, rfl⟩ := digit_cases (h d (by simp))
    obtain ⟨m, rfl⟩ := digit_cases (h e (by simp))
    simp only [List.cons_append, rawLoop, List.length_cons]
    rw [if_pos (by omega), if_pos (by omega)]
    have := ih (fun d hd => h d (by simp [hd])) (i + 2)
    rw [show i + (rest.length + 1 + 1) = i + 2 + rest.length by omega, this]
    simp only [Outcome.ok_bind, Outcome.pure_eq, hi_nat, lo_nat, pack_toNat]
    congr 2
    · omega
    · congr 1; omega

/-- The raw loop succeeds exactly when enough bytes are there, and only looks at
those. -/
theorem rawLoop_of_enough (length i : Nat) (buf : Bytes) (hb : (length - i + 1) / 2 ≤ buf.length) :
    ∃ ds, rawLoop length i buf = .ok ds ∧ ds.length = length - i ∧
      ∀ tail, rawLoop length i (buf.take ((length - i + 1) / 2) ++ tail) = .ok ds := by
  fun_induction rawLoop length i buf with
  | case1 i hi => exfalso; simp at hb; omega
  | case2 i hi => exact ⟨[], rfl, by simp; omega, fun tail => rawLoop_done _ _ _ (by omega)⟩
  | case3 i b rest hi hlt ih =>
    obtain ⟨ds, h1, h2, h3⟩ := ih (by simp at hb; omega)
    refine ⟨_, by rw [h1]; rfl, by simp; omega, fun tail => ?_⟩
    rw [show (length - i + 1) / 2 = (length - (i + 2) + 1) / 2 + 1 by omega]
    simp only [List.take_succ_cons, List.cons_append, rawLoop, hi, hlt, if_true, h3]
    rfl
  | case4 i b rest hi hlt ih =>
    obtain ⟨ds, h1, h2, h3⟩ := ih (by omega)
    refine ⟨_, by rw [h1]; rfl, by simp; omega, fun tail => ?_⟩
    rw [show (length - i + 1) / 2 = (length - (i + 1) + 1) / 2 + 1 by omega]
    simp only [List.take_succ_cons, List.cons_append, rawLoop, hi, hlt, if_true, if_false, h3]
    rfl
  | case5 i b rest hi => exact ⟨[], rfl, by simp; omega, fun tail => rawLoop_done _ _ _ (by omega)⟩

theorem rawLoop_short (length i : Nat) (buf : Bytes) (hb : buf.length < (length - i + 1) / 2) :
    rawLoop length i buf = .ub := by
  fun_induction rawLoop length i buf with
  | case1 i hi => rfl
  | case2 i hi => exfalso; omega
  | case3 i b rest hi hlt ih => rw [ih (by simp at hb; omega)]; rfl
  | case4 i b rest hi hlt ih => exfalso; simp at hb; omega
  | case5 i b rest hi => exfalso; omega

/-! ### Digit strings and texts -/

theorem digitChar_nat (n : Nat) : digitChar (n : Int) = digit n := by
  simp [digitChar, digit]; congr 1

theorem toNat_digit {n : Nat} (h : n < 10) : (digit n).toNat = 48 + n := by
  have : ∀ n : Fin 10, (digit n.val).toNat = 48 + n.val := by decide +kernel
  exact this ⟨n, h⟩

theorem digit_of_char {c : Char} (h : IsDigitChar c) : digit (c.toNat - 48) = c := by
  unfold digit
  rw [show 48 + (c.toNat - 48) = c.toNat by unfold IsDigitChar at h; omega]
  exact Char.ofNat_toNat c

/-- `natText` of a value built digit by digit. -/
theorem natText_val (d : Nat) (ds : List Nat) (h0 : d ≠ 0) (hd : d < 10) (h : ∀ x ∈ ds, x < 10) :
    natText (val 10 (d :: ds)) = (d :: ds).map digit := by
  suffices H : ∀ rs : List Nat, (∀ x ∈ rs, x < 10) →
      natText (val 10 (d :: rs.reverse)) = (d :: rs.reverse).map digit by
    have := H ds.reverse (by simpa using h)
    simpa using this
  intro rs hrs
  induction rs with
  | nil => simp [val_cons]; unfold natText; simp [hd]
  | cons x xs ih =>
    have hx := hrs x (by simp)
    have ih := ih (fun y hy => hrs y (by simp [hy]))
    rw [List.reverse_cons, ← List.cons_append, val_append]
    simp only [List.length_singleton, Nat.pow_one, val_cons, List.length_nil, Nat.pow_zero,
      Nat.mul_one, val_nil, Nat.add_zero] at ih ⊢
    generalize hv : d * 10 ^ xs.reverse.length + val 10 xs.reverse = v at *
    have hvpos : 1 ≤ v := by
      have : 1 ≤ d * 10 ^ xs.reverse.length :=
        Nat.mul_pos (by omega) (Nat.pow_pos (by omega))
      omega
    rw [natText, if_neg (by omega), show (v * 10 + x) / 10 = v by omega,
      show (v * 10 + x) % 10 = x by omega, ih]
    simp

theorem val_dropWhile (ds : List Nat) : val 10 (ds.dropWhile (· = 0)) = val 10 ds := by
  induction ds with
  | nil => rfl
  | cons x xs ih =>
    by_cases h : x = 0
    · subst h
      rw [List.dropWhile_cons_of_pos (by simp), ih, val_cons]; simp
    · rw [List.dropWhile_cons_of_neg (by simpa using h)]

/-- Stripping leading zeros of a digit string gives the text of its value. -/
theorem strip_natText (ds : List Nat) (h : ∀ x ∈ ds, x < 10) :
    (if (ds.dropWhile (· = 0)).isEmpty then ['0'] else (ds.dropWhile (· = 0)).map digit)
      = natText (val 10 ds) := by
  rw [← val_dropWhile]
  cases hd : ds.dropWhile (· = 0) with
  | nil => simp; unfold natText; simp; decide
  | cons d r =>
    have hne : ¬ (d = 0) := by
      have := List.head_dropWhile_not (fun x => decide (x = 0)) (l := ds) (by rw [hd]; simp)
      simpa [hd] using this
    have hsub : ∀ x ∈ d :: r, x < 10 := by
      intro x hx; rw [← hd] at hx
      exact h x (List.IsSuffix.subset (List.dropWhile_suffix _) hx)
    simp only [List.isEmpty_cons, Bool.false_eq_true, if_false]
    rw [natText_val d r hne (hsub d (by simp)) (fun x hx => hsub x (by simp [hx]))]

theorem padText_val (ds : List Nat) (h : ∀ x ∈ ds, x < 10) :
    padText ds.length (val 10 ds) = ds.map digit := by
  suffices H : ∀ rs : List Nat, (∀ x ∈ rs, x < 10) →
      padText rs.reverse.length (val 10 rs.reverse) = rs.reverse.map digit by
    have := H ds.reverse (by simpa using h)
    simpa using this
  intro rs hrs
  induction rs with
  | nil => rfl
  | cons x xs ih =>
    have hx := hrs x (by simp)
    have ih := ih (fun y hy => hrs y (by simp [hy]))
    rw [List.reverse_cons, val_append, List.length_append]
    simp only [List.length_singleton, Nat.pow_one, val_cons, List.length_nil, Nat.pow_zero,
      Nat.mul_one, val_nil, Nat.add_zero, padText]
    rw [show (val 10 xs.reverse * 10 + x) / 10 = val 10 xs.reverse by omega,
      show (val 10 xs.reverse * 10 + x) % 10 = x by omega, ih]
    simp

theorem digit_eq_zero_iff {n : Nat} (h : n < 10) : digit n = '0' ↔ n = 0 := by
  have : ∀ n : Fin 10, digit n.val = '0' ↔ n.val = 0 := by decide +kernel
  exact this ⟨n, h⟩

theorem map_dropWhile_digit (ds : List Nat) (h : ∀ x ∈ ds, x < 10) :
    (ds.map digit).dropWhile (· = '0') = (ds.dropWhile (· = 0)).map digit := by
  induction ds with
  | nil => rfl
  | cons x xs ih =>
    have hx := h x (by simp)
    by_cases h0 : x = 0
    · rw [List.map_cons, List.dropWhile_cons_of_pos (by simpa [digit_eq_zero_iff hx] using h0),
        List.dropWhile_cons_of_pos (by simp [h0]), ih (fun y hy => h y (by simp [hy]))]
    · rw [List.map_cons, List.dropWhile_cons_of_neg (by simp [digit_eq_zero_iff hx, h0]),
        List.dropWhile_cons_of_neg (by simp [h0]), List.map_cons]

theorem dropTrailing_digit (ds : List Nat) (h : ∀ x ∈ ds, x < 10) :
    dropTrailingZeros (ds.map digit) = ((ds.reverse.dropWhile (· = 0)).reverse).map digit := by
  unfold dropTrailingZeros
  rw [← List.map_reverse, map_dropWhile_digit _ (by simpa using h), List.map_reverse]

/-! ### Presentation of digit strings -/

theorem dropWhile_cast (ds : List Nat) :
    (ds.map Int.ofNat).dropWhile (· = 0) = (ds.dropWhile (· = 0)).map Int.ofNat := by
  induction ds with
  | nil => rfl
  | cons x xs ih =>
    by_cases h0 : x = 0
    · subst h0
      rw [List.map_cons, List.dropWhile_cons_of_pos (by simp),
        List.dropWhile_cons_of_pos (by simp), ih]
    · rw [List.map_cons, List.dropWhile_cons_of_neg (by simpa using h0),
        List.dropWhile_cons_of_neg (by simp [h0]), List.map_cons]

theorem presentInt_nat (ds : List Nat) (h : ∀ x ∈ ds, x < 10) :
    presentInt (ds.map Int.ofNat) = natText (val 10 ds) := by
  rw [← strip_natText ds h]
  unfold presentInt
  rw [dropWhile_cast]
  simp only [List.isEmpty_map, List.map_map]
  congr 1

theorem stripTrailing_cast (ds : List Nat) :
    stripTrailing (ds.map Int.ofNat) = ((ds.reverse.dropWhile (· = 0)).reverse).map Int.ofNat := by
  unfold stripTrailing
  rw [← List.map_reverse, dropWhile_cast, List.map_reverse]

theorem presentFrac_nat (ds : List Nat) (h : ∀ x ∈ ds, x < 10) :
    presentFrac ds.length (ds.map Int.ofNat) =
      (let f := dropTrailingZeros (padText ds.length (val 10 ds))
       if f = [] then [] else '.' :: f) := by
  rw [padText_val ds h, dropTrailing_digit ds h]
  unfold presentFrac
  rw [stripTrailing_cast]
  cases hr : ds.reverse.dropWhile (· = 0) with
  | nil => simp
  | cons d r =>
    have hne : ¬ (d = 0) := by
      have := List.head_dropWhile_not (fun x => decide (x = 0)) (l := ds.reverse) (by rw [hr]; simp)
      simpa [hr] using this
    have hlen : ds.length ≠ 0 := by
      intro h0; rw [List.length_eq_zero_iff] at h0; subst h0; simp at hr
    have hany : (List.map Int.ofNat (d :: r).reverse).any (fun x => decide (x ≠ 0)) = true := by
      simp only [List.any_eq_true]
      exact ⟨Int.ofNat d, by simp, by simpa using hne⟩
    simp only [hlen, ne_eq, not_false_eq_true, if_true]
    rw [if_pos (by simpa using hany)]
    simp only [List.reverse_cons, List.map_append, List.map_cons, List.map_nil, List.map_map,
      List.append_eq_nil_iff, List.cons_ne_nil, and_false, if_false]
    congr 2

theorem exists_nat_digits (ds : List Int) (h : ∀ d ∈ ds, IsDigit d) :
    ∃ ns : List Nat, ds = ns.map Int.ofNat ∧ ∀ n ∈ ns, n < 10 := by
  refine ⟨ds.map Int.toNat, ?_, ?_⟩
  · rw [List.map_map]
    refine ((List.map_congr_left (g := id) fun x hx => ?_).trans (List.map_id ds)).symm
    have := h x hx; unfold IsDigit at this
    show ((x.toNat : Nat) : Int) = x; omega
  · intro n hn
    simp only [List.mem_map] at hn
    obtain ⟨d, hd, rfl⟩ := hn
    have := h d hd; unfold IsDigit at this; omega

/-- Presentation of a digit string split into integer and fraction part. -/
theorem presentation_nat (ip fp : List Nat) (hi : ∀ x ∈ ip, x < 10) (hf : ∀ x ∈ fp, x < 10)
    (hs : Bool) (sign : Int) :
    presentation { hasSign := hs, precision := fp.length, sign,
                   data := (ip ++ fp).map Int.ofNat }
      = .ok ((if hs && sign = -1 then ['-'] else []) ++ canonical (val 10 (ip ++ fp)) fp.length) := by
  unfold presentation
  simp only [List.length_map, List.length_append]
  rw [if_neg (by omega), show ip.length + fp.length - fp.length = ip.length by omega]
  rw [← List.map_take, ← List.map_drop, List.take_left, List.drop_left]
  rw [presentInt_nat ip hi, presentFrac_nat fp hf]
  have hvf := val_lt 10 fp hf
  unfold canonical
  rw [val_append]
  rw [show (val 10 ip * 10 ^ fp.length + val 10 fp) / 10 ^ fp.length = val 10 ip by
    rw [Nat.mul_comm, Nat.mul_add_div (Nat.pow_pos (by omega)), Nat.div_eq_of_lt hvf]; rfl]
  rw [show (val 10 ip * 10 ^ fp.length + val 10 fp) % 10 ^ fp.length = val 10 fp by
    rw [Nat.mul_comm, Nat.mul_add_mod, Nat.mod_eq_of_lt hvf]]
  simp only [List.append_assoc]

theorem digitsValue_nat (ns : List Nat) : digitsValue (ns.map Int.ofNat) = (val 10 ns : Nat) := by
  unfold digitsValue val
  suffices H : ∀ (a : Nat), (ns.map Int.ofNat).foldl (fun a d => a * 10 + d) (a : Int)
      = ((ns.foldl (fun a d => a * 10 + d) a : Nat) : Int) by simpa using H 0
  induction ns with
  | nil => intro a; rfl
  | cons x xs ih =>
    intro a
    simp only [List.map_cons, List.foldl_cons]
    have := ih (a * 10 + x)
    rw [← this]; congr 1

/-! ### The string constructor -/

/-- Digits of a text. -/
def textDigits (s : Str) : List Nat := s.map (fun c => c.toNat - 48)

theorem textDigits_lt (s : Str) (h : ∀ c ∈ s, IsDigitChar c) : ∀ n ∈ textDigits s, n < 10 := by
  intro n hn
  simp only [textDigits, List.mem_map] at hn
  obtain ⟨c, hc, rfl⟩ := hn
  have := h c hc; unfold IsDigitChar at this; omega

theorem textValue_eq (s : Str) : textValue s = val 10 (textDigits s) := by
  unfold textValue val textDigits
  rw [List.foldl_map]

theorem digitChar_ne_dot {c : Char} (h : IsDigitChar c) : c ≠ '.' := by
  intro h'; subst h'; revert h; decide

theorem splitParts_frac (s : Str) (h : ∀ c ∈ s, IsDigitChar c) (ip fp : List Int) :
    splitParts s 1 ip fp = .ok (ip, fp ++ (textDigits s).map Int.ofNat) := by
  induction s generalizing fp with
  | nil => simp [splitParts, textDigits]
  | cons c cs ih =>
    have hc := h c (by simp)
    rw [splitParts, if_neg (digitChar_ne_dot hc)]
    simp only
    rw [ih (fun c hc => h c (by simp [hc]))]
    simp only [textDigits, List.map_cons, List.append_assoc, List.singleton_append]
    congr 4
    unfold IsDigitChar at hc
    show _ = ((_ : Nat) : Int); omega

theorem splitParts_int (s t : Str) (h : ∀ c ∈ s, IsDigitChar c) (ip fp : List Int) :
    splitParts (s ++ t) 0 ip fp = splitParts t 0 (ip ++ (textDigits s).map Int.ofNat) fp := by
  induction s generalizing ip with
  | nil => simp [textDigits]
  | cons c cs ih =>
    have hc := h c (by simp)
    rw [List.cons_append, splitParts, if_neg (digitChar_ne_dot hc)]
    simp only
    rw [ih (fun c hc => h c (by simp [hc]))]
    simp only [textDigits, List.map_cons, List.append_assoc, List.singleton_append]
    congr 3
    unfold IsDigitChar at hc
    show _ = ((_ : Nat) : Int); omega

/-- Reading an even number of packed digits and going on. -/
theorem rawLoop_pairs (ds : List Int) (hd : ∀ d ∈ ds, IsDigit d) (heven : ds.length % 2 = 0)
    (length i : Nat) (tail : Bytes) (hi' : i + ds.length ≤ length) :
    rawLoop length i (packPairs ds ++ tail)
      = (rawLoop length (i + ds.length) tail >>= fun r => Outcome.ok (ds ++ r)) := by
  fun_induction packPairs ds generalizing i with
  | case1 =>
    simp only [List.nil_append, List.length_nil, Nat.add_zero]
    cases rawLoop length i tail <;> rfl
  | case2 d => simp at heven
  | case3 d e rest ih =>
    obtain ⟨n, rfl⟩ := digit_cases (hd d (by simp))
    obtain ⟨m, rfl⟩ := digit_cases (hd e (by simp))
    simp only [List.length_cons] at heven hi'
    have := ih (fun d h => hd d (by simp [h])) (by omega) (i + 2) (by omega)
    rw [List.cons_append, rawLoop]
    rw [if_pos (by omega), if_pos (by omega), this, List.length_cons, List.length_cons,
      show i + 2 + rest.length = i + (rest.length + 1 + 1) by omega]
    cases rawLoop length (i + (rest.length + 1 + 1)) tail with
    | ok r =>
      simp only [Outcome.ok_bind, Outcome.pure_eq, hi_nat, lo_nat, pack_toNat]
      rw [show ((n.val * 16 + m.val) / 16) = n.val by omega,
        show ((n.val * 16 + m.val) % 16) = m.val by omega]
      rfl
    | throw => rfl
    | ub => rfl

end Verif.Decimal
