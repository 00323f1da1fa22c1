import Verif.Unicode.Model
import Verif.Unicode.Spec
import Verif.Lex

/-! # Helper lemmas: UTF-8 and UTF-16 -/

namespace Verif.Unicode
open Verif Spec

theorem validCP_iff (cp : Nat) : validCP cp = true ↔ Scalar cp := by
  unfold validCP Scalar
  simp only [Bool.and_eq_true, decide_eq_true_eq, Bool.not_eq_true', Bool.and_eq_false_iff,
    decide_eq_false_iff_not]
  omega

theorem isTrail_iff (b : UInt8) : isTrail b = true ↔ 128 ≤ b.toNat ∧ b.toNat < 192 := by
  revert b; apply forall_byte; decide +kernel

theorem seqLen_cases (b : UInt8) :
    (b.toNat < 128 ∧ seqLen b = 1) ∨ (128 ≤ b.toNat ∧ b.toNat < 192 ∧ seqLen b = 0) ∨
    (192 ≤ b.toNat ∧ b.toNat < 224 ∧ seqLen b = 2) ∨
    (224 ≤ b.toNat ∧ b.toNat < 240 ∧ seqLen b = 3) ∨ (240 ≤ b.toNat ∧ b.toNat < 248 ∧ seqLen b = 4) ∨
    (248 ≤ b.toNat ∧ seqLen b = 0) := by
  revert b; apply forall_byte; decide +kernel

theorem bits6 (b : UInt8) : b.toNat &&& 0x3f = b.toNat % 64 := by
  revert b; apply forall_byte; decide +kernel
theorem bits_2 (b : UInt8) : (b.toNat <<< 6) &&& 0x7ff = b.toNat % 32 * 64 := by
  revert b; apply forall_byte; decide +kernel
theorem bits_3 (b : UInt8) : (b.toNat <<< 12) &&& 0xffff = b.toNat % 16 * 4096 := by
  revert b; apply forall_byte; decide +kernel
theorem bits_4 (b : UInt8) : (b.toNat <<< 18) &&& 0x1fffff = b.toNat % 8 * 262144 := by
  revert b; apply forall_byte; decide +kernel
theorem bits_12 (b : UInt8) : (b.toNat <<< 12) &&& 0x3ffff = b.toNat % 64 * 4096 := by
  revert b; apply forall_byte; decide +kernel
theorem bits_6 (b : UInt8) : (b.toNat <<< 6) &&& 0xfff = b.toNat % 64 * 64 := by
  revert b; apply forall_byte; decide +kernel

theorem byte_eq (b : UInt8) (n : Nat) (h : b.toNat = n) : b = UInt8.ofNat n := by
  subst h; simp

theorem toNat_ofNat_lt (n : Nat) (h : n < 256) : (UInt8.ofNat n).toNat = n := by
  simp; omega

/-- `next` accepts exactly the UTF-8 encodings of scalar values. -/
theorem next_sound (bs rest : Bytes) (cp : Nat) (h : next bs = .ok (cp, rest)) :
    Scalar cp ∧ bs = utf8 cp ++ rest := by
  cases bs with
  | nil => simp [next] at h
  | cons lead r =>
    simp only [next] at h
    have fin : ∀ (cp' : Nat) (rest' : Bytes), getSeq (seqLen lead) lead r = .ok (cp', rest') →
        cp' = cp ∧ rest' = rest ∧ Scalar cp ∧ overlong cp (seqLen lead) = false := by
      intro cp' rest' he
      rw [he] at h
      simp only [Outcome.ok_bind] at h
      split at h
      · rename_i hc
        simp only [Bool.and_eq_true, Bool.not_eq_true'] at hc
        simp only [Outcome.ok.injEq, Prod.mk.injEq] at h
        obtain ⟨rfl, rfl⟩ := h
        exact ⟨rfl, rfl, (validCP_iff _).1 hc.1, hc.2⟩
      · simp at h
    rcases seqLen_cases lead with ⟨h1, hs⟩ | ⟨_, _, hs⟩ | ⟨h1, h2, hs⟩ | ⟨h1, h2, hs⟩ | ⟨h1, h2, hs⟩ | ⟨_, hs⟩
    · rw [hs] at fin
      obtain ⟨rfl, rfl, h3, _⟩ := fin lead.toNat r rfl
      refine ⟨h3, ?_⟩
      unfold utf8
      rw [if_pos (by omega)]; simp
    · rw [hs] at h; simp [getSeq] at h
    · rw [hs] at fin h
      match r, fin, h with
      | [], _, h => simp [getSeq] at h
      | b1 :: r, fin, h =>
        by_cases ht : isTrail b1 = true
        · have e : getSeq 2 lead (b1 :: r) = .ok (lead.toNat % 32 * 64 + b1.toNat % 64, r) := by
            simp only [getSeq, ht, if_true, bits_2, bits6]
          obtain ⟨hcp, rfl, h3, h4⟩ := fin _ _ e
          have h1' := (isTrail_iff b1).1 ht
          refine ⟨h3, ?_⟩
          unfold overlong at h4
          unfold utf8
          rw [if_neg (by intro hh; rw [if_pos hh] at h4; simp at h4), if_pos (by omega)]
          rw [byte_eq lead (0xC0 + cp / 64) (by omega), byte_eq b1 (0x80 + cp % 64) (by omega)]
          rfl
        · simp [getSeq, ht] at h
    · rw [hs] at fin h
      match r, fin, h with
      | [], _, h => simp [getSeq] at h
      | [_], _, h => simp [getSeq] at h
      | b1 :: b2 :: r, fin, h =>
        by_cases ht : (isTrail b1 && isTrail b2) = true
        · have e : getSeq 3 lead (b1 :: b2 :: r) =
              .ok (lead.toNat % 16 * 4096 + b1.toNat % 64 * 64 + b2.toNat % 64, r) := by
            simp only [getSeq, ht, if_true, bits_3, bits_6, bits6]
          obtain ⟨hcp, rfl, h3, h4⟩ := fin _ _ e
          simp only [Bool.and_eq_true, isTrail_iff] at ht
          refine ⟨h3, ?_⟩
          unfold overlong at h4
          have g1 : ¬ cp < 0x80 := by intro hh; rw [if_pos hh] at h4; simp at h4
          have g2 : ¬ cp < 0x800 := by intro hh; rw [if_neg g1, if_pos hh] at h4; simp at h4
          unfold utf8
          rw [if_neg g1, if_neg g2, if_pos (by omega)]
          rw [byte_eq lead (0xE0 + cp / 4096) (by omega), byte_eq b1 (0x80 + cp / 64 % 64) (by omega),
            byte_eq b2 (0x80 + cp % 64) (by omega)]
          rfl
        · simp only [getSeq, ht] at h
          simp at h
    · rw [hs] at fin h
      match r, fin, h with
      | [], _, h => simp [getSeq] at h
      | [_], _, h => simp [getSeq] at h
      | [_, _], _, h => simp [getSeq] at h
      | b1 :: b2 :: b3 :: r, fin, h =>
        by_cases ht : (isTrail b1 && isTrail b2 && isTrail b3) = true
        · have e : getSeq 4 lead (b1 :: b2 :: b3 :: r) =
              .ok (lead.toNat % 8 * 262144 + b1.toNat % 64 * 4096 + b2.toNat % 64 * 64 + b3.toNat % 64, r) := by
            simp only [getSeq, ht, if_true, bits_4, bits_12, bits_6, bits6]
          obtain ⟨hcp, rfl, h3, h4⟩ := fin _ _ e
          simp only [Bool.and_eq_true, isTrail_iff] at ht
          refine ⟨h3, ?_⟩
          unfold overlong at h4
          have g1 : ¬ cp < 0x80 := by intro hh; rw [if_pos hh] at h4; simp at h4
          have g2 : ¬ cp < 0x800 := by intro hh; rw [if_neg g1, if_pos hh] at h4; simp at h4
          have g3 : ¬ cp < 0x10000 := by intro hh; rw [if_neg g1, if_neg g2, if_pos hh] at h4; simp at h4
          unfold utf8
          rw [if_neg g1, if_neg g2, if_neg g3]
          rw [byte_eq lead (0xF0 + cp / 262144) (by omega), byte_eq b1 (0x80 + cp / 4096 % 64) (by omega),
            byte_eq b2 (0x80 + cp / 64 % 64) (by omega), byte_eq b3 (0x80 + cp % 64) (by omega)]
          rfl
        · simp only [getSeq, ht] at h
          simp at h
    · rw [hs] at h; simp [getSeq] at h

theorem seqLen_of (b : UInt8) (n : Nat) (h : (n = 1 ∧ b.toNat < 128) ∨ (n = 2 ∧ 192 ≤ b.toNat ∧ b.toNat < 224)
    ∨ (n = 3 ∧ 224 ≤ b.toNat ∧ b.toNat < 240) ∨ (n = 4 ∧ 240 ≤ b.toNat ∧ b.toNat < 248)) : seqLen b = n := by
  have := seqLen_cases b
  omega

theorem next_complete (cp : Nat) (rest : Bytes) (h : Scalar cp) :
    next (utf8 cp ++ rest) = .ok (cp, rest) := by
  have hv := (validCP_iff cp).2 h
  have hm : cp < 0x110000 := by unfold Scalar at h; omega
  unfold utf8
  split
  · rename_i h1
    simp only [List.cons_append, List.nil_append, next]
    have hb := toNat_ofNat_lt cp (by omega)
    rw [seqLen_of (UInt8.ofNat cp) 1 (by omega)]
    have ho : overlong cp 1 = false := by unfold overlong; rw [if_pos h1]; rfl
    simp only [getSeq, hb, Outcome.ok_bind, hv, ho]; rfl
  · split
    · rename_i h1 h2
      simp only [List.cons_append, List.nil_append, next]
      have hb := toNat_ofNat_lt (0xC0 + cp / 64) (by omega)
      have hb1 := toNat_ofNat_lt (0x80 + cp % 64) (by omega)
      rw [seqLen_of _ 2 (by omega)]
      have ho : overlong cp 2 = false := by unfold overlong; rw [if_neg h1, if_pos h2]; rfl
      have ht : isTrail (UInt8.ofNat (0x80 + cp % 64)) = true := (isTrail_iff _).2 (by omega)
      simp only [getSeq, ht, if_true, bits_2, bits6, Outcome.ok_bind]
      simp only [hb, hb1]
      rw [show (0xC0 + cp / 64) % 32 * 64 + (0x80 + cp % 64) % 64 = cp by omega]
      simp only [hv, ho]; rfl
    · split
      · rename_i h1 h2 h3
        simp only [List.cons_append, List.nil_append, next]
        have hb := toNat_ofNat_lt (0xE0 + cp / 4096) (by omega)
        have hb1 := toNat_ofNat_lt (0x80 + cp / 64 % 64) (by omega)
        have hb2 := toNat_ofNat_lt (0x80 + cp % 64) (by omega)
        rw [seqLen_of _ 3 (by omega)]
        have ho : overlong cp 3 = false := by
          unfold overlong; rw [if_neg h1, if_neg h2, if_pos h3]; rfl
        have ht1 : isTrail (UInt8.ofNat (0x80 + cp / 64 % 64)) = true := (isTrail_iff _).2 (by omega)
        have ht2 : isTrail (UInt8.ofNat (0x80 + cp % 64)) = true := (isTrail_iff _).2 (by omega)
        simp only [getSeq, ht1, ht2, Bool.and_self, if_true, bits_3, bits_6, bits6,
          Outcome.ok_bind]
        simp only [hb, hb1, hb2]
        rw [show (0xE0 + cp / 4096) % 16 * 4096 + (0x80 + cp / 64 % 64) % 64 * 64 +
          (0x80 + cp % 64) % 64 = cp by omega]
        simp only [hv, ho]; rfl
      · rename_i h1 h2 h3
        simp only [List.cons_append, List.nil_append, next]
        have hb := toNat_ofNat_lt (0xF0 + cp / 262144) (by omega)
        have hb1 := toNat_ofNat_lt (0x80 + cp / 4096 % 64) (by omega)
        have hb2 := toNat_ofNat_lt (0x80 + cp / 64 % 64) (by omega)
        have hb3 := toNat_ofNat_lt (0x80 + cp % 64) (by omega)
        rw [seqLen_of _ 4 (by omega)]
        have ho : overlong cp 4 = false := by
          unfold overlong; rw [if_neg h1, if_neg h2, if_neg h3]
        have ht1 : isTrail (UInt8.ofNat (0x80 + cp / 4096 % 64)) = true := (isTrail_iff _).2 (by omega)
        have ht2 : isTrail (UInt8.ofNat (0x80 + cp / 64 % 64)) = true := (isTrail_iff _).2 (by omega)
        have ht3 : isTrail (UInt8.ofNat (0x80 + cp % 64)) = true := (isTrail_iff _).2 (by omega)
        simp only [getSeq, ht1, ht2, ht3, Bool.and_self, if_true, bits_4, bits_12, bits_6, bits6,
          Outcome.ok_bind]
        simp only [hb, hb1, hb2, hb3]
        rw [show (0xF0 + cp / 262144) % 8 * 262144 + (0x80 + cp / 4096 % 64) % 64 * 4096 +
          (0x80 + cp / 64 % 64) % 64 * 64 + (0x80 + cp % 64) % 64 = cp by omega]
        simp only [hv, ho]; rfl

theorem utf8_ne (cp : Nat) : ∃ b r, utf8 cp = b :: r := by
  unfold utf8; split
  · exact ⟨_, _, rfl⟩
  · split
    · exact ⟨_, _, rfl⟩
    · split <;> exact ⟨_, _, rfl⟩

theorem decodeAll_complete (cps : List Nat) (h : ∀ cp ∈ cps, Scalar cp) (fuel : Nat)
    (hf : (utf8Text cps).length ≤ fuel) : decodeAll fuel (utf8Text cps) = .ok cps := by
  induction cps generalizing fuel with
  | nil => cases fuel <;> rfl
  | cons cp cps ih =>
    have e : utf8Text (cp :: cps) = utf8 cp ++ utf8Text cps := rfl
    have hn := next_complete cp (utf8Text cps) (h cp (by simp))
    rw [e] at hf ⊢
    obtain ⟨b, r, hb⟩ := utf8_ne cp
    rw [hb] at hf hn ⊢
    cases fuel with
    | zero => simp at hf
    | succ fuel =>
      simp only [List.cons_append] at hn ⊢
      simp only [decodeAll, hn, Outcome.ok_bind]
      rw [ih (fun x hx => h x (by simp [hx])) fuel (by simp at hf; omega)]
      rfl

theorem decodeAll_sound (fuel : Nat) (bs : Bytes) (cps : List Nat) (h : decodeAll fuel bs = .ok cps) :
    (∀ cp ∈ cps, Scalar cp) ∧ bs = utf8Text cps := by
  induction fuel generalizing bs cps with
  | zero =>
    cases bs with
    | nil => simp only [decodeAll, Outcome.ok.injEq] at h; subst h; simp [utf8Text]
    | cons b bs => simp [decodeAll] at h
  | succ fuel ih =>
    cases bs with
    | nil => simp only [decodeAll, Outcome.ok.injEq] at h; subst h; simp [utf8Text]
    | cons b bs =>
      simp only [decodeAll] at h
      cases hn : next (b :: bs) with
      | throw => rw [hn] at h; simp at h
      | ub => rw [hn] at h; simp at h
      | ok p =>
        obtain ⟨cp, rest⟩ := p
        rw [hn] at h
        simp only [Outcome.ok_bind] at h
        cases hd : decodeAll fuel rest with
        | throw => rw [hd] at h; simp at h
        | ub => rw [hd] at h; simp at h
        | ok cps' =>
          rw [hd] at h
          simp only [Outcome.ok_bind, Outcome.ok.injEq] at h
          subst h
          have hs := next_sound _ _ _ hn
          have hi := ih rest cps' hd
          refine ⟨?_, ?_⟩
          · intro x hx
            rcases List.mem_cons.mp hx with rfl | hx
            · exact hs.1
            · exact hi.1 x hx
          · rw [hs.2, hi.2]; rfl

theorem append_spec (cp : Nat) (h : Scalar cp) : append cp = .ok (utf8 cp) := by
  have hv := (validCP_iff cp).2 h
  have hm : cp < 0x110000 := by unfold Scalar at h; omega
  have or_c0 : ∀ n, n < 32 → n ||| 0xc0 = 0xC0 + n := by
    have : ∀ i : Fin 32, i.val ||| 0xc0 = 0xC0 + i.val := by decide +kernel
    exact fun n hn => this ⟨n, hn⟩
  have or_e0 : ∀ n, n < 16 → n ||| 0xe0 = 0xE0 + n := by
    have : ∀ i : Fin 16, i.val ||| 0xe0 = 0xE0 + i.val := by decide +kernel
    exact fun n hn => this ⟨n, hn⟩
  have or_f0 : ∀ n, n < 8 → n ||| 0xf0 = 0xF0 + n := by
    have : ∀ i : Fin 8, i.val ||| 0xf0 = 0xF0 + i.val := by decide +kernel
    exact fun n hn => this ⟨n, hn⟩
  have or_80 : ∀ n, n < 64 → n ||| 0x80 = 0x80 + n := by
    have : ∀ i : Fin 64, i.val ||| 0x80 = 0x80 + i.val := by decide +kernel
    exact fun n hn => this ⟨n, hn⟩
  have and63 : ∀ n : Nat, n &&& 0x3f = n % 64 := fun n => Nat.and_two_pow_sub_one_eq_mod n 6
  unfold append utf8
  simp only [hv, Bool.not_true, Bool.false_eq_true, if_false, and63, Nat.shiftRight_eq_div_pow]
  split
  · rfl
  · split
    · rw [or_c0 _ (by omega), or_80 _ (by omega)]
    · split
      · rw [or_e0 _ (by omega), or_80 _ (by omega), or_80 _ (by omega)]
      · rw [or_f0 _ (by omega), or_80 _ (by omega), or_80 _ (by omega), or_80 _ (by omega)]

theorem appendAll_spec (cps : List Nat) (h : ∀ cp ∈ cps, Scalar cp) :
    appendAll cps = .ok (utf8Text cps) := by
  induction cps with
  | nil => rfl
  | cons cp cps ih =>
    simp only [appendAll, append_spec cp (h cp (by simp)), ih (fun x hx => h x (by simp [hx])),
      Outcome.ok_bind]
    rfl

/-- The 16-bit units of a scalar value. -/
def units16 (cp : Nat) : List Nat :=
  if cp < 0x10000 then [cp] else [0xD800 + (cp - 0x10000) / 1024, 0xDC00 + (cp - 0x10000) % 1024]

theorem units_spec (cp : Nat) (h : Scalar cp) : units cp = units16 cp := by
  have hm : cp < 0x110000 := by unfold Scalar at h; omega
  have and1023 : ∀ n : Nat, n &&& 0x3ff = n % 1024 := fun n => Nat.and_two_pow_sub_one_eq_mod n 10
  unfold units units16
  simp only [and1023, Nat.shiftRight_eq_div_pow]
  split
  · rw [if_neg (by omega)]
    rw [show (cp / 2 ^ 10 + (0xd800 - 0x10000 / 2 ^ 10)) % 65536 = 0xD800 + (cp - 0x10000) / 1024 by omega,
      show (cp % 1024 + 0xdc00) % 65536 = 0xDC00 + (cp - 0x10000) % 1024 by omega]
  · rw [if_pos (by omega)]
    rw [Nat.mod_eq_of_lt (by omega)]

theorem units16_le (cp : Nat) : (units16 cp).flatMap le16 = utf16 cp := by
  unfold units16 utf16; split <;> simp

theorem unitsOf_le16 (u : Nat) (hu : u < 65536) (r : Bytes) : unitsOf (le16 u ++ r) = u :: unitsOf r := by
  simp only [le16, List.cons_append, List.nil_append, unitsOf]
  rw [toNat_ofNat_lt _ (by omega), toNat_ofNat_lt _ (by omega)]
  congr 1; omega

theorem unitsOf_flat (us : List Nat) (hu : ∀ u ∈ us, u < 65536) : unitsOf (us.flatMap le16) = us := by
  induction us with
  | nil => rfl
  | cons u us ih =>
    simp only [List.flatMap_cons]
    rw [unitsOf_le16 u (hu u (by simp)), ih (fun x hx => hu x (by simp [hx]))]

theorem units16_lt (cp : Nat) (h : Scalar cp) : ∀ u ∈ units16 cp, u < 65536 := by
  have hm : cp < 0x110000 := by unfold Scalar at h; omega
  unfold units16
  intro u hu
  split at hu
  · simp at hu; omega
  · simp at hu; omega

theorem fromUtf16_cons (cp : Nat) (h : Scalar cp) (us : List Nat) :
    fromUtf16 (units16 cp ++ us) = (fromUtf16 us >>= fun cps => .ok (cp :: cps)) := by
  have hm : cp < 0x110000 := by unfold Scalar at h; omega
  unfold units16
  split
  · have h1 : ¬ (cp ≥ 0xd800 ∧ cp ≤ 0xdbff) := by unfold Scalar at h; omega
    have h2 : ¬ (cp ≥ 0xdc00 ∧ cp ≤ 0xdfff) := by unfold Scalar at h; omega
    cases us with
    | nil => simp only [List.append_nil, fromUtf16, h1, h2, if_false, Outcome.ok_bind]
    | cons u us => simp only [List.cons_append, List.nil_append, fromUtf16, h1, h2, if_false]
  · simp only [List.cons_append, List.nil_append, fromUtf16]
    rw [if_pos (by omega), if_pos (by omega)]
    have hc : (((0xD800 + (cp - 0x10000) / 1024) <<< 10) + (0xDC00 + (cp - 0x10000) % 1024) +
        (2 ^ 32 + 0x10000 - (0xd800 <<< 10) - 0xdc00)) % 2 ^ 32 = cp := by
      rw [Nat.shiftLeft_eq, Nat.shiftLeft_eq]; omega
    rw [hc]

theorem fromUtf16_complete (cps : List Nat) (h : ∀ cp ∈ cps, Scalar cp) :
    fromUtf16 (cps.flatMap units16) = .ok cps := by
  induction cps with
  | nil => rfl
  | cons cp cps ih =>
    simp only [List.flatMap_cons]
    rw [fromUtf16_cons cp (h cp (by simp)), ih (fun x hx => h x (by simp [hx]))]
    rfl

theorem fromUtf16_sound (us cps : List Nat) (hu : ∀ u ∈ us, u < 65536) (h : fromUtf16 us = .ok cps) :
    (∀ cp ∈ cps, Scalar cp) ∧ us = cps.flatMap units16 := by
  fun_induction fromUtf16 us generalizing cps with
  | case1 => simp only [Outcome.ok.injEq] at h; subst h; simp
  | case2 => simp at h
  | case3 => simp at h
  | case4 u h1 h2 =>
    simp only [Outcome.ok.injEq] at h; subst h
    have := hu u (by simp)
    refine ⟨?_, ?_⟩
    · intro x hx; simp at hx; subst hx; unfold Scalar; omega
    · simp only [List.flatMap_cons, List.flatMap_nil, List.append_nil, units16]
      rw [if_pos (show u < 0x10000 from this)]
  | case5 u t r h1 h2 ih =>
    cases hr : fromUtf16 r with
    | throw => rw [hr] at h; simp at h
    | ub => rw [hr] at h; simp at h
    | ok cps' =>
      rw [hr] at h
      simp only [Outcome.ok_bind, Outcome.ok.injEq] at h
      have hi := ih cps' (fun x hx => hu x (by simp [hx])) hr
      have hc : ((u <<< 10) + t + (2 ^ 32 + 0x10000 - (0xd800 <<< 10) - 0xdc00)) % 2 ^ 32
          = 0x10000 + (u - 0xd800) * 1024 + (t - 0xdc00) := by
        rw [Nat.shiftLeft_eq, Nat.shiftLeft_eq]; omega
      rw [hc] at h
      subst h
      refine ⟨?_, ?_⟩
      · intro x hx
        rcases List.mem_cons.mp hx with hx | hx
        · unfold Scalar; omega
        · exact hi.1 x hx
      · simp only [List.flatMap_cons]
        rw [← hi.2]
        unfold units16
        rw [if_neg (by omega)]
        rw [show 0xD800 + (0x10000 + (u - 0xd800) * 1024 + (t - 0xdc00) - 0x10000) / 1024 = u by omega,
          show 0xDC00 + (0x10000 + (u - 0xd800) * 1024 + (t - 0xdc00) - 0x10000) % 1024 = t by omega]
        rfl
  | case6 => simp at h
  | case7 => simp at h
  | case8 u t r h1 h2 ih =>
    cases hr : fromUtf16 (t :: r) with
    | throw => rw [hr] at h; simp at h
    | ub => rw [hr] at h; simp at h
    | ok cps' =>
      rw [hr] at h
      simp only [Outcome.ok_bind, Outcome.ok.injEq] at h
      subst h
      have hi := ih cps' (fun x hx => hu x (by simp at hx ⊢; right; exact hx)) hr
      have := hu u (by simp)
      refine ⟨?_, ?_⟩
      · intro x hx
        rcases List.mem_cons.mp hx with rfl | hx
        · unfold Scalar; omega
        · exact hi.1 x hx
      · simp only [List.flatMap_cons]
        rw [← hi.2, units16, if_pos (show u < 0x10000 from this)]
        rfl

theorem unitsOf_lt (bs : Bytes) : ∀ u ∈ unitsOf bs, u < 65536 := by
  fun_induction unitsOf bs with
  | case1 a b r ih =>
    intro u hu
    rcases List.mem_cons.mp hu with rfl | hu
    · have := a.toNat_lt; have := b.toNat_lt; omega
    · exact ih u hu
  | case2 => simp

theorem unitsOf_inv (bs : Bytes) (he : bs.length % 2 = 0) : (unitsOf bs).flatMap le16 = bs := by
  fun_induction unitsOf bs with
  | case1 a b r ih =>
    simp only [List.flatMap_cons, le16]
    rw [ih (by simp at he; omega)]
    have ha := a.toNat_lt
    have hb := b.toNat_lt
    rw [show (a.toNat + 256 * b.toNat) % 256 = a.toNat by omega,
      show (a.toNat + 256 * b.toNat) / 256 = b.toNat by omega]
    simp
  | case2 bs hne =>
    match bs, hne, he with
    | [], _, _ => rfl
    | [_], _, he => simp at he
    | a :: b :: r, hne, _ => exact absurd rfl (hne a b r)

end Verif.Unicode
