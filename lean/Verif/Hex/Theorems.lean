import Verif.Hex.Model
import Verif.Hex.Spec
import Verif.Lex

/-! # Property theorems: hex (C10) -/

namespace Verif.Hex
open Verif

theorem hexByte_back (d : UInt8) :
    ((fromHexDigit (hexChar (d >>> (4 : UInt8)))) <<< (4 : UInt8)) |||
      fromHexDigit (hexChar (d &&& (0xf : UInt8))) = d := by
  revert d; apply forall_byte; decide +kernel

theorem hexByte_two (d : UInt8) :
    twoHexDigitsToByte (hexChar (d >>> (4 : UInt8))) (hexChar (d &&& (0xf : UInt8))) = (true, d) := by
  revert d; apply forall_byte; decide +kernel

theorem hexByte_inj (a b : UInt8) (h : hexByte a = hexByte b) : a = b := by
  have ha := hexByte_back a
  unfold hexByte at h
  simp only [List.cons.injEq, and_true] at h
  rw [h.1, h.2, hexByte_back] at ha
  exact ha.symm

/-- **C10a.** The hex dump of a byte sequence has two characters per byte. -/
theorem hexstring_length (bs : Bytes) : (hexstring bs).length = 2 * bs.length := by
  induction bs with
  | nil => rfl
  | cons b bs ih => simp [hexstring, hexByte, ih]; omega

/-- **C10b.** The hex dump determines the bytes: different byte sequences have
different dumps. -/
theorem hexstring_injective (as bs : Bytes) (h : hexstring as = hexstring bs) : as = bs := by
  induction as generalizing bs with
  | nil =>
    cases bs with
    | nil => rfl
    | cons b bs => simp [hexstring, hexByte] at h
  | cons a as ih =>
    cases bs with
    | nil => simp [hexstring, hexByte] at h
    | cons b bs =>
      have h2 : hexByte a = hexByte b ∧ hexstring as = hexstring bs :=
        List.append_inj h (by simp [hexByte])
      rw [hexByte_inj a b h2.1, ih bs h2.2]

example : hexstring [0x00, 0xff, 0x1c] = "00ff1c".toList := by decide

/-- **C10e.** Every character of the dump is a lower-case hex digit, at position `2i`
the high half and at `2i+1` the low half of byte `i`. -/
theorem hexstring_chars (bs : Bytes) (i : Nat) (hi : i < bs.length) :
    (∃ c, (hexstring bs)[2 * i]? = some c ∧ Spec.digitValue c = some (bs[i].toNat / 16)) ∧
    (∃ c, (hexstring bs)[2 * i + 1]? = some c ∧ Spec.digitValue c = some (bs[i].toNat % 16)) := by
  have key : ∀ d : UInt8, Spec.digitValue (hexChar (d >>> (4 : UInt8))) = some (d.toNat / 16) ∧
      Spec.digitValue (hexChar (d &&& (0xf : UInt8))) = some (d.toNat % 16) := by
    apply forall_byte; decide +kernel
  induction bs generalizing i with
  | nil => simp at hi
  | cons b bs ih =>
    cases i with
    | zero => exact ⟨⟨_, rfl, (key b).1⟩, ⟨_, rfl, (key b).2⟩⟩
    | succ i =>
      have := ih i (by simpa using hi)
      simpa [hexstring, hexByte, Nat.mul_add, Nat.add_right_comm] using this

/-- Helper: the nibble reader is the specification's digit value. -/
theorem hexNibble_spec (c : Char) :
    hexNibble c = (Spec.digitValue c).map UInt8.ofNat ∧
      (∀ n, Spec.digitValue c = some n → n < 16) := by
  by_cases h : c.toNat < 128
  · have key : ∀ i : Fin 128, hexNibble (Char.ofNat i.val) = (Spec.digitValue (Char.ofNat i.val)).map UInt8.ofNat ∧
      (∀ n, Spec.digitValue (Char.ofNat i.val) = some n → n < 16) := by
      have k2 : ∀ i : Fin 128, hexNibble (Char.ofNat i.val) = (Spec.digitValue (Char.ofNat i.val)).map UInt8.ofNat ∧
        ((Spec.digitValue (Char.ofNat i.val)).all (· < 16)) = true := by decide +kernel
      intro i
      refine ⟨(k2 i).1, fun n hn => ?_⟩
      have := (k2 i).2
      rw [hn] at this
      simpa using this
    have := key ⟨c.toNat, h⟩
    simpa using this
  · have hge : 128 ≤ c.toNat := by omega
    have e1 : hexNibble c = none := by
      unfold hexNibble
      rw [if_neg, if_neg, if_neg] <;> (intro ⟨_, h2⟩; have : c.toNat ≤ _ := h2; revert this; simp; omega)
    have e2 : Spec.digitValue c = none := by
      unfold Spec.digitValue
      have hm : ∀ l : List Char, (∀ x ∈ l, x.toNat < 128) → c ∉ l := fun l hl hc => by
        have := hl c hc; omega
      rw [if_neg (hm _ (by decide)), if_neg (hm _ (by decide)), if_neg (hm _ (by decide))]
    rw [e1, e2]; simp

/-- **C10c.** A pair of characters is accepted as a byte exactly when both are hex
digits, and then denotes `16·high + low`. -/
theorem two_hex_digits_iff (hi lo : Char) (b : UInt8) :
    twoHexDigitsToByte hi lo = (true, b) ↔
      ∃ h l, Spec.digitValue hi = some h ∧ Spec.digitValue lo = some l ∧ b.toNat = 16 * h + l := by
  have h1 := hexNibble_spec hi
  have h2 := hexNibble_spec lo
  unfold twoHexDigitsToByte
  rw [h1.1, h2.1]
  cases e1 : Spec.digitValue hi with
  | none => simp
  | some h =>
    cases e2 : Spec.digitValue lo with
    | none => simp
    | some l =>
      have b1 := h1.2 h e1
      have b2 := h2.2 l e2
      have key : ∀ (x y : Fin 16), ((UInt8.ofNat x.val <<< (4 : UInt8)) + UInt8.ofNat y.val).toNat
          = 16 * x.val + y.val := by decide +kernel
      have := key ⟨h, b1⟩ ⟨l, b2⟩
      simp only [Option.map_some, Prod.mk.injEq, true_and, Option.some.injEq] at this ⊢
      constructor
      · rintro rfl; exact ⟨h, l, rfl, rfl, this⟩
      · rintro ⟨h', l', rfl, rfl, hb⟩
        apply UInt8.toNat_inj.mp
        rw [hb]; exact this

/-- **C10d.** A rejected pair leaves zero in the result. -/
theorem two_hex_digits_reject (hi lo : Char)
    (h : Spec.digitValue hi = none ∨ Spec.digitValue lo = none) :
    twoHexDigitsToByte hi lo = (false, 0) := by
  have h1 := (hexNibble_spec hi).1
  have h2 := (hexNibble_spec lo).1
  unfold twoHexDigitsToByte
  rw [h1, h2]
  cases e1 : Spec.digitValue hi <;> cases e2 : Spec.digitValue lo <;> simp_all

example : twoHexDigitsToByte 'A' 'f' = (true, 0xaf) := by decide
example : twoHexDigitsToByte 'A' 'g' = (false, 0) := by decide

/-- The lenient digit reader agrees with the strict one on hex digits and reads
everything else as zero (it never reports an error). -/
theorem from_hex_digit_value (c : Char) :
    (fromHexDigit c).toNat = (Spec.digitValue c).getD 0 := by
  have h := hexNibble_spec c
  have hrel : fromHexDigit c = (hexNibble c).getD 0 := by
    unfold fromHexDigit hexNibble
    split
    · rfl
    · split
      · rename_i h'
        have : 'a'.toNat ≤ c.toNat := h'.1
        simp only [Option.getD_some]
        congr 1
        revert this; simp; omega
      · split
        · rename_i h'
          have : 'A'.toNat ≤ c.toNat := h'.1
          simp only [Option.getD_some]
          congr 1
          revert this; simp; omega
        · rfl
  rw [hrel, h.1]
  cases e : Spec.digitValue c with
  | none => rfl
  | some n =>
    have := h.2 n e
    simp; omega

end Verif.Hex
