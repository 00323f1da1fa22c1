import Verif.Field.NumberSpec
import Verif.Field.Theorems
import Verif.Decimal.Theorems

/-! # Property theorems: the text of a number in a record (C68) -/

namespace Verif.Field
open Verif Record

theorem hi_eq (b : UInt8) : Decimal.hi b = Int.ofNat (b.toNat / 16) := Decimal.hi_nat b
theorem lo_eq (b : UInt8) : Decimal.lo b = Int.ofNat (b.toNat % 16) := Decimal.lo_nat b

theorem rawLoop_halves (w after : Bytes) (i m : Nat) (h : m ≤ 2 * w.length) :
    Decimal.rawLoop (i + m) i (w ++ after) = .ok (((Spec.halves w).take m).map Int.ofNat) := by
  induction w generalizing i m with
  | nil =>
    have : m = 0 := by simpa using h
    subst this
    rw [Decimal.rawLoop_done _ _ _ (by omega)]
    rfl
  | cons b w ih =>
    match m, h with
    | 0, _ => rw [Decimal.rawLoop_done _ _ _ (by omega)]; rfl
    | 1, _ =>
      rw [List.cons_append]
      unfold Decimal.rawLoop
      rw [if_pos (by omega), if_neg (by omega), Decimal.rawLoop_done _ _ _ (by omega)]
      simp [Spec.halves, hi_eq]
    | m + 2, h =>
      rw [List.cons_append]
      unfold Decimal.rawLoop
      rw [if_pos (by omega), if_pos (by omega), show i + (m + 2) = (i + 2) + m by omega, ih (i + 2) m (by simp at h; omega)]
      simp [Spec.halves, hi_eq, lo_eq]

theorem ofRaw_number {minus : Bool} {ds : List Nat} {v : Bytes} (h : Spec.IsNumber minus ds v) (hne : ds ≠ []) (after : Bytes) (p : Nat) :
    Decimal.ofRaw (v ++ after) ds.length p true = .ok ⟨true, p, ds.map Int.ofNat, if minus then -1 else 1⟩ := by
  obtain ⟨hl, _, sign, fill, he, hm⟩ := h
  cases v with
  | nil => simp [Spec.halves] at he
  | cons b w =>
    have he' : [b.toNat / 16, b.toNat % 16] ++ Spec.halves w = sign :: ds ++ fill := he
    cases ds with
    | nil => exact absurd rfl hne
    | cons d ds =>
      simp only [List.cons_append, List.nil_append, List.cons.injEq] at he'
      obtain ⟨h1, h2, h3⟩ := he'
      rw [List.cons_append]
      unfold Decimal.ofRaw
      dsimp only
      rw [show (d :: ds).length = 1 + ds.length by simp; omega, rawLoop_halves w after 1 ds.length (by simp at hl; omega), h3,
        List.take_left, Outcome.ok_bind, if_pos rfl, lo_eq, h2]
      have hb : b >>> 4 ≠ 0 ↔ b.toNat / 16 ≠ 0 := by
        refine forall_byte (p := fun b => b >>> 4 ≠ 0 ↔ b.toNat / 16 ≠ 0) ?_ b
        decide +kernel
      have : (if b >>> 4 ≠ 0 then (1 : Int) else -1) = if minus then -1 else 1 := by
        cases hmm : minus with
        | true => rw [if_neg (by rw [hb, h1]; simp [hm.mp hmm]), if_pos rfl]
        | false => rw [if_pos (by rw [hb, h1]; intro e; rw [hm.mpr e] at hmm; cases hmm)]; rfl
      rw [this]
      rfl

/-- **C68.** A number is written with its sign, the digits before the decimal point without leading zeros and those behind it
without trailing ones. -/
theorem stored_number_text (sh : Show) (f : Fld) (minus : Bool) (ip fp : List Nat) (v r : Bytes) (ht : f.ty.type = .numeric)
    (hlen : f.ty.length = (ip ++ fp).length) (hp : f.ty.precision = fp.length) (hne : ip ++ fp ≠ [])
    (hn : Spec.IsNumber minus (ip ++ fp) v) (h : Spec.HasValue f.offset f.nullable v r) (en ig det : Bool) :
    text sh f r en ig det =
      .ok ((if minus then ['-'] else []) ++ Decimal.Spec.canonical (Spec.digitsValue (ip ++ fp)) fp.length) := by
  obtain ⟨pre, post, rfl, e⟩ := text_value (sh := sh) h en ig det
  rw [e]
  unfold typeText
  simp only [ht]
  rw [show pre ++ v ++ post = pre ++ (v ++ post) by simp, List.drop_left]
  unfold Decimal.numericPresent
  rw [hlen, hp, ofRaw_number hn hne, Outcome.ok_bind,
    Decimal.presentation_nat ip fp (fun x hx => hn.2.1 x (by simp [hx])) (fun x hx => hn.2.1 x (by simp [hx]))]
  have : Spec.digitsValue (ip ++ fp) = val 10 (ip ++ fp) := rfl
  rw [this]
  cases minus <;> rfl

/-- −12.50 in a field of five digits, two of them behind the point. -/
example : Spec.IsNumber true ([0, 1, 2] ++ [5, 0]) [0x00, 0x12, 0x50] ∧ Spec.HasValue 1 false [0x00, 0x12, 0x50] [0, 0x00, 0x12, 0x50, 9] ∧
    text ⟨false, false⟩ ⟨1, false, ⟨.numeric, 5, 2, false⟩⟩ [0, 0x00, 0x12, 0x50, 9] false false false = .ok "-12.5".toList :=
  ⟨⟨by decide, by decide, 0, [], by decide, by decide⟩, ⟨[0], [9], 1, by decide, rfl, rfl⟩, by decide +kernel⟩

end Verif.Field
