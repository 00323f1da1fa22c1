import Verif.Cfu.Findings
import Verif.Zlib.Example

/-! # Update files: concrete cases -/

namespace Verif.Cfu.Example
open Verif Verif.Stream Verif.Container Verif.Container.Spec Verif.Zlib Verif.Zlib.Example Verif.Handle Verif.Cfu Verif.Cfu.Spec Verif.Unicode.Spec

/-! ## A library that meets the laws

The format of `Verif.Zlib.Example`, with a decompressor that stops at the end of a stream. -/

/-- What can be decoded, whether the end was met, and what is behind the end. -/
def decS : Bytes → Bytes × Bool × Bytes
  | 1 :: b :: r => (b :: (decS r).1, (decS r).2)
  | 0 :: r => ([], true, r)
  | _ => ([], false, [])

theorem decS_of_dec (c : Bytes) : ∀ x junk, dec c = (x, true) → decS (c ++ junk) = (x, true, junk) := by
  induction c using dec.induct with
  | case1 b r ih =>
    intro x junk h
    simp only [dec, Prod.mk.injEq] at h
    obtain ⟨h1, h2⟩ := h
    have := ih (dec r).1 junk (by rw [← h2])
    simp [decS, this, h1]
  | case2 =>
    intro x junk h
    simp only [dec, Prod.mk.injEq, and_true] at h
    simp [decS, h]
  | case3 c h1 h2 =>
    intro x junk h
    unfold dec at h
    split at h <;> simp_all

/-- A beginning of a complete stream. -/
theorem decS_part (u : Bytes) : ∀ w x, dec (u ++ w) = (x, true) → w ≠ [] → (decS u).2 = (false, []) ∧ (decS u).1 = (dec u).1 ∧ (dec u).2 = false := by
  induction u using dec.induct with
  | case1 b r ih =>
    intro w x h hw
    simp only [List.cons_append, dec, Prod.mk.injEq] at h
    obtain ⟨i1, i2, i3⟩ := ih w (dec (r ++ w)).1 (by rw [← h.2]) hw
    simp [decS, dec, i1, i2, i3]
  | case2 =>
    intro w x h hw
    cases w with
    | nil => exact absurd rfl hw
    | cons b w => simp [dec] at h
  | case3 c h1 h2 =>
    intro w x h hw
    match c, h1, h2 with
    | [], _, _ => simp [decS, dec]
    | [b], h1, h2 =>
      have hb : b ≠ 0 := by rintro rfl; exact h2 rfl
      have : decS [b] = ([], false, []) := by unfold decS; split <;> simp_all
      have : dec [b] = ([], false) := by unfold dec; split <;> simp_all
      simp_all
    | b :: b' :: r, h1, h2 =>
      have hb : b ≠ 1 := by rintro rfl; exact h1 b' r rfl
      exfalso
      unfold dec at h
      split at h <;> simp_all

/-- A decompressor that stops at the end: bytes of the stream taken, number of bytes produced. -/
def inflater : Inflater (Bytes × Nat) where
  init := ([], 0)
  call t inp cap :=
    let r := decS (t.1 ++ inp)
    let out := (r.1.drop t.2).take cap
    (if r.2.1 && decide (out.length < cap) then .streamEnd else .ok,
      ((t.1 ++ inp).take (t.1.length + inp.length - r.2.2.length), t.2 + out.length), r.2.2, out)

theorem call_part {t : Bytes × Nat} {inp w x : Bytes} (cap : Nat) (h : dec (t.1 ++ inp ++ w) = (x, true)) :
    inflater.call t inp cap = (if (w = [] ∧ (((dec (t.1 ++ inp)).1.drop t.2).take cap).length < cap) then .streamEnd else .ok,
      (t.1 ++ inp, t.2 + (((dec (t.1 ++ inp)).1.drop t.2).take cap).length), [], ((dec (t.1 ++ inp)).1.drop t.2).take cap) := by
  by_cases hw : w = []
  · subst hw
    rw [List.append_nil] at h
    have := decS_of_dec _ x [] h
    rw [List.append_nil] at this
    simp only [inflater, this, h]
    simp
    exact List.take_of_length_le (by simp)
  · obtain ⟨h1, h2, h3⟩ := decS_part _ w x h hw
    simp only [inflater, h1, h2]
    simp [hw]
    exact List.take_of_length_le (by simp)

theorem call_tail {t : Bytes × Nat} {rest junk x : Bytes} (cap : Nat) (h : dec (t.1 ++ rest) = (x, true)) :
    inflater.call t (rest ++ junk) cap = (if ((x.drop t.2).take cap).length < cap then .streamEnd else .ok,
      (t.1 ++ rest, t.2 + ((x.drop t.2).take cap).length), junk, (x.drop t.2).take cap) := by
  have := decS_of_dec _ x junk h
  rw [List.append_assoc] at this
  simp only [inflater, this]
  have h2 : (t.1 ++ (rest ++ junk)).take (t.1.length + (rest ++ junk).length - junk.length) = t.1 ++ rest := by
    rw [← List.append_assoc, List.take_append_of_le_length (by simp; omega), List.take_of_length_le (by simp; omega)]
  rw [h2]
  simp

/-- The decompressor meets the laws. -/
def inflater_correct : CorrectInflater inflater D where
  Abs t u y := t.1 = u ∧ t.2 = y.length ∧ y <+: (dec u).1
  abs_init := by simp [inflater]
  room t inp cap := by simp [inflater]; omega
  keeps t u y inp cap c x w ha hD hc hp := by
    obtain ⟨h1, h2, h3⟩ := ha
    subst h1
    have hd := dec_prefix (t.1 ++ inp) x w (by rw [← hc]; exact D_eq c x hD)
    have h4 := prefix_take y _ cap (h3.trans (dec_mono t.1 inp))
    rw [call_part cap (by rw [← hc]; exact D_eq c x hD)]
    refine ⟨?_, ⟨inp, by simp, ?_⟩, ?_⟩
    · simp only; split <;> simp
    · simp only [h2]
      exact ⟨trivial, by simp, h4⟩
    · simp only [h2]
      exact h4.trans hd.1
  ends t u y inp cap c x w ha hD hc hp hl := by
    obtain ⟨h1, h2, h3⟩ := ha
    subst h1
    have hd := dec_prefix (t.1 ++ inp) x w (by rw [← hc]; exact D_eq c x hD)
    obtain ⟨r, hr⟩ := h3.trans (dec_mono t.1 inp)
    rw [call_part cap (by rw [← hc]; exact D_eq c x hD)] at hl ⊢
    simp only [h2] at hl ⊢
    refine ⟨trivial, ?_, ?_⟩
    · simp only [hl, and_true]
      split <;> simp_all
    · intro hw
      rw [← hd.2.2 hw]
      rw [← hr, List.drop_left] at hl ⊢
      rw [List.length_take] at hl
      rw [List.take_of_length_le (by omega)]

theorem inflater_stops : StopsAtEnd inflater inflater_correct where
  keeps t u y rest junk cap c x ha hD hc hp := by
    obtain ⟨h1, h2, h3⟩ := ha
    subst h1
    have hx := D_eq c x hD
    rw [hc] at hx
    have h4 := prefix_take y x cap hp
    rw [call_tail cap hx]
    simp only [h2]
    refine ⟨by split <;> simp, h4, fun _ => ⟨rest, [], by simp, by simp, rfl, by simp, ?_⟩⟩
    rw [hx]
    exact h4
  ends t u y rest junk cap c x ha hD hc hp hl := by
    obtain ⟨h1, h2, h3⟩ := ha
    subst h1
    have hx := D_eq c x hD
    rw [hc] at hx
    rw [call_tail cap hx] at hl ⊢
    simp only [h2] at hl ⊢
    refine ⟨by rw [if_pos hl], ?_⟩
    obtain ⟨r, rfl⟩ := hp
    rw [List.drop_left] at hl ⊢
    rw [List.length_take] at hl
    rw [List.take_of_length_le (by omega)]

/-- The theorem applies to this library. -/
example := update_file_partial deflater inflater D deflater_correct inflater_correct inflater_stops D_nil

/-! ## A history -/

/-- Two contents are stored under one name, in different case; the file is closed and opened again. -/
def sample : List Act := [.put [0x41] [1, 2, 3] 5, .put [0x61] [4, 5] 6, .reopen]

/-- The container before it is closed. -/
def sampleCatalog : Outcome (Option Catalog) := do
  match ← put plainCodec LAST blankCatalog (utf8Text [0x41]) [1, 2, 3] 5 with
  | none => .ok none
  | some k => put plainCodec LAST k (utf8Text [0x61]) [4, 5] 6

/-- It fits. -/
def fitsCheck : Bool :=
  match sampleCatalog with
  | .ok (some k) => decide (extent k.cat + flushCost plainCodec k < LAST) &&
    match flush plainCodec LAST k with
    | .ok (some k') => decide (k'.cat.data.data.length % 16384 ≠ 0)
    | _ => false
  | _ => false

theorem fitsCheck_ok : fitsCheck = true := by decide +kernel

theorem sample_fits {k : Catalog} (h : sampleCatalog = .ok (some k)) : Fits LAST k := by
  have := fitsCheck_ok
  unfold fitsCheck at this
  rw [h] at this
  simp only [Bool.and_eq_true, decide_eq_true_eq] at this
  refine ⟨this.1, ?_⟩
  have h2 := this.2
  split
  · rename_i k' e
    rw [e] at h2
    simpa using h2
  · trivial

theorem sample_allowed {σ τ : Type} (L : Lib σ τ) : Allowed L LAST false newCfu sample := by
  have key : ∀ (r1 : Outcome (Option Catalog)), put plainCodec LAST newCfu.k (utf8Text [0x41]) [1, 2, 3] 5 = r1 → Allowed L LAST false newCfu sample := by
    intro r1 h1
    refine ⟨⟨by decide, by decide, by decide⟩, ?_⟩
    have e1 : step L LAST newCfu (.put [0x41] [1, 2, 3] 5) = (do
        match ← r1 with
        | none => .ok none
        | some k => .ok (some { newCfu with k := k })) := by rw [← h1]; rfl
    rw [e1]
    match r1, h1 with
    | .throw, _ => trivial
    | .ub, _ => trivial
    | .ok none, _ => trivial
    | .ok (some k1), h1 =>
      refine ⟨⟨by decide, by decide, by decide⟩, ?_⟩
      generalize h2 : put plainCodec LAST k1 (utf8Text [0x61]) [4, 5] 6 = r2
      have e2 : step L LAST { newCfu with k := k1 } (.put [0x61] [4, 5] 6) = (do
          match ← r2 with
          | none => .ok none
          | some k => .ok (some { newCfu with k := k })) := by rw [← h2]; rfl
      rw [e2]
      match r2, h2 with
      | .throw, _ => trivial
      | .ub, _ => trivial
      | .ok none, _ => trivial
      | .ok (some k2), h2 =>
        refine ⟨⟨sample_fits (k := k2) ?_, rfl⟩, ?_⟩
        · unfold sampleCatalog
          have h1' : put plainCodec LAST blankCatalog (utf8Text [0x41]) [1, 2, 3] 5 = .ok (some k1) := h1
          rw [h1', Outcome.ok_bind]
          exact h2
        · split <;> trivial
  exact key _ rfl

example : sample.foldl effect [] = [([0x41], [4, 5])] := by decide

/-! ## A file to which changes are lost -/

/-- For every container there is a file as in `changes_to_existing_lost`: its stream in this format has an odd length. -/
example (x : Bytes) : D (enc x) = some x ∧ (enc x).length % 16384 ≠ 0 := by
  refine ⟨by simp [D, dec_enc], ?_⟩
  rw [enc_length]
  omega

example := changes_to_existing_lost deflater inflater D deflater_correct inflater_correct inflater_stops D_nil

end Verif.Cfu.Example
