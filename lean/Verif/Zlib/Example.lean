import Verif.Zlib.Theorems

/-!
# A concrete codec that meets the laws

Format: each byte `b` is written `1, b`; `0` ends the stream. The compressor keeps
everything back until it is told to finish (zlib does the same for small inputs).
This shows that the hypotheses of the theorems are met, and gives a concrete loss
of data for sizes that are multiples of 16384.
-/

namespace Verif.Zlib.Example
open Verif

/-- The encoder of the sample format. -/
def enc : Bytes → Bytes
  | [] => [0]
  | b :: bs => 1 :: b :: enc bs

/-- What can be decoded from a beginning of a stream, and whether it is complete. -/
def dec : Bytes → Bytes × Bool
  | 1 :: b :: r => (b :: (dec r).1, (dec r).2)
  | [0] => ([], true)
  | _ => ([], false)

/-- The sample format as a partial function. -/
def D (c : Bytes) : Option Bytes := if (dec c).2 then some (dec c).1 else none

theorem dec_enc (x : Bytes) : dec (enc x) = (x, true) := by
  induction x with
  | nil => rfl
  | cons b bs ih => simp [enc, dec, ih]

theorem dec_prefix (c : Bytes) (x w : Bytes) (h : dec (c ++ w) = (x, true)) :
    (dec c).1 <+: x ∧ ((dec c).2 = true ↔ w = []) ∧ (w = [] → (dec c).1 = x) := by
  induction c using dec.induct generalizing x with
  | case1 b r ih =>
    simp only [List.cons_append, dec, Prod.mk.injEq] at h
    obtain ⟨h1, h2⟩ := h
    obtain ⟨i1, i2, i3⟩ := ih (dec (r ++ w)).1 (by rw [← h2])
    subst h1
    refine ⟨by simpa [dec] using i1, by simpa [dec] using i2, ?_⟩
    intro hw; simp [dec, i3 hw]
  | case2 =>
    cases w with
    | nil => simp [dec] at h ⊢; simp [← h]
    | cons b w => simp [dec] at h
  | case3 c h1 h2 =>
    have hd : dec c = ([], false) := by
      match c, h1, h2 with
      | [], _, _ => rfl
      | [b], h1, h2 =>
        unfold dec
        split <;> simp_all
      | b :: b' :: r, h1, h2 =>
        unfold dec
        split <;> simp_all
    rw [hd]
    refine ⟨List.nil_prefix, ?_, ?_⟩
    · simp only [Bool.false_eq_true, false_iff]
      intro hw; subst hw; simp [hd] at h
    · intro hw; subst hw; simp [hd] at h

/-- State of the compressor: input kept back, output pending, finished. -/
def deflater : Deflater (Bytes × Bytes × Bool) where
  init := ([], [], false)
  call s inp fin cap :=
    if s.2.2 then ((s.1, s.2.1.drop cap, true), [], s.2.1.take cap)
    else if fin then
      ((s.1 ++ inp, (enc (s.1 ++ inp)).drop cap, true), [], (enc (s.1 ++ inp)).take cap)
    else ((s.1 ++ inp, [], false), [], [])

theorem enc_length (x : Bytes) : (enc x).length = 2 * x.length + 1 := by
  induction x with
  | nil => rfl
  | cons b bs ih => simp [enc, ih]; omega

/-- The compressor meets the laws. -/
def deflater_correct : CorrectDeflater deflater D where
  Abs s x y m := (s.2.2 = false ∧ s.1 = x ∧ y = [] ∧ m = none) ∨
    (s.2.2 = true ∧ s.1 = x ∧ y ++ s.2.1 = enc x ∧ m = some [])
  pending s inp fin := if s.2.2 then s.2.1.length else 2 * (s.1.length + inp.length) + 2
  abs_init := by simp [deflater]
  room s inp fin cap := by
    simp only [deflater]; split
    · simp; omega
    · split
      · simp; omega
      · simp
  takes s inp fin cap h := by
    simp only [deflater]
    split
    · rfl
    · split <;> rfl
  keeps s x y m inp fin cap ha hm hn := by
    rcases ha with ⟨h1, h2, h3, h4⟩ | ⟨h1, h2, h3, h4⟩
    · refine ⟨inp, ?_⟩
      subst h2 h3
      cases fin <;> simp [deflater, h1]
    · obtain ⟨hi, hf⟩ := hm [] h4
      subst hi hf h2
      exact ⟨[], by simp [deflater, h1, h3]⟩
  finishes s x y m inp cap ha hm h := by
    rcases ha with ⟨h1, h2, h3, h4⟩ | ⟨h1, h2, h3, h4⟩
    · subst h2 h3
      simp only [deflater, h1] at h ⊢
      simp only [Bool.false_eq_true, if_false, if_true, List.length_take] at h ⊢
      rw [List.nil_append, List.take_of_length_le (by omega)]
      simp [D, dec_enc]
    · have hi := hm [] h4
      subst hi h2
      simp only [deflater, h1] at h ⊢
      simp only [if_true, List.length_take] at h ⊢
      rw [List.take_of_length_le (by omega), h3]
      simp [D, dec_enc]
  progress s inp fin cap hc h := by
    simp only [deflater] at h ⊢
    by_cases h1 : s.2.2 = true
    · simp only [h1, if_true, List.length_take, List.length_drop] at h ⊢
      omega
    · cases fin
      · simp [h1] at h; omega
      · simp only [h1, if_false, if_true, List.length_take, List.length_drop, enc_length,
          List.length_append, Bool.false_eq_true] at h ⊢
        omega

/-- A decompressor for the sample format: bytes taken, number of bytes produced. -/
def inflater : Inflater (Bytes × Nat) where
  init := ([], 0)
  call t inp cap :=
    let out := ((dec (t.1 ++ inp)).1.drop t.2).take cap
    (if (dec (t.1 ++ inp)).2 && decide (out.length < cap) then .streamEnd else .ok,
      (t.1 ++ inp, t.2 + out.length), [], out)

theorem D_eq (c x : Bytes) (h : D c = some x) : dec c = (x, true) := by
  unfold D at h
  split at h
  · rename_i h2; simp only [Option.some.injEq] at h; rw [← h, ← h2]
  · simp at h

theorem dec_mono (a b : Bytes) : (dec a).1 <+: (dec (a ++ b)).1 := by
  induction a using dec.induct with
  | case1 c r ih => simpa [dec] using ih
  | case2 => simp [dec]
  | case3 c h1 h2 =>
    have hd : (dec c).1 = [] := by
      unfold dec
      split <;> simp_all
    rw [hd]
    exact List.nil_prefix

theorem prefix_take (y d : Bytes) (cap : Nat) (h : y <+: d) :
    y ++ (d.drop y.length).take cap <+: d := by
  obtain ⟨r, rfl⟩ := h
  simp only [List.drop_left]
  exact (List.prefix_append_right_inj y).mpr (List.take_prefix cap r)

/-- The decompressor meets the laws. -/
def inflater_correct : CorrectInflater inflater D where
  Abs t u y := t.1 = u ∧ t.2 = y.length ∧ y <+: (dec u).1
  abs_init := by simp [inflater]
  room t inp cap := by simp [inflater]; omega
  keeps t u y inp cap c x w ha hD hc hp := by
    obtain ⟨h1, h2, h3⟩ := ha
    have hd := dec_prefix (u ++ inp) x w (by rw [← hc]; exact D_eq c x hD)
    have h4 := prefix_take y _ cap (h3.trans (dec_mono u inp))
    refine ⟨?_, ⟨inp, by simp [inflater], ?_⟩, ?_⟩
    · simp only [inflater]; split <;> simp
    · simp only [inflater, h1, h2]
      exact ⟨trivial, by simp, h4⟩
    · simp only [inflater, h1, h2]
      exact h4.trans hd.1
  ends t u y inp cap c x w ha hD hc hp hl := by
    obtain ⟨h1, h2, h3⟩ := ha
    have hd := dec_prefix (u ++ inp) x w (by rw [← hc]; exact D_eq c x hD)
    obtain ⟨r, hr⟩ := h3.trans (dec_mono u inp)
    simp only [inflater, h1, h2] at hl ⊢
    rw [decide_eq_true hl]
    refine ⟨trivial, ?_, ?_⟩
    · simp only [Bool.and_true]
      rw [← hd.2.1]
      split <;> simp_all
    · intro hw
      rw [← hd.2.2 hw]
      rw [← hr, List.drop_left] at hl ⊢
      rw [List.length_take] at hl
      rw [List.take_of_length_le (by omega)]

theorem D_nil : D [] = none := rfl

/-- The hypotheses of `deflate_inflate_partial` are met by this codec: the round trip
holds for it. -/
example (src : Bytes) (hm : src.length % 16384 ≠ 0) :=
  deflate_inflate_partial deflater inflater D deflater_correct inflater_correct D_nil src hm

example : ([1, 2, 3] : Bytes).length % 16384 ≠ 0 := by decide

/-- **C16, negation.** With this correct codec and any source whose size is a multiple
of 16384, the deflate driver writes nothing at all, and inflating what it wrote
reports no error and gives the empty stream: a non-empty source is lost. -/
theorem multiple_of_chunk_is_lost (src : Bytes) (hm : src.length % 16384 = 0) :
    ∃ F, ∀ fuel, F ≤ fuel → deflateStream deflater fuel src = some (false, []) ∧
      inflateStream inflater fuel [] = some (.ok []) := by
  obtain ⟨F, hF⟩ := deflate_multiple_fails deflater D deflater_correct src hm
  refine ⟨F + 1, fun fuel hf => ?_⟩
  obtain ⟨y, e, s, hs⟩ := hF fuel (by omega)
  have hy : y = [] := by
    rcases hs with ⟨_, _, h, _⟩ | ⟨_, _, _, h⟩
    · exact h
    · simp at h
  subst hy
  refine ⟨e, ?_⟩
  obtain ⟨k, rfl⟩ : ∃ k, fuel = k + 1 := ⟨fuel - 1, by omega⟩
  simp [inflateStream, infOuter]

/-- There are non-empty such sources. -/
example : (List.replicate 16384 (7 : UInt8)).length % 16384 = 0 := by
  rw [List.length_replicate]

end Verif.Zlib.Example
