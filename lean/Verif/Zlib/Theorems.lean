import Verif.Zlib.Spec

/-! # Property theorems: compression drivers (C16) -/

namespace Verif.Zlib
open Verif
variable {σ τ : Type}

/-! ## Helper lemmas -/

theorem defInner_more (z : Deflater σ) (f g : Nat) (s : σ) (inp : Bytes) (fin : Bool) (dst : Bytes)
    (r : σ × Bytes) (h : defInner z f s inp fin dst = some r) (hg : f ≤ g) :
    defInner z g s inp fin dst = some r := by
  induction f generalizing g s inp dst with
  | zero => simp [defInner] at h
  | succ f ih =>
    cases g with
    | zero => omega
    | succ g =>
      simp only [defInner] at h ⊢
      split at h
      · rw [if_pos (by assumption)]; exact ih _ _ _ _ h (by omega)
      · rw [if_neg (by assumption)]; exact h

theorem defInner_terminates (z : Deflater σ) {D} (hz : CorrectDeflater z D) (s : σ) (inp : Bytes)
    (fin : Bool) (dst : Bytes) : ∃ f r, defInner z f s inp fin dst = some r := by
  generalize hn : hz.pending s inp fin = n
  induction n using Nat.strongRecOn generalizing s inp dst with
  | _ n ih =>
    by_cases hc : (z.call s inp fin CHUNK).2.2.length = CHUNK
    · obtain ⟨f, r, hr⟩ := ih _ (by rw [← hn]; exact hz.progress s inp fin CHUNK (by decide) hc)
        (z.call s inp fin CHUNK).1 (z.call s inp fin CHUNK).2.1 (dst ++ (z.call s inp fin CHUNK).2.2) rfl
      exact ⟨f + 1, r, by simp only [defInner]; rw [if_pos hc]; exact hr⟩
    · exact ⟨1, _, by simp only [defInner]; rw [if_neg hc]⟩

theorem defInner_nofinish (z : Deflater σ) {D} (hz : CorrectDeflater z D) (f : Nat) (s : σ)
    (x y inp : Bytes) (s' : σ) (y' : Bytes) (ha : hz.Abs s x y none)
    (h : defInner z f s inp false y = some (s', y')) : hz.Abs s' (x ++ inp) y' none := by
  induction f generalizing s x y inp with
  | zero => simp [defInner] at h
  | succ f ih =>
    simp only [defInner] at h
    obtain ⟨used, hu, ha'⟩ := hz.keeps s x y none inp false CHUNK ha (by simp) (by simp)
    simp only [Bool.false_eq_true, if_false] at ha'
    split at h
    · have := ih _ _ _ _ ha' h
      rw [List.append_assoc, ← hu] at this
      exact this
    · rename_i hc
      have hlt : (z.call s inp false CHUNK).2.2.length < CHUNK := by
        have := hz.room s inp false CHUNK; omega
      rw [hz.takes s inp false CHUNK hlt, List.append_nil] at hu
      simp only [Option.some.injEq, Prod.mk.injEq] at h
      rw [← h.1, ← h.2]
      rw [← hu] at ha'
      exact ha'

theorem defInner_finish (z : Deflater σ) {D} (hz : CorrectDeflater z D) (f : Nat) (s : σ)
    (x y inp : Bytes) (m : Option Bytes) (hm : ∀ r, m = some r → inp = r) (s' : σ) (y' : Bytes)
    (ha : hz.Abs s x y m)
    (h : defInner z f s inp true y = some (s', y')) : D y' = some (x ++ inp) := by
  induction f generalizing s x y inp m with
  | zero => simp [defInner] at h
  | succ f ih =>
    simp only [defInner] at h
    split at h
    · rename_i hc
      obtain ⟨used, hu, ha'⟩ := hz.keeps s x y m inp true CHUNK ha (fun r hr => ⟨hm r hr, rfl⟩) (by omega)
      have := ih _ _ _ _ _ (by simp) ha' h
      rw [List.append_assoc, ← hu] at this
      exact this
    · rename_i hc
      have hlt : (z.call s inp true CHUNK).2.2.length < CHUNK := by
        have := hz.room s inp true CHUNK; omega
      simp only [Option.some.injEq, Prod.mk.injEq] at h
      rw [← h.2]
      exact hz.finishes s x y m inp CHUNK ha hm hlt

theorem defOuter_spec (z : Deflater σ) {D} (hz : CorrectDeflater z D) (n : Nat) (s : σ) (x y src : Bytes)
    (ha : hz.Abs s x y none) (hn : src.length ≤ n) :
    ∃ F, ∀ inner, F ≤ inner → ∀ fuel, n / CHUNK + 2 ≤ fuel →
      ∃ b y', defOuter z inner fuel s src y = some (b, y') ∧
        (b = decide (src.length % CHUNK ≠ 0)) ∧ (b = true → D y' = some (x ++ src)) ∧
        (b = false → ∃ s', hz.Abs s' (x ++ src) y' none) := by
  induction n using Nat.strongRecOn generalizing s x y src with
  | _ n ih =>
    have hq0 := Nat.zero_le (n / CHUNK)
    by_cases h0 : src.length = 0
    · refine ⟨0, fun inner _ fuel hf => ⟨false, y, ?_, ?_, by simp, ?_⟩⟩
      · cases fuel with
        | zero => omega
        | succ fuel => simp [defOuter, h0]
      · simp [h0]
      · intro _
        exact ⟨s, by rw [List.length_eq_zero_iff.mp h0, List.append_nil]; exact ha⟩
    · have hch : (src.take CHUNK).length ≠ 0 := by
        have : 0 < CHUNK := by decide
        rw [List.length_take]; omega
      by_cases hl : src.length < CHUNK
      · obtain ⟨f, r, hr⟩ := defInner_terminates z hz s src true y
        refine ⟨f, fun inner hi fuel hf => ⟨true, r.2, ?_, ?_, ?_, by simp⟩⟩
        · cases fuel with
          | zero => omega
          | succ fuel =>
            simp only [defOuter]
            rw [if_neg hch]
            rw [List.take_of_length_le (by omega)]
            rw [show decide (src.length < CHUNK) = true by simp [hl]]
            rw [defInner_more z f inner s src true y r hr hi]
            simp
        · rw [Nat.mod_eq_of_lt hl]; simp [h0]
        · intro _
          exact defInner_finish z hz f s x y src none (by simp) r.1 r.2 ha hr
      · have htl : (src.take CHUNK).length = CHUNK := by simp; omega
        obtain ⟨f, r, hr⟩ := defInner_terminates z hz s (src.take CHUNK) false y
        have ha' := defInner_nofinish z hz f s x y _ r.1 r.2 ha hr
        have hpos : 0 < CHUNK := by decide
        obtain ⟨F, hF⟩ := ih (n - CHUNK) (by omega) r.1 _ r.2 (src.drop CHUNK) ha' (by simp; omega)
        refine ⟨max f F, fun inner hi fuel hf => ?_⟩
        cases fuel with
        | zero => omega
        | succ fuel =>
          have hq := Nat.zero_le ((n - CHUNK) / CHUNK)
          have hdiv : n / CHUNK = (n - CHUNK) / CHUNK + 1 := by
            rw [Nat.div_eq n CHUNK, if_pos ⟨hpos, by omega⟩]
          obtain ⟨b, y', e, hb, hD, hN⟩ := hF inner (by omega) fuel (by omega)
          refine ⟨b, y', ?_, ?_, ?_, ?_⟩
          · simp only [defOuter]
            rw [if_neg hch]
            rw [show decide ((src.take CHUNK).length < CHUNK) = false by rw [htl]; simp]
            rw [defInner_more z f inner s _ false y r hr (by omega)]
            simpa using e
          · rw [hb]
            have hmod : (src.drop CHUNK).length % CHUNK = src.length % CHUNK := by
              rw [List.length_drop]
              conv => rhs; rw [show src.length = (src.length - CHUNK) + CHUNK by omega, Nat.add_mod_right]
            rw [hmod]
          · intro h
            have := hD h
            rwa [List.append_assoc, List.take_append_drop] at this
          · intro h
            obtain ⟨s', hs⟩ := hN h
            exact ⟨s', by rwa [List.append_assoc, List.take_append_drop] at hs⟩

/-! ## Compression -/

/-- **C16 (partial), compression.** For every correct compressor: if the size of the
source is not a multiple of 16384, the driver terminates, reports success, and
writes a complete compressed stream standing for the source. Missing: sizes that
are multiples of 16384 (`deflate_multiple_fails`). -/
theorem deflate_correct_partial (z : Deflater σ) (D : Bytes → Option Bytes) (hz : CorrectDeflater z D)
    (src : Bytes) (hm : src.length % 16384 ≠ 0) :
    ∃ F, ∀ fuel, F ≤ fuel → ∃ c, deflateStream z fuel src = some (true, c) ∧ D c = some src := by
  obtain ⟨F, hF⟩ := defOuter_spec z hz src.length z.init [] [] src hz.abs_init (Nat.le_refl _)
  refine ⟨max F (src.length / CHUNK + 2), fun fuel hf => ?_⟩
  obtain ⟨b, c, e, hb, hD, _⟩ := hF fuel (by omega) fuel (by omega)
  have : b = true := by rw [hb]; exact decide_eq_true hm
  subst this
  exact ⟨c, e, by simpa using hD rfl⟩

/-- **C16, negation.** For every correct compressor and every source whose size is a
multiple of 16384 (the empty source included), the driver reports failure and
never asks the compressor to finish: what it wrote is an unfinished stream. -/
theorem deflate_multiple_fails (z : Deflater σ) (D : Bytes → Option Bytes) (hz : CorrectDeflater z D)
    (src : Bytes) (hm : src.length % 16384 = 0) :
    ∃ F, ∀ fuel, F ≤ fuel → ∃ y, deflateStream z fuel src = some (false, y) ∧
      ∃ s, hz.Abs s src y none := by
  obtain ⟨F, hF⟩ := defOuter_spec z hz src.length z.init [] [] src hz.abs_init (Nat.le_refl _)
  refine ⟨max F (src.length / CHUNK + 2), fun fuel hf => ?_⟩
  obtain ⟨b, c, e, hb, _, hN⟩ := hF fuel (by omega) fuel (by omega)
  have : b = false := by rw [hb]; exact decide_eq_false (fun h => h hm)
  subst this
  exact ⟨c, e, by simpa using hN rfl⟩

/-! ## Decompression -/

theorem infInner_spec (z : Inflater τ) {D} (hz : CorrectInflater z D) (c x : Bytes) (hD : D c = some x)
    (n : Nat) (t : τ) (u y inp w : Bytes) (ha : hz.Abs t u y) (hc : c = u ++ inp ++ w) (hp : y <+: x)
    (hn : x.length - y.length ≤ n) (f : Nat) (hf : n + 1 ≤ f) :
    ∃ ret t' y', infInner z f t inp y = some (.ok (ret, t', y')) ∧
      hz.Abs t' (u ++ inp) y' ∧ y' <+: x ∧ (ret = .streamEnd ↔ w = []) ∧ (w = [] → y' = x) := by
  induction n generalizing t u y inp f with
  | zero =>
    obtain ⟨f, rfl⟩ : ∃ k, f = k + 1 := ⟨f - 1, by omega⟩
    obtain ⟨herr, ⟨used, hu, ha'⟩, hp'⟩ := hz.keeps t u y inp CHUNK c x w ha hD hc hp
    have hlen := hp'.length_le
    rw [List.length_append] at hlen
    have hlt : (z.call t inp CHUNK).2.2.2.length < CHUNK := by
      have : 0 < CHUNK := by decide
      omega
    obtain ⟨hr, he1, he2⟩ := hz.ends t u y inp CHUNK c x w ha hD hc hp hlt
    rw [hr, List.append_nil] at hu
    rw [← hu] at ha'
    refine ⟨_, _, _, ?_, ha', hp', he1, he2⟩
    simp only [infInner]
    rw [if_neg herr, if_neg (by omega)]
  | succ n ih =>
    obtain ⟨f, rfl⟩ : ∃ k, f = k + 1 := ⟨f - 1, by omega⟩
    obtain ⟨herr, ⟨used, hu, ha'⟩, hp'⟩ := hz.keeps t u y inp CHUNK c x w ha hD hc hp
    by_cases hfull : (z.call t inp CHUNK).2.2.2.length = CHUNK
    · have hlen := hp'.length_le
      rw [List.length_append] at hlen
      have hpos : 0 < CHUNK := by decide
      obtain ⟨ret, t', y', e, h1, h2, h3, h4⟩ := ih _ (u ++ used) _ (z.call t inp CHUNK).2.2.1 ha'
        (by rw [List.append_assoc u, ← hu]; exact hc) hp' (by rw [List.length_append]; omega) f (by omega)
      refine ⟨ret, t', y', ?_, ?_, h2, h3, h4⟩
      · simp only [infInner]
        rw [if_neg herr, if_pos hfull]
        exact e
      · rw [List.append_assoc, ← hu] at h1
        exact h1
    · have hlt : (z.call t inp CHUNK).2.2.2.length < CHUNK := by
        have := hz.room t inp CHUNK; omega
      obtain ⟨hr, he1, he2⟩ := hz.ends t u y inp CHUNK c x w ha hD hc hp hlt
      rw [hr, List.append_nil] at hu
      rw [← hu] at ha'
      refine ⟨_, _, _, ?_, ha', hp', he1, he2⟩
      simp only [infInner]
      rw [if_neg herr, if_neg hfull]

/-- One pass of the outer loop after the other, over the part `src` of a complete
stream `c = u ++ src ++ w`. -/
theorem infOuter_spec (z : Inflater τ) {D} (hz : CorrectInflater z D) (c x : Bytes) (hD : D c = some x)
    (n : Nat) (t : τ) (u y src w : Bytes) (ha : hz.Abs t u y) (hc : c = u ++ src ++ w) (hp : y <+: x)
    (hn : src.length ≤ n) (inner fuel : Nat) (hi : x.length + 1 ≤ inner) (hf : n + 1 ≤ fuel) :
    ∃ y', infOuter z inner fuel t src y = some (.ok y') ∧ y' <+: x ∧
      (w = [] → src ≠ [] → y' = x) := by
  induction n generalizing t u y src fuel with
  | zero =>
    obtain ⟨fuel, rfl⟩ : ∃ k, fuel = k + 1 := ⟨fuel - 1, by omega⟩
    have h0 : src = [] := List.length_eq_zero_iff.mp (by omega)
    subst h0
    exact ⟨y, by simp [infOuter], hp, by simp⟩
  | succ n ih =>
    obtain ⟨fuel, rfl⟩ : ∃ k, fuel = k + 1 := ⟨fuel - 1, by omega⟩
    by_cases h0 : src = []
    · subst h0
      exact ⟨y, by simp [infOuter], hp, by simp⟩
    · have hpos : 0 < CHUNK := by decide
      have hl0 : 0 < src.length := List.length_pos_iff.mpr h0
      have hch : (src.take CHUNK).length ≠ 0 := by rw [List.length_take]; omega
      obtain ⟨ret, t', y', e, h1, h2, h3, h4⟩ := infInner_spec z hz c x hD x.length t u y (src.take CHUNK)
        (src.drop CHUNK ++ w) ha (by rw [hc, ← List.append_assoc, List.append_assoc u (src.take CHUNK), List.take_append_drop]) hp (by omega) inner hi
      by_cases hr : ret = .streamEnd
      · have hw := h3.mp hr
        refine ⟨y', ?_, h2, fun _ _ => h4 hw⟩
        simp only [infOuter]
        rw [if_neg hch, e]
        simp [hr]
      · have hw : src.drop CHUNK ++ w ≠ [] := fun h => hr (h3.mpr h)
        obtain ⟨y'', e2, h5, h6⟩ := ih t' (u ++ src.take CHUNK) y' (src.drop CHUNK) h1
          (by rw [hc, List.append_assoc u (src.take CHUNK), List.take_append_drop]) h2 (by rw [List.length_drop]; omega) fuel (by omega)
        refine ⟨y'', ?_, h5, ?_⟩
        · simp only [infOuter]
          rw [if_neg hch, e]
          simpa [hr] using e2
        · intro hw0 _
          apply h6 hw0
          intro hd
          exact hw (by simp [hd, hw0])

/-- **C16, decompression.** For every correct decompressor and every complete non-empty
compressed stream, the driver terminates without error and writes exactly the
contents, whatever their size. -/
theorem inflate_correct (z : Inflater τ) (D : Bytes → Option Bytes) (hz : CorrectInflater z D)
    (c x : Bytes) (hc : D c = some x) (hne : c ≠ []) :
    ∃ F, ∀ fuel, F ≤ fuel → inflateStream z fuel c = some (.ok x) := by
  refine ⟨c.length + x.length + 1, fun fuel hf => ?_⟩
  obtain ⟨y, e, _, h⟩ := infOuter_spec z hz c x hc c.length z.init [] [] c [] hz.abs_init (by simp)
    (List.nil_prefix) (Nat.le_refl _) fuel fuel (by omega) (by omega)
  rw [h rfl hne] at e
  exact e

/-- **C16.** Whatever part of a complete stream is present, the driver reports no
error: a truncated stream silently yields a prefix of the contents. -/
theorem inflate_truncated_silent (z : Inflater τ) (D : Bytes → Option Bytes) (hz : CorrectInflater z D)
    (c x src w : Bytes) (hc : D c = some x) (hs : c = src ++ w) :
    ∃ F, ∀ fuel, F ≤ fuel → ∃ y, inflateStream z fuel src = some (.ok y) ∧ y <+: x := by
  refine ⟨src.length + x.length + 1, fun fuel hf => ?_⟩
  obtain ⟨y, e, h1, _⟩ := infOuter_spec z hz c x hc src.length z.init [] [] src w hz.abs_init (by simpa using hs)
    (List.nil_prefix) (Nat.le_refl _) fuel fuel (by omega) (by omega)
  exact ⟨y, e, h1⟩

/-- **C16 (partial).** Inflating what the deflate driver wrote gives back the source,
for every correct codec and every source whose size is not a multiple of 16384. -/
theorem deflate_inflate_partial (z : Deflater σ) (z' : Inflater τ) (D : Bytes → Option Bytes)
    (hz : CorrectDeflater z D) (hz' : CorrectInflater z' D) (hD : D [] = none)
    (src : Bytes) (hm : src.length % 16384 ≠ 0) :
    ∃ F, ∀ fuel, F ≤ fuel → ∃ c, deflateStream z fuel src = some (true, c) ∧
      ∃ F', ∀ fuel', F' ≤ fuel' → inflateStream z' fuel' c = some (.ok src) := by
  obtain ⟨F, hF⟩ := deflate_correct_partial z D hz src hm
  refine ⟨F, fun fuel hf => ?_⟩
  obtain ⟨c, e, hc⟩ := hF fuel hf
  exact ⟨c, e, inflate_correct z' D hz' c src hc (by rintro rfl; simp [hD] at hc)⟩

end Verif.Zlib
