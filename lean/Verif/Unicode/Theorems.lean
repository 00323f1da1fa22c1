import Verif.Unicode.Lemmas

/-! # Property theorems: UTF-16/UTF-8 (C12) and case-insensitive comparison (C11) -/

namespace Verif.Unicode
open Verif Spec

/-! ## C12 -/

theorem utf16Text_units (cps : List Nat) : utf16Text cps = (cps.flatMap units16).flatMap le16 := by
  unfold utf16Text
  rw [List.flatMap_assoc]
  induction cps with
  | nil => rfl
  | cons c cps ih => simp only [List.flatMap_cons, units16_le, ih]

theorem all_units_lt (cps : List Nat) (h : ∀ cp ∈ cps, Scalar cp) :
    ∀ u ∈ cps.flatMap units16, u < 65536 := by
  intro u hu
  obtain ⟨c, hc, hu⟩ := List.mem_flatMap.mp hu
  exact units16_lt c (h c hc) u hu

/-- **C12a.** Well-formed UTF-16LE text, found after any prefix of the buffer, is
converted to the UTF-8 encoding of the same scalar values. -/
theorem utf16_to_utf8 (cps : List Nat) (h : ∀ cp ∈ cps, Scalar cp) (pre : Bytes) :
    toUtf8 (pre ++ utf16Text cps) pre.length = .ok (utf8Text cps) := by
  unfold toUtf8
  rw [if_neg (by simp), List.drop_left]
  unfold utf16to8
  rw [utf16Text_units, unitsOf_flat _ (all_units_lt cps h), fromUtf16_complete cps h]
  exact appendAll_spec cps h

/-- **C12b.** Well-formed UTF-8 text is converted to the UTF-16LE encoding of the same
scalar values. -/
theorem utf8_to_utf16 (cps : List Nat) (h : ∀ cp ∈ cps, Scalar cp) :
    fromUtf8 (utf8Text cps) = .ok (utf16Text cps) := by
  unfold fromUtf8 utf8to16
  rw [decodeAll_complete cps h _ (Nat.le_refl _)]
  simp only [Outcome.ok_bind, Outcome.ok.injEq]
  have hu : cps.flatMap units = cps.flatMap units16 := by
    rw [List.flatMap_def, List.flatMap_def]
    congr 1
    exact List.map_congr_left (fun c hc => units_spec c (h c hc))
  rw [hu, utf16Text_units]
  have hl := all_units_lt cps h
  rw [List.flatMap_def, List.flatMap_def (f := le16)]
  congr 1
  apply List.map_congr_left
  intro u _
  unfold le16
  rw [show u &&& 0xff = u % 256 from Nat.and_two_pow_sub_one_eq_mod u 8, Nat.shiftRight_eq_div_pow]

/-- **C12c.** UTF-16LE to UTF-8 and back gives the same bytes. -/
theorem utf16_roundtrip (cps : List Nat) (h : ∀ cp ∈ cps, Scalar cp) :
    (toUtf8 (utf16Text cps) 0 >>= fromUtf8) = .ok (utf16Text cps) := by
  have := utf16_to_utf8 cps h []
  simp only [List.nil_append, List.length_nil] at this
  rw [this]
  exact utf8_to_utf16 cps h

/-- **C12d.** Nothing ill-formed is altered silently: if a buffer of an even number of
bytes converts at all, it is the UTF-16LE encoding of a scalar text, the result
is the UTF-8 encoding of that text, and converting back restores the buffer. -/
theorem utf16_accepts_only_wellformed (bs s : Bytes) (he : bs.length % 2 = 0) (h : toUtf8 bs 0 = .ok s) :
    ∃ cps, (∀ cp ∈ cps, Scalar cp) ∧ bs = utf16Text cps ∧ s = utf8Text cps ∧ fromUtf8 s = .ok bs := by
  unfold toUtf8 utf16to8 at h
  rw [if_neg (by simp), List.drop_zero] at h
  cases hf : fromUtf16 (unitsOf bs) with
  | throw => rw [hf] at h; simp at h
  | ub => rw [hf] at h; simp at h
  | ok cps =>
    rw [hf] at h
    simp only [Outcome.ok_bind] at h
    obtain ⟨hs, hu⟩ := fromUtf16_sound _ _ (unitsOf_lt bs) hf
    rw [appendAll_spec cps hs] at h
    have hb : bs = utf16Text cps := by
      rw [utf16Text_units, ← hu, unitsOf_inv bs he]
    have hs' : s = utf8Text cps := (Outcome.ok.inj h).symm
    exact ⟨cps, hs, hb, hs', by rw [hs', hb]; exact utf8_to_utf16 cps hs⟩

/-- **C12e.** The same in the other direction: only well-formed UTF-8 is accepted. -/
theorem utf8_accepts_only_wellformed (s bs : Bytes) (h : fromUtf8 s = .ok bs) :
    ∃ cps, (∀ cp ∈ cps, Scalar cp) ∧ s = utf8Text cps ∧ bs = utf16Text cps := by
  have h' := h
  unfold fromUtf8 utf8to16 at h
  cases hd : decodeAll s.length s with
  | throw => rw [hd] at h; simp at h
  | ub => rw [hd] at h; simp at h
  | ok cps =>
    obtain ⟨hs, hu⟩ := decodeAll_sound _ _ _ hd
    refine ⟨cps, hs, hu, ?_⟩
    rw [hu, utf8_to_utf16 cps hs] at h'
    exact (Outcome.ok.inj h').symm

/-- "Ж€😀" — two-, three- and four-byte characters. -/
example : utf16Text [0x416, 0x20ac, 0x1f600] = [0x16, 0x04, 0xac, 0x20, 0x3d, 0xd8, 0x00, 0xde] ∧
    toUtf8 [0x16, 0x04, 0xac, 0x20, 0x3d, 0xd8, 0x00, 0xde] 0 =
      .ok [0xd0, 0x96, 0xe2, 0x82, 0xac, 0xf0, 0x9f, 0x98, 0x80] := by decide
/-- A lone surrogate and an overlong sequence are rejected. -/
example : toUtf8 [0x3d, 0xd8, 0x41, 0x00] 0 = .throw ∧ fromUtf8 [0xc0, 0x80] = .throw := by decide

/-! ## C11 -/

theorem toLower_scalar (cp : Nat) (h : Scalar cp) : Scalar (toLower cp) := by
  unfold toLower Scalar at *
  simp only [show 'A'.toNat = 65 from rfl, show 'Z'.toNat = 90 from rfl, show 'a'.toNat = 97 from rfl]
  split
  · omega
  · split
    · omega
    · split <;> omega

theorem toUpper_scalar (cp : Nat) (h : Scalar cp) : Scalar (toUpper cp) := by
  unfold toUpper Scalar at *
  simp only [show 'a'.toNat = 97 from rfl, show 'z'.toNat = 122 from rfl, show 'A'.toNat = 65 from rfl]
  split
  · omega
  · split
    · omega
    · split <;> omega

theorem utf8_length (cp : Nat) : (utf8 cp).length =
    if cp < 0x80 then 1 else if cp < 0x800 then 2 else if cp < 0x10000 then 3 else 4 := by
  unfold utf8
  split
  · rfl
  · split
    · rfl
    · split <;> rfl

theorem toLower_length (cp : Nat) : (utf8 (toLower cp)).length = (utf8 cp).length := by
  rw [utf8_length, utf8_length]
  unfold toLower
  simp only [show 'A'.toNat = 65 from rfl, show 'Z'.toNat = 90 from rfl, show 'a'.toNat = 97 from rfl]
  split
  · rw [if_pos (by omega), if_pos (by omega)]
  · split
    · rename_i h; subst h; rfl
    · split
      · rw [if_neg (by omega), if_pos (by omega), if_neg (by omega), if_pos (by omega)]
      · rfl

theorem toUpper_length (cp : Nat) : (utf8 (toUpper cp)).length = (utf8 cp).length := by
  rw [utf8_length, utf8_length]
  unfold toUpper
  simp only [show 'a'.toNat = 97 from rfl, show 'z'.toNat = 122 from rfl, show 'A'.toNat = 65 from rfl]
  split
  · rw [if_pos (by omega), if_pos (by omega)]
  · split
    · rename_i h; subst h; rfl
    · split
      · rw [if_neg (by omega), if_pos (by omega), if_neg (by omega), if_pos (by omega)]
      · rfl

theorem toLower_zero (cp : Nat) : toLower cp = 0 ↔ cp = 0 := by
  unfold toLower
  simp only [show 'A'.toNat = 65 from rfl, show 'Z'.toNat = 90 from rfl, show 'a'.toNat = 97 from rfl]
  split
  · omega
  · split
    · omega
    · split <;> omega

theorem toUpper_zero (cp : Nat) : toUpper cp = 0 ↔ cp = 0 := by
  unfold toUpper
  simp only [show 'a'.toNat = 97 from rfl, show 'z'.toNat = 122 from rfl, show 'A'.toNat = 65 from rfl]
  split
  · omega
  · split
    · omega
    · split <;> omega

theorem ofNat_ne_zero (n : Nat) (h1 : 0 < n) (h2 : n < 256) : UInt8.ofNat n ≠ 0 := by
  intro e
  have := congrArg UInt8.toNat e
  rw [toNat_ofNat_lt n h2] at this
  simp at this; omega

theorem utf8_nonzero (cp : Nat) (h : cp ≠ 0) (hs : Scalar cp) : ∀ b ∈ utf8 cp, b ≠ 0 := by
  have hm : cp < 0x110000 := by unfold Scalar at hs; omega
  unfold utf8
  intro b hb
  split at hb
  · simp only [List.mem_cons, List.not_mem_nil, or_false] at hb
    subst hb; exact ofNat_ne_zero _ (by omega) (by omega)
  · split at hb
    · simp only [List.mem_cons, List.not_mem_nil, or_false] at hb
      rcases hb with rfl | rfl <;> exact ofNat_ne_zero _ (by omega) (by omega)
    · split at hb
      · simp only [List.mem_cons, List.not_mem_nil, or_false] at hb
        rcases hb with rfl | rfl | rfl <;> exact ofNat_ne_zero _ (by omega) (by omega)
      · simp only [List.mem_cons, List.not_mem_nil, or_false] at hb
        rcases hb with rfl | rfl | rfl | rfl <;> exact ofNat_ne_zero _ (by omega) (by omega)

theorem takeWhile_append_all {α : Type} (p : α → Bool) (a b : List α) (h : ∀ x ∈ a, p x = true) :
    (a ++ b).takeWhile p = a ++ b.takeWhile p := by
  induction a with
  | nil => rfl
  | cons x a ih =>
    rw [List.cons_append, List.takeWhile_cons_of_pos (h x (by simp)), ih (fun y hy => h y (by simp [hy]))]
    rfl

theorem takeWhile_text (cps : List Nat) (h : ∀ cp ∈ cps, Scalar cp) (z : Bytes) :
    (utf8Text cps ++ 0 :: z).takeWhile (· ≠ 0) = utf8Text (cps.takeWhile (· ≠ 0)) := by
  induction cps with
  | nil => simp [utf8Text]
  | cons c cps ih =>
    have e : utf8Text (c :: cps) = utf8 c ++ utf8Text cps := rfl
    by_cases hc : c = 0
    · subst hc
      rw [e]
      simp [utf8, utf8Text]
    · rw [e, List.append_assoc, takeWhile_append_all _ _ _ (by
        intro b hb; simpa using utf8_nonzero c hc (h c (by simp)) b hb)]
      rw [ih (fun x hx => h x (by simp [hx])), List.takeWhile_cons_of_pos (by simpa using hc)]
      rfl

theorem utf8Text_length_map (f : Nat → Nat) (hf : ∀ c, (utf8 (f c)).length = (utf8 c).length)
    (cps : List Nat) : (utf8Text (cps.map f)).length = (utf8Text cps).length := by
  induction cps with
  | nil => rfl
  | cons c cps ih =>
    simp only [utf8Text, List.map_cons, List.flatMap_cons, List.length_append] at *
    rw [hf, ih]

theorem caseFold_spec (f : Nat → Nat) (hs : ∀ c, Scalar c → Scalar (f c))
    (hl : ∀ c, (utf8 (f c)).length = (utf8 c).length) (hz : ∀ c, f c = 0 ↔ c = 0)
    (cps : List Nat) (h : ∀ cp ∈ cps, Scalar cp) :
    caseFold f (utf8Text cps) = .ok (utf8Text ((cps.takeWhile (· ≠ 0)).map f)) := by
  unfold caseFold
  rw [decodeAll_complete cps h _ (Nat.le_refl _)]
  simp only [Outcome.ok_bind]
  have hm : ∀ cp ∈ cps.map f, Scalar cp := by
    intro c hc
    obtain ⟨d, hd, rfl⟩ := List.mem_map.mp hc
    exact hs d (h d hd)
  rw [appendAll_spec _ hm]
  simp only [Outcome.ok_bind]
  have hlen := utf8Text_length_map f hl cps
  rw [if_neg (by omega)]
  congr 1
  rw [show (utf8Text cps).length + 1 - (utf8Text (cps.map f)).length = 1 by omega]
  rw [show List.replicate 1 (0 : UInt8) = [0] from rfl, ← hlen]
  have hset : (utf8Text (cps.map f) ++ [(0 : UInt8)]).set (utf8Text (cps.map f)).length 0
      = utf8Text (cps.map f) ++ [0] := by
    rw [List.set_append_right _ _ (Nat.le_refl _)]
    simp
  rw [hset, takeWhile_text _ hm]
  congr 1
  clear hset hlen hm h
  induction cps with
  | nil => rfl
  | cons c cps ih =>
    by_cases hc : c = 0
    · have : f c = 0 := (hz c).2 hc
      simp [hc, (hz 0).2 rfl]
    · have : f c ≠ 0 := fun e => hc ((hz c).1 e)
      rw [List.map_cons, List.takeWhile_cons_of_pos (by simpa using this),
        List.takeWhile_cons_of_pos (by simpa using hc), List.map_cons, ih]

theorem lowerCase_spec (cps : List Nat) (h : ∀ cp ∈ cps, Scalar cp) :
    lowerCase (utf8Text cps) = .ok (utf8Text ((cps.takeWhile (· ≠ 0)).map toLower)) :=
  caseFold_spec toLower toLower_scalar toLower_length toLower_zero cps h

theorem upperCase_spec (cps : List Nat) (h : ∀ cp ∈ cps, Scalar cp) :
    upperCase (utf8Text cps) = .ok (utf8Text ((cps.takeWhile (· ≠ 0)).map toUpper)) :=
  caseFold_spec toUpper toUpper_scalar toUpper_length toUpper_zero cps h

theorem utf8Text_inj (a b : List Nat) (ha : ∀ c ∈ a, Scalar c) (hb : ∀ c ∈ b, Scalar c)
    (h : utf8Text a = utf8Text b) : a = b := by
  have h1 := decodeAll_complete a ha _ (Nat.le_refl _)
  rw [h, decodeAll_complete b hb _ (Nat.le_refl _)] at h1
  exact (Outcome.ok.inj h1).symm

theorem casePairs_mem (a b : Nat) : (a, b) ∈ casePairs ↔
    (0x41 ≤ a ∧ a ≤ 0x5a ∧ b = a + 32) ∨ (a = 0x401 ∧ b = 0x451) ∨ (0x410 ≤ a ∧ a ≤ 0x42f ∧ b = a + 32) := by
  unfold casePairs
  simp only [List.mem_append, List.mem_map, List.mem_range, Prod.mk.injEq, List.mem_cons,
    List.not_mem_nil, or_false]
  constructor
  · rintro ((⟨i, h1, rfl, rfl⟩ | ⟨rfl, rfl⟩) | ⟨i, h1, rfl, rfl⟩)
    · left; omega
    · right; left; omega
    · right; right; omega
  · rintro (⟨h1, h2, rfl⟩ | ⟨rfl, rfl⟩ | ⟨h1, h2, rfl⟩)
    · left; left; exact ⟨a - 0x41, by omega, by omega, by omega⟩
    · left; right; exact ⟨rfl, rfl⟩
    · right; exact ⟨a - 0x410, by omega, by omega, by omega⟩

theorem toLower_def' (cp : Nat) : toLower cp = if cp ≥ 65 ∧ cp ≤ 90 then cp - 65 + 97
    else if cp = 0x0401 then 0x0451 else if cp ≥ 0x0410 ∧ cp ≤ 0x042f then cp - 0x0410 + 0x430 else cp := rfl
theorem toUpper_def' (cp : Nat) : toUpper cp = if cp ≥ 97 ∧ cp ≤ 122 then cp - 97 + 65
    else if cp = 0x0451 then 0x0401 else if cp ≥ 0x0430 ∧ cp ≤ 0x044f then cp - 0x0430 + 0x410 else cp := rfl

theorem toLower_same (a b : Nat) : toLower a = toLower b ↔ SameLetter a b := by
  unfold SameLetter
  rw [casePairs_mem, casePairs_mem, toLower_def', toLower_def']
  split <;> split <;> (try split) <;> (try split) <;> (try split) <;> (try split) <;> omega

theorem toUpper_same (a b : Nat) : toUpper a = toUpper b ↔ SameLetter a b := by
  unfold SameLetter
  rw [casePairs_mem, casePairs_mem, toUpper_def', toUpper_def']
  split <;> split <;> (try split) <;> (try split) <;> (try split) <;> (try split) <;> omega

theorem map_same (f : Nat → Nat) (hf : ∀ a b, f a = f b ↔ SameLetter a b) (a b : List Nat) :
    a.map f = b.map f ↔ SameText a b := by
  induction a generalizing b with
  | nil => cases b <;> simp [SameText]
  | cons x a ih => cases b with
    | nil => simp [SameText]
    | cons y b => simp [SameText, ih, hf]

/-- A text without NUL characters. -/
def Spec.Name (cps : List Nat) : Prop := ∀ cp ∈ cps, Scalar cp ∧ cp ≠ 0

theorem name_takeWhile (cps : List Nat) (h : Spec.Name cps) : cps.takeWhile (· ≠ 0) = cps := by
  have := takeWhile_append_all (fun x => decide (x ≠ 0)) cps [] (by
    intro c hc; simpa using (h c hc).2)
  simpa using this

/-- **C11a.** Case-insensitive comparison of two names (texts without NUL) succeeds
exactly when they agree letter by letter up to the case of ASCII and Russian
letters. -/
theorem equalIC_iff (a b : List Nat) (ha : Spec.Name a) (hb : Spec.Name b) :
    (equalIC (utf8Text a) (utf8Text b) = .ok true ↔ SameText a b) ∧
    (equalIC (utf8Text a) (utf8Text b) = .ok false ↔ ¬ SameText a b) := by
  have hsa : ∀ c ∈ a, Scalar c := fun c hc => (ha c hc).1
  have hsb : ∀ c ∈ b, Scalar c := fun c hc => (hb c hc).1
  unfold equalIC
  rw [lowerCase_spec a hsa, lowerCase_spec b hsb, name_takeWhile a ha, name_takeWhile b hb]
  simp only [Outcome.ok_bind, Outcome.ok.injEq, decide_eq_true_eq, decide_eq_false_iff_not]
  have hm : ∀ l : List Nat, (∀ c ∈ l, Scalar c) → ∀ c ∈ l.map toLower, Scalar c := by
    intro l hl c hc
    obtain ⟨d, hd, rfl⟩ := List.mem_map.mp hc
    exact toLower_scalar d (hl d hd)
  have : utf8Text (a.map toLower) = utf8Text (b.map toLower) ↔ SameText a b := by
    rw [← map_same toLower toLower_same]
    exact ⟨utf8Text_inj _ _ (hm a hsa) (hm b hsb), fun e => by rw [e]⟩
  rw [this]
  exact ⟨Iff.rfl, Iff.rfl⟩

/-- **C11b.** Hence it is an equivalence relation on names. -/
theorem equalIC_equivalence (a b c : List Nat) (ha : Spec.Name a) (hb : Spec.Name b) (hc : Spec.Name c) :
    equalIC (utf8Text a) (utf8Text a) = .ok true ∧
    (equalIC (utf8Text a) (utf8Text b) = .ok true → equalIC (utf8Text b) (utf8Text a) = .ok true) ∧
    (equalIC (utf8Text a) (utf8Text b) = .ok true → equalIC (utf8Text b) (utf8Text c) = .ok true →
      equalIC (utf8Text a) (utf8Text c) = .ok true) := by
  rw [(equalIC_iff a a ha ha).1, (equalIC_iff a b ha hb).1, (equalIC_iff b a hb ha).1,
    (equalIC_iff b c hb hc).1, (equalIC_iff a c ha hc).1]
  simp only [← map_same toLower toLower_same]
  exact ⟨trivial, fun h => h.symm, fun h1 h2 => h1.trans h2⟩

/-- **C11c.** Folding keeps the encoded length and the name-ness, and is idempotent. -/
theorem fold_length_idempotent (a : List Nat) (ha : Spec.Name a) :
    ∃ l u, lowerCase (utf8Text a) = .ok l ∧ upperCase (utf8Text a) = .ok u ∧
      l.length = (utf8Text a).length ∧ u.length = (utf8Text a).length ∧
      lowerCase l = .ok l ∧ upperCase u = .ok u := by
  have hsa : ∀ c ∈ a, Scalar c := fun c hc => (ha c hc).1
  have hl : ∀ c ∈ a.map toLower, Scalar c ∧ c ≠ 0 := by
    intro c hc
    obtain ⟨d, hd, rfl⟩ := List.mem_map.mp hc
    exact ⟨toLower_scalar d (hsa d hd), fun e => (ha d hd).2 ((toLower_zero d).1 e)⟩
  have hu : ∀ c ∈ a.map toUpper, Scalar c ∧ c ≠ 0 := by
    intro c hc
    obtain ⟨d, hd, rfl⟩ := List.mem_map.mp hc
    exact ⟨toUpper_scalar d (hsa d hd), fun e => (ha d hd).2 ((toUpper_zero d).1 e)⟩
  have il : ∀ c, toLower (toLower c) = toLower c := fun c => (toLower_same _ _).2 (by
    unfold SameLetter; rw [casePairs_mem, casePairs_mem, toLower_def']
    split <;> (try split) <;> (try split) <;> omega)
  have iu : ∀ c, toUpper (toUpper c) = toUpper c := fun c => (toUpper_same _ _).2 (by
    unfold SameLetter; rw [casePairs_mem, casePairs_mem, toUpper_def']
    split <;> (try split) <;> (try split) <;> omega)
  refine ⟨utf8Text (a.map toLower), utf8Text (a.map toUpper), ?_, ?_,
    utf8Text_length_map _ toLower_length a, utf8Text_length_map _ toUpper_length a, ?_, ?_⟩
  · rw [lowerCase_spec a hsa, name_takeWhile a ha]
  · rw [upperCase_spec a hsa, name_takeWhile a ha]
  · rw [lowerCase_spec _ (fun c hc => (hl c hc).1), name_takeWhile _ hl]
    rw [List.map_map, show toLower ∘ toLower = toLower from funext il]
  · rw [upperCase_spec _ (fun c hc => (hu c hc).1), name_takeWhile _ hu]
    rw [List.map_map, show toUpper ∘ toUpper = toUpper from funext iu]

/-- **C11d.** Lower- and upper-casing agree on which names are equal. -/
theorem lower_upper_agree (a b : List Nat) (ha : Spec.Name a) (hb : Spec.Name b) :
    lowerCase (utf8Text a) = lowerCase (utf8Text b) ↔ upperCase (utf8Text a) = upperCase (utf8Text b) := by
  have hsa : ∀ c ∈ a, Scalar c := fun c hc => (ha c hc).1
  have hsb : ∀ c ∈ b, Scalar c := fun c hc => (hb c hc).1
  rw [lowerCase_spec a hsa, lowerCase_spec b hsb, upperCase_spec a hsa, upperCase_spec b hsb,
    name_takeWhile a ha, name_takeWhile b hb]
  simp only [Outcome.ok.injEq]
  have hm : ∀ (f : Nat → Nat), (∀ c, Scalar c → Scalar (f c)) → ∀ l : List Nat, (∀ c ∈ l, Scalar c) →
      ∀ c ∈ l.map f, Scalar c := by
    intro f hf l hl c hc
    obtain ⟨d, hd, rfl⟩ := List.mem_map.mp hc
    exact hf d (hl d hd)
  have e1 : utf8Text (a.map toLower) = utf8Text (b.map toLower) ↔ SameText a b := by
    rw [← map_same toLower toLower_same]
    exact ⟨utf8Text_inj _ _ (hm _ toLower_scalar a hsa) (hm _ toLower_scalar b hsb), fun e => by rw [e]⟩
  have e2 : utf8Text (a.map toUpper) = utf8Text (b.map toUpper) ↔ SameText a b := by
    rw [← map_same toUpper toUpper_same]
    exact ⟨utf8Text_inj _ _ (hm _ toUpper_scalar a hsa) (hm _ toUpper_scalar b hsb), fun e => by rw [e]⟩
  rw [e1, e2]

/-- "Config" and "cONFIG"; "Ёж" and "ёЖ". -/
example : equalIC (utf8Text ("Config".toList.map Char.toNat)) (utf8Text ("cONFIG".toList.map Char.toNat)) = .ok true ∧
    equalIC (utf8Text [0x401, 0x436]) (utf8Text [0x451, 0x416]) = .ok true ∧
    equalIC (utf8Text [0x436]) (utf8Text [0x437]) = .ok false := by decide
example : Spec.Name [0x401, 0x436] ∧ Spec.SameText [0x401, 0x436] [0x451, 0x416] := by
  refine ⟨?_, ?_⟩
  · intro c hc; simp at hc; rcases hc with rfl | rfl <;> decide
  · exact ⟨(toLower_same _ _).1 (by decide), (toLower_same _ _).1 (by decide), trivial⟩

/-- **C11e.** The restriction to texts without NUL is needed: everything after the
first NUL is ignored, so different names compare equal. -/
theorem equalIC_ignores_after_nul (a b c : List Nat) (ha : Spec.Name a) (hb : ∀ x ∈ b, Scalar x)
    (hc : ∀ x ∈ c, Scalar x) :
    equalIC (utf8Text (a ++ 0 :: b)) (utf8Text (a ++ 0 :: c)) = .ok true := by
  have hs : ∀ l : List Nat, (∀ x ∈ l, Scalar x) → ∀ x ∈ a ++ 0 :: l, Scalar x := by
    intro l hl x hx
    rcases List.mem_append.mp hx with hx | hx
    · exact (ha x hx).1
    · rcases List.mem_cons.mp hx with rfl | hx
      · decide
      · exact hl x hx
  have ht : ∀ l : List Nat, (a ++ 0 :: l).takeWhile (· ≠ 0) = a := by
    intro l
    rw [takeWhile_append_all _ _ _ (by intro x hx; simpa using (ha x hx).2)]
    simp
  unfold equalIC
  rw [lowerCase_spec _ (hs b hb), lowerCase_spec _ (hs c hc), ht, ht]
  simp

/-- **C11f.** A byte string that is not UTF-8 makes the comparison throw. -/
theorem equalIC_invalid_throws (s t : Bytes) (hs : ∀ cps, (∀ c ∈ cps, Scalar c) → s ≠ utf8Text cps) :
    equalIC s t ≠ .ok true ∧ equalIC s t ≠ .ok false := by
  have : ∀ r, lowerCase s ≠ .ok r := by
    intro r hr
    unfold lowerCase caseFold at hr
    cases hd : decodeAll s.length s with
    | throw => rw [hd] at hr; simp at hr
    | ub => rw [hd] at hr; simp at hr
    | ok cps =>
      obtain ⟨h1, h2⟩ := decodeAll_sound _ _ _ hd
      exact hs cps h1 h2
  unfold equalIC
  cases hl : lowerCase s with
  | ok r => exact absurd hl (this r)
  | throw => simp
  | ub => simp

/-! ### EndsWithIC -/

theorem utf8_head_tail (c : Nat) (hc : Scalar c) : ∃ b r, utf8 c = b :: r ∧ isTrail b = false ∧
    ∀ x ∈ r, isTrail x = true := by
  have hm : c < 0x110000 := by unfold Scalar at hc; omega
  have nt : ∀ n, n < 256 → (n < 128 ∨ 192 ≤ n) → isTrail (UInt8.ofNat n) = false := by
    intro n h1 h2
    rw [Bool.eq_false_iff]; intro e
    have := (isTrail_iff _).1 e
    rw [toNat_ofNat_lt n h1] at this; omega
  have tr : ∀ n, 128 ≤ n → n < 192 → isTrail (UInt8.ofNat n) = true := by
    intro n h1 h2
    rw [isTrail_iff, toNat_ofNat_lt n (by omega)]; omega
  unfold utf8
  split
  · exact ⟨_, _, rfl, nt _ (by omega) (by omega), by simp⟩
  · split
    · refine ⟨_, _, rfl, nt _ (by omega) (by omega), ?_⟩
      intro x hx
      simp only [List.mem_cons, List.not_mem_nil, or_false] at hx
      subst hx; exact tr _ (by omega) (by omega)
    · split
      · refine ⟨_, _, rfl, nt _ (by omega) (by omega), ?_⟩
        intro x hx
        simp only [List.mem_cons, List.not_mem_nil, or_false] at hx
        rcases hx with rfl | rfl <;> exact tr _ (by omega) (by omega)
      · refine ⟨_, _, rfl, nt _ (by omega) (by omega), ?_⟩
        intro x hx
        simp only [List.mem_cons, List.not_mem_nil, or_false] at hx
        rcases hx with rfl | rfl | rfl <;> exact tr _ (by omega) (by omega)

/-- A well-formed suffix of a well-formed text starts at a character boundary. -/
theorem suffix_aligned (a q : List Nat) (pre : Bytes) (ha : ∀ c ∈ a, Scalar c) (hq : ∀ c ∈ q, Scalar c)
    (hne : q ≠ []) (h : utf8Text a = pre ++ utf8Text q) : ∃ p, a = p ++ q := by
  induction a generalizing pre with
  | nil =>
    cases q with
    | nil => exact absurd rfl hne
    | cons x q =>
      obtain ⟨b, r, hb, _⟩ := utf8_head_tail x (hq x (by simp))
      have : ([] : Bytes) = pre ++ (b :: r ++ utf8Text q) := by
        have e : utf8Text (x :: q) = utf8 x ++ utf8Text q := rfl
        rw [e, hb] at h; exact h
      simp at this
  | cons x a ih =>
    cases pre with
    | nil => exact ⟨[], utf8Text_inj _ _ ha hq h⟩
    | cons y pre =>
      have e : utf8Text (x :: a) = utf8 x ++ utf8Text a := rfl
      rw [e] at h
      rcases List.append_eq_append_iff.mp h with ⟨c, h1, h2⟩ | ⟨c, h1, h2⟩
      · obtain ⟨p, hp⟩ := ih c (fun z hz => ha z (by simp [hz])) h2
        exact ⟨x :: p, by rw [hp]; rfl⟩
      · cases c with
        | nil =>
          simp only [List.nil_append] at h2
          have := utf8Text_inj _ _ hq (fun z hz => ha z (by simp [hz])) h2
          exact ⟨[x], by rw [this]; rfl⟩
        | cons z c =>
          exfalso
          obtain ⟨b, r, hb, _, hr⟩ := utf8_head_tail x (ha x (by simp))
          rw [hb] at h1
          have hz : isTrail z = true := by
            apply hr
            have : r = pre ++ z :: c := by simpa using (List.cons.inj (by simpa using h1)).2
            rw [this]; simp
          cases q with
          | nil => exact hne rfl
          | cons w q =>
            obtain ⟨b', r', hb', hnt, _⟩ := utf8_head_tail w (hq w (by simp))
            have e' : utf8Text (w :: q) = utf8 w ++ utf8Text q := rfl
            rw [e', hb'] at h2
            have : b' = z := (List.cons.inj (by simpa using h2)).1
            rw [this, hz] at hnt
            cases hnt

/-- **C11g.** `EndsWithIC` answers yes exactly when the name ends, at a character
boundary, with the given non-empty ending up to case. -/
theorem endsWithIC_iff (a b : List Nat) (ha : Spec.Name a) (hb : Spec.Name b) (hne : b ≠ []) :
    endsWithIC (utf8Text a) (utf8Text b) = .ok true ↔ ∃ p q, a = p ++ q ∧ SameText q b := by
  have hsa : ∀ c ∈ a, Scalar c := fun c hc => (ha c hc).1
  have hsb : ∀ c ∈ b, Scalar c := fun c hc => (hb c hc).1
  have hbne : utf8Text b ≠ [] := by
    cases b with
    | nil => exact absurd rfl hne
    | cons x b =>
      obtain ⟨y, r, hy⟩ := utf8_ne x
      have e : utf8Text (x :: b) = utf8 x ++ utf8Text b := rfl
      rw [e, hy]; simp
  have hlen : ∀ q, SameText q b → (utf8Text q).length = (utf8Text b).length := by
    intro q hq
    have := (map_same toLower toLower_same q b).2 hq
    rw [← utf8Text_length_map toLower toLower_length q, this, utf8Text_length_map toLower toLower_length b]
  unfold endsWithIC
  rw [if_neg (by simpa using hbne)]
  constructor
  · intro h
    split at h
    · simp at h
    · rename_i hl
      -- the tail must decode
      have hd : ∃ q, (∀ c ∈ q, Scalar c) ∧
          (utf8Text a).drop ((utf8Text a).length - (utf8Text b).length) = utf8Text q := by
        refine Classical.byContradiction fun hc => ?_
        have := (equalIC_invalid_throws ((utf8Text a).drop ((utf8Text a).length - (utf8Text b).length))
          (utf8Text b) (fun q hq e => hc ⟨q, hq, e⟩)).1
        exact this h
      obtain ⟨q, hq, hdq⟩ := hd
      have hqne : q ≠ [] := by
        rintro rfl
        have := congrArg List.length hdq
        simp only [List.length_drop, utf8Text, List.flatMap_nil, List.length_nil] at this
        have hpos := List.length_pos_iff.mpr hbne
        simp only [utf8Text] at hpos hl
        omega
      have hsplit : utf8Text a = (utf8Text a).take ((utf8Text a).length - (utf8Text b).length) ++ utf8Text q := by
        rw [← hdq, List.take_append_drop]
      obtain ⟨p, hp⟩ := suffix_aligned a q _ hsa hq hqne hsplit
      rw [hdq] at h
      have hqn : Spec.Name q := fun c hc => ha c (by rw [hp]; simp [hc])
      exact ⟨p, q, hp, (equalIC_iff q b hqn hb).1.1 h⟩
  · rintro ⟨p, q, rfl, hs⟩
    have hl := hlen q hs
    have ht : utf8Text (p ++ q) = utf8Text p ++ utf8Text q := by simp [utf8Text]
    rw [ht, if_neg (by simp; omega)]
    rw [show (utf8Text p ++ utf8Text q).length - (utf8Text b).length = (utf8Text p).length by simp; omega]
    rw [List.drop_left]
    exact (equalIC_iff q b (fun c hc => ha c (by simp [hc])) hb).1.2 hs

/-- An ending that cuts a character in two makes the test throw instead of answering
no: "я" against "x". -/
theorem endsWithIC_cut_throws : endsWithIC (utf8Text [0x44f]) (utf8Text [0x78]) = .throw := by decide

example : endsWithIC (utf8Text ("file.CF".toList.map Char.toNat)) (utf8Text (".cf".toList.map Char.toNat)) = .ok true := by decide

end Verif.Unicode
