import Verif.Field.Theorems

/-! # Property theorems: sort keys of values and records (C71) -/

namespace Verif.Field
open Verif Record

theorem complLoop_length : ∀ (n : Nat) (w : List UInt8) (c : Bool), (Decimal.complLoop n w c).1.length = w.length := by
  intro n
  induction n with
  | zero => intro w c; rfl
  | succ n ih =>
    intro w c
    unfold Decimal.complLoop
    dsimp only
    split <;> rw [ih] <;> simp

theorem store_at (a b c d : Bytes) (pos : Nat) (h : a.length = pos) (hc : b.length = c.length) :
    store (a ++ b ++ d) pos c = .ok (a ++ c ++ d) := by
  subst h
  unfold store
  rw [if_pos (by simp; omega)]
  have e1 : (a ++ b ++ d).take a.length = a := by simp
  have e2 : (a ++ b ++ d).drop (a.length + c.length) = d := by
    rw [show a.length + c.length = (a ++ b).length by simp [hc], List.drop_left]
  rw [e1, e2]

theorem plainKey_at (sh : Show) (t : Ty) (pre v post : Bytes) (maxlen : Nat) (hv : v.length = t.width)
    (h0 : maxlen ≠ 0) (hm : t.width ≤ maxlen) :
    plainKey sh t (pre ++ v ++ post) pre.length maxlen = .ok (some v) := by
  unfold plainKey
  rw [if_neg (by omega), load_at pre v post _ _ rfl hv]
  rfl

/-- **C71a.** The key of a value of bytes, a boolean or a date is the value itself; it is
put at the current place of the key buffer, and its length is returned. Keys of such values
therefore compare as the values do. -/
theorem plain_key (sh : Show) (f : Fld) (v r a old d : Bytes) (maxlen : Nat)
    (ht : f.ty.type ∈ [FType.binary, .bool, .datetime]) (hn : f.nullable = false)
    (hv : v.length = f.ty.width) (h0 : maxlen ≠ 0) (hm : f.ty.width ≤ maxlen)
    (h : Spec.HasValue f.offset false v r) (ho : old.length = f.ty.width) :
    fieldKey sh f r 0 (a ++ old ++ d) a.length maxlen = .ok (a ++ v ++ d, v.length) := by
  obtain ⟨pre, post, b, hb, hp, rfl⟩ := h
  have hk : typeKey sh f.ty (pre ++ (if false = true then [b] else []) ++ v ++ post) f.offset maxlen =
      .ok (some v) := by
    have := plainKey_at sh f.ty pre v post maxlen hv h0 hm
    rw [hp] at this
    simp only [Bool.false_eq_true, if_false, List.append_nil]
    simp only [List.mem_cons, List.not_mem_nil, or_false] at ht
    rcases ht with h | h | h <;> simp only [typeKey, h, this]
  unfold fieldKey
  simp only [hn, Bool.false_eq_true, if_false, Nat.zero_add] at hk ⊢
  rw [hk]
  simp only [Outcome.ok_bind]
  rw [store_at a old v d _ rfl (by omega)]
  rfl

example : fieldKey ⟨false, false⟩ ⟨1, false, ⟨.binary, 2, 0, false⟩⟩ [9, 7, 8] 0 [1, 0, 0, 5] 1 3 =
    .ok ([1, 7, 8, 5], 2) := by decide +kernel

/-- **C71b.** Keys of numbers compare as the numbers do. -/
theorem number_key_order (sh : Show) (f : Fld) (x y : Decimal.Dec) (vx vy rx ry a old d : Bytes)
    (L p maxlen : Nat) (ht : f.ty.type = .numeric) (hL : f.ty.length = L) (hn : f.nullable = false)
    (hx : x.hasSign = true ∧ x.precision = p ∧ x.data.length = L ∧
      (∀ d ∈ x.data, Decimal.Spec.IsDigit d) ∧ (x.sign = 1 ∨ x.sign = -1))
    (hy : y.hasSign = true ∧ y.precision = p ∧ y.data.length = L ∧
      (∀ d ∈ y.data, Decimal.Spec.IsDigit d) ∧ (y.sign = 1 ∨ y.sign = -1))
    (h1 : 1 ≤ L) (h64 : Decimal.numericSize L ≤ 64) (hmax : Decimal.numericSize L ≤ maxlen)
    (hwx : Decimal.writeTo x = .ok vx) (hwy : Decimal.writeTo y = .ok vy)
    (hrx : Spec.HasValue f.offset false vx rx) (hry : Spec.HasValue f.offset false vy ry)
    (ho : old.length = Decimal.numericSize L) :
    ∃ kx ky, fieldKey sh f rx 0 (a ++ old ++ d) a.length maxlen = .ok (a ++ kx ++ d, kx.length) ∧
      fieldKey sh f ry 0 (a ++ old ++ d) a.length maxlen = .ok (a ++ ky ++ d, ky.length) ∧
      kx.length = ky.length ∧
      (kx < ky ↔ Decimal.Spec.signedValue x < Decimal.Spec.signedValue y) ∧
      (kx = ky ↔ Decimal.Spec.signedValue x = Decimal.Spec.signedValue y) := by
  obtain ⟨kx, ky, h2, h3, h4, h5⟩ := Decimal.numeric_sort_key_order x y vx vy L p maxlen hx hy h1 h64 hmax hwx hwy
  have hlen : ∀ v k, Decimal.numericSortKey v L maxlen = .ok k →
      (∀ post, Decimal.numericSortKey (v ++ post) L maxlen = .ok k) ∧ k.length = Decimal.numericSize L := by
    intro v k hk
    unfold Decimal.numericSortKey at hk ⊢
    dsimp only at hk ⊢
    have hm0 : maxlen ≠ 0 := by unfold Decimal.numericSize at hmax; omega
    rw [if_neg hm0] at hk
    split at hk
    · cases hk
    · rename_i hc
      constructor
      · intro post
        rw [if_neg hm0, if_neg (by simp; omega), List.take_append_of_le_length (by omega)]
        exact hk
      · rw [if_neg (by omega)] at hk
        have hcl : ∀ n w c, (Decimal.complLoop n w c).1.length = w.length := complLoop_length
        injection hk with hk
        rw [← hk]
        have ht : (v.take (Decimal.numericSize L)).length = Decimal.numericSize L := by simp; omega
        split
        · cases hcc : Decimal.complLoop L (List.take (Decimal.numericSize L) v) false with
          | mk nb k =>
            have := hcl L (List.take (Decimal.numericSize L) v) false
            rw [hcc] at this
            simp only at this ⊢
            split <;> simp [this, ht]
        · exact ht
  have key : ∀ v r k, Spec.HasValue f.offset false v r → Decimal.numericSortKey v L maxlen = .ok k →
      fieldKey sh f r 0 (a ++ old ++ d) a.length maxlen = .ok (a ++ k ++ d, k.length) := by
    intro v r k h hk
    obtain ⟨pre, post, b, hb, hp, rfl⟩ := h
    obtain ⟨e1, e2⟩ := hlen v k hk
    unfold fieldKey
    simp only [hn, Bool.false_eq_true, if_false, Nat.zero_add, typeKey, ht, List.append_nil, hL]
    rw [List.append_assoc, ← hp, List.drop_left, e1]
    simp only [Outcome.ok_bind]
    rw [store_at a old k d _ rfl (by omega)]
    rfl
  exact ⟨kx, ky, key _ _ _ hrx h2, key _ _ _ hry h3, by rw [(hlen _ _ h2).2, (hlen _ _ h3).2], h4, h5⟩

/-- The key of a value that may be null begins with the byte 1; the length returned does not
count that byte. -/
theorem nullable_key (sh : Show) (f : Fld) (v r a old d : Bytes) (maxlen : Nat)
    (ht : f.ty.type ∈ [FType.binary, .bool, .datetime]) (hn : f.nullable = true)
    (hv : v.length = f.ty.width) (h0 : maxlen ≠ 0) (hm : f.ty.width ≤ maxlen)
    (h : Spec.HasValue f.offset true v r) (ho : old.length = f.ty.width + 1) :
    fieldKey sh f r 0 (a ++ old ++ d) a.length maxlen = .ok (a ++ (1 :: v) ++ d, v.length) := by
  obtain ⟨pre, post, b, hb, hp, rfl⟩ := h
  have hk : typeKey sh f.ty ((pre ++ [b]) ++ v ++ post) (f.offset + 1) maxlen = .ok (some v) := by
    have := plainKey_at sh f.ty (pre ++ [b]) v post maxlen hv h0 hm
    rw [show (pre ++ [b]).length = f.offset + 1 by simp [hp]] at this
    simp only [List.mem_cons, List.not_mem_nil, or_false] at ht
    rcases ht with h | h | h <;> simp only [typeKey, h, this]
  match old, ho with
  | o :: old, ho =>
    unfold fieldKey
    simp only [hn, if_true, Nat.zero_add]
    rw [show pre ++ [b] ++ v ++ post = pre ++ b :: (v ++ post) by simp, byteAt_at pre b _ _ hp]
    simp only [Outcome.ok_bind, if_neg hb]
    rw [show a ++ o :: old ++ d = a ++ [o] ++ (old ++ d) by simp, store_at a [o] [1] _ _ rfl rfl]
    simp only [Outcome.ok_bind]
    rw [show pre ++ b :: (v ++ post) = (pre ++ [b]) ++ v ++ post by simp, hk]
    simp only [Outcome.ok_bind]
    rw [show a ++ [1] ++ (old ++ d) = (a ++ [1]) ++ old ++ d by simp,
      store_at (a ++ [1]) old v d _ (by simp) (by simp at ho; omega)]
    simp

/-- **C71 is false for indexes of several fields**: after a field that may be null, the next
key begins at the last byte of its key, so that records differing only there get the same
key. -/
theorem next_key_overwrites (sh : Show) (f g : Fld) (v w r a old d₁ d₂ : Bytes) (m : Nat) (x : UInt8)
    (hf : f.ty.type ∈ [FType.binary, .bool, .datetime]) (hg : g.ty.type ∈ [FType.binary, .bool, .datetime])
    (hfn : f.nullable = true) (hgn : g.nullable = false)
    (hl : v.length + 1 = f.ty.width) (hw : w.length = g.ty.width) (hd : d₁.length + 1 = g.ty.width)
    (hm : f.ty.width + g.ty.width ≤ m) (ho : old.length = f.ty.width + 1)
    (h1 : Spec.HasValue f.offset true (v ++ [x]) r) (h2 : Spec.HasValue g.offset false w r) :
    ∃ b n, fieldKey sh f r 0 (a ++ old ++ (d₁ ++ d₂)) a.length m = .ok (b, n) ∧
      fieldKey sh g r 0 b (a.length + n) (m - n) = .ok (a ++ [1] ++ v ++ w ++ d₂, w.length) := by
  refine ⟨_, _, nullable_key sh f (v ++ [x]) r a old (d₁ ++ d₂) m hf hfn (by simp; omega) (by omega) (by omega) h1 ho, ?_⟩
  have := plain_key sh g w r (a ++ [1] ++ v) (x :: d₁) d₂ (m - (v ++ [x]).length) hg hgn hw
    (by simp; omega) (by simp; omega) h2 (by simp; omega)
  have el : (a ++ [1] ++ v).length = a.length + (v ++ [x]).length := by simp
  rw [el] at this
  rw [show a ++ 1 :: (v ++ [x]) ++ (d₁ ++ d₂) = a ++ [1] ++ v ++ x :: d₁ ++ d₂ by simp]
  exact this

/-- Two records with different values of the first field and one key. -/
example :
    (∃ b n, fieldKey ⟨false, false⟩ ⟨1, true, ⟨.binary, 1, 0, false⟩⟩ [0, 1, 5, 8] 0 [0, 0, 0] 0 3 = .ok (b, n) ∧
      fieldKey ⟨false, false⟩ ⟨3, false, ⟨.binary, 1, 0, false⟩⟩ [0, 1, 5, 8] 0 b n 2 = .ok ([1, 8, 0], 1)) ∧
    (∃ b n, fieldKey ⟨false, false⟩ ⟨1, true, ⟨.binary, 1, 0, false⟩⟩ [0, 1, 6, 8] 0 [0, 0, 0] 0 3 = .ok (b, n) ∧
      fieldKey ⟨false, false⟩ ⟨3, false, ⟨.binary, 1, 0, false⟩⟩ [0, 1, 6, 8] 0 b n 2 = .ok ([1, 8, 0], 1)) :=
  ⟨⟨_, _, rfl, by decide +kernel⟩, ⟨_, _, rfl, by decide +kernel⟩⟩

/-- **C71c.** The key of a null is 0 followed by zeros; no length is returned. The zeros are one more
than the value has bytes, so a key buffer that has room for the flag and the value is
overrun. -/
theorem null_key (sh : Show) (f : Fld) (r pre post a old : Bytes) (maxlen : Nat)
    (hn : f.nullable = true) (hp : pre.length = f.offset) (hr : r = pre ++ 0 :: post)
    (hsmall : f.ty.width < 4096) :
    (old.length = f.ty.width + 2 → ∀ d, fieldKey sh f r 0 (a ++ old ++ d) a.length maxlen =
      .ok (a ++ List.replicate (f.ty.width + 2) 0 ++ d, 0)) ∧
    (old.length = f.ty.width + 1 → fieldKey sh f r 0 (a ++ old) a.length maxlen = .ub) := by
  have hz : load (List.replicate 4096 0) 0 f.size = .ok (List.replicate f.size 0) := by
    unfold load
    rw [if_pos (by rw [List.length_replicate, Fld.size, if_pos hn]; omega)]
    rw [List.drop_zero, List.take_replicate]
    congr 2
    simp only [Fld.size, hn, if_true]
    omega
  have hsz : f.size = f.ty.width + 1 := by simp [Fld.size, hn]; omega
  constructor
  · intro ho d
    match old, ho with
    | o :: old, ho =>
      unfold fieldKey
      simp only [hn, if_true, Nat.zero_add, hr]
      rw [byteAt_at pre 0 post _ hp]
      simp only [Outcome.ok_bind, if_true]
      rw [show a ++ o :: old ++ d = a ++ [o] ++ (old ++ d) by simp, store_at a [o] [0] _ _ rfl rfl]
      simp only [Outcome.ok_bind, hz]
      rw [show a ++ [0] ++ (old ++ d) = (a ++ [0]) ++ old ++ d by simp,
        store_at (a ++ [0]) old _ d _ (by simp) (by simp [hsz] at ho ⊢; omega)]
      simp [hsz, List.replicate_succ]
  · intro ho
    match old, ho with
    | o :: old, ho =>
      unfold fieldKey
      simp only [hn, if_true, Nat.zero_add, hr]
      rw [byteAt_at pre 0 post _ hp]
      simp only [Outcome.ok_bind, if_true]
      have := store_at a [o] [0] old a.length rfl rfl
      rw [show a ++ [o] ++ old = a ++ o :: old by simp] at this
      rw [this]
      simp only [Outcome.ok_bind, hz]
      unfold store
      rw [if_neg (by simp [hsz] at ho ⊢; omega)]
      rfl

example : fieldKey ⟨false, false⟩ ⟨1, true, ⟨.binary, 1, 0, false⟩⟩ [9, 0, 5] 0 [1, 1] 0 2 = .ub := by
  decide +kernel

theorem refuse_cases (sh : Show) (t : Ty) (r : Bytes) (off : Nat) :
    refuse sh t r off = .ok none ∨ refuse sh t r off = .throw ∨ refuse sh t r off = .ub := by
  unfold refuse
  cases typeText sh t r off false false <;> simp

/-- **C71 is false for strings**: no key is made for them. An index on one string field
gives every record the same key (or fails). -/
theorem string_record_key (sh : Show) (f : Fld) (length : Nat) (r k : Bytes)
    (ht : f.ty.type ∉ [FType.binary, .bool, .datetime, .numeric]) (hn : f.nullable = false)
    (h : recordKey sh [f] length r = .ok k) : k = List.replicate length 0 := by
  have hk : ∀ off m, typeKey sh f.ty r off m = refuse sh f.ty r off := by
    intro off m
    unfold typeKey
    cases hty : f.ty.type <;> simp [hty] at ht ⊢
  unfold recordKey indexLoop fieldKey at h
  simp only [hn, Bool.false_eq_true, if_false, hk] at h
  rcases refuse_cases sh f.ty r (f.offset + f.offset) with e | e | e
  · rw [e] at h
    simp only [Outcome.ok_bind, indexLoop, Nat.add_zero, Nat.sub_zero] at h
    split at h
    · unfold store at h
      rw [if_pos (by simp)] at h
      simp only [List.length_replicate, List.take_zero, List.nil_append, Nat.zero_add, Outcome.ok.injEq] at h
      rw [← h]
      simp
    · injection h with h
      rw [← h]
  · rw [e] at h; cases h
  · rw [e] at h; cases h

example : recordKey ⟨false, false⟩ [⟨1, false, ⟨.char, 1, 0, false⟩⟩] 2 [0, 0x41, 0, 0x42, 0] = .ok [0, 0] ∧
    recordKey ⟨false, false⟩ [⟨1, false, ⟨.char, 1, 0, false⟩⟩] 2 [0, 0x42, 0, 0x42, 0] = .ok [0, 0] := by
  decide +kernel

/-- **C71 is false for records**: the key of a record is not made of its fields. The offset
of the field is added twice: the bytes taken are those at twice the offset. -/
theorem record_key_place (sh : Show) (f : Fld) (length : Nat) (r : Bytes)
    (ht : f.ty.type ∈ [FType.binary, .bool]) (hn : f.nullable = false)
    (h0 : 0 < f.ty.width) (hl : f.ty.width ≤ length) :
    recordKey sh [f] length r =
      if 2 * f.offset + f.ty.width ≤ r.length then
        .ok ((r.drop (2 * f.offset)).take f.ty.width ++ List.replicate (length - f.ty.width) 0)
      else .ub := by
  have hk : typeKey sh f.ty r (f.offset + f.offset) length =
      if 2 * f.offset + f.ty.width ≤ r.length then .ok (some ((r.drop (2 * f.offset)).take f.ty.width)) else .ub := by
    have : plainKey sh f.ty r (f.offset + f.offset) length =
        if 2 * f.offset + f.ty.width ≤ r.length then .ok (some ((r.drop (2 * f.offset)).take f.ty.width)) else .ub := by
      unfold plainKey load
      rw [if_neg (by omega), show f.offset + f.offset = 2 * f.offset by omega]
      split <;> rfl
    simp only [List.mem_cons, List.not_mem_nil, or_false] at ht
    rcases ht with h | h <;> simp only [typeKey, h, this]
  unfold recordKey indexLoop fieldKey
  simp only [hn, Bool.false_eq_true, if_false, hk]
  by_cases hc : 2 * f.offset + f.ty.width ≤ r.length
  · simp only [if_pos hc, Outcome.ok_bind]
    have hlen : ((r.drop (2 * f.offset)).take f.ty.width).length = f.ty.width := by simp; omega
    generalize hb : (r.drop (2 * f.offset)).take f.ty.width = b at *
    have e : store (List.replicate length 0) 0 b = .ok (b ++ List.replicate (length - f.ty.width) 0) := by
      unfold store
      rw [if_pos (by simp [hlen]; omega)]
      simp [hlen]
    rw [e]
    simp only [Outcome.ok_bind, indexLoop, Nat.zero_add, hlen]
    split
    · have := store_at b (List.replicate (length - f.ty.width) 0) (List.replicate (length - f.ty.width) 0) [] _ hlen rfl
      simpa using this
    · rfl
  · simp [hc]

/-- So two records that differ only in the indexed field have the same key. -/
theorem record_key_ignores_value (sh : Show) (f : Fld) (length : Nat) (pre v v' post : Bytes)
    (ht : f.ty.type ∈ [FType.binary, .bool]) (hn : f.nullable = false)
    (h0 : 0 < f.ty.width) (hl : f.ty.width ≤ length) (hp : pre.length = f.offset)
    (hv : v.length = f.ty.width) (hv' : v'.length = f.ty.width) (hfar : f.ty.width ≤ f.offset) :
    recordKey sh [f] length (pre ++ v ++ post) = recordKey sh [f] length (pre ++ v' ++ post) := by
  rw [record_key_place sh f length _ ht hn h0 hl, record_key_place sh f length _ ht hn h0 hl]
  have hd : ∀ u : Bytes, u.length = f.ty.width → (pre ++ u ++ post).drop (2 * f.offset) =
      post.drop (f.offset - f.ty.width) := by
    intro u hu
    rw [show 2 * f.offset = (pre ++ u).length + (f.offset - f.ty.width) by simp [hp, hu]; omega,
      List.drop_append]
    simp
  rw [hd v hv, hd v' hv']
  simp [hv, hv']

/-- And the field at the end of a record is never read at all. -/
theorem record_key_reads_past (sh : Show) (f : Fld) (length : Nat) (pre v : Bytes)
    (ht : f.ty.type ∈ [FType.binary, .bool]) (hn : f.nullable = false)
    (h0 : 0 < f.ty.width) (hl : f.ty.width ≤ length) (hp : pre.length = f.offset) (h1 : 0 < f.offset)
    (hv : v.length = f.ty.width) : recordKey sh [f] length (pre ++ v) = .ub := by
  rw [record_key_place sh f length _ ht hn h0 hl, if_neg (by simp; omega)]

example : recordKey ⟨false, false⟩ [⟨2, false, ⟨.binary, 1, 0, false⟩⟩] 1 [0, 9, 5, 8, 7] = .ok [7] ∧
    recordKey ⟨false, false⟩ [⟨2, false, ⟨.binary, 1, 0, false⟩⟩] 1 [0, 9, 6, 8, 7] = .ok [7] ∧
    recordKey ⟨false, false⟩ [⟨2, false, ⟨.binary, 1, 0, false⟩⟩] 1 [0, 9, 6] = .ub := by decide +kernel

end Verif.Field
