import Verif.Record.LayoutTheorems
import Verif.Unicode.Theorems

/-! # Property theorems: records, scanning and lookup (C34, C35, C36, C40) -/

namespace Verif.Record
open Verif

/-! ## Records (C34) -/

theorem store_ok {r : Bytes} {off : Nat} {b : Bytes} (h : off + b.length ≤ r.length) :
    store r off b = .ok (r.take off ++ b ++ r.drop (off + b.length)) := by
  unfold store; rw [if_pos h]

theorem load_ok {r : Bytes} {off n : Nat} (h : off + n ≤ r.length) : load r off n = .ok ((r.drop off).take n) := by
  unfold load; rw [if_pos h]

/-- What a store of bytes does to every byte of the record. -/
theorem stored_get (r : Bytes) (off : Nat) (b : Bytes) (h : off + b.length ≤ r.length) (i : Nat) :
    (r.take off ++ b ++ r.drop (off + b.length))[i]? =
      if off ≤ i ∧ i < off + b.length then b[i - off]? else r[i]? := by
  have hl : (r.take off).length = off := by rw [List.length_take]; omega
  rw [List.append_assoc]
  by_cases h1 : i < off
  · rw [if_neg (by omega), List.getElem?_append_left (by omega), List.getElem?_take, if_pos h1]
  · rw [List.getElem?_append_right (by omega), hl]
    by_cases h2 : i < off + b.length
    · rw [if_pos ⟨by omega, h2⟩, List.getElem?_append_left (by omega)]
    · rw [if_neg (by omega), List.getElem?_append_right (by omega), List.getElem?_drop]
      congr 1; omega

theorem stored_length (r : Bytes) (off : Nat) (b : Bytes) (h : off + b.length ≤ r.length) :
    (r.take off ++ b ++ r.drop (off + b.length)).length = r.length := by
  simp only [List.length_append, List.length_take, List.length_drop]; omega

theorem slice_ext {r r' : Bytes} {off n : Nat} (h : ∀ i, off ≤ i → i < off + n → r'[i]? = r[i]?) :
    (r'.drop off).take n = (r.drop off).take n := by
  apply List.ext_getElem?
  intro i
  rw [List.getElem?_take, List.getElem?_take]
  split
  · rw [List.getElem?_drop, List.getElem?_drop, h _ (by omega) (by omega)]
  · rfl

theorem stored_slice (r : Bytes) (off : Nat) (b : Bytes) (h : off + b.length ≤ r.length) :
    ((r.take off ++ b ++ r.drop (off + b.length)).drop off).take b.length = b := by
  have hl : (r.take off).length = off := by rw [List.length_take]; omega
  rw [List.append_assoc, List.drop_append_of_le_length (by omega), List.drop_of_length_le (by omega), List.nil_append,
    List.take_append_of_le_length (Nat.le_refl _), List.take_length]

/-- **C34 (fields that cannot be null).** Storing a value into such a field of a record:
the field then has that value and is not null, the record keeps its length and every byte
outside the field, so every field that shares no byte with it is unchanged. -/
theorem set_data_partial (r : Bytes) (f : Slot) (v : Bytes) (hn : f.nullable = false) (hf : f.offset + f.width ≤ r.length)
    (hv : f.width ≤ v.length) :
    ∃ r', setData r f v = .ok r' ∧ r'.length = r.length ∧ get r' f f.width = .ok (some (v.take f.width)) ∧
      isNull r' f = .ok false ∧ (∀ i, ¬ (f.offset ≤ i ∧ i < f.offset + f.size) → r'[i]? = r[i]?) ∧
      ∀ g, Spec.SlotsApart f g → Spec.raw r' g = Spec.raw r g := by
  have hsz : f.size = f.width := by simp [Slot.size, hn]
  have hdo : f.dataOff = f.offset := by simp [Slot.dataOff, hn]
  have hvl : (v.take f.width).length = f.width := by rw [List.length_take]; omega
  have hst : f.offset + (v.take f.width).length ≤ r.length := by omega
  have hbytes : ∀ i, ¬ (f.offset ≤ i ∧ i < f.offset + f.size) →
      (r.take f.offset ++ v.take f.width ++ r.drop (f.offset + (v.take f.width).length))[i]? = r[i]? := by
    intro i hi
    rw [stored_get _ _ _ hst, if_neg (by omega)]
  refine ⟨r.take f.offset ++ v.take f.width ++ r.drop (f.offset + (v.take f.width).length), ?_, stored_length _ _ _ hst, ?_, ?_,
    hbytes, ?_⟩
  · unfold setData
    simp only [hn, Bool.false_eq_true, if_false, Outcome.ok_bind]
    rw [hsz, load_ok (by omega), List.drop_zero]
    simp only [Outcome.ok_bind]
    rw [hdo, store_ok hst]
  · unfold get isNull
    simp only [hn, Bool.false_eq_true, if_false, Outcome.ok_bind]
    rw [hdo, load_ok (by rw [stored_length _ _ _ hst]; omega)]
    simp only [Outcome.ok_bind]
    have := stored_slice r f.offset (v.take f.width) hst
    rw [hvl] at this
    rw [hvl, this]
  · simp [isNull, hn]
  · intro g hg
    unfold Spec.raw
    apply slice_ext
    intro i h1 h2
    apply hbytes
    unfold Spec.SlotsApart Slot.size at hg
    unfold Slot.size
    omega

example : setData [0, 1, 2, 3, 4, 5] ⟨2, false, 2⟩ [9, 8, 7] = .ok [0, 1, 9, 8, 4, 5] := by decide

/-- **C34, counterexample in general.** For a field that can be null one byte too many is
copied: the value arrives and the field is not null, but the byte behind the field (the
first byte of whatever field follows) is replaced by the byte behind the value in the
caller's buffer. -/
theorem set_data_nullable_spills (r : Bytes) (f : Slot) (v : Bytes) (hn : f.nullable = true)
    (hf : f.offset + f.size < r.length) (hv : f.width < v.length) :
    ∃ r', setData r f v = .ok r' ∧ r'.length = r.length ∧ get r' f f.width = .ok (some (v.take f.width)) ∧
      r'[f.offset + f.size]? = v[f.width]? ∧
      ∀ i, ¬ (f.offset ≤ i ∧ i ≤ f.offset + f.size) → r'[i]? = r[i]? := by
  have hsz : f.size = 1 + f.width := by simp [Slot.size, hn]
  have hdo : f.dataOff = f.offset + 1 := by simp [Slot.dataOff, hn]
  have hs1 : f.offset + [(1 : UInt8)].length ≤ r.length := by simp; omega
  generalize hr1 : r.take f.offset ++ [(1 : UInt8)] ++ r.drop (f.offset + [(1 : UInt8)].length) = r1
  have hl1 : r1.length = r.length := by rw [← hr1]; exact stored_length _ _ _ hs1
  have hg1 : ∀ i, r1[i]? = if f.offset ≤ i ∧ i < f.offset + 1 then [(1 : UInt8)][i - f.offset]? else r[i]? := by
    intro i; rw [← hr1, stored_get _ _ _ hs1]; rfl
  have hvl : (v.take f.size).length = f.size := by rw [List.length_take]; omega
  have hs2 : (f.offset + 1) + (v.take f.size).length ≤ r1.length := by omega
  generalize hr2 : r1.take (f.offset + 1) ++ v.take f.size ++ r1.drop (f.offset + 1 + (v.take f.size).length) = r2
  have hl2 : r2.length = r.length := by rw [← hr2, stored_length _ _ _ hs2, hl1]
  have hg2 : ∀ i, r2[i]? = if f.offset + 1 ≤ i ∧ i < f.offset + 1 + f.size then (v.take f.size)[i - (f.offset + 1)]? else r1[i]? := by
    intro i; rw [← hr2, stored_get _ _ _ hs2, hvl]
  refine ⟨r2, ?_, hl2, ?_, ?_, ?_⟩
  · unfold setData
    simp only [hn, if_true]
    rw [store_ok hs1, hr1]
    simp only [Outcome.ok_bind]
    rw [load_ok (by omega), List.drop_zero]
    simp only [Outcome.ok_bind]
    rw [hdo, store_ok hs2, hr2]
  · have hfl : (r2.drop f.offset).take 1 = [1] := by
      apply List.ext_getElem?
      intro i
      rw [List.getElem?_take, List.getElem?_drop]
      split
      · have : i = 0 := by omega
        subst this
        rw [hg2, if_neg (by omega), hg1, if_pos (by omega)]
        simp
      · cases i with
        | zero => omega
        | succ i => rfl
    unfold get isNull
    simp only [hn, if_true]
    rw [load_ok (by omega), hfl]
    simp only [Outcome.ok_bind]
    rw [hdo]
    have : decide ([(1 : UInt8)] = [0]) = false := by decide
    rw [this, load_ok (by omega)]
    simp only [Outcome.ok_bind, Bool.false_eq_true, if_false, Outcome.ok.injEq, Option.some.injEq]
    apply List.ext_getElem?
    intro i
    rw [List.getElem?_take, List.getElem?_take]
    split
    · rw [List.getElem?_drop, hg2, if_pos (by omega), List.getElem?_take, if_pos (by omega)]
      congr 1; omega
    · rfl
  · rw [hg2, if_pos (by omega), List.getElem?_take, if_pos (by omega)]
    congr 1; omega
  · intro i hi
    rw [hg2, if_neg (by omega), hg1, if_neg (by omega)]

example : setData [0, 0, 0, 0, 4, 5] ⟨1, true, 2⟩ [9, 8, 7] = .ok [0, 1, 9, 8, 7, 5] := by decide

/-- … and if the caller's buffer holds just the value, or the field is the last one of
the record, the copy runs over the end of a buffer. -/
theorem set_data_nullable_ub (r : Bytes) (f : Slot) (v : Bytes) (hn : f.nullable = true) (hf : f.offset + f.size ≤ r.length)
    (h : v.length = f.width ∨ f.offset + f.size = r.length) : setData r f v = .ub := by
  have hsz : f.size = 1 + f.width := by simp [Slot.size, hn]
  have hdo : f.dataOff = f.offset + 1 := by simp [Slot.dataOff, hn]
  have hs1 : f.offset + [(1 : UInt8)].length ≤ r.length := by simp; omega
  unfold setData
  simp only [hn, if_true]
  rw [store_ok hs1]
  simp only [Outcome.ok_bind]
  by_cases hv : v.length < f.size
  · unfold load; rw [if_neg (by omega)]; rfl
  · rw [load_ok (by omega)]
    simp only [Outcome.ok_bind]
    unfold store
    rw [if_neg (by
      rw [stored_length _ _ _ hs1, List.drop_zero, List.length_take, hdo]
      omega)]

example : setData [0, 0, 0, 0] ⟨1, true, 2⟩ [9, 8] = .ub := by decide

/-- **C34 for `set<T>`.** Storing a value of the width of the field: the bytes of the value
arrive, everything else stays, and the field reads as the value exactly if it was not
null before. -/
theorem set_value (r : Bytes) (f : Slot) (v : Bytes) (hf : f.offset + f.size ≤ r.length) (hv : v.length = f.width) :
    ∃ r' nul, set r f v = .ok r' ∧ r'.length = r.length ∧ isNull r f = .ok nul ∧
      get r' f f.width = .ok (if nul then none else some v) ∧
      (∀ i, ¬ (f.offset ≤ i ∧ i < f.offset + f.size) → r'[i]? = r[i]?) ∧
      ∀ g, Spec.SlotsApart f g → Spec.raw r' g = Spec.raw r g := by
  have hds : f.dataOff + f.width = f.offset + f.size := by
    unfold Slot.dataOff Slot.size; omega
  have hdo : f.offset ≤ f.dataOff := by unfold Slot.dataOff; omega
  have hst : f.dataOff + v.length ≤ r.length := by omega
  generalize hr : r.take f.dataOff ++ v ++ r.drop (f.dataOff + v.length) = r'
  have hl : r'.length = r.length := by rw [← hr]; exact stored_length _ _ _ hst
  have hg : ∀ i, r'[i]? = if f.dataOff ≤ i ∧ i < f.dataOff + v.length then v[i - f.dataOff]? else r[i]? := by
    intro i; rw [← hr, stored_get _ _ _ hst]
  have hb : ∀ i, ¬ (f.offset ≤ i ∧ i < f.offset + f.size) → r'[i]? = r[i]? := by
    intro i hi; rw [hg, if_neg (by omega)]
  have hval : load r' f.dataOff f.width = .ok v := by
    rw [load_ok (by omega)]
    have := stored_slice r f.dataOff v hst
    rw [hr, hv] at this
    rw [this]
  have hnul : ∃ nul, isNull r f = .ok nul ∧ isNull r' f = .ok nul := by
    unfold isNull
    by_cases hn : f.nullable = true
    · have h1 : f.dataOff = f.offset + 1 := by simp [Slot.dataOff, hn]
      have h2 : 1 ≤ f.size := by simp [Slot.size, hn]
      simp only [hn, if_true]
      rw [load_ok (by omega), load_ok (by omega)]
      have : (r'.drop f.offset).take 1 = (r.drop f.offset).take 1 := by
        apply slice_ext
        intro i _ _
        rw [hg, if_neg (by omega)]
      rw [this]
      exact ⟨_, rfl, rfl⟩
    · simp only [hn, Bool.false_eq_true, if_false]
      exact ⟨false, rfl, rfl⟩
  obtain ⟨nul, n1, n2⟩ := hnul
  refine ⟨r', nul, ?_, hl, n1, ?_, hb, ?_⟩
  · unfold set; rw [store_ok hst, hr]
  · unfold get
    rw [n2]
    simp only [Outcome.ok_bind]
    cases nul with
    | true => rfl
    | false =>
      rw [hval]; rfl
  · intro g hg'
    unfold Spec.raw
    apply slice_ext
    intro i h1 h2
    apply hb
    unfold Spec.SlotsApart at hg'
    rw [show g.size = (if g.nullable = true then 1 else 0) + g.width from rfl] at hg'
    omega

/-- **C34, counterexample.** A value stored with `set<T>` into a field that was null is
not seen: the field is still null. -/
theorem set_on_null_is_lost :
    set [0, 0, 0, 0, 0] ⟨1, true, 2⟩ [9, 8] = .ok [0, 0, 9, 8, 0] ∧ get [0, 0, 9, 8, 0] ⟨1, true, 2⟩ 2 = .ok none := by
  decide

/-- **C34.** Setting a field to null: it is null, and every byte but its flag stays; a
field that cannot be null is refused. -/
theorem set_null_field (r : Bytes) (f : Slot) (hf : f.offset + f.size ≤ r.length) :
    (f.nullable = false → setNull r f = .throw) ∧
    (f.nullable = true → ∃ r', setNull r f = .ok r' ∧ r'.length = r.length ∧ isNull r' f = .ok true ∧
      ∀ i, i ≠ f.offset → r'[i]? = r[i]?) := by
  refine ⟨fun hn => by simp [setNull, hn], fun hn => ?_⟩
  have h2 : 1 ≤ f.size := by simp [Slot.size, hn]
  have hst : f.offset + [(0 : UInt8)].length ≤ r.length := by simp; omega
  refine ⟨_, by simp only [setNull, hn, if_true]; exact store_ok hst, stored_length _ _ _ hst, ?_, ?_⟩
  · unfold isNull
    simp only [hn, if_true]
    rw [load_ok (by rw [stored_length _ _ _ hst]; omega)]
    have := stored_slice r f.offset [0] hst
    simp only [List.length_singleton] at this ⊢
    rw [this]
    simp
  · intro i hi
    rw [stored_get _ _ _ hst, if_neg (by simp only [List.length_singleton]; omega)]

example : setNull [0, 1, 5, 6] ⟨1, true, 2⟩ = .ok [0, 0, 5, 6] := by decide

/-- How a record sees a field of its table. -/
def slotOf (f : Field) : Slot := ⟨f.offset.toNat, f.decl.nullExists, Spec.valueBytes f.decl⟩

/-- **C34 for a table.** In a record of a table, storing into one of the fields leaves
every other field of the table, and the removal mark, as they were. -/
theorem set_field_of_table_partial (fs gs : List Field) (len : Int) (hs : ∀ f ∈ fs, Spec.Sane f.decl)
    (hb : 1 + Spec.total fs < 2147483648) (h : layout fs.length fs = .ok (gs, len)) (r v : Bytes) (hr : (r.length : Int) = len)
    (i j : Nat) (f g : Field) (hi : gs[i]? = some f) (hj : gs[j]? = some g) (hij : i ≠ j) (hn : f.decl.nullExists = false)
    (hv : Spec.valueBytes f.decl ≤ v.length) :
    ∃ r', setData r (slotOf f) v = .ok r' ∧ get r' (slotOf f) (Spec.valueBytes f.decl) = .ok (some (v.take (Spec.valueBytes f.decl))) ∧
      Spec.raw r' (slotOf g) = Spec.raw r (slotOf g) ∧ isRemoved r' = isRemoved r := by
  obtain ⟨h1, h2, h3, _⟩ := layout_disjoint_partial fs gs len hs hb h
  obtain ⟨f1, f2⟩ := h3 f (List.mem_of_getElem? hi)
  obtain ⟨g1, g2⟩ := h3 g (List.mem_of_getElem? hj)
  have hap : Spec.Apart f g := by
    rw [List.pairwise_iff_getElem] at h1
    obtain ⟨ki, rfl⟩ := List.getElem?_eq_some_iff.mp hi
    obtain ⟨kj, rfl⟩ := List.getElem?_eq_some_iff.mp hj
    rcases Nat.lt_or_ge i j with hlt | hge
    · exact h1 i j ki kj hlt
    · exact apart_symm (h1 j i kj ki (by omega))
  have sf : (slotOf f).size = Spec.fieldBytes f.decl := rfl
  have sg : (slotOf g).size = Spec.fieldBytes g.decl := rfl
  have of : ((slotOf f).offset : Int) = f.offset := Int.toNat_of_nonneg (by omega)
  have og : ((slotOf g).offset : Int) = g.offset := Int.toNat_of_nonneg (by omega)
  have hw : (slotOf f).width = Spec.fieldBytes f.decl := by
    simp [slotOf, Spec.fieldBytes, hn]
  obtain ⟨r', e1, e2, e3, e4, e5, e6⟩ := set_data_partial r (slotOf f) v hn (by omega) hv
  refine ⟨r', e1, e3, e6 _ ?_, ?_⟩
  · unfold Spec.SlotsApart
    unfold Spec.Apart at hap
    omega
  · unfold isRemoved
    rw [load_ok (by omega), load_ok (by omega)]
    have := slice_ext (r := r) (r' := r') (off := 0) (n := 1) (fun i _ hi => e5 i (by omega))
    rw [this]

/-- C34. Copying a record of a table: it takes all bytes of another record of the same table
and length, and refuses every other record. -/
theorem assign_table (t : Nat) (other : Option Nat) (r r' : Bytes) :
    assign (some t) other r r' = if r'.length = r.length ∧ other = some t then .ok r' else .throw := by
  unfold assign
  by_cases h : r'.length = r.length ∧ other = some t
  · rw [if_neg (by rintro ⟨_, h1 | h1⟩; exacts [h1 h.1, h1 h.2]), if_pos h, load_ok (by omega), ← h.1]
    simp
  · rw [if_neg h, if_pos]
    refine ⟨by simp, ?_⟩
    by_cases h1 : r'.length = r.length
    · exact .inr (fun h2 => h ⟨h1, h2⟩)
    · exact .inl h1

/-- C34. A record of no table takes the first bytes of a record at least as long as it;
from a shorter one it reads past the end. -/
theorem assign_free (other : Option Nat) (r r' : Bytes) :
    assign none other r r' = if r.length ≤ r'.length then .ok (r'.take r.length) else .ub := by
  unfold assign
  rw [if_neg (by rintro ⟨h, _⟩; exact h rfl)]
  unfold load
  simp

example : assign (some 1) (some 1) [0, 1] [2, 3] = .ok [2, 3] ∧ assign (some 1) (some 2) [0, 1] [2, 3] = .throw ∧
    assign none none [0, 1] [2] = .ub := by decide +kernel

/-! ## Scanning (C35) -/

/-- **C35.** A table is opened exactly if its data file consists of whole records and is
shorter than 4 GiB; then the number of records is their number. -/
theorem physNum_iff (t : Tab) (hr : 0 < t.reclen) (n : Nat) : physNum t = .ok n ↔ Spec.Whole t n := by
  unfold physNum Spec.Whole
  dsimp only
  have hd := Nat.div_mul_le_self t.file.length t.reclen
  constructor
  · intro h
    split at h
    · cases h
    · rename_i hh
      cases h
      have hh' : t.file.length / t.reclen % 2 ^ 32 * t.reclen % 2 ^ 32 = t.file.length := Classical.not_not.mp hh
      have hlt : t.file.length < 2 ^ 32 := by rw [← hh']; exact Nat.mod_lt _ (by decide)
      have hle : t.file.length / t.reclen ≤ t.file.length := Nat.div_le_self _ _
      rw [Nat.mod_eq_of_lt (a := t.file.length / t.reclen) (by omega)] at hh' ⊢
      rw [Nat.mod_eq_of_lt (by omega)] at hh'
      exact ⟨hr, hh'.symm, hlt⟩
  · rintro ⟨_, h1, h2⟩
    have e : t.file.length / t.reclen = n := by rw [h1]; exact Nat.mul_div_cancel _ hr
    have hn : n ≤ t.file.length := by rw [h1]; exact Nat.le_mul_of_pos_right _ hr
    rw [e, Nat.mod_eq_of_lt (a := n) (by omega), ← h1, Nat.mod_eq_of_lt h2, if_neg (by simp)]

theorem record_bound {t : Tab} {n i : Nat} (h : Spec.Whole t n) (hi : i < n) : i * t.reclen + t.reclen ≤ t.file.length := by
  rw [h.2.1, ← Nat.succ_mul]
  exact Nat.mul_le_mul_right _ hi

theorem getRecord_ok {t : Tab} {n i : Nat} (h : Spec.Whole t n) (hi : i < n) : getRecord t i = .ok (Spec.record t i) := by
  have hb := record_bound h hi
  have := h.2.2
  have := h.1
  unfold getRecord Blob.getData Spec.record
  rw [Nat.mod_eq_of_lt (by omega), if_pos hb]

theorem record_length {t : Tab} {n i : Nat} (h : Spec.Whole t n) (hi : i < n) : (Spec.record t i).length = t.reclen := by
  have hb := record_bound h hi
  unfold Spec.record
  rw [List.length_take, List.length_drop]; omega

theorem isRemoved_of (x : Bytes) (h : x ≠ []) : isRemoved x = .ok (decide (x.head? ≠ some 0)) := by
  cases x with
  | nil => exact absurd rfl h
  | cons a l =>
    unfold isRemoved
    rw [load_ok (by simp), List.drop_zero]
    simp

theorem isRemoved_ok {t : Tab} {n i : Nat} (h : Spec.Whole t n) (hi : i < n) :
    isRemoved (Spec.record t i) = .ok (!decide (Spec.Live t i)) := by
  have hl := record_length h hi
  have := h.1
  rw [isRemoved_of _ (by intro e; rw [e] at hl; simp at hl; omega)]
  by_cases hlv : Spec.Live t i
  · rw [decide_eq_true hlv, decide_eq_false (by intro hh; exact hh hlv)]; rfl
  · rw [decide_eq_false hlv, decide_eq_true (by exact hlv)]; rfl

/-- **C35.** A record number behind the table is refused, as long as the position fits 32
bits. -/
theorem record_behind_refused_partial (t : Tab) (n i : Nat) (h : Spec.Whole t n) (hi : n ≤ i) (hp : i * t.reclen < 2 ^ 32) :
    getRecord t i = .throw := by
  have h1 : n * t.reclen ≤ i * t.reclen := Nat.mul_le_mul_right _ hi
  have h2 := h.2.1
  have := h.1
  unfold getRecord Blob.getData
  rw [Nat.mod_eq_of_lt hp, if_neg (by omega)]

/-- **C35, counterexample.** Otherwise the position wraps around and another record is
returned: record 536870912 of a table with one record. -/
theorem record_number_wraps :
    Spec.Whole ⟨[0, 1, 2, 3, 4, 5, 6, 7], 8⟩ 1 ∧ getRecord ⟨[0, 1, 2, 3, 4, 5, 6, 7], 8⟩ 536870912 = .ok [0, 1, 2, 3, 4, 5, 6, 7] := by
  refine ⟨⟨by decide, by decide, by decide⟩, by decide⟩

theorem liveOf_cons_pos {t : Tab} {i : Nat} {l : List Nat} (h : Spec.Live t i) :
    Spec.liveOf t (i :: l) = (i, Spec.record t i) :: Spec.liveOf t l := by
  unfold Spec.liveOf; rw [List.filter_cons_of_pos (by simpa using h)]; rfl

theorem liveOf_cons_neg {t : Tab} {i : Nat} {l : List Nat} (h : ¬ Spec.Live t i) :
    Spec.liveOf t (i :: l) = Spec.liveOf t l := by
  unfold Spec.liveOf; rw [List.filter_cons_of_neg (by simpa using h)]

/-- Where the search stops. -/
theorem findFirst_ok {t : Tab} {n : Nat} (h : Spec.Whole t n) (hn : n < 2 ^ 32) : ∀ (k i fuel : Nat) (b : Bytes), i + k = n → k < fuel →
    ∃ it, findFirst t n fuel ⟨i, false, b⟩ = .ok (some it) ∧
      ((it.eof = true ∧ Spec.liveOf t (List.range' i k) = []) ∨
       (it.eof = false ∧ i ≤ it.num ∧ it.num < n ∧ it.buf = Spec.record t it.num ∧
        Spec.liveOf t (List.range' i k) = (it.num, it.buf) :: Spec.liveOf t (List.range' (it.num + 1) (n - (it.num + 1))))) := by
  intro k
  induction k with
  | zero =>
    intro i fuel b hi hf
    cases fuel with
    | zero => omega
    | succ fuel =>
      refine ⟨⟨i, true, b⟩, ?_, Or.inl ⟨rfl, rfl⟩⟩
      rw [findFirst, if_pos (by simp only; omega)]
  | succ k ih =>
    intro i fuel b hi hf
    cases fuel with
    | zero => omega
    | succ fuel =>
      have hin : i < n := by omega
      rw [findFirst]
      dsimp only
      rw [if_neg (by omega), if_neg (by simp), getRecord_ok h hin]
      simp only [Outcome.ok_bind]
      rw [isRemoved_ok h hin]
      simp only [Outcome.ok_bind]
      rw [List.range'_succ]
      by_cases hl : Spec.Live t i
      · simp only [hl, decide_true, Bool.not_true, Bool.false_eq_true, if_false]
        refine ⟨_, rfl, Or.inr ⟨rfl, Nat.le_refl _, hin, rfl, ?_⟩⟩
        dsimp only
        rw [liveOf_cons_pos hl, show n - (i + 1) = k by omega]
      · simp only [hl, decide_false, Bool.not_false, if_true]
        rw [Nat.mod_eq_of_lt (a := i + 1) (by omega)]
        obtain ⟨it, e1, e2⟩ := ih (i + 1) fuel (Spec.record t i) (by omega) (by omega)
        refine ⟨it, e1, ?_⟩
        rw [liveOf_cons_neg hl]
        rcases e2 with e2 | ⟨a1, a2, a3⟩
        · exact Or.inl e2
        · exact Or.inr ⟨a1, by omega, a3⟩

theorem iterLoop_ok {t : Tab} {n : Nat} (h : Spec.Whole t n) (hn : n < 2 ^ 32) (fuel : Nat) (hf : n < fuel) : ∀ (m : Nat) (it : Iter),
    (it.eof = true ∧ 0 < m ∨ it.eof = false ∧ it.num < n ∧ n - it.num < m) →
    iterLoop t n fuel m it = .ok (some (if it.eof then [] else (it.num, it.buf) :: Spec.liveOf t (List.range' (it.num + 1) (n - (it.num + 1))))) := by
  intro m
  induction m with
  | zero => intro it hh; omega
  | succ m ih =>
    intro it hh
    rw [iterLoop]
    rcases hh with ⟨h1, _⟩ | ⟨h1, h2, h3⟩
    · simp [h1]
    · rw [if_neg (by simp [h1]), if_neg (by simp [h1])]
      obtain ⟨it', e1, e2⟩ := findFirst_ok h hn (n - (it.num + 1)) (it.num + 1) fuel it.buf (by omega) (by omega)
      have e1' : iterNext t n fuel it = .ok (some it') := by
        unfold iterNext
        rw [Nat.mod_eq_of_lt (a := it.num + 1) (by omega), h1]
        exact e1
      rw [e1']
      simp only [Outcome.ok_bind]
      have := ih it' (by
        rcases e2 with ⟨a1, _⟩ | ⟨a1, a2, a3, _⟩
        · exact Or.inl ⟨a1, by omega⟩
        · exact Or.inr ⟨a1, a3, by omega⟩)
      rw [this]
      simp only [Outcome.ok_bind, Outcome.ok.injEq, Option.some.injEq, List.cons.injEq, true_and]
      rcases e2 with ⟨a1, a2⟩ | ⟨a1, a2, a3, a4, a5⟩
      · rw [a1, if_pos rfl, a2]
      · rw [a1, if_neg (by simp), a5]

/-- **C35.** Iterating over a table visits exactly its live records, each once, in the
order of their numbers, with their contents, and ends. -/
theorem scan_visits_live (t : Tab) (n : Nat) (h : Spec.Whole t n) (fuel : Nat) (hf : n + 1 < fuel) :
    scan t n fuel = .ok (some (Spec.liveOf t (List.range n))) := by
  have hn : n < 2 ^ 32 := by
    have : n ≤ t.file.length := by rw [h.2.1]; exact Nat.le_mul_of_pos_right _ h.1
    have := h.2.2
    omega
  obtain ⟨it, e1, e2⟩ := findFirst_ok h hn n 0 fuel [] (by omega) (by omega)
  unfold scan iterStart
  rw [e1]
  simp only [Outcome.ok_bind]
  rw [iterLoop_ok h hn fuel (by omega) fuel it (by
    rcases e2 with ⟨a1, _⟩ | ⟨a1, a2, a3, _⟩
    · exact Or.inl ⟨a1, by omega⟩
    · exact Or.inr ⟨a1, a3, by omega⟩), List.range_eq_range']
  rcases e2 with ⟨a1, a2⟩ | ⟨a1, a2, a3, a4, a5⟩
  · rw [a1, if_pos rfl, a2]
  · rw [a1, if_neg (by simp), a5]

/-- Each number once, in order. -/
theorem live_sorted (t : Tab) (n : Nat) : ((Spec.liveOf t (List.range n)).map Prod.fst).Pairwise (· < ·) ∧
    ∀ i, i ∈ (Spec.liveOf t (List.range n)).map Prod.fst ↔ i < n ∧ Spec.Live t i := by
  have : (Spec.liveOf t (List.range n)).map Prod.fst = (List.range n).filter (fun i => decide (Spec.Live t i)) := by
    unfold Spec.liveOf
    rw [List.map_map]
    exact List.map_id _
  rw [this]
  refine ⟨List.Pairwise.filter _ List.pairwise_lt_range, ?_⟩
  intro i
  simp

theorem fillFrom_ok {t : Tab} {n : Nat} (h : Spec.Whole t n) : ∀ (k i : Nat), i + k = n →
    fillFrom t k i = .ok ((Spec.liveOf t (List.range' i k)).map Prod.fst) := by
  intro k
  induction k with
  | zero => intro i _; rfl
  | succ k ih =>
    intro i hi
    rw [fillFrom, getRecord_ok h (by omega)]
    simp only [Outcome.ok_bind]
    rw [isRemoved_ok h (by omega)]
    simp only [Outcome.ok_bind]
    rw [ih (i + 1) (by omega), List.range'_succ]
    simp only [Outcome.ok_bind]
    by_cases hl : Spec.Live t i
    · rw [liveOf_cons_pos hl]; simp [hl]
    · rw [liveOf_cons_neg hl]; simp [hl]

/-- **C35.** The record index of a table lists the same records. -/
theorem record_index_lists_live (t : Tab) (n : Nat) (h : Spec.Whole t n) :
    fillIndex t n = .ok ((Spec.liveOf t (List.range n)).map Prod.fst) := by
  unfold fillIndex
  rw [fillFrom_ok h n 0 (by omega), List.range_eq_range']

def sampleTab : Tab := ⟨[0, 10, 11, 1, 20, 21, 0, 30, 31, 1, 40, 41], 3⟩

example : Spec.Whole sampleTab 4 := ⟨by decide, by decide, by decide⟩
example : scan sampleTab 4 6 = .ok (some [(0, [0, 10, 11]), (2, [0, 30, 31])]) := by decide
example : fillIndex sampleTab 4 = .ok [0, 2] := by decide

/-! ## Iterating through an index (C40) -/

/-- What an iteration over the record numbers `ix` of an index sees: live records, in the
order of the index, up to the first number that is not a record of the table. -/
def Spec.indexed (t : Tab) (n : Nat) (ix : List Nat) : List Bytes :=
  (Spec.liveOf t (ix.takeWhile (fun p => decide (p < n)))).map Prod.snd

theorem indexed_stop {t : Tab} {n p : Nat} {ix : List Nat} (h : ¬ p < n) : Spec.indexed t n (p :: ix) = [] := by
  unfold Spec.indexed
  rw [List.takeWhile_cons, if_neg (by simpa using h)]; rfl

theorem indexed_live {t : Tab} {n p : Nat} {ix : List Nat} (h : p < n) (hl : Spec.Live t p) :
    Spec.indexed t n (p :: ix) = Spec.record t p :: Spec.indexed t n ix := by
  unfold Spec.indexed
  rw [List.takeWhile_cons, if_pos (by simpa using h), liveOf_cons_pos hl]; rfl

theorem indexed_dead {t : Tab} {n p : Nat} {ix : List Nat} (h : p < n) (hl : ¬ Spec.Live t p) :
    Spec.indexed t n (p :: ix) = Spec.indexed t n ix := by
  unfold Spec.indexed
  rw [List.takeWhile_cons, if_pos (by simpa using h), liveOf_cons_neg hl]

theorem findIndexed_ok {t : Tab} {n : Nat} (h : Spec.Whole t n) (ix : List Nat) (hx : ix.length < 2 ^ 32) :
    ∀ (k i fuel : Nat) (b : Bytes), i + k = ix.length → k < fuel →
    ∃ it, findIndexed t n ix fuel ⟨i, false, b⟩ = .ok (some it) ∧
      ((it.eof = true ∧ Spec.indexed t n (ix.drop i) = []) ∨
       (it.eof = false ∧ i ≤ it.num ∧ it.num < ix.length ∧
        Spec.indexed t n (ix.drop i) = it.buf :: Spec.indexed t n (ix.drop (it.num + 1)))) := by
  intro k
  induction k with
  | zero =>
    intro i fuel b hi hf
    cases fuel with
    | zero => omega
    | succ fuel =>
      refine ⟨⟨i, true, b⟩, ?_, Or.inl ⟨rfl, ?_⟩⟩
      · rw [findIndexed, if_pos (by simp only; omega)]
      · rw [List.drop_of_length_le (by omega)]; rfl
  | succ k ih =>
    intro i fuel b hi hf
    cases fuel with
    | zero => omega
    | succ fuel =>
      have hlt : i < ix.length := by omega
      have hd : ix.drop i = ix[i] :: ix.drop (i + 1) := List.drop_eq_getElem_cons hlt
      rw [findIndexed]
      dsimp only
      rw [if_neg (by omega), List.getElem?_eq_getElem hlt]
      dsimp only
      by_cases hp : ix[i] < n
      · rw [if_neg (by omega), if_neg (by simp), getRecord_ok h hp]
        simp only [Outcome.ok_bind]
        rw [isRemoved_ok h hp]
        simp only [Outcome.ok_bind]
        by_cases hl : Spec.Live t ix[i]
        · simp only [hl, decide_true, Bool.not_true, Bool.false_eq_true, if_false]
          refine ⟨_, rfl, Or.inr ⟨rfl, Nat.le_refl _, hlt, ?_⟩⟩
          dsimp only
          rw [hd, indexed_live hp hl]
        · simp only [hl, decide_false, Bool.not_false, if_true]
          rw [Nat.mod_eq_of_lt (a := i + 1) (by omega)]
          obtain ⟨it, e1, e2⟩ := ih (i + 1) fuel (Spec.record t ix[i]) (by omega) (by omega)
          refine ⟨it, e1, ?_⟩
          rw [hd, indexed_dead hp hl]
          rcases e2 with e2 | ⟨a1, a2, a3⟩
          · exact Or.inl e2
          · exact Or.inr ⟨a1, by omega, a3⟩
      · rw [if_pos (by omega)]
        refine ⟨_, rfl, Or.inl ⟨rfl, ?_⟩⟩
        rw [hd, indexed_stop hp]

theorem indexedLoop_ok {t : Tab} {n : Nat} (h : Spec.Whole t n) (ix : List Nat) (hx : ix.length < 2 ^ 32) (fuel : Nat) (hf : ix.length < fuel) :
    ∀ (m : Nat) (it : Iter), (it.eof = true ∧ 0 < m ∨ it.eof = false ∧ it.num < ix.length ∧ ix.length - it.num < m) →
    ∃ l, indexedLoop t n ix fuel m it = .ok (some l) ∧
      l.map Prod.snd = if it.eof then [] else it.buf :: Spec.indexed t n (ix.drop (it.num + 1)) := by
  intro m
  induction m with
  | zero => intro it hh; omega
  | succ m ih =>
    intro it hh
    rw [indexedLoop]
    rcases hh with ⟨h1, _⟩ | ⟨h1, h2, h3⟩
    · exact ⟨[], by simp [h1], by simp [h1]⟩
    · rw [if_neg (by simp [h1]), if_neg (by simp [h1])]
      obtain ⟨it', e1, e2⟩ := findIndexed_ok h ix hx (ix.length - (it.num + 1)) (it.num + 1) fuel it.buf (by omega) (by omega)
      rw [Nat.mod_eq_of_lt (a := it.num + 1) (by omega), h1, e1]
      simp only [Outcome.ok_bind]
      obtain ⟨l, i1, i2⟩ := ih it' (by
        rcases e2 with ⟨a1, _⟩ | ⟨a1, a2, a3, _⟩
        · exact Or.inl ⟨a1, by omega⟩
        · exact Or.inr ⟨a1, a3, by omega⟩)
      rw [i1]
      simp only [Outcome.ok_bind]
      refine ⟨_, rfl, ?_⟩
      rw [List.map_cons, i2]
      rcases e2 with ⟨a1, a2⟩ | ⟨a1, a2, a3, a4⟩
      · rw [a1, if_pos rfl, a2]
      · rw [a1, if_neg (by simp), a4]

/-- **C40.** Iterating over a table through an index, whatever record numbers the index
holds: the records seen are the live ones, in the order of the index, up to the first
number outside the table; the iteration ends and reads nothing outside the table. -/
theorem indexed_scan (t : Tab) (n : Nat) (h : Spec.Whole t n) (ix : List Nat) (hx : ix.length < 2 ^ 32) (fuel : Nat)
    (hf : ix.length + 1 < fuel) :
    ∃ l, scanIndexed t n ix fuel = .ok (some l) ∧ l.map Prod.snd = Spec.indexed t n ix := by
  obtain ⟨it, e1, e2⟩ := findIndexed_ok h ix hx ix.length 0 fuel [] (by omega) (by omega)
  obtain ⟨l, i1, i2⟩ := indexedLoop_ok h ix hx fuel (by omega) fuel it (by
    rcases e2 with ⟨a1, _⟩ | ⟨a1, a2, a3, _⟩
    · exact Or.inl ⟨a1, by omega⟩
    · exact Or.inr ⟨a1, a3, by omega⟩)
  refine ⟨l, ?_, ?_⟩
  · unfold scanIndexed
    rw [e1]
    exact i1
  · rw [i2]
    rw [List.drop_zero] at e2
    rcases e2 with ⟨a1, a2⟩ | ⟨a1, a2, a3, a4⟩
    · rw [a1, if_pos rfl, a2]
    · rw [a1, if_neg (by simp), a4]

/-- If the index lists exactly the live records, the iteration sees each of them once. -/
theorem indexed_scan_all (t : Tab) (n : Nat) (h : Spec.Whole t n) (ix : List Nat) (hx : ix.length < 2 ^ 32) (fuel : Nat)
    (hf : ix.length + 1 < fuel) (hp : ix.Perm ((Spec.liveOf t (List.range n)).map Prod.fst)) :
    ∃ l, scanIndexed t n ix fuel = .ok (some l) ∧ l.map Prod.snd = ix.map (Spec.record t) := by
  obtain ⟨l, e1, e2⟩ := indexed_scan t n h ix hx fuel hf
  refine ⟨l, e1, ?_⟩
  have hall : ∀ p ∈ ix, p < n ∧ Spec.Live t p := by
    intro p hp'
    exact (live_sorted t n).2 p |>.mp (hp.mem_iff.mp hp')
  rw [e2]
  unfold Spec.indexed Spec.liveOf
  rw [List.map_map]
  have h1 : ix.takeWhile (fun p => decide (p < n)) = ix := by
    have : ∀ l : List Nat, (∀ p ∈ l, p < n) → l.takeWhile (fun p => decide (p < n)) = l := by
      intro l
      induction l with
      | nil => intro _; rfl
      | cons a l ih =>
        intro hl
        rw [List.takeWhile_cons, if_pos (by simpa using hl a (List.mem_cons_self ..)), ih (fun p hp => hl p (List.mem_cons_of_mem _ hp))]
    exact this ix (fun p hp => (hall p hp).1)
  rw [h1, List.filter_eq_self.mpr (by intro p hp; simpa using (hall p hp).2)]
  rfl

example : scanIndexed sampleTab 4 [2, 1, 0, 9, 2] 9 = .ok (some [(0, [0, 30, 31]), (2, [0, 10, 11])]) := by decide
example : Spec.indexed sampleTab 4 [2, 1, 0, 9, 2] = [[0, 30, 31], [0, 10, 11]] := by decide

/-! ## Lookup by name (C36) -/

open Unicode Unicode.Spec in
theorem findName_ok (name : List Nat) (hn : Unicode.Spec.Name name) (rest : List Bytes) (names : List (List Nat)) : ∀ (j : Nat),
    (∀ x ∈ names, Unicode.Spec.Name x) →
    ∃ r, findName (utf8Text name) names.length (names.map utf8Text ++ rest) j = .ok r ∧
      (∀ k, r = some k ↔ j ≤ k ∧ ∃ x, names[k - j]? = some x ∧ SameText x name ∧
        ∀ i y, i < k - j → names[i]? = some y → ¬ SameText y name) ∧
      (r = none ↔ ∀ x ∈ names, ¬ SameText x name) := by
  induction names with
  | nil =>
    intro j _
    refine ⟨none, rfl, ?_, by simp⟩
    intro k; simp
  | cons x names ih =>
    intro j hx
    have h1 := equalIC_iff x name (hx x (List.mem_cons_self ..)) hn
    rw [List.length_cons, List.map_cons, List.cons_append, findName]
    by_cases hs : SameText x name
    · rw [h1.1.mpr hs]
      simp only [Outcome.ok_bind, if_true]
      refine ⟨some j, rfl, ?_, ?_⟩
      · intro k
        constructor
        · intro e
          cases e
          refine ⟨Nat.le_refl _, x, by simp, hs, ?_⟩
          intro i y hi; omega
        · rintro ⟨hjk, y, hy, hsy, hfirst⟩
          by_cases hk : k = j
          · rw [hk]
          · exact absurd hs (hfirst 0 x (by omega) (by simp))
      · simp only [reduceCtorEq, false_iff]
        intro hall
        exact hall x (List.mem_cons_self ..) hs
    · rw [h1.2.mpr hs]
      simp only [Outcome.ok_bind, Bool.false_eq_true, if_false]
      obtain ⟨r, e1, e2, e3⟩ := ih (j + 1) (fun y hy => hx y (List.mem_cons_of_mem _ hy))
      refine ⟨r, e1, ?_, ?_⟩
      · intro k
        rw [e2 k]
        constructor
        · rintro ⟨hjk, y, hy, hsy, hfirst⟩
          refine ⟨by omega, y, ?_, hsy, ?_⟩
          · rw [show k - j = (k - (j + 1)) + 1 by omega]; exact hy
          · intro i z hi hz
            cases i with
            | zero => simp at hz; rw [← hz]; exact hs
            | succ i => exact hfirst i z (by omega) (by simpa using hz)
        · rintro ⟨hjk, y, hy, hsy, hfirst⟩
          have hne : k ≠ j := by
            rintro rfl
            simp at hy
            rw [← hy] at hsy
            exact hs hsy
          refine ⟨by omega, y, ?_, hsy, ?_⟩
          · rw [show k - j = (k - (j + 1)) + 1 by omega] at hy; exact hy
          · intro i z hi hz
            exact hfirst (i + 1) z (by omega) (by simpa using hz)
      · rw [e3]
        constructor
        · intro hh y hy
          rcases List.mem_cons.mp hy with rfl | hy
          · exact hs
          · exact hh y hy
        · intro hh y hy
          exact hh y (List.mem_cons_of_mem _ hy)

open Unicode Unicode.Spec in
/-- **C36.** Looking a field or an index up by name finds number `k` exactly if the `k`-th
name is the first that equals the given one up to the case of letters; it fails
exactly if there is none. (Names are texts without NUL.) -/
theorem lookup_first (name : List Nat) (names : List (List Nat)) (hn : Unicode.Spec.Name name) (hx : ∀ x ∈ names, Unicode.Spec.Name x) :
    (∀ k, getName (utf8Text name) names.length (names.map utf8Text) = .ok k ↔
      ∃ x, names[k]? = some x ∧ SameText x name ∧ ∀ i y, i < k → names[i]? = some y → ¬ SameText y name) ∧
    (getName (utf8Text name) names.length (names.map utf8Text) = .throw ↔ ∀ x ∈ names, ¬ SameText x name) := by
  obtain ⟨r, e1, e2, e3⟩ := findName_ok name hn [] names 0 hx
  rw [List.append_nil] at e1
  unfold getName
  rw [e1]
  simp only [Outcome.ok_bind]
  constructor
  · intro k
    have := e2 k
    simp only [Nat.sub_zero, Nat.zero_le, true_and] at this
    rw [← this]
    cases r <;> simp
  · rw [← e3]
    cases r <;> simp

open Unicode Unicode.Spec in
/-- **C36, counterexample.** The hidden row version field (see C33) is behind the counted
fields, so it is never found. -/
theorem hidden_field_not_found (names : List (List Nat)) (hx : ∀ x ∈ names, Unicode.Spec.Name x)
    (hv : ∀ x ∈ names, ¬ SameText x [86, 69, 82, 83, 73, 79, 78]) :
    getName hiddenField.name names.length (names.map utf8Text ++ [hiddenField.name]) = .throw := by
  have hn : Unicode.Spec.Name [86, 69, 82, 83, 73, 79, 78] := by
    intro c hc
    simp at hc
    rcases hc with rfl | rfl | rfl | rfl | rfl | rfl | rfl <;> (constructor <;> simp [Scalar])
  obtain ⟨r, e1, e2, e3⟩ := findName_ok [86, 69, 82, 83, 73, 79, 78] hn [utf8Text [86, 69, 82, 83, 73, 79, 78]] names 0 hx
  have hh : hiddenField.name = utf8Text [86, 69, 82, 83, 73, 79, 78] := by decide
  unfold getName
  rw [hh, e1, e3.mpr hv]
  rfl

example : getName [102, 105, 76, 101] 3 [[65], [70, 73, 76, 69], [102, 105, 108, 101]] = .ok 1 := by decide +kernel
example : getName [90] 1 [[65]] = .throw := by decide +kernel

end Verif.Record
