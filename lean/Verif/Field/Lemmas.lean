import Verif.Field.Model
import Verif.Field.Spec
import Verif.Unicode.Theorems
import Verif.Hex.Theorems

/-! # Lemmas about texts of values -/

namespace Verif.Field
open Verif Record

theorem byteAt_at (pre : Bytes) (b : UInt8) (post : Bytes) (n : Nat) (h : pre.length = n) :
    byteAt (pre ++ b :: post) n = .ok b := by
  subst h; simp [byteAt]

theorem load_at (pre v post : Bytes) (o n : Nat) (h : pre.length = o) (hn : v.length = n) :
    load (pre ++ v ++ post) o n = .ok v := by
  subst h; subst hn
  simp [load]

theorem sym_eq (n : Nat) (h : n < 16) : sym n = Spec.hexDigit n := by
  have : ∀ i : Fin 16, sym i.val = Spec.hexDigit i.val := by decide
  exact this ⟨n, h⟩

theorem sym_ne (n : Nat) (h : n < 16) : sym n ≠ '\x00' := by
  have : ∀ i : Fin 16, sym i.val ≠ '\x00' := by decide
  exact this ⟨n, h⟩

theorem put_at (a : Str) (c d : Char) (t : Str) (i : Nat) (h : a.length = i) :
    put (a ++ d :: t) i c = .ok (a ++ c :: t) := by
  subst h; simp [put]

theorem hexText_cons (b : UInt8) (bs : Bytes) : Spec.hexText (b :: bs) =
    Spec.hexDigit (b.toNat / 16) :: Spec.hexDigit (b.toNat % 16) :: Spec.hexText bs := by
  simp [Spec.hexText]

theorem hexText_length (bs : Bytes) : (Spec.hexText bs).length = 2 * bs.length := by
  induction bs with
  | nil => rfl
  | cons b bs ih => rw [hexText_cons]; simp [ih]; omega

/-- The loop writes the digits of the bytes. -/
theorem hexFill_ok (cs : Bytes) : ∀ (pre post : Bytes) (off i : Nat) (dn tl : Str),
    pre.length = off + i → dn.length = 2 * i → 2 * cs.length ≤ tl.length →
    hexFill (pre ++ cs ++ post) off cs.length i (dn ++ tl) =
      .ok (dn ++ Spec.hexText cs ++ tl.drop (2 * cs.length)) := by
  induction cs with
  | nil => intro pre post off i dn tl _ _ _; simp [hexFill, Spec.hexText]
  | cons c cs ih =>
    intro pre post off i dn tl hp hd ht
    match tl, ht with
    | x :: y :: tl, ht =>
      simp only [List.length_cons] at ht
      have hb : byteAt (pre ++ c :: cs ++ post) (off + i) = .ok c := by
        rw [List.append_assoc]; exact byteAt_at _ _ _ _ hp
      simp only [List.length_cons, hexFill, hb, Outcome.ok_bind]
      rw [put_at dn _ _ _ _ hd]
      simp only [Outcome.ok_bind]
      have e : dn ++ sym (c.toNat / 16) :: y :: tl = (dn ++ [sym (c.toNat / 16)]) ++ y :: tl := by simp
      rw [e, put_at _ _ _ _ _ (by simp [hd])]
      simp only [Outcome.ok_bind]
      have hc := c.toNat_lt
      have e2 : pre ++ c :: cs ++ post = (pre ++ [c]) ++ cs ++ post := by simp
      have e3 : dn ++ [sym (c.toNat / 16)] ++ sym (c.toNat % 16) :: tl =
          (dn ++ [sym (c.toNat / 16), sym (c.toNat % 16)]) ++ tl := by simp
      rw [e2, e3, ih _ _ _ _ _ _ (by simp; omega) (by simp; omega) (by omega)]
      rw [hexText_cons, sym_eq _ (by omega), sym_eq _ (by omega),
        show 2 * (cs.length + 1) = 2 * cs.length + 1 + 1 by omega]
      simp

/-- The loop leaves a text that is too short. -/
theorem hexFill_short (r : Bytes) (off : Nat) : ∀ (n i : Nat) (s : Str), 2 * i ≤ s.length →
    s.length < 2 * (i + n) → hexFill r off n i s = .ub := by
  intro n
  induction n with
  | zero => intro i s h1 h2; omega
  | succ n ih =>
    intro i s h1 h2
    simp only [hexFill]
    cases hb : byteAt r (off + i) with
    | throw => unfold byteAt at hb; split at hb <;> simp at hb
    | ub => rfl
    | ok b =>
      have hlt := b.toNat_lt
      simp only [Outcome.ok_bind]
      by_cases h3 : 2 * i < s.length
      · rw [show put s (2 * i) (sym (b.toNat / 16)) = .ok (s.set (2 * i) (sym (b.toNat / 16))) by
          simp [put, h3]]
        simp only [Outcome.ok_bind]
        by_cases h4 : 2 * i + 1 < s.length
        · rw [show put (s.set (2 * i) (sym (b.toNat / 16))) (2 * i + 1) (sym (b.toNat % 16)) =
            .ok ((s.set (2 * i) (sym (b.toNat / 16))).set (2 * i + 1) (sym (b.toNat % 16))) by
            simp [put, h4]]
          simp only [Outcome.ok_bind]
          exact ih _ _ (by simp; omega) (by simp; omega)
        · rw [show put (s.set (2 * i) (sym (b.toNat / 16))) (2 * i + 1) (sym (b.toNat % 16)) = .ub by
            simp [put, h4, sym_ne _ (show b.toNat % 16 < 16 by omega)]]
          rfl
      · rw [show put s (2 * i) (sym (b.toNat / 16)) = .ub by
          simp [put, h3, sym_ne _ (show b.toNat / 16 < 16 by omega)]]
        rfl

theorem fromBinary_ok (pre bs post : Bytes) (off : Nat) (h : pre.length = off) :
    fromBinary (pre ++ bs ++ post) off bs.length = .ok (Spec.hexText bs ++ ['\x00', '\x00']) := by
  unfold fromBinary
  have := hexFill_ok bs pre post off 0 [] (List.replicate ((bs.length + 1) * 2) '\x00') (by simp [h])
    (by simp) (by simp; omega)
  rw [List.nil_append] at this
  rw [this, Outcome.ok_bind, List.nil_append, List.drop_replicate,
    show (bs.length + 1) * 2 - 2 * bs.length = 2 by omega]
  exact put_at _ _ _ _ _ (hexText_length bs)

/-- Loads of numbers. -/
theorem rd16_at (pre post : Bytes) (a b : UInt8) (o : Nat) (h : pre.length = o) :
    Blob.rd16 (pre ++ a :: b :: post) o = .ok (a.toNat + 256 * b.toNat) := by
  subst h; simp [Blob.rd16, List.getElem?_append_right]

theorem rdI16_at (pre post : Bytes) (a b : UInt8) (o : Nat) (h : pre.length = o) :
    rdI16 (pre ++ a :: b :: post) o = .ok (Spec.signed [a, b]) := by
  unfold rdI16
  rw [rd16_at pre post a b o h]
  have hv : Spec.value [a, b] = a.toNat + 256 * b.toNat := by simp [Spec.value]
  simp only [Outcome.ok_bind, Spec.signed, hv, List.length_cons, List.length_nil]
  congr 1
  split <;> split <;> omega

theorem rdU32_at (pre post : Bytes) (a b c d : UInt8) (o : Nat) (h : pre.length = o) :
    rdU32 (pre ++ a :: b :: c :: d :: post) o = .ok (Spec.value [a, b, c, d]) := by
  unfold rdU32
  have e : pre ++ a :: b :: c :: d :: post = (pre ++ [a, b]) ++ c :: d :: post := by simp
  rw [rd16_at pre _ a b o h, e, rd16_at (pre ++ [a, b]) post c d (o + 2) (by simp [h])]
  simp only [Outcome.ok_bind, Spec.value]
  congr 1
  omega

theorem rdI32_at (pre post : Bytes) (a b c d : UInt8) (o : Nat) (h : pre.length = o) :
    rdI32 (pre ++ a :: b :: c :: d :: post) o = .ok (Spec.signed [a, b, c, d]) := by
  unfold rdI32
  rw [rdU32_at pre post a b c d o h]
  simp only [Outcome.ok_bind, Spec.signed, List.length_cons, List.length_nil]
  congr 1
  split <;> split <;> omega

theorem list_four {n : Nat} (b : Bytes) (h : b.length = n + 4) :
    ∃ a₀ a₁ a₂ a₃ t, b = a₀ :: a₁ :: a₂ :: a₃ :: t ∧ t.length = n := by
  match b, h with
  | a₀ :: a₁ :: a₂ :: a₃ :: t, h => exact ⟨a₀, a₁, a₂, a₃, t, rfl, by simpa using h⟩

theorem rdI32_load (pre v post : Bytes) (o : Nat) (h : pre.length = o) (hv : v.length = 4) :
    rdI32 (pre ++ v ++ post) o = .ok (Spec.signed v) := by
  obtain ⟨a, b, c, d, t, rfl, ht⟩ := list_four (n := 0) v hv
  have : t = [] := List.eq_nil_of_length_eq_zero ht
  subst this
  have e : pre ++ [a, b, c, d] ++ post = pre ++ a :: b :: c :: d :: post := by simp
  rw [e]; exact rdI32_at pre post a b c d o h

theorem rdU32_load (pre v post : Bytes) (o : Nat) (h : pre.length = o) (hv : v.length = 4) :
    rdU32 (pre ++ v ++ post) o = .ok (Spec.value v) := by
  obtain ⟨a, b, c, d, t, rfl, ht⟩ := list_four (n := 0) v hv
  have : t = [] := List.eq_nil_of_length_eq_zero ht
  subst this
  have e : pre ++ [a, b, c, d] ++ post = pre ++ a :: b :: c :: d :: post := by simp
  rw [e]; exact rdU32_at pre post a b c d o h

/-- Decimal texts. -/
theorem toDigits_natText (n : Nat) : Nat.toDigits 10 n = Decimal.Spec.natText n := by
  induction n using Nat.strongRecOn with
  | _ n ih =>
    have hd : ∀ k, k < 10 → Nat.digitChar k = Decimal.Spec.digit k := by
      have : ∀ i : Fin 10, Nat.digitChar i.val = Decimal.Spec.digit i.val := by decide
      exact fun k hk => this ⟨k, hk⟩
    rw [Decimal.Spec.natText]
    split
    · rw [Nat.toDigits_of_lt_base (by omega), hd n (by omega)]
    · rw [Nat.toDigits_of_base_le (by omega) (by omega), ih (n / 10) (by omega), hd _ (by omega)]

theorem intText_eq (z : Int) : intText z = Spec.decimal z := by
  simp [intText, Spec.decimal, toDigits_natText]

/-- A record with a value: the flag has been passed. -/
theorem text_value {sh : Show} {f : Fld} {v r : Bytes} (h : Spec.HasValue f.offset f.nullable v r)
    (en ig det : Bool) : ∃ pre post : Bytes, r = pre ++ v ++ post ∧
      text sh f r en ig det = typeText sh f.ty r pre.length ig det := by
  obtain ⟨pre, post, b, hb, hp, rfl⟩ := h
  unfold text
  cases hn : f.nullable with
  | false => refine ⟨pre, post, by simp, ?_⟩; rw [if_neg (by simp), hp]
  | true =>
    refine ⟨pre ++ [b], post, by simp, ?_⟩
    rw [if_pos rfl]
    simp only [if_true]
    have e : pre ++ [b] ++ v ++ post = pre ++ b :: (v ++ post) := by simp
    rw [e, byteAt_at pre b _ f.offset hp]
    simp [hb, hp]

theorem xml_value {sh : Show} {brk : List Nat} {blob : Nat → Nat → Outcome Bytes} {f : Fld} {v r : Bytes}
    (h : Spec.HasValue f.offset f.nullable v r) (ig : Bool) : ∃ pre post : Bytes, r = pre ++ v ++ post ∧
      xml sh brk blob f r ig = typeXml sh brk blob f.ty r pre.length ig := by
  obtain ⟨pre, post, b, hb, hp, rfl⟩ := h
  unfold xml
  cases hn : f.nullable with
  | false => refine ⟨pre, post, by simp, ?_⟩; rw [if_neg (by simp), hp]
  | true =>
    refine ⟨pre ++ [b], post, by simp, ?_⟩
    rw [if_pos rfl]
    simp only [if_true]
    have e : pre ++ [b] ++ v ++ post = pre ++ b :: (v ++ post) := by simp
    rw [e, byteAt_at pre b _ f.offset hp]
    simp [hb, hp]

theorem utf16Str_text (cps : List Nat) (h : ∀ c ∈ cps, Unicode.Spec.Scalar c) :
    utf16Str (Unicode.Spec.utf16Text cps) = .ok (Spec.utf8Str cps) := by
  have := Unicode.utf16_to_utf8 cps h []
  simp only [List.nil_append, List.length_nil] at this
  simp [utf16Str, this, Spec.utf8Str, ofBytes]

theorem fromUtf16_defined (us : List Nat) : Unicode.fromUtf16 us ≠ .ub := by
  fun_induction Unicode.fromUtf16 us with
  | case1 => simp
  | case2 => simp
  | case3 => simp
  | case4 => simp
  | case5 u t r _ _ ih =>
    cases h : Unicode.fromUtf16 r with
    | ub => exact absurd h ih
    | throw => simp
    | ok _ => simp
  | case6 => simp
  | case7 => simp
  | case8 u t r _ _ ih =>
    cases h : Unicode.fromUtf16 (t :: r) with
    | ub => exact absurd h ih
    | throw => simp
    | ok _ => simp

theorem appendAll_defined (cps : List Nat) : Unicode.appendAll cps ≠ .ub := by
  induction cps with
  | nil => simp [Unicode.appendAll]
  | cons c cs ih =>
    unfold Unicode.appendAll
    have : Unicode.append c ≠ .ub := by unfold Unicode.append; split <;> (try split) <;> (try split) <;> (try split) <;> simp
    cases h1 : Unicode.append c with
    | ub => exact absurd h1 this
    | throw => simp
    | ok _ =>
      cases h : Unicode.appendAll cs with
      | ub => exact absurd h ih
      | throw => simp
      | ok _ => simp

theorem utf16Str_defined (b : Bytes) : utf16Str b ≠ .ub := by
  unfold utf16Str Unicode.toUtf8 Unicode.utf16to8
  rw [if_neg (by simp)]
  cases h : Unicode.fromUtf16 (Unicode.unitsOf (b.drop 0)) with
  | ub => exact absurd h (fromUtf16_defined _)
  | throw => simp
  | ok cps =>
    simp only [Outcome.ok_bind]
    cases h1 : Unicode.appendAll cps with
    | ub => exact absurd h1 (appendAll_defined _)
    | throw => simp
    | ok _ => simp

theorem char_toNat (x : UInt8) : (Char.ofNat x.toNat).toNat = x.toNat := by
  have : ∀ i : Fin 256, (Char.ofNat i.val).toNat = i.val := by decide +kernel
  exact this ⟨x.toNat, x.toNat_lt⟩

theorem ofBytes_inj (a b : Bytes) (h : ofBytes a = ofBytes b) : a = b := by
  have inj : ∀ x y : UInt8, Char.ofNat x.toNat = Char.ofNat y.toNat → x = y := by
    intro x y hxy
    have h2 := congrArg Char.toNat hxy
    rw [char_toNat, char_toNat] at h2
    exact UInt8.toNat_inj.mp h2
  exact (List.map_inj_right inj).mp h

theorem toBytes_ofBytes (b : Bytes) : toBytes (ofBytes b) = b := by
  simp only [toBytes, ofBytes, List.map_map]
  conv => rhs; rw [← List.map_id b]
  apply List.map_congr_left
  intro x _
  simp only [Function.comp, id]
  rw [char_toNat]
  simp

end Verif.Field
