import Verif.Field.Theorems
import Verif.Base64.Theorems
import Verif.Text.Theorems

/-! # Property theorems: the XML form of values (C70) -/

namespace Verif.Field
open Verif Record

/-- A null has an empty XML form. -/
theorem null_xml (sh : Show) (brk : List Nat) (blob : Nat → Nat → Outcome Bytes) (f : Fld) (pre post : Bytes)
    (hn : f.nullable = true) (hp : pre.length = f.offset) (ig : Bool) :
    xml sh brk blob f (pre ++ 0 :: post) ig = .ok [] := by
  unfold xml
  rw [if_pos hn, byteAt_at pre 0 post f.offset hp]
  simp

/-- Asking a record for the XML form of a null throws. -/
theorem null_xml_string_throws (sh : Show) (brk : List Nat) (blob : Nat → Nat → Outcome Bytes) (f : Fld)
    (pre post : Bytes) (hn : f.nullable = true) (hp : pre.length = f.offset) :
    getXmlString sh brk blob f (pre ++ 0 :: post) = .throw := by
  unfold getXmlString isNull
  have e : pre ++ 0 :: post = pre ++ [0] ++ post := by simp
  simp only [Fld.slot, hn, if_true]
  rw [e, load_at pre [0] post f.offset 1 hp rfl]
  simp

example : xml ⟨false, false⟩ [13, 0] (fun _ _ => .ok []) ⟨1, true, ⟨.bool, 0, 0, false⟩⟩ [7, 0, 9] false =
    .ok [] := by decide +kernel

/-- **C70a.** The XML form of numbers, booleans, bytes and identifiers is their text. -/
theorem plain_xml (sh : Show) (brk : List Nat) (blob : Nat → Nat → Outcome Bytes) (f : Fld) (v r : Bytes)
    (ht : f.ty.type ∈ [FType.bool, .numeric, .binary, .varbinary])
    (h : Spec.HasValue f.offset f.nullable v r) (ig det : Bool) :
    xml sh brk blob f r ig = text sh f r true ig det := by
  obtain ⟨pre, post, b, hb, hp, rfl⟩ := h
  have key : ∀ off, typeXml sh brk blob f.ty (pre ++ (if f.nullable then [b] else []) ++ v ++ post) off ig =
      typeText sh f.ty (pre ++ (if f.nullable then [b] else []) ++ v ++ post) off ig det := by
    intro off
    simp only [List.mem_cons, List.not_mem_nil, or_false] at ht
    rcases ht with h | h | h | h <;> simp [typeXml, typeText, h]
  unfold xml text
  cases hn : f.nullable with
  | false =>
    simp only [hn] at key
    simp only [Bool.false_eq_true, if_false]
    exact key _
  | true =>
    simp only [hn, if_true] at key ⊢
    rw [show pre ++ [b] ++ v ++ post = pre ++ b :: (v ++ post) by simp] at key ⊢
    rw [byteAt_at pre b _ _ hp]
    simp [hb, key]

example : xml ⟨false, false⟩ [13, 0] (fun _ _ => .ok []) ⟨1, false, ⟨.numeric, 5, 2, false⟩⟩
    [7, 0x10, 0x07, 0x50] false = .ok "7.5".toList := by decide +kernel

/-- The XML form of the types that are escaped: the text, escaped. -/
theorem escaped_xml (sh : Show) (brk : List Nat) (blob : Nat → Nat → Outcome Bytes) (f : Fld) (v r : Bytes)
    (ht : f.ty.type ∈ [FType.char, .varchar, .version, .version8])
    (h : Spec.HasValue f.offset f.nullable v r) (ig : Bool) (s : Str)
    (hs : text sh f r true false false = .ok s) : xml sh brk blob f r ig = escape s := by
  obtain ⟨pre, post, b, hb, hp, rfl⟩ := h
  simp only [List.mem_cons, List.not_mem_nil, or_false] at ht
  have key : ∀ rr off, typeText sh f.ty rr off false false = .ok s →
      typeXml sh brk blob f.ty rr off ig = escape s := by
    intro rr off h1
    rcases ht with h | h | h | h <;> simp [typeXml, h, h1]
  unfold xml
  unfold text at hs
  cases hn : f.nullable with
  | false =>
    simp only [hn, Bool.false_eq_true, if_false] at hs ⊢
    exact key _ _ hs
  | true =>
    simp only [hn, if_true] at hs ⊢
    rw [show pre ++ [b] ++ v ++ post = pre ++ b :: (v ++ post) by simp] at hs ⊢
    rw [byteAt_at pre b _ _ hp] at hs ⊢
    simp only [Outcome.ok_bind, if_neg hb] at hs ⊢
    exact key _ _ hs

/-- **C70b (partial).** Reading the XML form of a string gives the text, if no special
character occurs in it twice. -/
theorem string_xml_partial (sh : Show) (brk : List Nat) (blob : Nat → Nat → Outcome Bytes) (f : Fld) (v r : Bytes)
    (ht : f.ty.type ∈ [FType.char, .varchar])
    (h : Spec.HasValue f.offset f.nullable v r) (ig : Bool) (s : Str)
    (hs : text sh f r true false false = .ok s) (hone : Text.Spec.AtMostOneEach s) :
    ∃ x, xml sh brk blob f r ig = .ok x ∧ Text.Spec.unescapeXML x = s := by
  obtain ⟨x, hx, hu⟩ := Text.xml_roundtrip_partial s hone
  refine ⟨x, ?_, hu⟩
  rw [escaped_xml sh brk blob f v r (by simp at ht ⊢; rcases ht with h | h <;> simp [h]) h ig s hs, escape, hx]

example : text ⟨false, false⟩ ⟨0, false, ⟨.char, 2, 0, false⟩⟩ [0x3c, 0, 0x41, 0] true false false =
    .ok "<A".toList ∧ Text.Spec.AtMostOneEach "<A".toList ∧
    xml ⟨false, false⟩ [13, 0] (fun _ _ => .ok []) ⟨0, false, ⟨.char, 2, 0, false⟩⟩ [0x3c, 0, 0x41, 0] false =
      .ok "&lt;A".toList := by
  refine ⟨by decide +kernel, ?_, by decide +kernel⟩
  unfold Text.Spec.AtMostOneEach
  decide

/-- **C70b is false in general**: the second `<` of a string is written as it is. -/
theorem string_xml_second :
    xml ⟨false, false⟩ [13, 0] (fun _ _ => .ok []) ⟨0, false, ⟨.char, 2, 0, false⟩⟩ [0x3c, 0, 0x3c, 0] false =
      .ok "&lt;<".toList := by decide +kernel

theorem decimal_plain (z : Int) : ∀ c ∈ Spec.decimal z, c ∉ ['&', '<', '>', '\'', '"'] := by
  have hdig : ∀ i : Fin 10, Decimal.Spec.digit i.val ∉ ['&', '<', '>', '\'', '"'] := by decide
  have hn : ∀ n : Nat, ∀ c ∈ Decimal.Spec.natText n, c ∉ ['&', '<', '>', '\'', '"'] := by
    intro n
    induction n using Nat.strongRecOn with
    | _ n ih =>
      intro c hc
      rw [Decimal.Spec.natText] at hc
      split at hc
      · simp only [List.mem_singleton] at hc
        subst hc
        exact hdig ⟨n, by omega⟩
      · rcases List.mem_append.mp hc with h | h
        · exact ih (n / 10) (by omega) c h
        · simp only [List.mem_singleton] at h
          subst h
          exact hdig ⟨n % 10, by omega⟩
  intro c hc
  unfold Spec.decimal at hc
  split at hc
  · rcases List.mem_cons.mp hc with rfl | h
    · decide
    · exact hn _ _ h
  · exact hn _ _ hc

theorem plain_oneEach (s : Str) (h : ∀ c ∈ s, c ∉ ['&', '<', '>', '\'', '"']) :
    Text.Spec.AtMostOneEach s ∧ s.flatMap Text.escapeChar = s := by
  constructor
  · intro c hc
    have : c ∉ s := fun hm => h c hm (by simpa using hc)
    rw [List.count_eq_zero.mpr this]
    omega
  · induction s with
    | nil => rfl
    | cons c s ih =>
      have hc := h c (by simp)
      simp only [List.mem_cons, List.not_mem_nil, or_false, not_or] at hc
      rw [List.flatMap_cons, ih (fun d hd => h d (by simp [hd]))]
      simp [Text.escapeChar, hc]

/-- **C70c.** The XML form of a version is its text. -/
theorem version_xml (sh : Show) (brk : List Nat) (blob : Nat → Nat → Outcome Bytes) (f : Fld) (r : Bytes)
    (hv : (f.ty.type = .version ∧ ∃ v : Bytes, v.length = 16 ∧ Spec.HasValue f.offset f.nullable v r) ∨
      (f.ty.type = .version8 ∧ ∃ v : Bytes, v.length = 8 ∧ Spec.HasValue f.offset f.nullable v r))
    (ig : Bool) :
    xml sh brk blob f r ig = text sh f r true false false := by
  have four : ∀ (v : Bytes) n, v.length = n + 4 → ∃ a t : Bytes, v = a ++ t ∧ a.length = 4 ∧ t.length = n := by
    intro v n h
    exact ⟨v.take 4, v.drop 4, (List.take_append_drop 4 v).symm, by simp; omega, by simp; omega⟩
  have key : ∃ s v, Spec.HasValue f.offset f.nullable v r ∧ text sh f r true false false = .ok s ∧
      ∀ c ∈ s, c ∉ ['&', '<', '>', '\'', '"'] := by
    rcases hv with ⟨ht, v, hl, h⟩ | ⟨ht, v, hl, h⟩
    · obtain ⟨a, t1, rfl, ha, h1⟩ := four v 12 hl
      obtain ⟨b, t2, rfl, hb, h2⟩ := four t1 8 h1
      obtain ⟨c, d, rfl, hc, hd⟩ := four t2 4 h2
      refine ⟨_, _, h, version_text sh f a b c d r ht ha hb hc hd (by simpa using h) true false false, ?_⟩
      intro x hx
      simp only [List.append_assoc, List.cons_append, List.mem_append, List.mem_cons] at hx
      rcases hx with h | rfl | h | rfl | h | rfl | h
      · exact decimal_plain _ _ h
      · decide
      · exact decimal_plain _ _ h
      · decide
      · exact decimal_plain _ _ h
      · decide
      · exact decimal_plain _ _ h
    · obtain ⟨a, b, rfl, ha, hb⟩ := four v 4 hl
      refine ⟨_, _, h, version8_text sh f a b r ht ha hb h true false false, ?_⟩
      intro x hx
      simp only [List.mem_append, List.mem_cons] at hx
      rcases hx with h | rfl | h
      · exact decimal_plain _ _ h
      · decide
      · exact decimal_plain _ _ h
  obtain ⟨s, v, h, hs, hp⟩ := key
  have ht : f.ty.type ∈ [FType.char, .varchar, .version, .version8] := by
    rcases hv with ⟨h, _⟩ | ⟨h, _⟩ <;> simp [h]
  rw [escaped_xml sh brk blob f v r ht h ig s hs, hs, escape, Text.toXML_eq s (plain_oneEach s hp).1,
    (plain_oneEach s hp).2]

example : xml ⟨false, false⟩ [13, 0] (fun _ _ => .ok []) ⟨0, false, ⟨.version8, 0, 0, false⟩⟩
    [1, 0, 0, 0, 255, 255, 255, 255] false = .ok "1:-1".toList := by decide +kernel

/-! ## Large values -/

theorem blobOf_at (blob : Nat → Nat → Outcome Bytes) (pre a b post : Bytes) (ha : a.length = 4) (hb : b.length = 4) :
    blobOf blob (pre ++ (a ++ b) ++ post) pre.length = blob (Spec.value a) (Spec.value b) := by
  unfold blobOf
  rw [show pre ++ (a ++ b) ++ post = pre ++ a ++ (b ++ post) by simp, rdU32_load pre a _ _ rfl ha,
    show pre ++ a ++ (b ++ post) = (pre ++ a) ++ b ++ post by simp,
    rdU32_load (pre ++ a) b post _ (by simp [ha]) hb]
  rfl

/-- **C70d (partial).** Reading the XML form of a memo gives its text, if no special
character occurs in it twice. The field holds the first block and the size of the value. -/
theorem memo_xml_partial (sh : Show) (brk : List Nat) (blob : Nat → Nat → Outcome Bytes) (f : Fld)
    (a b r : Bytes) (cps : List Nat) (ht : f.ty.type = .string) (ha : a.length = 4) (hb : b.length = 4)
    (h : Spec.HasValue f.offset f.nullable (a ++ b) r) (hc : ∀ c ∈ cps, Unicode.Spec.Scalar c)
    (hblob : blob (Spec.value a) (Spec.value b) = .ok (Unicode.Spec.utf16Text cps))
    (hone : Text.Spec.AtMostOneEach (Spec.utf8Str cps)) (ig : Bool) :
    ∃ x, xml sh brk blob f r ig = .ok x ∧ Text.Spec.unescapeXML x = Spec.utf8Str cps := by
  obtain ⟨x, hx, hu⟩ := Text.xml_roundtrip_partial _ hone
  refine ⟨x, ?_, hu⟩
  obtain ⟨pre, post, rfl, e⟩ := xml_value (sh := sh) (brk := brk) (blob := blob) h ig
  rw [e]
  simp only [typeXml, ht, blobOf_at blob pre a b post ha hb, hblob, Outcome.ok_bind, utf16Str_text cps hc,
    escape, hx]

example : xml ⟨false, false⟩ [13, 0] (fun i n => if i = 3 ∧ n = 4 then .ok [0x41, 0, 0x26, 0] else .throw)
    ⟨1, false, ⟨.string, 0, 0, false⟩⟩ [9, 3, 0, 0, 0, 4, 0, 0, 0] false = .ok "A&amp;".toList := by decide +kernel

/-- **C70e.** The XML form of a text field ends at the first NUL of the value. -/
theorem text_xml_cut (sh : Show) (brk : List Nat) (blob : Nat → Nat → Outcome Bytes) (f : Fld)
    (a b r v w : Bytes) (ht : f.ty.type = .text) (ha : a.length = 4) (hb : b.length = 4)
    (h : Spec.HasValue f.offset f.nullable (a ++ b) r) (hv : 0 ∉ v)
    (hblob : blob (Spec.value a) (Spec.value b) = .ok (v ++ 0 :: w)) (ig : Bool)
    (hone : Text.Spec.AtMostOneEach (ofBytes v)) :
    ∃ x, xml sh brk blob f r ig = .ok x ∧ Text.Spec.unescapeXML x = ofBytes v := by
  obtain ⟨x, hx, hu⟩ := Text.xml_roundtrip_partial _ hone
  refine ⟨x, ?_, hu⟩
  obtain ⟨pre, post, rfl, e⟩ := xml_value (sh := sh) (brk := brk) (blob := blob) h ig
  rw [e]
  have hcut : (v ++ 0 :: w).takeWhile (· ≠ 0) = v := by
    have : ∀ y ∈ v, (decide (y ≠ 0)) = true := by
      intro y hy
      simp only [ne_eq, decide_not, Bool.not_eq_eq_eq_not, Bool.not_true, decide_eq_false_iff_not]
      rintro rfl
      exact hv hy
    rw [List.takeWhile_append_of_pos this]
    simp
  simp only [typeXml, ht, blobOf_at blob pre a b post ha hb, hblob, Outcome.ok_bind, cString]
  rw [if_pos (by simp), hcut]
  simp [escape, hx]

/-- **C70 is false for text fields**: a value without a NUL, which is what such fields hold,
is read past its end. -/
theorem text_xml_reads_past (sh : Show) (brk : List Nat) (blob : Nat → Nat → Outcome Bytes) (f : Fld)
    (a b r v : Bytes) (ht : f.ty.type = .text) (ha : a.length = 4) (hb : b.length = 4)
    (h : Spec.HasValue f.offset f.nullable (a ++ b) r) (hv : 0 ∉ v)
    (hblob : blob (Spec.value a) (Spec.value b) = .ok v) (ig : Bool) :
    xml sh brk blob f r ig = .ub := by
  obtain ⟨pre, post, rfl, e⟩ := xml_value (sh := sh) (brk := brk) (blob := blob) h ig
  rw [e]
  simp only [typeXml, ht, blobOf_at blob pre a b post ha hb, hblob, Outcome.ok_bind, cString]
  rw [if_neg hv]
  rfl

example : xml ⟨false, false⟩ [13, 0] (fun i n => if i = 3 ∧ n = 2 then .ok [0x41, 0x42] else .throw)
    ⟨1, false, ⟨.text, 0, 0, false⟩⟩ [9, 3, 0, 0, 0, 2, 0, 0, 0] false = .ub := by decide +kernel

theorem unitBytes_text (us : List Nat) (h : ∀ u ∈ us, u < 128) :
    utf16Str (unitBytes us) = .ok (us.map Char.ofNat) := by
  have e1 : unitBytes us = Unicode.Spec.utf16Text us := by
    induction us with
    | nil => rfl
    | cons u us ih =>
      have hu := h u (by simp)
      have := ih (fun x hx => h x (by simp [hx]))
      unfold unitBytes Unicode.Spec.utf16Text at this ⊢
      rw [List.flatMap_cons, List.flatMap_cons, this]
      congr 1
      unfold Unicode.Spec.utf16
      rw [if_pos (by omega)]
      simp only [Blob.le16, Unicode.Spec.le16]
      congr 2; omega
  have e2 : Spec.utf8Str us = us.map Char.ofNat := by
    clear e1
    induction us with
    | nil => rfl
    | cons u us ih =>
      have hu := h u (by simp)
      have := ih (fun x hx => h x (by simp [hx]))
      unfold Spec.utf8Str Unicode.Spec.utf8Text at this ⊢
      rw [List.flatMap_cons, List.map_append, this]
      have : (Unicode.Spec.utf8 u).map (fun x => Char.ofNat x.toNat) = [Char.ofNat u] := by
        unfold Unicode.Spec.utf8
        rw [if_pos (by omega)]
        simp only [List.map_cons, List.map_nil]
        have : (UInt8.ofNat u).toNat = u := by simp; omega
        rw [this]
      rw [this]
      rfl
  rw [e1, utf16Str_text us (fun c hc => by
    have := h c hc
    unfold Unicode.Spec.Scalar
    omega), e2]

theorem ascii_toNat (us : List Nat) (h : ∀ u ∈ us, u < 128) : (us.map Char.ofNat).map Char.toNat = us := by
  rw [List.map_map]
  conv => rhs; rw [← List.map_id us]
  apply List.map_congr_left
  intro u hu
  have : ∀ i : Fin 128, (Char.ofNat i.val).toNat = i.val := by decide +kernel
  exact this ⟨u, h u hu⟩

/-- **C70f.** Decoding the XML form of an image (Base64) gives its value. -/
theorem image_xml (sh : Show) (brk : List Nat) (hbrk : brk = [13, 10] ∨ brk = [13, 0])
    (blob : Nat → Nat → Outcome Bytes) (f : Fld)
    (a b r v : Bytes) (ht : f.ty.type = .image) (ha : a.length = 4) (hb : b.length = 4)
    (h : Spec.HasValue f.offset f.nullable (a ++ b) r)
    (hblob : blob (Spec.value a) (Spec.value b) = .ok v) (ig : Bool) :
    ∃ x, xml sh brk blob f r ig = .ok x ∧ Base64.decode (x.map Char.toNat) = v := by
  obtain ⟨pre, post, rfl, e⟩ := xml_value (sh := sh) (brk := brk) (blob := blob) h ig
  have hsm : ∀ u ∈ Base64.encode brk 72 v, u < 128 :=
    Base64.unit_byte brk (by rcases hbrk with rfl | rfl <;> decide) 72 0 v
  refine ⟨(Base64.encode brk 72 v).map Char.ofNat, ?_, ?_⟩
  · rw [e]
    simp only [typeXml, ht, blobOf_at blob pre a b post ha hb, hblob, Outcome.ok_bind]
    exact unitBytes_text _ hsm
  · rw [ascii_toNat _ hsm]
    exact Base64.decode_encode brk (by rcases hbrk with rfl | rfl <;> decide) 72 v

example : xml ⟨false, false⟩ [13, 0] (fun i n => if i = 3 ∧ n = 2 then .ok [0x41, 0x42] else .throw)
    ⟨1, false, ⟨.image, 0, 0, false⟩⟩ [9, 3, 0, 0, 0, 2, 0, 0, 0] false = .ok "QUI=".toList := by decide +kernel

theorem enc_pos (v : UInt8) (h : v.toNat < 64) : Base64.enc v ≠ 0 := by
  have : ∀ i : Fin 64, Base64.enc (UInt8.ofNat i.val) ≠ 0 := by decide +kernel
  have := this ⟨v.toNat, h⟩
  simpa using this

theorem encLoop_nul (n : Nat) (v : Bytes) : n ≤ 18 →
    (0 ∈ Base64.encLoop [13, 0] 72 n v ↔ 54 < v.length + 3 * n) := by
  have hbrk : ∀ n : Nat, n ≤ 18 → Base64.needBreak 72 n = decide (n = 18) := by
    intro n hn
    have : ∀ i : Fin 19, Base64.needBreak 72 i.val = decide (i.val = 18) := by decide
    exact this ⟨n, by omega⟩
  fun_induction Base64.encLoop [13, 0] 72 n v with
  | case1 n => intro hn; simp; omega
  | case2 n a =>
    intro hn
    rw [hbrk n hn]
    have h0 := enc_pos _ (Base64.s0_lt a)
    have h1 := enc_pos _ (Base64.s1_lt a 0)
    by_cases h : n = 18
    · subst h; simp
    · simp [h, h0.symm, h1.symm]; omega
  | case3 n a b =>
    intro hn
    rw [hbrk n hn]
    have h0 := enc_pos _ (Base64.s0_lt a)
    have h1 := enc_pos _ (Base64.s1_lt a b)
    have h2 := enc_pos _ (Base64.s2_lt b 0)
    by_cases h : n = 18
    · subst h; simp
    · simp [h, h0.symm, h1.symm, h2.symm]; omega
  | case4 n a b c rest ih =>
    intro hn
    rw [hbrk n hn] at ih ⊢
    have h0 := enc_pos _ (Base64.s0_lt a)
    have h1 := enc_pos _ (Base64.s1_lt a b)
    have h2 := enc_pos _ (Base64.s2_lt b c)
    have h3 := enc_pos _ (Base64.s3_lt c)
    by_cases h : n = 18
    · subst h; simp
    · simp only [h, decide_false, Bool.false_eq_true, if_false] at ih ⊢
      have := ih (by omega)
      simp [h0.symm, h1.symm, h2.symm, h3.symm, this]; omega

/-- On Linux the XML form of every image of more than 54 bytes contains NUL characters,
which XML does not allow. -/
theorem image_xml_nul (sh : Show) (blob : Nat → Nat → Outcome Bytes) (f : Fld)
    (a b r v : Bytes) (ht : f.ty.type = .image) (ha : a.length = 4) (hb : b.length = 4)
    (h : Spec.HasValue f.offset f.nullable (a ++ b) r)
    (hblob : blob (Spec.value a) (Spec.value b) = .ok v) (ig : Bool) :
    ∃ x, xml sh [13, 0] blob f r ig = .ok x ∧ ('\x00' ∈ x ↔ 54 < v.length) := by
  obtain ⟨pre, post, rfl, e⟩ := xml_value (sh := sh) (brk := [13, 0]) (blob := blob) h ig
  have hsm : ∀ u ∈ Base64.encode [13, 0] 72 v, u < 128 := Base64.unit_byte [13, 0] (by decide) 72 0 v
  refine ⟨(Base64.encode [13, 0] 72 v).map Char.ofNat, ?_, ?_⟩
  · rw [e]
    simp only [typeXml, ht, blobOf_at blob pre a b post ha hb, hblob, Outcome.ok_bind]
    exact unitBytes_text _ hsm
  · have := encLoop_nul 0 v (by omega)
    rw [show v.length + 3 * 0 = v.length by omega] at this
    rw [← this]
    constructor
    · intro hm
      obtain ⟨u, hu, e⟩ := List.mem_map.mp hm
      have : ∀ i : Fin 128, Char.ofNat i.val = '\x00' → i.val = 0 := by decide +kernel
      have := this ⟨u, hsm u hu⟩ e
      simp only at this
      subst this
      exact hu
    · intro hm
      exact List.mem_map.mpr ⟨0, hm, rfl⟩

/-! ## Dates -/

/-- **C70g (partial).** A date (14 digits) as XML: the parts are those of the value, except
that the year loses its leading zeros. Three more bytes must follow in the record. -/
theorem date_xml_partial (sh : Show) (brk : List Nat) (blob : Nat → Nat → Outcome Bytes) (f : Fld)
    (yyyy MM dd hh mm ss : Str) (v pre post : Bytes) (fl : UInt8) (hfl : fl ≠ 0) (ht : f.ty.type = .datetime)
    (l1 : yyyy.length = 4) (l2 : MM.length = 2) (l3 : dd.length = 2) (l4 : hh.length = 2)
    (l5 : mm.length = 2) (l6 : ss.length = 2)
    (hd : ∀ c ∈ yyyy ++ MM ++ dd ++ hh ++ mm ++ ss, Decimal.Spec.IsDigitChar c)
    (hv : Decimal.string1CToDate (yyyy ++ MM ++ dd ++ hh ++ mm ++ ss) = .ok v)
    (hpre : pre.length = f.offset) (hpost : 3 ≤ post.length) (ig : Bool) :
    xml sh brk blob f (pre ++ (if f.nullable then [fl] else []) ++ v ++ post) ig =
      .ok (Decimal.Spec.natText (Decimal.Spec.textValue yyyy) ++ '-' :: MM ++ '-' :: dd ++ 'T' :: hh ++
        ':' :: mm ++ ':' :: ss) := by
  generalize hs : yyyy ++ MM ++ dd ++ hh ++ mm ++ ss = s at hd hv
  have hlen : s.length = 14 := by rw [← hs]; simp [l1, l2, l3, l4, l5, l6]
  have hdata : Decimal.dateOfString s Decimal.fmt1C = ⟨false, 0, Decimal.intDigits s, 1⟩ := by
    obtain ⟨a, b, c, d, e, f, g, h', i, j, k, l, m, n, rfl⟩ := Decimal.list14 s hlen
    rfl
  have hvp : v = Decimal.packPairs (Decimal.intDigits s) := by
    unfold Decimal.string1CToDate at hv
    rw [hdata] at hv
    simp only [Decimal.writeTo, Bool.false_eq_true, if_false, Outcome.ok.injEq] at hv
    exact hv.symm
  obtain ⟨more, hraw⟩ := Decimal.date_digits_roundtrip (Decimal.intDigits s) (by simp [Decimal.intDigits, hlen])
    (Decimal.intDigits_isDigit s hd) post hpost
  have hpost : dateXml (v ++ post) = .ok (Decimal.Spec.natText (Decimal.Spec.textValue yyyy) ++ '-' :: MM ++
      '-' :: dd ++ 'T' :: hh ++ ':' :: mm ++ ':' :: ss) := by
    unfold dateXml
    rw [hvp, hraw]
    simp only [Outcome.ok_bind]
    subst hs
    match yyyy, l1, MM, l2, dd, l3, hh, l4, mm, l5, ss, l6 with
    | [y1, y2, y3, y4], _, [m1, m2], _, [d1, d2], _, [h1, h2], _, [i1, i2], _, [s1, s2], _ =>
      have hY : intText (year (Decimal.intDigits ([y1, y2, y3, y4] ++ [m1, m2] ++ [d1, d2] ++ [h1, h2] ++
          [i1, i2] ++ [s1, s2]) ++ more)) = Decimal.Spec.natText (Decimal.Spec.textValue [y1, y2, y3, y4]) := by
        have k1 := hd y1 (by simp)
        have k2 := hd y2 (by simp)
        have k3 := hd y3 (by simp)
        have k4 := hd y4 (by simp)
        unfold Decimal.Spec.IsDigitChar at k1 k2 k3 k4
        have e : year (Decimal.intDigits ([y1, y2, y3, y4] ++ [m1, m2] ++ [d1, d2] ++ [h1, h2] ++
            [i1, i2] ++ [s1, s2]) ++ more) = (Decimal.Spec.textValue [y1, y2, y3, y4] : Int) := by
          simp only [Decimal.intDigits, year, Decimal.Spec.textValue, List.map_cons, List.map_nil, List.cons_append,
            List.nil_append, List.getD_cons_zero, List.getD_cons_succ, List.foldl_cons, List.foldl_nil]
          omega
        rw [intText_eq, e]
        unfold Spec.decimal
        rw [if_neg (by omega)]
        simp
      have hT : ∀ (x y : Char), Decimal.Spec.IsDigitChar x → Decimal.Spec.IsDigitChar y →
          s02 (intText (((x.toNat : Int) - 48) * 10 + ((y.toNat : Int) - 48))) = [x, y] := by
        intro x y hx hy
        unfold Decimal.Spec.IsDigitChar at hx hy
        have key : ∀ i j : Fin 10, s02 (intText ((i.val : Int) * 10 + (j.val : Int))) =
            [Char.ofNat (48 + i.val), Char.ofNat (48 + j.val)] := by decide +kernel
        have := key ⟨x.toNat - 48, by omega⟩ ⟨y.toNat - 48, by omega⟩
        simp only at this
        rw [show ((x.toNat : Int) - 48) = ((x.toNat - 48 : Nat) : Int) by omega,
          show ((y.toNat : Int) - 48) = ((y.toNat - 48 : Nat) : Int) by omega, this,
          show 48 + (x.toNat - 48) = x.toNat by omega, show 48 + (y.toNat - 48) = y.toNat by omega,
          Char.ofNat_toNat, Char.ofNat_toNat]
      rw [hY]
      simp only [Decimal.intDigits, two, List.map_cons, List.map_nil, List.cons_append,
        List.nil_append, List.getD_cons_zero, List.getD_cons_succ]
      rw [hT m1 m2 (hd m1 (by simp)) (hd m2 (by simp)), hT d1 d2 (hd d1 (by simp)) (hd d2 (by simp)),
        hT h1 h2 (hd h1 (by simp)) (hd h2 (by simp)), hT i1 i2 (hd i1 (by simp)) (hd i2 (by simp)),
        hT s1 s2 (hd s1 (by simp)) (hd s2 (by simp))]
  unfold xml
  cases hn : f.nullable with
  | false =>
    simp only [Bool.false_eq_true, if_false, List.append_nil, typeXml, ht]
    rw [List.append_assoc, ← hpre, List.drop_left]
    exact hpost
  | true =>
    simp only [if_true]
    have e : pre ++ [fl] ++ v ++ post = pre ++ fl :: (v ++ post) := by simp
    rw [e, byteAt_at pre fl _ _ hpre]
    simp only [Outcome.ok_bind, typeXml, ht]
    rw [if_neg hfl, show pre ++ fl :: (v ++ post) = (pre ++ [fl]) ++ (v ++ post) by simp,
      show f.offset + 1 = (pre ++ [fl]).length by simp [hpre], List.drop_left]
    exact hpost

/-- The empty date of 1C (year 1) is written with a year of one digit, which is no
`xs:dateTime`. -/
theorem empty_date_xml :
    xml ⟨false, false⟩ [13, 0] (fun _ _ => .ok []) ⟨1, false, ⟨.datetime, 0, 0, false⟩⟩
      [0, 0x00, 0x01, 0x01, 0x01, 0, 0, 0, 9, 9, 9] false = .ok "1-01-01T00:00:00".toList := by decide +kernel

/-- A date at the end of a record has no XML form: the decoder reads 10 bytes. -/
theorem date_xml_reads_past (sh : Show) (brk : List Nat) (blob : Nat → Nat → Outcome Bytes) (f : Fld) (r : Bytes)
    (ht : f.ty.type = .datetime) (hn : f.nullable = false) (hl : r.length < f.offset + 10) (ig : Bool) :
    xml sh brk blob f r ig = .ub := by
  unfold xml
  simp only [hn, Bool.false_eq_true, if_false, typeXml, ht, dateXml]
  rw [Decimal.date_decode_overreads _ (by simp; omega)]
  rfl

end Verif.Field
