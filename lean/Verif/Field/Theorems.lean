import Verif.Field.Lemmas
import Verif.Guid.Theorems
import Verif.Decimal.Theorems

/-! # Property theorems: the texts of the values of a record (C68) -/

namespace Verif.Field
open Verif Record

/-! ## Null -/

/-- **C68a.** A null is shown as nothing or as `{NULL}`, as the caller asks, whatever the
type and the bytes behind the flag. -/
theorem null_text (sh : Show) (f : Fld) (pre post : Bytes) (hn : f.nullable = true)
    (hp : pre.length = f.offset) (en ig det : Bool) :
    text sh f (pre ++ 0 :: post) en ig det = .ok (if en then [] else "{NULL}".toList) := by
  unfold text
  rw [if_pos hn, byteAt_at pre 0 post f.offset hp]
  simp

/-- Asking a record for the text of a null throws. -/
theorem null_string_throws (sh : Show) (f : Fld) (pre post : Bytes) (hn : f.nullable = true)
    (hp : pre.length = f.offset) : getString sh f (pre ++ 0 :: post) = .throw := by
  unfold getString isNull
  have e : pre ++ 0 :: post = pre ++ [0] ++ post := by simp
  simp only [Fld.slot, hn, if_true]
  rw [e, load_at pre [0] post f.offset 1 hp rfl]
  simp

example : text ⟨false, false⟩ ⟨1, true, ⟨.bool, 0, 0, false⟩⟩ [7, 0, 9] false false false =
    .ok "{NULL}".toList := null_text _ _ [7] [9] rfl rfl _ _ _

/-- A value is not null: the record gives the text of the field. -/
theorem value_string (sh : Show) (f : Fld) (v r : Bytes) (h : Spec.HasValue f.offset f.nullable v r) :
    getString sh f r = text sh f r false false false := by
  obtain ⟨pre, post, b, hb, hp, rfl⟩ := h
  unfold getString isNull
  cases hn : f.nullable with
  | false => simp [Fld.slot, hn]
  | true =>
    have e : pre ++ (if true = true then [b] else []) ++ v ++ post = pre ++ [b] ++ (v ++ post) := by simp
    simp only [Fld.slot, hn, if_true]
    rw [show pre ++ [b] ++ v ++ post = pre ++ [b] ++ (v ++ post) by simp,
      load_at pre [b] _ f.offset 1 hp rfl]
    simp [hb]

/-! ## Every type -/

/-- **C68b.** Booleans. -/
theorem bool_text (sh : Show) (f : Fld) (b : UInt8) (r : Bytes) (ht : f.ty.type = .bool)
    (h : Spec.HasValue f.offset f.nullable [b] r) (en ig det : Bool) :
    text sh f r en ig det = .ok (if b = 0 then "false".toList else "true".toList) := by
  obtain ⟨pre, post, rfl, e⟩ := text_value (sh := sh) h en ig det
  rw [e]
  unfold typeText
  simp only [ht]
  rw [show pre ++ [b] ++ post = pre ++ b :: post by simp, byteAt_at pre b post _ rfl]
  rfl

example : Spec.HasValue 1 true [1] [0, 5, 1, 8] := ⟨[0], [8], 5, by decide, rfl, rfl⟩

/-- **C68c.** Binary values: the text is the hexadecimal digits of the bytes, followed by
two NUL characters. -/
theorem binary_text_exact (sh : Show) (f : Fld) (v r : Bytes) (ht : f.ty.type = .binary)
    (hg : f.ty.isGuid = false) (hl : v.length = f.ty.length) (en ig det : Bool)
    (hs : f.ty.length ≠ 16 ∨ (sh.guid = false ∧ ig = false))
    (h : Spec.HasValue f.offset f.nullable v r) :
    text sh f r en ig det = .ok (Spec.hexText v ++ ['\x00', '\x00']) := by
  obtain ⟨pre, post, rfl, e⟩ := text_value (sh := sh) h en ig det
  rw [e]
  unfold typeText binaryText
  simp only [ht, hg, if_true]
  rw [if_neg (by simp), if_neg (by rcases hs with h | ⟨h1, h2⟩ <;> simp [*]), ← hl]
  exact fromBinary_ok pre v post _ rfl

/-- **C68c is not "the hexadecimal digits"**: the text of a binary value always ends in
NULs. -/
theorem binary_text_has_nul (sh : Show) (f : Fld) (v r : Bytes) (ht : f.ty.type = .binary)
    (hg : f.ty.isGuid = false) (hl : v.length = f.ty.length) (en ig det : Bool)
    (hs : f.ty.length ≠ 16 ∨ (sh.guid = false ∧ ig = false))
    (h : Spec.HasValue f.offset f.nullable v r) :
    ∃ s, text sh f r en ig det = .ok s ∧ '\x00' ∈ s ∧ s ≠ Spec.hexText v := by
  refine ⟨_, binary_text_exact sh f v r ht hg hl en ig det hs h, by simp, ?_⟩
  intro e
  have := congrArg List.length e
  simp at this

example : text ⟨false, false⟩ ⟨1, false, ⟨.binary, 3, 0, false⟩⟩ [0, 0x0a, 0xbc, 0x39] true false false =
    .ok "0abc39\x00\x00".toList := by decide

theorem guid_spec (g : Bytes) (h : g.length = 16) : Guid.as1C g = Spec.guid1C g ∧
    Guid.asMS g = Spec.guidMS g := by
  obtain ⟨a0, a1, a2, a3, a4, a5, a6, a7, a8, a9, a10, a11, a12, a13, a14, a15, rfl⟩ := Guid.list16 g h
  have hx : ∀ d : UInt8, Hex.hexByte d = [Spec.hexDigit (d.toNat / 16), Spec.hexDigit (d.toNat % 16)] := by
    intro d
    have : ∀ i : Fin 256, Hex.hexByte (UInt8.ofNat i.val) =
        [Spec.hexDigit (i.val / 16), Spec.hexDigit (i.val % 16)] := by decide +kernel
    have := this ⟨d.toNat, d.toNat_lt⟩
    simpa using this
  constructor
  · simp [Guid.as1C, Guid.formatGuid, Spec.guid1C, Spec.part, Spec.hexText, hx]
  · simp [Guid.asMS, Guid.formatGuid, Spec.guidMS, Spec.part, Spec.hexText, hx]

/-- **C68d.** Sixteen bytes of a field named like a reference are always shown as an
identifier in the 1C form. -/
theorem reference_text (sh : Show) (f : Fld) (v r : Bytes) (ht : f.ty.type = .binary)
    (hg : f.ty.isGuid = true) (hv : v.length = 16) (h : Spec.HasValue f.offset f.nullable v r)
    (en ig det : Bool) : text sh f r en ig det = .ok (Spec.guid1C v) := by
  obtain ⟨pre, post, rfl, e⟩ := text_value (sh := sh) h en ig det
  rw [e]
  unfold typeText binaryText guidText
  simp only [ht, hg, if_true]
  rw [load_at pre v post _ 16 rfl hv]
  simp [(guid_spec v hv).1]

/-- **C68e.** Any other sixteen bytes are shown as an identifier when identifiers are asked
for, in the form asked for. -/
theorem identifier_text (sh : Show) (f : Fld) (v r : Bytes) (ht : f.ty.type = .binary)
    (hg : f.ty.isGuid = false) (hl : f.ty.length = 16) (hv : v.length = 16)
    (h : Spec.HasValue f.offset f.nullable v r) (en ig det : Bool) (hs : sh.guid = true ∨ ig = true) :
    text sh f r en ig det = .ok (if sh.ms then Spec.guidMS v else Spec.guid1C v) := by
  obtain ⟨pre, post, rfl, e⟩ := text_value (sh := sh) h en ig det
  rw [e]
  unfold typeText binaryText guidText
  simp only [ht, hg, if_true]
  rw [if_neg (by simp), if_pos ⟨hl, by rcases hs with h | h <;> simp [h]⟩,
    load_at pre v post _ 16 rfl hv]
  simp [guid_spec v hv]

/-- The type of a field is decided by its name and its description. -/
theorem manager_guid (name : Bytes) (d : Decl) (t : Ty) (h : manager name d = .ok t) :
    t.type = d.type ∧ (t.isGuid = true → t.type = .binary ∧ d.length = 16) := by
  unfold manager at h
  cases hc : canBeGuid name with
  | throw => rw [hc] at h; cases h
  | ub => rw [hc] at h; cases h
  | ok g =>
    rw [hc] at h
    simp only [Outcome.ok_bind, Outcome.ok.injEq] at h
    subst h
    refine ⟨rfl, ?_⟩
    simp
    intro a _ b
    exact ⟨a, b⟩

/-- `_IDRRef` is a reference; `_Version` is not. -/
example : manager ("_IDRRef".toList.map fun c => UInt8.ofNat c.toNat) ⟨.binary, false, 16, 0, false⟩ =
      .ok ⟨.binary, 16, 0, true⟩ ∧
    manager ("_Data".toList.map fun c => UInt8.ofNat c.toNat) ⟨.binary, false, 16, 0, false⟩ =
      .ok ⟨.binary, 16, 0, false⟩ := by decide +kernel

/-- **C68f.** Strings of fixed length: all the characters, the filling included. -/
theorem char_text (sh : Show) (f : Fld) (cps : List Nat) (r : Bytes) (ht : f.ty.type = .char)
    (hc : ∀ c ∈ cps, Unicode.Spec.Scalar c)
    (hl : (Unicode.Spec.utf16Text cps).length = f.ty.length * 2)
    (h : Spec.HasValue f.offset f.nullable (Unicode.Spec.utf16Text cps) r) (en ig det : Bool) :
    text sh f r en ig det = .ok (Spec.utf8Str cps) := by
  obtain ⟨pre, post, rfl, e⟩ := text_value (sh := sh) h en ig det
  rw [e]
  unfold typeText
  simp only [ht]
  rw [load_at pre _ post _ _ rfl hl]
  exact utf16Str_text cps hc

example : Unicode.Spec.utf16Text [0x44f, 0x20] = [0x4f, 0x04, 0x20, 0] := by decide

/-- What a `varchar` field holds: the number of its characters (16-bit units), and room for
`length` of them. -/
def IsVarchar (length : Nat) (cps : List Nat) (v : Bytes) : Prop :=
  ∃ fill : Bytes, v = Unicode.Spec.le16 ((Unicode.Spec.utf16Text cps).length / 2) ++
      Unicode.Spec.utf16Text cps ++ fill ∧
    (Unicode.Spec.utf16Text cps ++ fill).length = 2 * length

theorem utf16Text_even (cps : List Nat) : (Unicode.Spec.utf16Text cps).length % 2 = 0 := by
  induction cps with
  | nil => rfl
  | cons c cs ih =>
    simp only [Unicode.Spec.utf16Text, List.flatMap_cons, List.length_append] at ih ⊢
    have : (Unicode.Spec.utf16 c).length % 2 = 0 := by
      unfold Unicode.Spec.utf16 Unicode.Spec.le16; split <;> simp
    omega

/-- **C68g.** Strings of variable length (up to 32767 characters): the characters that
count, whatever fills the rest. -/
theorem varchar_text (sh : Show) (f : Fld) (cps : List Nat) (v r : Bytes) (ht : f.ty.type = .varchar)
    (hc : ∀ c ∈ cps, Unicode.Spec.Scalar c) (hv : IsVarchar f.ty.length cps v)
    (hmax : f.ty.length < 32768)
    (h : Spec.HasValue f.offset f.nullable v r) (en ig det : Bool) :
    text sh f r en ig det = .ok (Spec.utf8Str cps) := by
  obtain ⟨pre, post, rfl, e⟩ := text_value (sh := sh) h en ig det
  obtain ⟨fill, rfl, hl⟩ := hv
  rw [e]
  unfold typeText
  simp only [ht]
  have hev := utf16Text_even cps
  generalize hu : Unicode.Spec.utf16Text cps = u at *
  simp only [List.length_append] at hl
  have e1 : pre ++ (Unicode.Spec.le16 (u.length / 2) ++ u ++ fill) ++ post =
      pre ++ UInt8.ofNat (u.length / 2 % 256) :: UInt8.ofNat (u.length / 2 / 256) :: (u ++ fill ++ post) := by
    simp [Unicode.Spec.le16]
  have e2 : pre ++ (Unicode.Spec.le16 (u.length / 2) ++ u ++ fill) ++ post =
      (pre ++ Unicode.Spec.le16 (u.length / 2)) ++ u ++ (fill ++ post) := by simp
  have hr : rdI16 (pre ++ (Unicode.Spec.le16 (u.length / 2) ++ u ++ fill) ++ post) pre.length =
      .ok ((u.length / 2 : Nat) : Int) := by
    rw [e1, rdI16_at pre _ _ _ _ rfl]
    congr 1
    have hv : Spec.value [UInt8.ofNat (u.length / 2 % 256), UInt8.ofNat (u.length / 2 / 256)] =
        u.length / 2 := by
      simp only [Spec.value, UInt8.toNat_ofNat']
      omega
    unfold Spec.signed
    rw [hv, if_pos (by simp; omega)]
  rw [hr]
  simp only [Outcome.ok_bind]
  have hsz : varcharSize f.ty.length ((u.length / 2 : Nat) : Int) = u.length := by
    unfold varcharSize
    rw [if_neg (by omega), if_neg (by simp; omega)]
    simp; omega
  rw [hsz, e2, load_at _ u _ _ _ (by simp [Unicode.Spec.le16]) rfl]
  simp only [Outcome.ok_bind]
  rw [← hu]
  exact utf16Str_text cps hc

example : IsVarchar 3 [0x41, 0x44f] [2, 0, 0x41, 0, 0x4f, 4, 9, 9] := ⟨[9, 9], rfl, rfl⟩

/-- **C68g is false for damaged counts.** A count that is negative or larger than the field
takes two bytes behind the field into the text: two records with the same field give
different texts, and in a record that ends with the field the read leaves the record. -/
theorem varchar_count_reads_past (sh : Show) (f : Fld) (v pre : Bytes) (ht : f.ty.type = .varchar)
    (hn : f.nullable = false) (hp : pre.length = f.offset) (hv : v.length = f.ty.length * 2 + 2)
    (a b : UInt8) (hab : ∃ w, v = a :: b :: w)
    (hm : Spec.signed [a, b] < 0 ∨ (f.ty.length : Int) < Spec.signed [a, b]) (en ig det : Bool) :
    text sh f (pre ++ v) en ig det = .ub ∧
    (∀ c d post, text sh f (pre ++ v ++ c :: d :: post) en ig det =
      utf16Str (v.drop 2 ++ [c, d])) := by
  obtain ⟨w, rfl⟩ := hab
  simp only [List.length_cons] at hv
  have hsz : varcharSize f.ty.length (Spec.signed [a, b]) = 2 * f.ty.length + 2 := by
    unfold varcharSize
    split
    · rfl
    · rename_i h0
      split
      · rfl
      · rcases hm with h | h <;> omega
  constructor
  · unfold text typeText
    rw [if_neg (by simp [hn])]
    simp only [ht]
    rw [rdI16_at pre w a b _ hp]
    simp only [Outcome.ok_bind, hsz]
    rw [show load (pre ++ a :: b :: w) (f.offset + 2) (2 * f.ty.length + 2) = .ub by
      unfold load; rw [if_neg (by simp; omega)]]
    rfl
  · intro c d post
    unfold text typeText
    rw [if_neg (by simp [hn])]
    simp only [ht]
    have e1 : pre ++ a :: b :: w ++ c :: d :: post = pre ++ a :: b :: (w ++ c :: d :: post) := by simp
    have e2 : pre ++ a :: b :: (w ++ c :: d :: post) = (pre ++ [a, b]) ++ (w ++ [c, d]) ++ post := by simp
    rw [e1, rdI16_at pre _ a b _ hp]
    simp only [Outcome.ok_bind, hsz]
    rw [e2, load_at _ (w ++ [c, d]) post _ _ (by simp [hp]) (by simp; omega)]
    rfl

example : text ⟨false, false⟩ ⟨0, false, ⟨.varchar, 1, 0, false⟩⟩ [0xff, 0xff, 0x41, 0, 0x42, 0] true false false =
    .ok "AB".toList := by decide +kernel

/-- **C68h.** Version fields: the four (two) numbers, signed. -/
theorem version_text (sh : Show) (f : Fld) (a b c d r : Bytes) (ht : f.ty.type = .version)
    (ha : a.length = 4) (hb : b.length = 4) (hc : c.length = 4) (hd : d.length = 4)
    (h : Spec.HasValue f.offset f.nullable (a ++ b ++ c ++ d) r) (en ig det : Bool) :
    text sh f r en ig det = .ok (Spec.decimal (Spec.signed a) ++ ':' :: Spec.decimal (Spec.signed b) ++
      ':' :: Spec.decimal (Spec.signed c) ++ ':' :: Spec.decimal (Spec.signed d)) := by
  obtain ⟨pre, post, rfl, e⟩ := text_value (sh := sh) h en ig det
  rw [e]
  unfold typeText
  simp only [ht]
  have e0 : pre ++ (a ++ b ++ c ++ d) ++ post = pre ++ a ++ (b ++ c ++ d ++ post) := by simp
  have e1 : pre ++ (a ++ b ++ c ++ d) ++ post = (pre ++ a) ++ b ++ (c ++ d ++ post) := by simp
  have e2 : pre ++ (a ++ b ++ c ++ d) ++ post = (pre ++ a ++ b) ++ c ++ (d ++ post) := by simp
  have e3 : pre ++ (a ++ b ++ c ++ d) ++ post = (pre ++ a ++ b ++ c) ++ d ++ post := by simp
  have r0 : rdI32 (pre ++ (a ++ b ++ c ++ d) ++ post) pre.length = .ok (Spec.signed a) := by
    rw [e0]; exact rdI32_load _ _ _ _ rfl ha
  have r1 : rdI32 (pre ++ (a ++ b ++ c ++ d) ++ post) (pre.length + 4) = .ok (Spec.signed b) := by
    rw [e1]; exact rdI32_load _ _ _ _ (by simp [ha]) hb
  have r2 : rdI32 (pre ++ (a ++ b ++ c ++ d) ++ post) (pre.length + 8) = .ok (Spec.signed c) := by
    rw [e2]; exact rdI32_load _ _ _ _ (by simp [ha, hb]) hc
  have r3 : rdI32 (pre ++ (a ++ b ++ c ++ d) ++ post) (pre.length + 12) = .ok (Spec.signed d) := by
    rw [e3]; exact rdI32_load _ _ _ _ (by simp [ha, hb, hc]) hd
  rw [r0, r1, r2, r3]
  simp only [Outcome.ok_bind, intText_eq]

theorem version8_text (sh : Show) (f : Fld) (a b r : Bytes) (ht : f.ty.type = .version8)
    (ha : a.length = 4) (hb : b.length = 4)
    (h : Spec.HasValue f.offset f.nullable (a ++ b) r) (en ig det : Bool) :
    text sh f r en ig det =
      .ok (Spec.decimal (Spec.signed a) ++ ':' :: Spec.decimal (Spec.signed b)) := by
  obtain ⟨pre, post, rfl, e⟩ := text_value (sh := sh) h en ig det
  rw [e]
  unfold typeText
  simp only [ht]
  have e0 : pre ++ (a ++ b) ++ post = pre ++ a ++ (b ++ post) := by simp
  have e1 : pre ++ (a ++ b) ++ post = (pre ++ a) ++ b ++ post := by simp
  have r0 : rdI32 (pre ++ (a ++ b) ++ post) pre.length = .ok (Spec.signed a) := by
    rw [e0]; exact rdI32_load _ _ _ _ rfl ha
  have r1 : rdI32 (pre ++ (a ++ b) ++ post) (pre.length + 4) = .ok (Spec.signed b) := by
    rw [e1]; exact rdI32_load _ _ _ _ (by simp [ha]) hb
  rw [r0, r1]
  simp only [Outcome.ok_bind, intText_eq]

example : text ⟨false, false⟩ ⟨0, false, ⟨.version8, 0, 0, false⟩⟩ [0xfe, 0xff, 0xff, 0xff, 0, 1, 0, 0] true false false =
    .ok "-2:256".toList := by decide +kernel

/-- **C68i.** The place-holders of large fields. -/
theorem large_text (sh : Show) (f : Fld) (r : Bytes) (v : Bytes) (en ig : Bool)
    (h : Spec.HasValue f.offset f.nullable v r) :
    (f.ty.type = .string → text sh f r en ig false = .ok "{MEMO}".toList) ∧
    (f.ty.type = .text → text sh f r en ig false = .ok "{TEXT}".toList) ∧
    (f.ty.type = .image → text sh f r en ig false = .ok "{IMAGE}".toList) := by
  obtain ⟨pre, post, rfl, e⟩ := text_value (sh := sh) h en ig false
  rw [e]
  refine ⟨?_, ?_, ?_⟩ <;> intro ht <;> simp [typeText, ht, blobText]

/-- In detail: the first block and the length, in hexadecimal. -/
theorem large_text_detailed (sh : Show) (f : Fld) (r a b : Bytes) (en ig : Bool)
    (ha : a.length = 4) (hb : b.length = 4) (h : Spec.HasValue f.offset f.nullable (a ++ b) r) :
    (f.ty.type = .string → text sh f r en ig true = .ok ("{MEMO} [0x".toList ++
      Hex.hexstring a.reverse ++ "][0x".toList ++ Hex.hexstring b.reverse ++ "]".toList)) ∧
    (f.ty.type = .text → text sh f r en ig true = .ok ("{TEXT} [0x".toList ++
      Hex.hexstring a.reverse ++ "][0x".toList ++ Hex.hexstring b.reverse ++ "]".toList)) ∧
    (f.ty.type = .image → text sh f r en ig true = .ok ("{IMAGE} [0x".toList ++
      Hex.hexstring a.reverse ++ "][0x".toList ++ Hex.hexstring b.reverse ++ "]".toList)) := by
  obtain ⟨pre, post, rfl, e⟩ := text_value (sh := sh) h en ig true
  rw [e]
  have e0 : pre ++ (a ++ b) ++ post = pre ++ a ++ (b ++ post) := by simp
  have e1 : pre ++ (a ++ b) ++ post = (pre ++ a) ++ b ++ post := by simp
  have l0 : load (pre ++ (a ++ b) ++ post) pre.length 4 = .ok a := by
    rw [e0]; exact load_at _ _ _ _ _ rfl ha
  have l1 : load (pre ++ (a ++ b) ++ post) (pre.length + 4) 4 = .ok b := by
    rw [e1]; exact load_at _ _ _ _ _ (by simp [ha]) hb
  refine ⟨?_, ?_, ?_⟩ <;> intro ht <;> simp only [typeText, ht, blobText, hex32, l0, l1] <;>
    simp

/-- **C68j.** Binary values of variable length: the exact effect. A count within the field
gives the digits followed by NULs up to the size of the field; a negative count, or one
larger than the field by two or more, leaves the text or the record. (A count larger by one
takes one byte behind the field.) -/
theorem varbinary_text_exact (sh : Show) (f : Fld) (v w r : Bytes) (a b : UInt8)
    (ht : f.ty.type = .varbinary) (hg : f.ty.isGuid = false) (hw : w.length = f.ty.length)
    (hv : v = a :: b :: w) (h : Spec.HasValue f.offset f.nullable v r) (en ig det : Bool) :
    (0 ≤ Spec.signed [a, b] → Spec.signed [a, b] ≤ f.ty.length →
      text sh f r en ig det = .ok (Spec.hexText (w.take (Spec.signed [a, b]).toNat) ++
        List.replicate (2 * (f.ty.length + 1 - (Spec.signed [a, b]).toNat)) '\x00')) ∧
    (Spec.signed [a, b] < 0 ∨ (f.ty.length : Int) + 1 < Spec.signed [a, b] →
      text sh f r en ig det = .ub) := by
  obtain ⟨pre, post, rfl, e⟩ := text_value (sh := sh) h en ig det
  subst hv
  rw [e]
  have e1 : pre ++ a :: b :: w ++ post = pre ++ a :: b :: (w ++ post) := by simp
  have hty : typeText sh f.ty (pre ++ a :: b :: w ++ post) pre.length ig det =
      fromVarbinary (pre ++ a :: b :: w ++ post) pre.length f.ty.length := by
    simp [typeText, ht, binaryText, hg]
  rw [hty]
  unfold fromVarbinary
  rw [e1, rdI16_at pre _ a b _ rfl]
  simp only [Outcome.ok_bind]
  constructor
  · intro h0 h1
    obtain ⟨m, hm⟩ : ∃ m : Nat, Spec.signed [a, b] = m := ⟨_, (Int.toNat_of_nonneg h0).symm⟩
    rw [hm] at h1 ⊢
    rw [if_neg (by omega)]
    simp only [Int.toNat_natCast]
    have hml : m ≤ f.ty.length := by omega
    have e2 : pre ++ a :: b :: (w ++ post) = (pre ++ [a, b]) ++ w.take m ++ (w.drop m ++ post) := by
      rw [List.append_assoc (pre ++ [a, b]), ← List.append_assoc (w.take m), List.take_append_drop]
      simp
    have hlen : (w.take m).length = m := by simp; omega
    have := hexFill_ok (w.take m) (pre ++ [a, b]) (w.drop m ++ post) (pre.length + 2) 0 []
      (List.replicate ((f.ty.length + 1) * 2) '\x00') (by simp) (by simp) (by simp; omega)
    rw [hlen] at this
    rw [List.nil_append] at this
    rw [e2, this, Outcome.ok_bind, List.nil_append, List.drop_replicate]
    obtain ⟨k, hk⟩ : ∃ k, (f.ty.length + 1) * 2 - 2 * m = k + 1 :=
      ⟨(f.ty.length + 1) * 2 - 2 * m - 1, by omega⟩
    have hk' : 2 * (f.ty.length + 1 - m) = k + 1 := by omega
    rw [hk, hk', List.replicate_succ, put_at _ _ _ _ (2 * m) (by rw [hexText_length, hlen])]
  · intro hbad
    by_cases h0 : Spec.signed [a, b] < 0
    · rw [if_pos h0]
    · rw [if_neg h0]
      have h2 : (f.ty.length : Int) + 1 < Spec.signed [a, b] := by rcases hbad with h | h <;> omega
      rw [hexFill_short _ _ _ _ _ (by simp) (by simp; omega)]
      rfl

example : text ⟨false, false⟩ ⟨0, false, ⟨.varbinary, 2, 0, false⟩⟩ [1, 0, 0xab, 7] true false false =
    .ok "ab\x00\x00\x00\x00".toList := by decide +kernel

/-! ## Locality -/

theorem typeText_local (sh : Show) (f : Fld) (v : Bytes) (hv : v.length = f.ty.width)
    (hd : f.ty.type ≠ .datetime) (h1 : f.ty.type ≠ .varchar) (h2 : f.ty.type ≠ .varbinary)
    (hnum : f.ty.type = .numeric → 1 ≤ f.ty.length ∧ f.ty.precision ≤ f.ty.length)
    (hguid : f.ty.isGuid = true → f.ty.length = 16)
    (pre pre' post post' : Bytes) (ig det : Bool) :
    typeText sh f.ty (pre ++ v ++ post) pre.length ig det ≠ .ub ∧
    typeText sh f.ty (pre ++ v ++ post) pre.length ig det =
      typeText sh f.ty (pre' ++ v ++ post') pre'.length ig det := by
  have hload : ∀ (p q : Bytes) (n : Nat), v.length = n → load (p ++ v ++ q) p.length n = .ok v :=
    fun p q n hn => load_at p v q _ _ rfl hn
  have hsub : ∀ (p q : Bytes) (i n : Nat), i + n ≤ v.length →
      load (p ++ v ++ q) (p.length + i) n = .ok ((v.drop i).take n) := by
    intro p q i n hin
    have e : p ++ v ++ q = (p ++ v.take i) ++ (v.drop i).take n ++ ((v.drop i).drop n ++ q) := by
      rw [List.append_assoc (p ++ v.take i), ← List.append_assoc ((v.drop i).take n),
        List.take_append_drop, List.append_assoc p, ← List.append_assoc (p ++ v.take i),
        List.append_assoc p (v.take i), List.take_append_drop, List.append_assoc]
    rw [e]
    exact load_at _ _ _ _ _ (by simp; omega) (by simp; omega)
  have hi32 : ∀ (p q : Bytes) (i : Nat), i + 4 ≤ v.length →
      rdI32 (p ++ v ++ q) (p.length + i) = .ok (Spec.signed ((v.drop i).take 4)) := by
    intro p q i hin
    have e : p ++ v ++ q = (p ++ v.take i) ++ (v.drop i).take 4 ++ ((v.drop i).drop 4 ++ q) := by
      rw [List.append_assoc (p ++ v.take i), ← List.append_assoc ((v.drop i).take 4),
        List.take_append_drop, List.append_assoc p, ← List.append_assoc (p ++ v.take i),
        List.append_assoc p (v.take i), List.take_append_drop, List.append_assoc]
    rw [e]
    exact rdI32_load _ _ _ _ (by simp; omega) (by simp; omega)
  cases ht : f.ty.type with
  | datetime => exact absurd ht hd
  | varchar => exact absurd ht h1
  | varbinary => exact absurd ht h2
  | bool =>
    simp only [Ty.width, ht] at hv
    obtain ⟨b, rfl⟩ := List.length_eq_one_iff.mp hv
    have : ∀ p q : Bytes, byteAt (p ++ [b] ++ q) p.length = .ok b := by
      intro p q; rw [List.append_assoc]; exact byteAt_at p b q _ rfl
    simp only [typeText, ht, this]
    simp
  | binary =>
    simp only [Ty.width, ht] at hv
    have hfb : ∀ p q : Bytes, fromBinary (p ++ v ++ q) p.length f.ty.length =
        .ok (Spec.hexText v ++ ['\x00', '\x00']) := by
      intro p q; rw [← hv]; exact fromBinary_ok p v q _ rfl
    simp only [typeText, ht, binaryText, if_true, hfb]
    split
    · rename_i hg
      have h16 := hguid hg
      simp only [guidText, hload _ _ 16 (by omega)]
      simp
    · split
      · rename_i hc
        simp only [guidText, hload _ _ 16 (by omega)]
        simp
      · simp
  | numeric =>
    obtain ⟨hl1, hl2⟩ := hnum ht
    simp only [Ty.width, ht] at hv
    have hdrop : ∀ p q : Bytes, (p ++ v ++ q).drop p.length = v ++ q := by
      intro p q; rw [List.append_assoc, List.drop_left]
    simp only [typeText, ht, hdrop, Decimal.numericPresent]
    have hloc := Decimal.numeric_decode_local v post post' f.ty.length f.ty.precision hl1 hv
    rw [hloc.2]
    refine ⟨?_, rfl⟩
    have hub := hloc.1
    rw [hloc.2] at hub
    cases hof : Decimal.ofRaw (v ++ post') f.ty.length f.ty.precision true with
    | ub => exact absurd hof hub
    | throw => simp
    | ok d =>
      simp only [Outcome.ok_bind]
      have hlen : d.data.length = f.ty.length ∧ d.precision = f.ty.precision := by
        unfold Decimal.ofRaw at hof
        cases hvp : v ++ post' with
        | nil => rw [hvp] at hof; simp at hof
        | cons x xs =>
          rw [hvp] at hof
          have hx : (f.ty.length - 1 + 1) / 2 ≤ xs.length := by
            have := congrArg List.length hvp
            simp only [List.length_append, List.length_cons] at this
            omega
          obtain ⟨ds, hds, hdl, _⟩ := Decimal.rawLoop_of_enough f.ty.length 1 xs hx
          simp only [hds] at hof
          simp at hof
          subst hof
          refine ⟨?_, rfl⟩
          simp; omega
      unfold Decimal.presentation
      rw [if_neg (by omega)]
      simp
  | char =>
    simp only [Ty.width, ht] at hv
    simp only [typeText, ht, hload _ _ _ hv, Outcome.ok_bind]
    exact ⟨utf16Str_defined v, trivial⟩
  | version =>
    simp only [Ty.width, ht] at hv
    have z := fun (p q : Bytes) => hi32 p q 0 (by omega)
    simp only [Nat.add_zero] at z
    simp only [typeText, ht, z, hi32 _ _ 4 (by omega), hi32 _ _ 8 (by omega), hi32 _ _ 12 (by omega)]
    simp
  | version8 =>
    simp only [Ty.width, ht] at hv
    have z := fun (p q : Bytes) => hi32 p q 0 (by omega)
    simp only [Nat.add_zero] at z
    simp only [typeText, ht, z, hi32 _ _ 4 (by omega)]
    simp
  | string =>
    simp only [Ty.width, ht] at hv
    have z := fun (p q : Bytes) => hsub p q 0 4 (by omega)
    simp only [Nat.add_zero] at z
    simp only [typeText, ht, blobText, hex32, z, hsub _ _ 4 4 (by omega)]
    split <;> simp
  | text =>
    simp only [Ty.width, ht] at hv
    have z := fun (p q : Bytes) => hsub p q 0 4 (by omega)
    simp only [Nat.add_zero] at z
    simp only [typeText, ht, blobText, hex32, z, hsub _ _ 4 4 (by omega)]
    split <;> simp
  | image =>
    simp only [Ty.width, ht] at hv
    have z := fun (p q : Bytes) => hsub p q 0 4 (by omega)
    simp only [Nat.add_zero] at z
    simp only [typeText, ht, blobText, hex32, z, hsub _ _ 4 4 (by omega)]
    split <;> simp

/-- **C68k.** The text of a value of a type other than dates and variable-length ones
depends on nothing but the bytes of the value, and computing it never leaves them: two
records, whatever their other bytes, that hold the same value show the same text. -/
theorem text_local (sh : Show) (f : Fld) (v r r' : Bytes) (hv : v.length = f.ty.width)
    (hd : f.ty.type ≠ .datetime) (h1 : f.ty.type ≠ .varchar) (h2 : f.ty.type ≠ .varbinary)
    (hnum : f.ty.type = .numeric → 1 ≤ f.ty.length ∧ f.ty.precision ≤ f.ty.length)
    (hguid : f.ty.isGuid = true → f.ty.length = 16)
    (hr : Spec.HasValue f.offset f.nullable v r) (hr' : Spec.HasValue f.offset f.nullable v r')
    (en ig det : Bool) :
    text sh f r en ig det ≠ .ub ∧ text sh f r en ig det = text sh f r' en ig det := by
  obtain ⟨p, q, rfl, e⟩ := text_value (sh := sh) hr en ig det
  obtain ⟨p', q', rfl, e'⟩ := text_value (sh := sh) hr' en ig det
  rw [e, e']
  exact typeText_local sh f v hv hd h1 h2 hnum hguid p p' q q' ig det

/-- The hypotheses are met by a numeric field. -/
example : Spec.HasValue 1 false [0x12, 0x30] [0, 0x12, 0x30, 5] ∧
    ([0x12, 0x30] : Bytes).length = (⟨.numeric, 3, 1, false⟩ : Ty).width ∧
    text ⟨false, false⟩ ⟨1, false, ⟨.numeric, 3, 1, false⟩⟩ [0, 0x12, 0x30, 5] true false false =
      .ok "23".toList := ⟨⟨[0], [5], 1, by decide, rfl, rfl⟩, rfl, by decide +kernel⟩

/-! ## Numbers and dates -/

/-- **C68.** A number is shown as its canonical decimal text: for the digits `ip` before and
`fp` behind the point, packed with a positive sign. -/
theorem number_text (sh : Show) (f : Fld) (ip fp : List Nat) (hne : ip ++ fp ≠ [])
    (hi : ∀ x ∈ ip, x < 10) (hf : ∀ x ∈ fp, x < 10) (ht : f.ty.type = .numeric)
    (hl : f.ty.length = (ip ++ fp).length) (hp : f.ty.precision = fp.length) :
    ∃ v, Decimal.writeTo ⟨true, fp.length, (ip ++ fp).map Int.ofNat, 1⟩ = .ok v ∧
      ∀ r, Spec.HasValue f.offset f.nullable v r → ∀ en ig det,
        text sh f r en ig det = .ok (Decimal.Spec.canonical (val 10 (ip ++ fp)) fp.length) := by
  obtain ⟨v, h1, h2, h3⟩ := Decimal.present_of_digits ip fp hne hi hf
  refine ⟨v, h1, ?_⟩
  intro r h en ig det
  obtain ⟨pre, post, rfl, e⟩ := text_value (sh := sh) h en ig det
  rw [e]
  simp only [typeText, ht, hl, hp]
  have hpos : 1 ≤ (ip ++ fp).length := List.length_pos_iff.mpr hne
  have hd := (Decimal.numeric_decode_local v post [] (ip ++ fp).length fp.length hpos (by rw [h2]; rfl)).2
  rw [List.append_assoc, List.drop_left]
  unfold Decimal.numericPresent at h3 ⊢
  rw [hd, List.append_nil]
  exact h3

example : text ⟨false, false⟩ ⟨1, true, ⟨.numeric, 5, 2, false⟩⟩ [0, 1, 0x10, 0x07, 0x50] true false false =
    .ok "7.5".toList := by decide +kernel

/-- **C68 (partial).** A date is shown as `dd.MM.yyyy hh:mm:ss`, provided three more bytes
follow the field in the record. -/
theorem date_text_partial (sh : Show) (f : Fld) (dd MM yyyy hh mm ss : Str) (v pre post : Bytes) (fl : UInt8)
    (hfl : fl ≠ 0) (ht : f.ty.type = .datetime)
    (l1 : dd.length = 2) (l2 : MM.length = 2) (l3 : yyyy.length = 4) (l4 : hh.length = 2)
    (l5 : mm.length = 2) (l6 : ss.length = 2)
    (hd : ∀ c ∈ dd ++ MM ++ yyyy ++ hh ++ mm ++ ss, Decimal.Spec.IsDigitChar c)
    (hv : Decimal.stringToDate (dd ++ ['.'] ++ MM ++ ['.'] ++ yyyy ++ [' '] ++ hh ++ [':'] ++ mm ++ [':'] ++ ss) =
      .ok v) (hpre : pre.length = f.offset) (hpost : 3 ≤ post.length) (en ig det : Bool) :
    text sh f (pre ++ (if f.nullable then [fl] else []) ++ v ++ post) en ig det =
      .ok (dd ++ ['.'] ++ MM ++ ['.'] ++ yyyy ++ [' '] ++ hh ++ [':'] ++ mm ++ [':'] ++ ss) := by
  obtain ⟨w, h1, h2, h3⟩ := Decimal.date_text_roundtrip_partial dd MM yyyy hh mm ss l1 l2 l3 l4 l5 l6 hd
  rw [hv] at h1
  injection h1 with h1
  subst h1
  unfold text
  cases hn : f.nullable with
  | false =>
    simp only [Bool.false_eq_true, if_false, List.append_nil, typeText, ht]
    rw [List.append_assoc, ← hpre, List.drop_left]
    exact h3 post hpost
  | true =>
    simp only [if_true]
    have e : pre ++ [fl] ++ v ++ post = pre ++ fl :: (v ++ post) := by simp
    rw [e, byteAt_at pre fl _ _ hpre]
    simp only [Outcome.ok_bind, typeText, ht]
    rw [if_neg hfl, show pre ++ fl :: (v ++ post) = (pre ++ [fl]) ++ (v ++ post) by simp,
      show f.offset + 1 = (pre ++ [fl]).length by simp [hpre], List.drop_left]
    exact h3 post hpost

/-- A date at the end of a record cannot be shown: the decoder reads 10 bytes. -/
theorem date_text_reads_past (sh : Show) (f : Fld) (r : Bytes) (ht : f.ty.type = .datetime)
    (hn : f.nullable = false) (hl : r.length < f.offset + 10) (en ig det : Bool) :
    text sh f r en ig det = .ub := by
  unfold text
  simp only [hn, Bool.false_eq_true, if_false, typeText, ht, Decimal.dateToString]
  rw [Decimal.date_decode_overreads _ (by simp; omega)]
  rfl

example : text ⟨false, false⟩ ⟨1, false, ⟨.datetime, 0, 0, false⟩⟩
    [0, 0x20, 0x18, 0x03, 0x31, 0x23, 0x59, 0x58] true false false = .ub := by decide +kernel

end Verif.Field
