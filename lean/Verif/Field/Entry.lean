import Verif.Field.Theorems

/-! # Property theorems: entering values (C69) -/

namespace Verif.Field
open Verif Record

/-- The bytes of a field with a value entered through the editor: the flag and the value. -/
def Spec.flagged (nullable : Bool) (v : Bytes) : Bytes := (if nullable then [1] else []) ++ v

theorem fieldStore_value (ltr : Bool) (sh : Show) (f : Fld) (s : Str) (ok : Bool) (v : Bytes)
    (h : typeStore ltr sh f.ty s = .ok (ok, v)) :
    fieldStore ltr sh f false s = .ok (ok, Spec.flagged f.nullable v) := by
  unfold fieldStore Spec.flagged
  cases f.nullable <;> simp [h]

theorem flagged_hasValue (f : Fld) (v pre post : Bytes) (hp : pre.length = f.offset) :
    Spec.HasValue f.offset f.nullable v (pre ++ Spec.flagged f.nullable v ++ post) := by
  refine ⟨pre, post, 1, by decide, hp, ?_⟩
  simp [Spec.flagged]

/-! ## What works -/

/-- **C69a.** Entering a null into a field that may be null makes it null. -/
theorem entry_null (ltr : Bool) (sh sh' : Show) (f : Fld) (s : Str) (hn : f.nullable = true) :
    ∃ b, fieldStore ltr sh f true s = .ok (true, b) ∧ b.length = f.size ∧
      ∀ pre post : Bytes, pre.length = f.offset → ∀ en ig det,
        text sh' f (pre ++ b ++ post) en ig det = .ok (if en then [] else "{NULL}".toList) := by
  refine ⟨List.replicate f.size 0, by simp [fieldStore, hn], by simp, ?_⟩
  intro pre post hp en ig det
  have : f.size = f.ty.width + 1 := by simp [Fld.size, hn]; omega
  rw [this, List.replicate_succ, List.append_assoc, List.cons_append]
  exact null_text sh' f pre _ hn hp en ig det

/-- **C69b.** Entering `true` or `false` into a boolean field shows the same text. -/
theorem entry_bool (ltr : Bool) (sh sh' : Show) (f : Fld) (b : Bool) (ht : f.ty.type = .bool) :
    ∃ v, fieldStore ltr sh f false (if b then "true".toList else "false".toList) = .ok (true, v) ∧
      v.length = f.size ∧ ∀ pre post : Bytes, pre.length = f.offset → ∀ en ig det,
        text sh' f (pre ++ v ++ post) en ig det = .ok (if b then "true".toList else "false".toList) := by
  refine ⟨Spec.flagged f.nullable [if b then 1 else 0], ?_, ?_, ?_⟩
  · apply fieldStore_value
    cases b <;> simp [typeStore, ht]
  · simp only [Spec.flagged, Fld.size, Ty.width, ht]
    cases f.nullable <;> rfl
  · intro pre post hp en ig det
    rw [bool_text sh' f _ _ ht (flagged_hasValue f _ pre post hp)]
    cases b <;> simp

/-- **C69c (partial).** A number entered with at most as many whole digits as the field has
is shown as the same number, cut to the precision of the field. Missing: what C02 misses. -/
theorem entry_number_partial (ltr : Bool) (sh sh' : Show) (f : Fld) (ip fp : Str)
    (ht : f.ty.type = .numeric) (hL : 1 ≤ f.ty.length) (hp : 0 < f.ty.precision)
    (hpL : f.ty.precision ≤ f.ty.length)
    (hip : ∀ c ∈ ip, Decimal.Spec.IsDigitChar c) (hfp : ∀ c ∈ fp, Decimal.Spec.IsDigitChar c)
    (hfit : ip.length ≤ f.ty.length - f.ty.precision) :
    ∃ v, fieldStore ltr sh f false (ip ++ '.' :: fp) = .ok (true, v) ∧ v.length = f.size ∧
      ∀ pre post : Bytes, pre.length = f.offset → ∀ en ig det,
        text sh' f (pre ++ v ++ post) en ig det = .ok (Decimal.Spec.canonical
          (Decimal.Spec.textValue (ip ++ fp) * 10 ^ f.ty.precision / 10 ^ fp.length) f.ty.precision) := by
  have hw : f.ty.width = Decimal.numericSize f.ty.length := by simp [Ty.width, ht, Decimal.numericSize]
  obtain ⟨bs, h1, h2, h3⟩ := Decimal.numeric_text_roundtrip_partial
    (List.replicate f.ty.width 0) f.ty.length f.ty.precision ip fp (by simp [hw]) hL hp hpL hip hfp hfit
  refine ⟨Spec.flagged f.nullable bs, ?_, ?_, ?_⟩
  · apply fieldStore_value
    simp only [typeStore, ht, h1]
    rfl
  · simp only [Spec.flagged, Fld.size, hw]
    cases f.nullable <;> simp [h2, Nat.add_comm]
  · intro pre post hpre en ig det
    obtain ⟨p, q, hpq, e⟩ := text_value (sh := sh') (flagged_hasValue f bs pre post hpre) en ig det
    rw [e]
    simp only [typeText, ht]
    have : (pre ++ Spec.flagged f.nullable bs ++ post).drop p.length = bs ++ q := by
      rw [hpq, List.append_assoc, List.drop_left]
    rw [this]
    have hd := (Decimal.numeric_decode_local bs q [] f.ty.length f.ty.precision hL (by rw [h2]; rfl)).2
    unfold Decimal.numericPresent at h3 ⊢
    rw [hd, List.append_nil, h3]

example : fieldStore true ⟨false, false⟩ ⟨1, true, ⟨.numeric, 5, 2, false⟩⟩ false "7.509".toList =
    .ok (true, [1, 0x10, 0x07, 0x50]) := by decide +kernel

/-- **C69d (partial).** A date entered as `dd.MM.yyyy hh:mm:ss` is shown as the same text,
provided three more bytes follow the field in the record (C04). -/
theorem entry_date_partial (ltr : Bool) (sh sh' : Show) (f : Fld) (ht : f.ty.type = .datetime)
    (dd MM yyyy hh mm ss : Str)
    (l1 : dd.length = 2) (l2 : MM.length = 2) (l3 : yyyy.length = 4) (l4 : hh.length = 2)
    (l5 : mm.length = 2) (l6 : ss.length = 2)
    (hd : ∀ c ∈ dd ++ MM ++ yyyy ++ hh ++ mm ++ ss, Decimal.Spec.IsDigitChar c) :
    ∃ v, fieldStore ltr sh f false
        (dd ++ ['.'] ++ MM ++ ['.'] ++ yyyy ++ [' '] ++ hh ++ [':'] ++ mm ++ [':'] ++ ss) = .ok (true, v) ∧
      v.length = f.size ∧ ∀ pre post : Bytes, pre.length = f.offset → 3 ≤ post.length → ∀ en ig det,
        text sh' f (pre ++ v ++ post) en ig det =
          .ok (dd ++ ['.'] ++ MM ++ ['.'] ++ yyyy ++ [' '] ++ hh ++ [':'] ++ mm ++ [':'] ++ ss) := by
  obtain ⟨bs, h1, h2, h3⟩ := Decimal.date_text_roundtrip_partial dd MM yyyy hh mm ss l1 l2 l3 l4 l5 l6 hd
  refine ⟨Spec.flagged f.nullable bs, ?_, ?_, ?_⟩
  · apply fieldStore_value
    simp only [typeStore, ht, Decimal.datetimeStore]
    rw [if_neg (by simp; omega), h1]
    rfl
  · simp only [Spec.flagged, Fld.size, Ty.width, ht]
    cases f.nullable <;> simp [h2]
  · intro pre post hpre hpost en ig det
    unfold text Spec.flagged
    cases hn : f.nullable with
    | false =>
      simp only [Bool.false_eq_true, if_false, List.nil_append, typeText, ht]
      rw [List.append_assoc, ← hpre, List.drop_left]
      exact h3 post hpost
    | true =>
      simp only [if_true]
      have e : pre ++ ([1] ++ bs) ++ post = pre ++ 1 :: (bs ++ post) := by simp
      rw [e, byteAt_at pre 1 _ _ hpre]
      simp only [Outcome.ok_bind, typeText, ht]
      rw [if_neg (by decide), show pre ++ 1 :: (bs ++ post) = (pre ++ [1]) ++ (bs ++ post) by simp,
        show f.offset + 1 = (pre ++ [1]).length by simp [hpre], List.drop_left]
      exact h3 post hpost

/-- **C69e.** Values of the other types cannot be entered. -/
theorem entry_refused (ltr : Bool) (sh : Show) (f : Fld) (s : Str)
    (ht : f.ty.type ∈ [FType.version, .version8, .string, .text, .image, .varbinary]) :
    ∃ v, fieldStore ltr sh f false s = .ok (false, v) ∧ v.length = f.size := by
  refine ⟨Spec.flagged f.nullable (List.replicate f.ty.width 0), ?_, ?_⟩
  · apply fieldStore_value
    simp only [List.mem_cons, List.not_mem_nil, or_false] at ht
    rcases ht with h | h | h | h | h | h <;> simp [typeStore, h]
  · simp only [Spec.flagged, Fld.size]
    cases f.nullable <;> simp [Nat.add_comm]

theorem hexRun_length (ltr : Bool) (s : Str) : ∀ (n j : Nat) (v : Bytes), hexRun ltr s n j = .ok v →
    v.length = n := by
  intro n
  induction n with
  | zero => intro j v h; simp [hexRun] at h; subst h; rfl
  | succ n ih =>
    intro j v h
    simp only [hexRun] at h
    cases hb : hexPair ltr s j with
    | throw => rw [hb] at h; cases h
    | ub => rw [hb] at h; cases h
    | ok b =>
      rw [hb] at h
      simp only [Outcome.ok_bind] at h
      cases hr : hexRun ltr s n (j + 2) with
      | throw => rw [hr] at h; cases h
      | ub => rw [hr] at h; cases h
      | ok w =>
        rw [hr] at h
        simp only [Outcome.ok_bind, Outcome.ok.injEq] at h
        subst h
        simp [ih _ _ hr]

theorem charStore_length (n : Nat) (s : Str) (i : Nat) (b : Bytes) (h : charStore n s = .ok (i, b)) :
    b.length = n * 2 := by
  unfold charStore load at h
  dsimp only at h
  split at h
  · rename_i hc
    simp only [Outcome.ok_bind, Outcome.ok.injEq, Prod.mk.injEq] at h
    obtain ⟨rfl, rfl⟩ := h
    have hflat : ∀ k, (List.replicate k ([0x20, 0] : Bytes)).flatten.length = 2 * k := by
      intro k
      induction k with
      | zero => rfl
      | succ k ih => rw [List.replicate_succ, List.flatten_cons, List.length_append, ih]; simp; omega
    simp only [List.length_append, hflat, List.length_take, List.length_drop]
    simp only [List.length_append] at hc
    omega
  · cases h

theorem numericStore_length (old : Bytes) (L p : Nat) (s : Str) (b : Bytes)
    (h : Decimal.numericStore old L p s = .ok b) : b.length = old.length := by
  unfold Decimal.numericStore at h
  split at h
  · simp only [Outcome.ok.injEq] at h; rw [h]
  · cases hd : Decimal.ofString s true L p with
    | throw => rw [hd] at h; cases h
    | ub => rw [hd] at h; cases h
    | ok d =>
      rw [hd] at h
      simp only [Outcome.ok_bind] at h
      cases hw : Decimal.writeTo d with
      | throw => rw [hw] at h; cases h
      | ub => rw [hw] at h; cases h
      | ok w =>
        rw [hw] at h
        simp only [Outcome.ok_bind] at h
        split at h
        · simp only [Outcome.ok.injEq] at h; subst h; simp; omega
        · cases h

/-- **C69f.** Whatever text is entered: if the conversion is defined, exactly the bytes of
the field are produced. -/
theorem entry_fits (ltr : Bool) (sh : Show) (f : Fld) (null : Bool) (s : Str) (ok : Bool) (v : Bytes)
    (h : fieldStore ltr sh f null s = .ok (ok, v)) : v.length = f.size := by
  have hty : ∀ w, typeStore ltr sh f.ty s = .ok (ok, w) → w.length = f.ty.width := by
    intro w hw
    unfold typeStore at hw
    cases ht : f.ty.type with
    | binary =>
      simp only [ht, Ty.width] at hw ⊢
      cases hb : binaryStore ltr sh f.ty.length s with
      | throw => rw [hb] at hw; cases hw
      | ub => rw [hb] at hw; cases hw
      | ok b =>
        rw [hb] at hw
        simp only [Outcome.ok_bind, Outcome.ok.injEq, Prod.mk.injEq] at hw
        obtain ⟨_, rfl⟩ := hw
        unfold binaryStore at hb
        split at hb
        · simp only [Outcome.ok.injEq] at hb; subst hb; simp
        · split at hb
          · rename_i h16
            split at hb
            · simp only [Outcome.ok.injEq] at hb; subst hb; simp
            · cases ha : hexRun ltr s 4 1 with
              | throw => rw [ha] at hb; cases hb
              | ub => rw [ha] at hb; cases hb
              | ok a =>
                cases hb2 : hexRun ltr s 2 10 with
                | throw => rw [ha, hb2] at hb; cases hb
                | ub => rw [ha, hb2] at hb; cases hb
                | ok b2 =>
                  cases hc : hexRun ltr s 2 15 with
                  | throw => rw [ha, hb2, hc] at hb; cases hb
                  | ub => rw [ha, hb2, hc] at hb; cases hb
                  | ok c =>
                    cases hd : hexRun ltr s 2 20 with
                    | throw => rw [ha, hb2, hc, hd] at hb; cases hb
                    | ub => rw [ha, hb2, hc, hd] at hb; cases hb
                    | ok d =>
                      cases he : hexRun ltr s 6 25 with
                      | throw => rw [ha, hb2, hc, hd, he] at hb; cases hb
                      | ub => rw [ha, hb2, hc, hd, he] at hb; cases hb
                      | ok e =>
                        rw [ha, hb2, hc, hd, he] at hb
                        simp only [Outcome.ok_bind, Outcome.ok.injEq] at hb
                        subst hb
                        have := hexRun_length _ _ _ _ _ ha
                        have := hexRun_length _ _ _ _ _ hb2
                        have := hexRun_length _ _ _ _ _ hc
                        have := hexRun_length _ _ _ _ _ hd
                        have := hexRun_length _ _ _ _ _ he
                        simp only [List.length_append]
                        omega
          · split at hb
            · simp only [Outcome.ok.injEq] at hb; subst hb; simp
            · exact hexRun_length _ _ _ _ _ hb
    | numeric =>
      simp only [ht] at hw
      cases hb : Decimal.numericStore (List.replicate f.ty.width 0) f.ty.length f.ty.precision s with
      | throw => rw [hb] at hw; cases hw
      | ub => rw [hb] at hw; cases hw
      | ok b =>
        rw [hb] at hw
        simp only [Outcome.ok_bind, Outcome.ok.injEq, Prod.mk.injEq] at hw
        obtain ⟨_, rfl⟩ := hw
        simpa using numericStore_length _ _ _ _ _ hb
    | datetime =>
      simp only [ht, Ty.width, Decimal.datetimeStore] at hw ⊢
      split at hw
      · simp only [Outcome.ok_bind, Outcome.ok.injEq, Prod.mk.injEq] at hw
        obtain ⟨_, rfl⟩ := hw
        rfl
      · simp only [Decimal.stringToDate, Decimal.writeTo, Decimal.dateOfString, Bool.false_eq_true, if_false,
          Outcome.ok_bind, Outcome.ok.injEq, Prod.mk.injEq] at hw
        obtain ⟨_, rfl⟩ := hw
        rw [Decimal.packPairs_length]
        have hp : ∀ c, (Decimal.datePart s Decimal.fmtDefault c).length =
            (Decimal.fmtDefault.zipIdx.filter (fun p => p.1 = c)).length := by
          intro c; simp [Decimal.datePart]
        simp only [List.flatMap_cons, List.flatMap_nil, List.length_append, hp]
        rfl
    | bool =>
      simp only [ht, Ty.width, Outcome.ok.injEq, Prod.mk.injEq] at hw ⊢
      obtain ⟨_, rfl⟩ := hw
      rfl
    | char =>
      simp only [ht, Ty.width] at hw ⊢
      cases hb : charStore f.ty.length s with
      | throw => rw [hb] at hw; cases hw
      | ub => rw [hb] at hw; cases hw
      | ok p =>
        rw [hb] at hw
        simp only [Outcome.ok_bind, Outcome.ok.injEq, Prod.mk.injEq] at hw
        obtain ⟨_, rfl⟩ := hw
        exact charStore_length _ _ p.1 p.2 hb
    | varchar =>
      simp only [ht, Ty.width] at hw ⊢
      cases hb : charStore f.ty.length s with
      | throw => rw [hb] at hw; cases hw
      | ub => rw [hb] at hw; cases hw
      | ok p =>
        rw [hb] at hw
        simp only [Outcome.ok_bind, Outcome.ok.injEq, Prod.mk.injEq] at hw
        obtain ⟨_, rfl⟩ := hw
        rw [List.length_append, charStore_length _ _ p.1 p.2 hb]
        simp [Blob.le16]; omega
    | version => simp only [ht, Outcome.ok.injEq, Prod.mk.injEq] at hw; obtain ⟨_, rfl⟩ := hw; simp
    | version8 => simp only [ht, Outcome.ok.injEq, Prod.mk.injEq] at hw; obtain ⟨_, rfl⟩ := hw; simp
    | string => simp only [ht, Outcome.ok.injEq, Prod.mk.injEq] at hw; obtain ⟨_, rfl⟩ := hw; simp
    | text => simp only [ht, Outcome.ok.injEq, Prod.mk.injEq] at hw; obtain ⟨_, rfl⟩ := hw; simp
    | image => simp only [ht, Outcome.ok.injEq, Prod.mk.injEq] at hw; obtain ⟨_, rfl⟩ := hw; simp
    | varbinary => simp only [ht, Outcome.ok.injEq, Prod.mk.injEq] at hw; obtain ⟨_, rfl⟩ := hw; simp
  unfold fieldStore at h
  unfold Fld.size
  cases hn : f.nullable with
  | false =>
    simp only [hn, Bool.false_eq_true, if_false] at h
    simp [hty v h]
  | true =>
    simp only [hn, if_true] at h
    split at h
    · simp only [Outcome.ok.injEq, Prod.mk.injEq] at h
      obtain ⟨_, rfl⟩ := h
      simp [Fld.size, hn]
    · cases hb : typeStore ltr sh f.ty s with
      | throw => rw [hb] at h; cases h
      | ub => rw [hb] at h; cases h
      | ok p =>
        rw [hb] at h
        simp only [Outcome.ok_bind, Outcome.ok.injEq, Prod.mk.injEq] at h
        obtain ⟨h1, rfl⟩ := h
        have : typeStore ltr sh f.ty s = .ok (ok, p.2) := by rw [hb, ← h1]
        simp [hty p.2 this]; omega

/-- **C69g.** A text too short for a binary field is not entered in part: the field becomes
all zeros. With identifiers shown, that is a text of fewer than 36 characters, otherwise of
fewer than two for each byte. -/
theorem entry_binary_short (ltr : Bool) (sh : Show) (f : Fld) (s : Str) (ht : f.ty.type = .binary)
    (hs : s.length < if f.ty.length = 16 ∧ sh.guid = true then 36 else 2 * f.ty.length) :
    fieldStore ltr sh f false s = .ok (true, Spec.flagged f.nullable (List.replicate f.ty.length 0)) := by
  have hb : binaryStore ltr sh f.ty.length s = .ok (List.replicate f.ty.length 0) := by
    unfold binaryStore
    by_cases h0 : s = []
    · rw [if_pos h0]
    · rw [if_neg h0]
      by_cases hg : f.ty.length = 16 ∧ sh.guid = true
      · rw [if_pos hg] at hs ⊢
        rw [if_pos hs]
      · rw [if_neg hg] at hs ⊢
        rw [if_pos (by omega)]
  have ht' : typeStore ltr sh f.ty s = .ok (true, List.replicate f.ty.length 0) := by
    simp only [typeStore, ht, hb, Outcome.ok_bind]
  exact fieldStore_value ltr sh f s true _ ht'

example : fieldStore true ⟨false, false⟩ ⟨1, true, ⟨.binary, 2, 0, false⟩⟩ false "12a".toList =
    .ok (true, [1, 0, 0]) := entry_binary_short _ _ _ _ rfl (by decide)

/-! ## What does not work -/

theorem fromHexDigit_hexDigit (n : Nat) (h : n < 16) :
    (Hex.fromHexDigit (Spec.hexDigit n)).toNat = n := by
  have : ∀ i : Fin 16, (Hex.fromHexDigit (Spec.hexDigit i.val)).toNat = i.val := by decide +kernel
  exact this ⟨n, h⟩

theorem charAt_at (pre : Str) (c : Char) (post : Str) (n : Nat) (h : pre.length = n) :
    charAt (pre ++ c :: post) n = .ok c := by
  subst h; simp [charAt]

theorem pair_toNat (a b : UInt8) (ha : a.toNat < 16) (hb : b.toNat < 16) :
    ((a <<< (4 : UInt8)) + b).toNat = 16 * a.toNat + b.toNat := by
  have : ∀ i j : Fin 16, ((UInt8.ofNat i.val <<< (4 : UInt8)) + UInt8.ofNat j.val).toNat =
      16 * i.val + j.val := by decide +kernel
  have := this ⟨a.toNat, ha⟩ ⟨b.toNat, hb⟩
  simpa using this

/-- Bytes read back from the second digit on equal the bytes shown only if all first digits
are 0. -/
theorem hexRun_shifted (ltr : Bool) (v : Bytes) : ∀ pre : Str,
    hexRun ltr (pre ++ Spec.hexText v ++ ['\x00', '\x00']) v.length (pre.length + 1) = .ok v →
    ∀ x ∈ v, x.toNat / 16 = 0 := by
  induction v with
  | nil => simp
  | cons c cs ih =>
    intro pre h
    have hc := c.toNat_lt
    rw [hexText_cons] at h
    simp only [List.length_cons, hexRun] at h
    have e1 : pre ++ Spec.hexDigit (c.toNat / 16) :: Spec.hexDigit (c.toNat % 16) :: Spec.hexText cs ++
        ['\x00', '\x00'] = (pre ++ [Spec.hexDigit (c.toNat / 16)]) ++ Spec.hexDigit (c.toNat % 16) ::
          (Spec.hexText cs ++ ['\x00', '\x00']) := by simp
    have e2 : pre ++ Spec.hexDigit (c.toNat / 16) :: Spec.hexDigit (c.toNat % 16) :: Spec.hexText cs ++
        ['\x00', '\x00'] = (pre ++ [Spec.hexDigit (c.toNat / 16), Spec.hexDigit (c.toNat % 16)]) ++
          Spec.hexText cs ++ ['\x00', '\x00'] := by simp
    obtain ⟨d, tl, hd, hdz⟩ : ∃ d tl, Spec.hexText cs ++ ['\x00', '\x00'] = d :: tl ∧
        (Hex.fromHexDigit d).toNat < 16 ∧
        ((∀ x ∈ cs, x.toNat / 16 = 0) → (Hex.fromHexDigit d).toNat = 0) := by
      cases cs with
      | nil => exact ⟨'\x00', ['\x00'], rfl, by decide, fun _ => by decide⟩
      | cons y ys =>
        have hy := y.toNat_lt
        refine ⟨Spec.hexDigit (y.toNat / 16), _, by rw [hexText_cons]; rfl, ?_, ?_⟩
        · rw [fromHexDigit_hexDigit _ (by omega)]; omega
        · intro hz
          rw [fromHexDigit_hexDigit _ (by omega)]
          exact hz y (by simp)
    have h1 : charAt (pre ++ Spec.hexDigit (c.toNat / 16) :: Spec.hexDigit (c.toNat % 16) :: Spec.hexText cs ++
        ['\x00', '\x00']) (pre.length + 1) = .ok (Spec.hexDigit (c.toNat % 16)) := by
      rw [e1]; exact charAt_at _ _ _ _ (by simp)
    have h2 : charAt (pre ++ Spec.hexDigit (c.toNat / 16) :: Spec.hexDigit (c.toNat % 16) :: Spec.hexText cs ++
        ['\x00', '\x00']) (pre.length + 1 + 1) = .ok d := by
      rw [e2, List.append_assoc, hd]; exact charAt_at _ _ _ _ (by simp)
    simp only [hexPair, h1, h2, Outcome.ok_bind] at h
    cases hr : hexRun ltr (pre ++ Spec.hexDigit (c.toNat / 16) :: Spec.hexDigit (c.toNat % 16) ::
        Spec.hexText cs ++ ['\x00', '\x00']) cs.length (pre.length + 1 + 2) with
    | throw => rw [hr] at h; cases h
    | ub => rw [hr] at h; cases h
    | ok w =>
      rw [hr] at h
      simp only [Outcome.ok_bind, Outcome.ok.injEq, List.cons.injEq] at h
      obtain ⟨hfirst, rfl⟩ := h
      rw [e2] at hr
      have hz := ih (pre ++ [Spec.hexDigit (c.toNat / 16), Spec.hexDigit (c.toNat % 16)]) (by
        rw [← hr]; congr 1; simp)
      have hd0 := hdz.2 hz
      have hlo := fromHexDigit_hexDigit (c.toNat % 16) (by omega)
      intro x hx
      rcases List.mem_cons.mp hx with rfl | hx
      · have hn := congrArg UInt8.toNat hfirst
        cases ltr with
        | true =>
          simp only [if_true] at hn
          rw [pair_toNat _ _ (by omega) hdz.1, hlo, hd0] at hn
          omega
        | false =>
          simp only [Bool.false_eq_true, if_false] at hn
          rw [pair_toNat _ _ hdz.1 (by omega), hlo, hd0] at hn
          omega
      · exact hz x hx

/-- **C69 is false for binary values.** Entering the very text a field shows changes its
value, whenever some byte of the value is 10 (hexadecimal) or more; in whichever order the
compiler evaluates the two digits. -/
theorem entry_binary_wrong (ltr : Bool) (sh : Show) (f : Fld) (v r : Bytes) (s : Str)
    (ht : f.ty.type = .binary) (hg : f.ty.isGuid = false) (hl : v.length = f.ty.length)
    (hs : f.ty.length ≠ 16 ∨ sh.guid = false)
    (h : Spec.HasValue f.offset f.nullable v r) (hx : ∃ x ∈ v, 16 ≤ x.toNat)
    (htext : text sh f r false false false = .ok s) :
    fieldStore ltr sh f false s ≠ .ok (true, Spec.flagged f.nullable v) := by
  have he := binary_text_exact sh f v r ht hg hl false false false
    (by rcases hs with h | h <;> simp [h]) h
  rw [htext] at he
  injection he with he
  subst he
  intro hst
  have hty : typeStore ltr sh f.ty (Spec.hexText v ++ ['\x00', '\x00']) = .ok (true, v) := by
    unfold fieldStore at hst
    cases hn : f.nullable with
    | false => simpa [hn, Spec.flagged] using hst
    | true =>
      simp only [hn, if_true, Bool.false_eq_true, if_false, Spec.flagged] at hst
      cases hb : typeStore ltr sh f.ty (Spec.hexText v ++ ['\x00', '\x00']) with
      | throw => rw [hb] at hst; cases hst
      | ub => rw [hb] at hst; cases hst
      | ok p =>
        rw [hb] at hst
        simp at hst
        rw [← hst.1, ← hst.2]
  simp only [typeStore, ht, binaryStore] at hty
  rw [if_neg (by simp), if_neg (by rcases hs with h | h <;> simp [h]),
    if_neg (by simp [hexText_length, hl]; omega)] at hty
  cases hr : hexRun ltr (Spec.hexText v ++ ['\x00', '\x00']) f.ty.length 1 with
  | throw => rw [hr] at hty; cases hty
  | ub => rw [hr] at hty; cases hty
  | ok w =>
    rw [hr] at hty
    simp only [Outcome.ok_bind, Outcome.ok.injEq, Prod.mk.injEq, true_and] at hty
    subst hty
    obtain ⟨x, hx, hge⟩ := hx
    have := hexRun_shifted ltr w [] (by rw [← hr, ← hl]; rfl) x hx
    omega

example : fieldStore true ⟨false, false⟩ ⟨1, false, ⟨.binary, 2, 0, false⟩⟩ false "12ab\x00\x00".toList =
    .ok (true, [0x2a, 0xb0]) := by decide +kernel

/-- The same for identifiers: with identifiers shown, the identifier entered is not the one
shown. -/
theorem entry_identifier_wrong (ltr : Bool) :
    ∃ v : Bytes, v.length = 16 ∧ ∃ s w,
      text ⟨true, false⟩ ⟨0, false, ⟨.binary, 16, 0, false⟩⟩ v false false false = .ok s ∧
      fieldStore ltr ⟨true, false⟩ ⟨0, false, ⟨.binary, 16, 0, false⟩⟩ false s = .ok (true, w) ∧ w ≠ v := by
  refine ⟨[0x12, 0x34, 0x56, 0x78, 0x9a, 0xbc, 0xde, 0xf0, 1, 2, 3, 4, 5, 6, 7, 8], rfl, ?_⟩
  cases ltr with
  | true => exact ⟨_, _, rfl, rfl, by decide +kernel⟩
  | false => exact ⟨_, _, rfl, rfl, by decide +kernel⟩

/-- **C69 is false for strings.** Entering a text of two or more bytes that fits into a
string field reads memory behind the text; only the empty text and single characters are
entered as they are. -/
theorem entry_string_reads_past (ltr : Bool) (sh : Show) (f : Fld) (s : Str)
    (ht : f.ty.type = .char ∨ f.ty.type = .varchar) (h2 : 2 ≤ s.length) (hl : s.length ≤ f.ty.length) :
    fieldStore ltr sh f false s = .ub := by
  have hc : charStore f.ty.length s = .ub := by
    unfold charStore load
    dsimp only
    rw [if_neg (by simp [toBytes]; omega)]
    rfl
  have hty : typeStore ltr sh f.ty s = .ub := by
    rcases ht with h | h <;> simp [typeStore, h, hc]
  unfold fieldStore
  cases f.nullable <;> simp [hty]

/-- The empty text becomes spaces. -/
theorem entry_string_empty (ltr : Bool) (sh : Show) (f : Fld) (ht : f.ty.type = .char) :
    fieldStore ltr sh f false [] =
      .ok (true, Spec.flagged f.nullable (Unicode.Spec.utf16Text (List.replicate f.ty.length 0x20))) := by
  apply fieldStore_value
  simp only [typeStore, ht, charStore]
  have : (List.replicate f.ty.length ([0x20, 0] : Bytes)).flatten =
      Unicode.Spec.utf16Text (List.replicate f.ty.length 0x20) := by
    generalize f.ty.length = n
    induction n with
    | zero => rfl
    | succ n ih =>
      rw [List.replicate_succ, List.replicate_succ, List.flatten_cons, ih]
      rfl
  simp [load, toBytes, this]

example : fieldStore true ⟨false, false⟩ ⟨1, false, ⟨.char, 2, 0, false⟩⟩ false "A".toList =
    .ok (true, [0x41, 0, 0x20, 0]) := by decide +kernel

end Verif.Field
