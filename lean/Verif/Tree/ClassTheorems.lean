import Verif.Tree.Lemmas

/-! # Property theorems: classification of values (C43) -/

namespace Verif.Tree
open Verif

/-! ## What each pattern means, character by character -/

namespace Spec

/-- One or more decimal digits. -/
def Digits (s : Str) : Prop := s ≠ [] ∧ ∀ c ∈ s, c ∈ "0123456789".toList
/-- Exactly `n` hexadecimal digits. -/
def Hex (n : Nat) (s : Str) : Prop := s.length = n ∧ ∀ c ∈ s, c ∈ "0123456789abcdefABCDEF".toList
/-- Only Base64 characters and line breaks. -/
def B64 (s : Str) : Prop :=
  ∀ c ∈ s, c ∈ "0123456789abcdefghijklmnopqrstuvwxyzABCDEFGHIJKLMNOPQRSTUVWXYZ+=/".toList ∨ c = '\r' ∨ c = '\n'

/-- an integer: `-5`, `0012` -/
def IsNumber (s : Str) : Prop := ∃ d, Digits d ∧ (s = d ∨ s = '-' :: d)
/-- a number with fraction or exponent: `1.5`, `2.`, `-3e-10` -/
def IsNumberExp (s : Str) : Prop :=
  ∃ sg d fr ex, s = sg ++ d ++ fr ++ ex ∧ (sg = [] ∨ sg = ['-']) ∧ Digits d ∧
    (fr = [] ∨ ∃ f, fr = '.' :: f ∧ (f = [] ∨ Digits f)) ∧
    (ex = [] ∨ ∃ e sg2 d2, ex = e :: (sg2 ++ d2) ∧ (e = 'e' ∨ e = 'E') ∧ (sg2 = [] ∨ sg2 = ['-']) ∧ Digits d2)
/-- a GUID -/
def IsGuid (s : Str) : Prop :=
  ∃ a b c d e, s = a ++ '-' :: (b ++ '-' :: (c ++ '-' :: (d ++ '-' :: e))) ∧
    Hex 8 a ∧ Hex 4 b ∧ Hex 4 c ∧ Hex 4 d ∧ Hex 12 e
def IsBinary (s : Str) : Prop := ∃ b, s = "#base64:".toList ++ b ∧ B64 b
def IsBinaryD (s : Str) : Prop := ∃ b, s = "#data:".toList ++ b ∧ B64 b
def IsLink (s : Str) : Prop := ∃ d h, s = d ++ ':' :: h ∧ Digits d ∧ Hex 32 h
def IsBinary2 (s : Str) : Prop := s ≠ [] ∧ B64 s

end Spec

/-! ## Pattern combinators -/

theorem m_seq {a b : Re} {s : Str} : Matches (.seq a b) s ↔ ∃ x y, s = x ++ y ∧ Matches a x ∧ Matches b y := by
  constructor
  · intro h; cases h with | seq h1 h2 => exact ⟨_, _, rfl, h1, h2⟩
  · rintro ⟨_, _, rfl, h1, h2⟩; exact .seq h1 h2

theorem m_alt {a b : Re} {s : Str} : Matches (.alt a b) s ↔ Matches a s ∨ Matches b s := by
  constructor
  · intro h; cases h with
    | altL h => exact .inl h
    | altR h => exact .inr h
  · rintro (h | h)
    · exact .altL h
    · exact .altR h

theorem m_eps {s : Str} : Matches .eps s ↔ s = [] := by
  constructor
  · intro h; cases h; rfl
  · rintro rfl; exact .eps

theorem m_opt {a : Re} {s : Str} : Matches (Re.opt a) s ↔ s = [] ∨ Matches a s := by
  rw [Re.opt, m_alt, m_eps, Or.comm]

theorem m_cls {p : Char → Bool} {s : Str} : Matches (.cls p) s ↔ ∃ c, s = [c] ∧ p c = true := by
  constructor
  · intro h; cases h with | cls h => exact ⟨_, rfl, h⟩
  · rintro ⟨_, rfl, h⟩; exact .cls h

theorem m_chr {c : Char} {s : Str} : Matches (Re.chr c) s ↔ s = [c] := by
  rw [Re.chr, m_cls]
  constructor
  · rintro ⟨d, rfl, h⟩; simp at h; rw [h]
  · rintro rfl; exact ⟨c, rfl, by simp⟩

theorem m_star_cls {p : Char → Bool} {s : Str} : Matches (.star (.cls p)) s ↔ ∀ c ∈ s, p c = true := by
  constructor
  · intro h c hc
    have := matches_uses h c hc
    simpa [Re.uses] using this
  · intro h
    induction s with
    | nil => exact .starNil
    | cons c s ih =>
      have := Matches.starCons (Matches.cls (h c (by simp))) (ih (fun d hd => h d (by simp [hd])))
      simpa using this

theorem m_plus_cls {p : Char → Bool} {s : Str} : Matches (Re.plus (.cls p)) s ↔ s ≠ [] ∧ ∀ c ∈ s, p c = true := by
  rw [Re.plus, m_seq]
  constructor
  · rintro ⟨x, y, rfl, hx, hy⟩
    obtain ⟨c, rfl, hc⟩ := m_cls.mp hx
    refine ⟨by simp, ?_⟩
    intro d hd
    simp only [List.singleton_append, List.mem_cons] at hd
    rcases hd with rfl | hd
    · exact hc
    · exact m_star_cls.mp hy d hd
  · rintro ⟨hne, h⟩
    cases s with
    | nil => exact absurd rfl hne
    | cons c s =>
      exact ⟨[c], s, rfl, m_cls.mpr ⟨c, rfl, h c (by simp)⟩, m_star_cls.mpr (fun d hd => h d (by simp [hd]))⟩

theorem m_rep_cls {p : Char → Bool} {n : Nat} {s : Str} :
    Matches (Re.rep (.cls p) n) s ↔ s.length = n ∧ ∀ c ∈ s, p c = true := by
  induction n generalizing s with
  | zero =>
    rw [Re.rep, m_eps]
    constructor
    · rintro rfl; simp
    · rintro ⟨h, _⟩; exact List.length_eq_zero_iff.mp h
  | succ n ih =>
    rw [Re.rep, m_seq]
    constructor
    · rintro ⟨x, y, rfl, hx, hy⟩
      obtain ⟨c, rfl, hc⟩ := m_cls.mp hx
      obtain ⟨h1, h2⟩ := ih.mp hy
      refine ⟨by simp [h1], ?_⟩
      intro d hd
      simp only [List.singleton_append, List.mem_cons] at hd
      rcases hd with rfl | hd
      · exact hc
      · exact h2 d hd
    · rintro ⟨hl, h⟩
      cases s with
      | nil => simp at hl
      | cons c s =>
        exact ⟨[c], s, rfl, m_cls.mpr ⟨c, rfl, h c (by simp)⟩,
          ih.mpr ⟨by simpa using hl, fun d hd => h d (by simp [hd])⟩⟩

theorem m_lit {l s : Str} : Matches (Re.lit l) s ↔ s = l := by
  induction l generalizing s with
  | nil => rw [Re.lit, m_eps]
  | cons c l ih =>
    rw [Re.lit, m_seq]
    constructor
    · rintro ⟨x, y, rfl, hx, hy⟩
      rw [m_chr.mp hx, ih.mp hy]; rfl
    · rintro rfl; exact ⟨[c], l, rfl, m_chr.mpr rfl, ih.mpr rfl⟩

/-! ## Character classes -/

theorem char_range (c : Char) (lo hi : Char) : (lo ≤ c ∧ c ≤ hi) ↔ (lo.toNat ≤ c.toNat ∧ c.toNat ≤ hi.toNat) := by
  rfl

theorem char_eq_of_toNat (c d : Char) (h : c.toNat = d.toNat) : c = d := by
  apply Char.ext; apply UInt32.toNat_inj.mp; exact h

theorem mem_iff_toNat (l : List Char) (c : Char) : c ∈ l ↔ c.toNat ∈ l.map Char.toNat := by
  constructor
  · intro h; exact List.mem_map_of_mem h
  · intro h
    obtain ⟨d, hd, he⟩ := List.mem_map.mp h
    rw [← char_eq_of_toNat d c he]; exact hd

theorem digit_iff (c : Char) : isDigit c = true ↔ c ∈ "0123456789".toList := by
  rw [mem_iff_toNat, isDigit, decide_eq_true_iff, char_range]
  simp only [show "0123456789".toList.map Char.toNat = [48,49,50,51,52,53,54,55,56,57] from by decide,
    show ('0' : Char).toNat = 48 from rfl, show ('9' : Char).toNat = 57 from rfl]
  simp only [List.mem_cons, List.not_mem_nil, or_false]
  omega

theorem hex_iff (c : Char) : isHex c = true ↔ c ∈ "0123456789abcdefABCDEF".toList := by
  rw [mem_iff_toNat]
  simp only [isHex, isDigit, Bool.or_eq_true, decide_eq_true_iff, char_range]
  simp only [show "0123456789abcdefABCDEF".toList.map Char.toNat =
      [48,49,50,51,52,53,54,55,56,57,97,98,99,100,101,102,65,66,67,68,69,70] from by decide,
    show ('0' : Char).toNat = 48 from rfl, show ('9' : Char).toNat = 57 from rfl,
    show ('a' : Char).toNat = 97 from rfl, show ('f' : Char).toNat = 102 from rfl,
    show ('A' : Char).toNat = 65 from rfl, show ('F' : Char).toNat = 70 from rfl]
  simp only [List.mem_cons, List.not_mem_nil, or_false]
  omega

theorem b64_iff (c : Char) : isB64 c = true ↔
    (c ∈ "0123456789abcdefghijklmnopqrstuvwxyzABCDEFGHIJKLMNOPQRSTUVWXYZ+=/".toList ∨ c = '\r' ∨ c = '\n') := by
  have heq : ∀ d : Char, c = d ↔ c.toNat = d.toNat := fun d => ⟨fun h => by rw [h], char_eq_of_toNat c d⟩
  rw [mem_iff_toNat]
  simp only [isB64, isDigit, Bool.or_eq_true, decide_eq_true_iff, char_range, beq_iff_eq, heq]
  simp only [show "0123456789abcdefghijklmnopqrstuvwxyzABCDEFGHIJKLMNOPQRSTUVWXYZ+=/".toList.map Char.toNat =
      [48,49,50,51,52,53,54,55,56,57,97,98,99,100,101,102,103,104,105,106,107,108,109,110,111,112,113,114,115,116,117,118,
       119,120,121,122,65,66,67,68,69,70,71,72,73,74,75,76,77,78,79,80,81,82,83,84,85,86,87,88,89,90,43,61,47] from by decide,
    show ('0' : Char).toNat = 48 from rfl, show ('9' : Char).toNat = 57 from rfl,
    show ('a' : Char).toNat = 97 from rfl, show ('z' : Char).toNat = 122 from rfl,
    show ('A' : Char).toNat = 65 from rfl, show ('Z' : Char).toNat = 90 from rfl,
    show ('+' : Char).toNat = 43 from rfl, show ('=' : Char).toNat = 61 from rfl,
    show ('/' : Char).toNat = 47 from rfl, show ('\r' : Char).toNat = 13 from rfl,
    show ('\n' : Char).toNat = 10 from rfl]
  simp only [List.mem_cons, List.not_mem_nil, or_false]
  omega

theorem digits_iff (s : Str) : (s ≠ [] ∧ ∀ c ∈ s, isDigit c = true) ↔ Spec.Digits s := by
  simp only [Spec.Digits, digit_iff]

/-! ## Meaning of the seven patterns -/

theorem number_meaning (s : Str) : reNumber.test s = true ↔ Spec.IsNumber s := by
  rw [test_iff, reNumber, m_seq]
  simp only [m_opt, m_chr, m_plus_cls, digits_iff]
  constructor
  · rintro ⟨x, y, rfl, hx, hy⟩
    rcases hx with rfl | rfl
    · exact ⟨y, hy, .inl rfl⟩
    · exact ⟨y, hy, .inr rfl⟩
  · rintro ⟨d, hd, rfl | rfl⟩
    · exact ⟨[], _, rfl, .inl rfl, hd⟩
    · exact ⟨['-'], _, rfl, .inr rfl, hd⟩

theorem number_exp_meaning (s : Str) : reNumberExp.test s = true ↔ Spec.IsNumberExp s := by
  rw [test_iff]
  simp only [reNumberExp, m_seq, m_opt, m_alt, m_chr, m_plus_cls, m_star_cls, digits_iff]
  constructor
  · rintro ⟨sg, y, rfl, hsg, d, z, rfl, hd, fr, ex, rfl, hfr, hex⟩
    rcases hfr with rfl | ⟨dot, f, rfl, hdot, hf⟩
    · refine ⟨sg, d, [], ex, by simp, hsg, hd, .inl rfl, ?_⟩
      rcases hex with rfl | ⟨e, r, rfl, he, sg2, d2, rfl, hsg2, hd2⟩
      · exact .inl rfl
      · rcases he with rfl | rfl
        · exact .inr ⟨_, sg2, d2, rfl, .inl rfl, hsg2, hd2⟩
        · exact .inr ⟨_, sg2, d2, rfl, .inr rfl, hsg2, hd2⟩
    · have hex' : (ex = [] ∨ ∃ e sg2 d2, ex = e :: (sg2 ++ d2) ∧ (e = 'e' ∨ e = 'E') ∧ (sg2 = [] ∨ sg2 = ['-']) ∧ Spec.Digits d2) := by
        rcases hex with rfl | ⟨e, r, rfl, he, sg2, d2, rfl, hsg2, hd2⟩
        · exact .inl rfl
        · rcases he with rfl | rfl
          · exact .inr ⟨_, sg2, d2, rfl, .inl rfl, hsg2, hd2⟩
          · exact .inr ⟨_, sg2, d2, rfl, .inr rfl, hsg2, hd2⟩
      rcases hdot with rfl | rfl
      · -- further digits without a point belong to the first run
        refine ⟨sg, d ++ f, [], ex, by simp, hsg, ?_, .inl rfl, hex'⟩
        refine ⟨by simp [hd.1], ?_⟩
        intro c hc
        simp only [List.mem_append] at hc
        rcases hc with hc | hc
        · exact hd.2 c hc
        · exact (digit_iff c).mp (hf c hc)
      · refine ⟨sg, d, '.' :: f, ex, by simp, hsg, hd, .inr ⟨f, rfl, ?_⟩, hex'⟩
        by_cases hfe : f = []
        · exact .inl hfe
        · exact .inr ((digits_iff f).mp ⟨hfe, hf⟩)
  · rintro ⟨sg, d, fr, ex, rfl, hsg, hd, hfr, hex⟩
    refine ⟨sg, d ++ (fr ++ ex), by simp, hsg, d, fr ++ ex, rfl, hd, fr, ex, rfl, ?_, ?_⟩
    · rcases hfr with rfl | ⟨f, rfl, hf⟩
      · exact .inl rfl
      · refine .inr ⟨['.'], f, rfl, .inr rfl, ?_⟩
        rcases hf with rfl | hf
        · simp
        · exact ((digits_iff f).mpr hf).2
    · rcases hex with rfl | ⟨e, sg2, d2, rfl, he, hsg2, hd2⟩
      · exact .inl rfl
      · refine .inr ⟨[e], sg2 ++ d2, rfl, ?_, sg2, d2, rfl, hsg2, hd2⟩
        rcases he with rfl | rfl
        · exact .inl rfl
        · exact .inr rfl

theorem hexn_iff (n : Nat) (s : Str) : (s.length = n ∧ ∀ c ∈ s, isHex c = true) ↔ Spec.Hex n s := by
  simp only [Spec.Hex, hex_iff]

theorem guid_meaning (s : Str) : reGuid.test s = true ↔ Spec.IsGuid s := by
  rw [test_iff]
  simp only [reGuid, m_seq, m_chr, m_rep_cls, hexn_iff]
  constructor
  · rintro ⟨a, _, rfl, ha, _, _, rfl, rfl, b, _, rfl, hb, _, _, rfl, rfl, c, _, rfl, hc, _, _, rfl, rfl,
      d, _, rfl, hd, _, e, rfl, rfl, he⟩
    exact ⟨a, b, c, d, e, by simp, ha, hb, hc, hd, he⟩
  · rintro ⟨a, b, c, d, e, rfl, ha, hb, hc, hd, he⟩
    exact ⟨a, _, rfl, ha, ['-'], _, rfl, rfl, b, _, rfl, hb, ['-'], _, rfl, rfl, c, _, rfl, hc, ['-'], _, rfl, rfl,
      d, _, rfl, hd, ['-'], e, rfl, rfl, he⟩

theorem b64s_iff (s : Str) : (∀ c ∈ s, isB64 c = true) ↔ Spec.B64 s := by
  simp only [Spec.B64, b64_iff]

theorem binary_meaning (s : Str) : reBinary.test s = true ↔ Spec.IsBinary s := by
  rw [test_iff]
  simp only [reBinary, m_seq, m_lit, m_star_cls, b64s_iff]
  constructor
  · rintro ⟨_, b, rfl, rfl, hb⟩; exact ⟨b, rfl, hb⟩
  · rintro ⟨b, rfl, hb⟩; exact ⟨_, b, rfl, rfl, hb⟩

theorem binary_d_meaning (s : Str) : reBinaryD.test s = true ↔ Spec.IsBinaryD s := by
  rw [test_iff]
  simp only [reBinaryD, m_seq, m_lit, m_star_cls, b64s_iff]
  constructor
  · rintro ⟨_, b, rfl, rfl, hb⟩; exact ⟨b, rfl, hb⟩
  · rintro ⟨b, rfl, hb⟩; exact ⟨_, b, rfl, rfl, hb⟩

theorem link_meaning (s : Str) : reLink.test s = true ↔ Spec.IsLink s := by
  rw [test_iff]
  simp only [reLink, m_seq, m_chr, m_plus_cls, m_rep_cls, digits_iff, hexn_iff]
  constructor
  · rintro ⟨d, _, rfl, hd, _, h, rfl, rfl, hh⟩; exact ⟨d, h, rfl, hd, hh⟩
  · rintro ⟨d, h, rfl, hd, hh⟩; exact ⟨d, _, rfl, hd, [':'], h, rfl, rfl, hh⟩

theorem binary2_meaning (s : Str) : reBinary2.test s = true ↔ Spec.IsBinary2 s := by
  rw [test_iff]
  simp only [reBinary2, m_plus_cls, Spec.IsBinary2]
  rw [b64s_iff]

/-! ## Patterns exclude each other -/

theorem excl (r : Re) (c : Char) (s : Str) (hu : Re.uses c r = false) (hc : c ∈ s) : r.test s = false := by
  cases h : r.test s with
  | false => rfl
  | true =>
    have := matches_uses ((test_iff r s).mp h) c hc
    rw [hu] at this; cases this

theorem digits_no_minus {d : Str} (h : Spec.Digits d) : d.count '-' = 0 := by
  rw [List.count_eq_zero]
  intro hm
  have := h.2 _ hm
  revert this; decide

theorem numberExp_count {s : Str} (h : Spec.IsNumberExp s) : s.count '-' ≤ 2 := by
  obtain ⟨sg, d, fr, ex, rfl, hsg, hd, hfr, hex⟩ := h
  simp only [List.count_append]
  have h1 : sg.count '-' ≤ 1 := by rcases hsg with rfl | rfl <;> decide
  have h2 := digits_no_minus hd
  have h3 : fr.count '-' = 0 := by
    rcases hfr with rfl | ⟨f, rfl, rfl | hf⟩
    · rfl
    · decide
    · rw [List.count_cons, digits_no_minus hf]; decide
  have h4 : ex.count '-' ≤ 1 := by
    rcases hex with rfl | ⟨e, sg2, d2, rfl, he, hsg2, hd2⟩
    · decide
    · rw [List.count_cons, List.count_append, digits_no_minus hd2]
      have : sg2.count '-' ≤ 1 := by rcases hsg2 with rfl | rfl <;> decide
      rcases he with rfl | rfl <;> simp <;> omega
  omega

theorem guid_count {s : Str} (h : Spec.IsGuid s) : 4 ≤ s.count '-' := by
  obtain ⟨a, b, c, d, e, rfl, _⟩ := h
  simp only [List.count_append, List.count_cons, beq_self_eq_true, if_true]
  omega

theorem isNumber_isNumberExp {s : Str} (h : Spec.IsNumber s) : Spec.IsNumberExp s := by
  obtain ⟨d, hd, rfl | rfl⟩ := h
  · exact ⟨[], _, [], [], by simp, .inl rfl, hd, .inl rfl, .inl rfl⟩
  · exact ⟨['-'], d, [], [], by simp, .inr rfl, hd, .inl rfl, .inl rfl⟩

theorem cstr_eq (v : Str) (h0 : '\x00' ∉ v) : cstr v = v := by
  unfold cstr
  induction v with
  | nil => rfl
  | cons a l ih =>
    simp only [List.mem_cons, not_or] at h0
    rw [List.takeWhile_cons_of_pos (by simpa using fun e => h0.1 e.symm), ih h0.2]

theorem guid_has {s : Str} (h : Spec.IsGuid s) : '-' ∈ s := by
  obtain ⟨a, b, c, d, e, rfl, _⟩ := h; simp
theorem link_has {s : Str} (h : Spec.IsLink s) : ':' ∈ s := by
  obtain ⟨d, h, rfl, _⟩ := h; simp
theorem binary_has {s : Str} (h : Spec.IsBinary s) : '#' ∈ s := by
  obtain ⟨b, rfl, _⟩ := h
  exact List.mem_append_left _ (by decide)
theorem binaryD_has {s : Str} (h : Spec.IsBinaryD s) : '#' ∈ s := by
  obtain ⟨b, rfl, _⟩ := h
  exact List.mem_append_left _ (by decide)

/-! ## Property theorems -/

/-- What the classification of a value should be. -/
inductive Spec.HasType : Str → NType → Prop where
  | empty : Spec.HasType [] .empty
  | number {s} : Spec.IsNumber s → Spec.HasType s .number
  | numberExp {s} : Spec.IsNumberExp s → ¬ Spec.IsNumber s → Spec.HasType s .numberExp
  | guid {s} : Spec.IsGuid s → Spec.HasType s .guid
  | binary {s} : Spec.IsBinary s → Spec.HasType s .binary
  | binaryD {s} : Spec.IsBinaryD s → Spec.HasType s .binaryD
  | link {s} : Spec.IsLink s → Spec.HasType s .link
  | binary2 {s} : Spec.IsBinary2 s → ¬ Spec.IsNumberExp s → Spec.HasType s .binary2
  | unknown {s} : s ≠ [] → ¬ Spec.IsNumberExp s → ¬ Spec.IsGuid s → ¬ Spec.IsBinary s → ¬ Spec.IsBinaryD s →
      ¬ Spec.IsLink s → ¬ Spec.IsBinary2 s → Spec.HasType s .unknown

theorem not_of_test {r : Re} {s : Str} {p : Prop} (h : r.test s = true ↔ p) (ht : ¬ r.test s = true) : ¬ p :=
  fun hp => ht (h.mpr hp)

/-- **C43.** Every value without NUL characters gets the type its characters describe. -/
theorem classify_correct (v : Str) (h0 : '\x00' ∉ v) : Spec.HasType v (classify v) := by
  unfold classify
  rw [cstr_eq v h0]
  split
  · rename_i h; rw [List.length_eq_zero_iff] at h; subst h; exact .empty
  · rename_i hne
    split
    · rename_i h; exact .number ((number_meaning v).mp h)
    · rename_i n1
      have n1 := not_of_test (number_meaning v) n1
      split
      · rename_i h; exact .numberExp ((number_exp_meaning v).mp h) n1
      · rename_i n2
        have n2 := not_of_test (number_exp_meaning v) n2
        split
        · rename_i h; exact .guid ((guid_meaning v).mp h)
        · rename_i n3
          have n3 := not_of_test (guid_meaning v) n3
          split
          · rename_i h; exact .binary ((binary_meaning v).mp h)
          · rename_i n4
            have n4 := not_of_test (binary_meaning v) n4
            split
            · rename_i h; exact .link ((link_meaning v).mp h)
            · rename_i n5
              have n5 := not_of_test (link_meaning v) n5
              split
              · rename_i h; exact .binary2 ((binary2_meaning v).mp h) n2
              · rename_i n6
                have n6 := not_of_test (binary2_meaning v) n6
                split
                · rename_i h; exact .binaryD ((binary_d_meaning v).mp h)
                · rename_i n7
                  have n7 := not_of_test (binary_d_meaning v) n7
                  exact .unknown (by simpa using hne) n2 n3 n4 n7 n5 n6

/-- **C43.** The description leaves no choice: a value has exactly one type. In
particular a GUID, a link or prefixed binary data is never taken for anything else. -/
theorem type_unique (v : Str) (t : NType) (h0 : '\x00' ∉ v) (h : Spec.HasType v t) : classify v = t := by
  have t1 := number_meaning v
  have t2 := number_exp_meaning v
  have t3 := guid_meaning v
  have t4 := binary_meaning v
  have t5 := link_meaning v
  have t6 := binary2_meaning v
  have t7 := binary_d_meaning v
  have f : ∀ {r : Re} {p : Prop}, (r.test v = true ↔ p) → ¬ p → r.test v = false := by
    intro r p h hp
    cases hr : r.test v with
    | false => rfl
    | true => exact absurd (h.mp hr) hp
  unfold classify
  rw [cstr_eq v h0]
  cases h with
  | empty => rfl
  | number h =>
    have hne : v.length ≠ 0 := by
      obtain ⟨d, hd, rfl | rfl⟩ := h
      · have := hd.1; simpa using this
      · simp
    rw [if_neg hne, if_pos (t1.mpr h)]
  | numberExp h hn =>
    have hne : v.length ≠ 0 := by
      obtain ⟨sg, d, fr, ex, rfl, _, hd, _⟩ := h
      have := hd.1
      simp [this]
    rw [if_neg hne, f t1 hn, if_neg (by simp), if_pos (t2.mpr h)]
  | guid h =>
    have hm := guid_has h
    have hne : v.length ≠ 0 := by have := List.length_pos_of_mem hm; omega
    have he : ¬ Spec.IsNumberExp v := fun he => by have := numberExp_count he; have := guid_count h; omega
    have hn : ¬ Spec.IsNumber v := fun hn => he (isNumber_isNumberExp hn)
    rw [if_neg hne, f t1 hn, if_neg (by simp), f t2 he, if_neg (by simp), if_pos (t3.mpr h)]
  | binary h =>
    have hm := binary_has h
    have hne : v.length ≠ 0 := by have := List.length_pos_of_mem hm; omega
    rw [if_neg hne, excl _ _ _ (by decide) hm, if_neg (by simp), excl _ _ _ (by decide) hm, if_neg (by simp),
      excl _ _ _ (by decide) hm, if_neg (by simp), if_pos (t4.mpr h)]
  | binaryD h =>
    have hm := binaryD_has h
    have hne : v.length ≠ 0 := by have := List.length_pos_of_mem hm; omega
    have hb : ¬ Spec.IsBinary v := by
      obtain ⟨b, rfl, _⟩ := h
      rintro ⟨b', hb', _⟩
      have := congrArg (fun l => l[1]?) hb'
      revert this
      rw [show "#data:".toList = ['#', 'd', 'a', 't', 'a', ':'] from by decide,
        show "#base64:".toList = ['#', 'b', 'a', 's', 'e', '6', '4', ':'] from by decide]
      simp
    rw [if_neg hne, excl _ _ _ (by decide) hm, if_neg (by simp), excl _ _ _ (by decide) hm, if_neg (by simp),
      excl _ _ _ (by decide) hm, if_neg (by simp), f t4 hb, if_neg (by simp),
      excl _ _ _ (by decide) hm, if_neg (by simp), excl _ _ _ (by decide) hm, if_neg (by simp), if_pos (t7.mpr h)]
  | link h =>
    have hm := link_has h
    have hne : v.length ≠ 0 := by have := List.length_pos_of_mem hm; omega
    have hb : ¬ Spec.IsBinary v := by
      obtain ⟨d, hx, rfl, hd, _⟩ := h
      rintro ⟨b', hb', _⟩
      cases d with
      | nil => exact hd.1 rfl
      | cons c d =>
        rw [show "#base64:".toList = ['#', 'b', 'a', 's', 'e', '6', '4', ':'] from by decide] at hb'
        simp only [List.cons_append, List.cons.injEq] at hb'
        have := hd.2 c (by simp)
        rw [hb'.1] at this
        revert this; decide
    rw [if_neg hne, excl _ _ _ (by decide) hm, if_neg (by simp), excl _ _ _ (by decide) hm, if_neg (by simp),
      excl _ _ _ (by decide) hm, if_neg (by simp), f t4 hb, if_neg (by simp), if_pos (t5.mpr h)]
  | binary2 h he =>
    have hne : v.length ≠ 0 := by have := h.1; simpa using this
    have hn : ¬ Spec.IsNumber v := fun hn => he (isNumber_isNumberExp hn)
    have hno : ∀ c ∈ v, Re.uses c reBinary2 = true := matches_uses ((test_iff _ _).mp (t6.mpr h))
    have h3 : ¬ Spec.IsGuid v := fun hg => by have := hno _ (guid_has hg); revert this; decide
    have h4 : ¬ Spec.IsBinary v := fun hg => by have := hno _ (binary_has hg); revert this; decide
    have h5 : ¬ Spec.IsLink v := fun hg => by have := hno _ (link_has hg); revert this; decide
    rw [if_neg hne, f t1 hn, if_neg (by simp), f t2 he, if_neg (by simp), f t3 h3, if_neg (by simp),
      f t4 h4, if_neg (by simp), f t5 h5, if_neg (by simp), if_pos (t6.mpr h)]
  | unknown hv h2 h3 h4 h7 h5 h6 =>
    have hne : v.length ≠ 0 := by simpa using hv
    have hn : ¬ Spec.IsNumber v := fun hn => h2 (isNumber_isNumberExp hn)
    rw [if_neg hne, f t1 hn, if_neg (by simp), f t2 h2, if_neg (by simp), f t3 h3, if_neg (by simp),
      f t4 h4, if_neg (by simp), f t5 h5, if_neg (by simp), f t6 h6, if_neg (by simp), f t7 h7, if_neg (by simp)]

/-- Non-vacuity: one value of every kind. -/
example : classify "-12".toList = .number ∧ classify "1.5e-3".toList = .numberExp ∧
    classify "4f2c0d1e-0000-1111-2222-0123456789aB".toList = .guid ∧ classify "#base64:QUI=".toList = .binary ∧
    classify "#data:".toList = .binaryD ∧ classify "abc".toList = .binary2 ∧ classify "a-b".toList = .unknown ∧
    classify "1:0123456789abcdef0123456789ABCDEF".toList = .link := by
  decide +kernel

/-- **C43, strings.** A quoted string with any characters is recovered exactly. -/
theorem quoted_string_recovered (v : Str) :
    parseText (Spec.quoted v) = .ok (.list [.leaf .string v]) := by
  unfold parseText start
  rw [run_quoted]
  rfl

/-- What the printer writes for a string is its quoted form. -/
theorem printed_string_is_quoted (v : Str) : outtext (.list [.leaf .string v]) = Spec.quoted v := by
  simp only [outtext, Node.kids, out, List.nil_append]
  exact outLeaf_string v

/-- The same after a NUL: classification looks only at the part before it. -/
theorem classify_nul (a b : Str) (hb : '\x00' ∉ a) (ha : a ≠ []) : classify (a ++ '\x00' :: b) = classify a := by
  have h1 : cstr (a ++ '\x00' :: b) = cstr a := by
    rw [cstr_eq a hb]
    unfold cstr
    induction a with
    | nil => rfl
    | cons c a ih =>
      simp only [List.mem_cons, not_or] at hb
      rw [List.cons_append, List.takeWhile_cons_of_pos (by simpa using fun e => hb.1 e.symm)]
      by_cases hae : a = []
      · subst hae; rfl
      · rw [ih hb.2 hae]
  unfold classify
  have h2 : (a ++ '\x00' :: b).length ≠ 0 := by simp
  have h3 : a.length ≠ 0 := by simpa using ha
  rw [h1, if_neg h2, if_neg h3]

end Verif.Tree
