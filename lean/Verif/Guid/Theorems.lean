import Verif.Guid.Model
import Verif.Hex.Theorems

/-! # Property theorems: GUIDs (C06) -/

namespace Verif.Guid
open Verif Hex

theorem list16 {α : Type} (s : List α) (hs : s.length = 16) :
    ∃ a0 a1 a2 a3 a4 a5 a6 a7 a8 a9 a10 a11 a12 a13 a14 a15,
      s = [a0, a1, a2, a3, a4, a5, a6, a7, a8, a9, a10, a11, a12, a13, a14, a15] := by
  match s, hs with
  | [a0, a1, a2, a3, a4, a5, a6, a7, a8, a9, a10, a11, a12, a13, a14, a15], _ =>
    exact ⟨a0, a1, a2, a3, a4, a5, a6, a7, a8, a9, a10, a11, a12, a13, a14, a15, rfl⟩

/-- **C06a.** Parsing the 1C text form of a GUID gives back the same 16 bytes. -/
theorem parse_as1C (g : Bytes) (hg : g.length = 16) : ofText (as1C g) = .ok g := by
  obtain ⟨a0, a1, a2, a3, a4, a5, a6, a7, a8, a9, a10, a11, a12, a13, a14, a15, rfl⟩ := list16 g hg
  simp only [as1C, formatGuid, hexByte, List.getD_cons_zero, List.getD_cons_succ, List.cons_append,
    List.nil_append, ofText, List.length_cons, List.length_nil, fill, subbyte, empty,
    List.replicate, List.set, hexByte_back]
  simp

/-- **C06b.** Parsing the flat 32-digit form gives back the same 16 bytes. -/
theorem parse_flat (g : Bytes) (hg : g.length = 16) : ofText (hexstring g) = .ok g := by
  obtain ⟨a0, a1, a2, a3, a4, a5, a6, a7, a8, a9, a10, a11, a12, a13, a14, a15, rfl⟩ := list16 g hg
  simp only [hexstring, hexByte, List.getD_cons_zero, List.getD_cons_succ, List.cons_append,
    List.nil_append, ofText, List.length_cons, List.length_nil, fill, subbyte, empty,
    List.replicate, List.set, hexByte_back]
  simp

/-- **C06c.** The 1C form is injective. -/
theorem as1C_injective (g h : Bytes) (hg : g.length = 16) (hh : h.length = 16)
    (e : as1C g = as1C h) : g = h := by
  have h1 := parse_as1C g hg
  rw [e, parse_as1C h hh] at h1
  exact (Outcome.ok.inj h1).symm

/-- **C06d.** The Microsoft form is injective. -/
theorem asMS_injective (g h : Bytes) (hg : g.length = 16) (hh : h.length = 16)
    (e : asMS g = asMS h) : g = h := by
  obtain ⟨a0, a1, a2, a3, a4, a5, a6, a7, a8, a9, a10, a11, a12, a13, a14, a15, rfl⟩ := list16 g hg
  obtain ⟨b0, b1, b2, b3, b4, b5, b6, b7, b8, b9, b10, b11, b12, b13, b14, b15, rfl⟩ := list16 h hh
  have key : ∀ a b : UInt8, hexChar (a >>> (4 : UInt8)) = hexChar (b >>> (4 : UInt8)) →
      hexChar (a &&& (0xf : UInt8)) = hexChar (b &&& (0xf : UInt8)) → a = b := by
    intro a b h1 h2
    exact hexByte_inj a b (by unfold hexByte; rw [h1, h2])
  simp only [asMS, formatGuid, hexByte, List.getD_cons_zero, List.getD_cons_succ, List.cons_append,
    List.nil_append, List.cons.injEq, and_true, true_and] at e
  obtain ⟨e3, f3, e2, f2, e1, f1, e0, f0, e5, f5, e4, f4, e7, f7, e6, f6, e8, f8, e9, f9,
    e10, f10, e11, f11, e12, f12, e13, f13, e14, f14, e15, f15⟩ := e
  rw [key _ _ e0 f0, key _ _ e1 f1, key _ _ e2 f2, key _ _ e3 f3, key _ _ e4 f4, key _ _ e5 f5,
    key _ _ e6 f6, key _ _ e7 f7, key _ _ e8 f8, key _ _ e9 f9, key _ _ e10 f10, key _ _ e11 f11,
    key _ _ e12 f12, key _ _ e13 f13, key _ _ e14 f14, key _ _ e15 f15]

/-- **C06e.** Both text forms have 36 characters with hyphens at 8, 13, 18 and 23. -/
theorem text_shape (g : Bytes) (hg : g.length = 16) :
    (as1C g).length = 36 ∧ (asMS g).length = 36 ∧
    ∀ i ∈ [8, 13, 18, 23], (as1C g)[i]? = some '-' ∧ (asMS g)[i]? = some '-' := by
  obtain ⟨a0, a1, a2, a3, a4, a5, a6, a7, a8, a9, a10, a11, a12, a13, a14, a15, rfl⟩ := list16 g hg
  refine ⟨rfl, rfl, ?_⟩
  intro i hi
  simp only [List.mem_cons, List.not_mem_nil, or_false] at hi
  rcases hi with rfl | rfl | rfl | rfl <;> exact ⟨rfl, rfl⟩

/-- **C06f.** A text whose length is neither 32 nor 36 is rejected, and the target
of `string_to_GUID` is left unchanged. -/
theorem wrong_length_rejected (s : Str) (old : Bytes) (h1 : s.length ≠ 32) (h2 : s.length ≠ 36) :
    ofText s = .throw ∧ stringToGuid s old = (false, old) := by
  have : ofText s = .throw := by unfold ofText; rw [if_neg h1, if_pos h2]
  exact ⟨this, by unfold stringToGuid; rw [this]⟩

/-- **C06g.** Every text of length 32 or 36 is accepted and yields 16 bytes: no
character is ever checked, so texts that are not GUIDs are accepted too. -/
theorem right_length_accepted (s : Str) (h : s.length = 32 ∨ s.length = 36) :
    ∃ g, ofText s = .ok g ∧ g.length = 16 := by
  have hf : ∀ n i j d, (fill s n i j d).length = d.length := by
    intro n
    induction n with
    | zero => intros; rfl
    | succ n ih => intros; simp [fill, ih]
  rcases h with h | h
  · exact ⟨_, by unfold ofText; rw [if_pos h], by rw [hf]; rfl⟩
  · refine ⟨_, by unfold ofText; rw [if_neg (by omega), if_neg (by omega)], ?_⟩
    simp [hf, empty]

example : ofText "01234567-89ab-cdef-0123-456789abcdef".toList =
    .ok [0x01, 0x23, 0x45, 0x67, 0x89, 0xab, 0xcd, 0xef, 0xcd, 0xef, 0x89, 0xab, 0x01, 0x23, 0x45, 0x67] := by
  decide
example : as1C [0x01, 0x23, 0x45, 0x67, 0x89, 0xab, 0xcd, 0xef, 0xcd, 0xef, 0x89, 0xab, 0x01, 0x23, 0x45, 0x67]
    = "01234567-89ab-cdef-0123-456789abcdef".toList := by decide
/-- Not a GUID, but accepted as the zero GUID. -/
example : ofText "zzzzzzzz-zzzz-zzzz-zzzz-zzzzzzzzzzzz".toList = .ok empty := by decide

/-- **C06h.** Equality of GUID values is equality of their 16 bytes, and a GUID is
empty exactly when it is the all-zero one. -/
theorem eq_iff (g h : Bytes) (hg : g.length = 16) (hh : h.length = 16) : eq g h = true ↔ g = h := by
  unfold eq
  rw [List.all_reverse]
  have hl : g.length = h.length := by omega
  clear hg hh
  induction g generalizing h with
  | nil => cases h with
    | nil => simp
    | cons _ _ => simp at hl
  | cons a g ih => cases h with
    | nil => simp at hl
    | cons b h =>
      have := ih h (by simpa using hl)
      simp [this]

theorem isEmpty_iff (g : Bytes) (hg : g.length = 16) : isEmpty g = true ↔ g = empty := by
  unfold isEmpty empty
  rw [List.eq_replicate_iff]
  simp [hg]

/-- **C06i.** The GUID order is the lexicographic order of the bytes, most
significant first; hence a strict total order. -/
theorem gt_iff_lex (g h : Bytes) (hl : g.length = h.length) : gt g h = true ↔ h < g := by
  induction g generalizing h with
  | nil => cases h with
    | nil => simp [gt]
    | cons _ _ => simp at hl
  | cons a g ih => cases h with
    | nil => simp at hl
    | cons b h =>
      have ih' := ih h (by simpa using hl)
      simp only [gt]
      rw [List.cons_lt_cons_iff]
      by_cases h1 : b < a
      · rw [if_pos h1]; simp [h1]
      · rw [if_neg h1]
        by_cases h2 : a < b
        · rw [if_pos h2]
          have : b ≠ a := fun e => by subst e; exact absurd h2 (by simp)
          simp [h1, this]
        · rw [if_neg h2, ih']
          have : b = a := by
            apply UInt8.toNat_inj.mp
            rw [UInt8.lt_iff_toNat_lt] at h1 h2; omega
          simp [this]

example : gt [2, 0] [1, 9] = true ∧ gt [1, 9] [2, 0] = false ∧ gt [0x80, 0] [0x7f, 0] = true := by decide

end Verif.Guid
