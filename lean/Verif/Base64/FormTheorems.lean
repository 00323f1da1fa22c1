import Verif.Base64.Theorems

/-! # Property theorems: the form of base64 text (C07) -/

namespace Verif.Base64
open Verif Spec

/-- Units of the text that are not line breaks: digits and padding. -/
def isMark (u : Nat) : Bool := decide (InAlphabet u ∨ u = '='.toNat)

theorem isMark_enc (v : UInt8) (h : v.toNat < 64) : isMark (enc v) = true := by
  have key : ∀ i : Fin 64, isMark (enc (UInt8.ofNat i.val)) = true := by decide +kernel
  have := key ⟨v.toNat, h⟩
  simpa using this

theorem isMark_brk (brk : List Nat) (hb : ∀ u ∈ brk, ¬ InAlphabet u ∧ u ≠ '='.toNat) (c : Bool) :
    ((if c then brk else []) : List Nat).filter isMark = [] := by
  cases c
  · rfl
  · rw [List.filter_eq_nil_iff]
    intro u hu
    have := hb u hu
    simp [isMark, this.1]
    exact this.2

theorem isMark_pad : isMark '='.toNat = true := by decide

theorem marks_loop (brk : List Nat) (hb : ∀ u ∈ brk, ¬ InAlphabet u ∧ u ≠ '='.toNat) (linesize : Int) :
    ∀ (n : Nat) (bs : Bytes), ((encLoop brk linesize n bs).filter isMark).length = 4 * ((bs.length + 2) / 3)
  | n, [] => by simp [encLoop]
  | n, [a] => by
    simp only [encLoop, List.filter_append, isMark_brk brk hb, List.filter_cons, isMark_enc _ (s0_lt _), isMark_enc _ (s1_lt _ _),
      isMark_pad, if_true, List.filter_nil, List.nil_append, List.length_cons, List.length_nil]
  | n, [a, b] => by
    simp only [encLoop, List.filter_append, isMark_brk brk hb, List.filter_cons, isMark_enc _ (s0_lt _), isMark_enc _ (s1_lt _ _),
      isMark_enc _ (s2_lt _ _), isMark_pad, if_true, List.filter_nil, List.nil_append, List.length_cons, List.length_nil]
  | n, a :: b :: c :: rest => by
    have ih := marks_loop brk hb linesize ((if needBreak linesize n then 0 else n) + 1) rest
    simp only [encLoop, List.filter_append, isMark_brk brk hb, List.filter_cons, isMark_enc _ (s0_lt _), isMark_enc _ (s1_lt _ _),
      isMark_enc _ (s2_lt _ _), isMark_enc _ (s3_lt _), if_true, List.filter_nil, List.nil_append, List.length_cons,
      List.length_append, List.length_nil, ih]
    omega

/-- **C07, form.** Apart from line breaks the text has four units for every three
bytes begun, padding included: other programs that insist on whole groups
can read it. -/
theorem encode_whole_groups (brk : List Nat) (hb : ∀ u ∈ brk, ¬ InAlphabet u ∧ u ≠ '='.toNat) (linesize : Int) (bs : Bytes) :
    ((encode brk linesize bs).filter fun u => decide (InAlphabet u ∨ u = '='.toNat)).length = 4 * ((bs.length + 2) / 3) :=
  marks_loop brk hb linesize 0 bs

example : (∀ u ∈ [13, 10], ¬ InAlphabet u ∧ u ≠ '='.toNat) ∧
    encode [13, 10] 4 [1, 2, 3, 4, 5] = "AQID".toList.map Char.toNat ++ [13, 10] ++ "BAU=".toList.map Char.toNat := by decide +kernel

end Verif.Base64
