import Verif.Base64.Model
import Verif.Base64.Spec
import Verif.Lex

/-! # Property theorems: base64 (C07) -/

namespace Verif.Base64
open Verif Spec

/-! ## Helper lemmas -/

/-- The sextets of a text, noise removed. -/
def sextets : List Nat → List UInt8
  | [] => []
  | s :: rest => if unitV s = 0 then sextets rest else UInt8.ofNat (unitV s - 1) :: sextets rest

def groups : Nat → List UInt8 → Bytes
  | 0, _ => []
  | _ + 1, [] => []
  | n + 1, l => groupOut (l.take 4) ++ groups n (l.drop 4)

theorem sextets_nextV (inp : List Nat) :
    ((nextV inp).1 = 0 → sextets inp = [] ∧ (nextV inp).2 = []) ∧
    ((nextV inp).1 ≠ 0 → sextets inp = UInt8.ofNat ((nextV inp).1 - 1) :: sextets (nextV inp).2) ∧
    (inp ≠ [] → (nextV inp).2.length < inp.length) := by
  induction inp with
  | nil => simp [nextV, sextets]
  | cons s rest ih =>
    by_cases h : unitV s = 0
    · simp only [nextV, sextets, h, if_true]
      refine ⟨ih.1, ih.2.1, fun _ => ?_⟩
      by_cases hr : rest = []
      · subst hr; simp [nextV]
      · have := ih.2.2 hr; simp; omega
    · simp only [nextV, sextets, h, if_false]
      simp [h]

theorem readGroup_sextets (n : Nat) (inp : List Nat) :
    (readGroup n inp).1 = (sextets inp).take n ∧
    sextets (readGroup n inp).2 = (sextets inp).drop n ∧
    (readGroup n inp).2.length ≤ inp.length ∧
    (n ≠ 0 → inp ≠ [] → (readGroup n inp).2.length < inp.length) := by
  induction n generalizing inp with
  | zero => simp [readGroup]
  | succ n ih =>
    cases inp with
    | nil => simp [readGroup, sextets]
    | cons s inp =>
      have h := sextets_nextV (s :: inp)
      simp only [readGroup]
      have hlen := h.2.2 (by simp)
      by_cases hv : (nextV (s :: inp)).1 = 0
      · rw [if_pos hv]
        have h1 := h.1 hv
        refine ⟨by rw [h1.1]; rfl, by rw [h1.1, h1.2]; rfl, Nat.le_of_lt hlen, fun _ _ => hlen⟩
      · rw [if_neg hv]
        have h1 := h.2.1 hv
        have h2 := ih (nextV (s :: inp)).2
        refine ⟨by rw [h1, h2.1]; rfl, by rw [h1, h2.2.1]; rfl, ?_, fun _ _ => ?_⟩
        · have := h2.2.2.1; simp only [] at *; omega
        · have := h2.2.2.1; simp only [] at *; omega

theorem groups_enough (n m : Nat) (l : List UInt8) (hn : l.length ≤ n) (hm : l.length ≤ m) :
    groups n l = groups m l := by
  induction n generalizing m l with
  | zero =>
    have : l = [] := by cases l <;> simp_all
    subst this; cases m <;> rfl
  | succ n ih =>
    cases l with
    | nil => cases m <;> rfl
    | cons x l =>
      cases m with
      | zero => simp at hm
      | succ m =>
        simp only [groups]
        rw [ih m _ (by simp at *; omega) (by simp at *; omega)]

theorem sextets_length (inp : List Nat) : (sextets inp).length ≤ inp.length := by
  induction inp with
  | nil => simp [sextets]
  | cons s rest ih => simp only [sextets]; split <;> simp <;> omega

theorem groupOut_nil : groupOut [] = [] := rfl

theorem groups_nil (n : Nat) : groups n [] = [] := by cases n <;> rfl

theorem decLoop_eq (fuel : Nat) (inp : List Nat) (h : inp.length ≤ fuel) :
    decLoop fuel inp = groups fuel (sextets inp) := by
  induction fuel generalizing inp with
  | zero => rfl
  | succ fuel ih =>
    cases inp with
    | nil => rfl
    | cons s inp =>
      have hr := readGroup_sextets 4 (s :: inp)
      have hlt := hr.2.2.2 (by simp) (by simp)
      simp only [decLoop]
      rw [hr.1, ih _ (by simp only [List.length_cons] at h hlt; omega), hr.2.1]
      cases hs : sextets (s :: inp) with
      | nil => simp [groups_nil, groupOut_nil, groups]
      | cons x l => rfl

/-- Decoding only looks at the sextets. -/
theorem decode_eq (inp : List Nat) : decode inp = groups (sextets inp).length (sextets inp) := by
  unfold decode
  rw [decLoop_eq _ _ (Nat.le_refl _)]
  exact groups_enough _ _ _ (sextets_length inp) (Nat.le_refl _)

theorem sextets_nil : sextets [] = [] := rfl

theorem sextets_append (a b : List Nat) : sextets (a ++ b) = sextets a ++ sextets b := by
  induction a with
  | nil => rfl
  | cons s a ih => simp only [List.cons_append, sextets]; split <;> simp [ih]

theorem unitV_noise (u : Nat) : unitV u = 0 ↔ ¬ InAlphabet u := by
  by_cases h : u < 128
  · have key : ∀ i : Fin 128, unitV i.val = 0 ↔ ¬ InAlphabet i.val := by decide +kernel
    exact key ⟨u, h⟩
  · unfold unitV InAlphabet
    rw [if_pos (by omega)]
    omega

theorem sextets_noise (l : List Nat) (h : ∀ u ∈ l, ¬ InAlphabet u) : sextets l = [] := by
  induction l with
  | nil => rfl
  | cons u l ih =>
    simp only [sextets]
    rw [if_pos ((unitV_noise u).2 (h u (by simp)))]
    exact ih (fun x hx => h x (by simp [hx]))

theorem sextets_enc (v : UInt8) (h : v.toNat < 64) (rest : List Nat) :
    sextets (enc v :: rest) = v :: sextets rest := by
  have key : ∀ i : Fin 64, unitV (enc (UInt8.ofNat i.val)) = i.val + 1 := by decide +kernel
  have k := key ⟨v.toNat, h⟩
  simp only [UInt8.ofNat_toNat] at k
  simp only [sextets]
  rw [if_neg (by omega), k]
  simp

theorem s0_lt (a : UInt8) : (s0 a).toNat < 64 := by
  revert a; apply forall_byte; decide +kernel
theorem s3_lt (a : UInt8) : (s3 a).toNat < 64 := by
  revert a; apply forall_byte; decide +kernel

theorem and3 (a : UInt8) : (a &&& (0x03 : UInt8)).toNat < 4 := by
  revert a; apply forall_byte; decide +kernel
theorem andf (a : UInt8) : (a &&& (0x0f : UInt8)).toNat < 16 := by
  revert a; apply forall_byte; decide +kernel
theorem andf0 (a : UInt8) : ((a &&& (0xf0 : UInt8)) >>> (4 : UInt8)).toNat < 16 := by
  revert a; apply forall_byte; decide +kernel
theorem andc0 (a : UInt8) : ((a &&& (0xc0 : UInt8)) >>> (6 : UInt8)).toNat < 4 := by
  revert a; apply forall_byte; decide +kernel

theorem forall_small {p : UInt8 → Prop} (n : Nat) (h : ∀ i : Fin n, p (UInt8.ofNat i.val)) :
    ∀ b : UInt8, b.toNat < n → p b := by
  intro b hb
  have := h ⟨b.toNat, hb⟩
  simpa using this

theorem s1_lt (a b : UInt8) : (s1 a b).toNat < 64 := by
  have key : ∀ x : UInt8, x.toNat < 4 → ∀ y : UInt8, y.toNat < 16 →
      ((x <<< (4 : UInt8)) ||| y).toNat < 64 := by
    refine forall_small 4 ?_
    intro i
    refine forall_small 16 ?_
    revert i; decide +kernel
  exact key _ (and3 a) _ (andf0 b)

theorem s2_lt (a b : UInt8) : (s2 a b).toNat < 64 := by
  have key : ∀ x : UInt8, x.toNat < 16 → ∀ y : UInt8, y.toNat < 4 →
      ((x <<< (2 : UInt8)) ||| y).toNat < 64 := by
    refine forall_small 16 ?_
    intro i
    refine forall_small 4 ?_
    revert i; decide +kernel
  exact key _ (andf a) _ (andc0 b)

theorem out0 (a b : UInt8) : (s0 a <<< (2 : UInt8)) ||| (s1 a b >>> (4 : UInt8)) = a := by
  have key : ∀ y : UInt8, y.toNat < 16 → ∀ a : UInt8,
      ((a >>> (2 : UInt8)) <<< (2 : UInt8)) |||
        ((((a &&& (0x03 : UInt8)) <<< (4 : UInt8)) ||| y) >>> (4 : UInt8)) = a := by
    refine forall_small 16 ?_
    intro i
    apply forall_byte
    revert i; decide +kernel
  exact key _ (andf0 b) a

theorem out1 (a b c : UInt8) : (s1 a b <<< (4 : UInt8)) ||| (s2 b c >>> (2 : UInt8)) = b := by
  have key : ∀ x : UInt8, x.toNat < 4 → ∀ z : UInt8, z.toNat < 4 → ∀ b : UInt8,
      (((x <<< (4 : UInt8)) ||| ((b &&& (0xf0 : UInt8)) >>> (4 : UInt8))) <<< (4 : UInt8)) |||
        ((((b &&& (0x0f : UInt8)) <<< (2 : UInt8)) ||| z) >>> (2 : UInt8)) = b := by
    refine forall_small 4 ?_
    intro i
    refine forall_small 4 ?_
    intro j
    apply forall_byte
    revert i j; decide +kernel
  exact key _ (and3 a) _ (andc0 c) b

theorem out2 (b c : UInt8) :
    ((s2 b c <<< (6 : UInt8)) &&& (0xc0 : UInt8)) ||| s3 c = c := by
  have key : ∀ w : UInt8, w.toNat < 16 → ∀ c : UInt8,
      (((((w <<< (2 : UInt8)) ||| ((c &&& (0xc0 : UInt8)) >>> (6 : UInt8))) <<< (6 : UInt8)) &&&
        (0xc0 : UInt8)) ||| (c &&& (0x3f : UInt8))) = c := by
    refine forall_small 16 ?_
    intro i
    apply forall_byte
    revert i; decide +kernel
  exact key _ (andf b) c

theorem sextets_break (brk : List Nat) (hb : ∀ u ∈ brk, ¬ InAlphabet u) (c : Bool) (l : List Nat) :
    sextets ((if c then brk else []) ++ l) = sextets l := by
  rw [sextets_append]
  cases c
  · simp [sextets]
  · simp [sextets_noise brk hb]

theorem sextets_eq (rest : List Nat) : sextets ('='.toNat :: rest) = sextets rest := by
  simp only [sextets]
  rw [if_pos (by decide)]

theorem groups_four (w x y z : UInt8) (l : List UInt8) :
    groups (w :: x :: y :: z :: l).length (w :: x :: y :: z :: l)
      = groupOut [w, x, y, z] ++ groups l.length l := by
  simp only [List.length_cons, groups, List.take_succ_cons, List.take_zero, List.drop_succ_cons,
    List.drop_zero]
  congr 1
  exact groups_enough _ _ _ (by omega) (Nat.le_refl _)

theorem roundtrip_aux (brk : List Nat) (hb : ∀ u ∈ brk, ¬ InAlphabet u) (linesize : Int)
    (n : Nat) (bs : Bytes) :
    groups (sextets (encLoop brk linesize n bs)).length (sextets (encLoop brk linesize n bs)) = bs := by
  fun_induction encLoop brk linesize n bs with
  | case1 => rfl
  | case2 n a =>
    simp only [sextets_break brk hb, sextets_enc _ (s0_lt a), sextets_enc _ (s1_lt a 0), sextets_eq,
      sextets_nil]
    show groupOut [s0 a, s1 a 0] ++ [] = [a]
    simp [groupOut, out0]
  | case3 n a b =>
    simp only [sextets_break brk hb, sextets_enc _ (s0_lt a), sextets_enc _ (s1_lt a b),
      sextets_enc _ (s2_lt b 0), sextets_eq, sextets_nil]
    show groupOut [s0 a, s1 a b, s2 b 0] ++ [] = [a, b]
    simp [groupOut, out0, out1]
  | case4 n a b c rest ih =>
    simp only [List.append_assoc, sextets_break brk hb, List.cons_append, List.nil_append,
      sextets_enc _ (s0_lt a), sextets_enc _ (s1_lt a b), sextets_enc _ (s2_lt b c),
      sextets_enc _ (s3_lt c)]
    rw [groups_four, ih]
    simp [groupOut, out0, out1, out2]

/-! ## The properties -/

/-- **C07a.** Decoding the base64 text of a byte sequence yields that byte sequence,
whatever line length (also negative or tiny) the encoder was asked for. `brk`
is what the platform writes as a line break; it must not consist of alphabet
characters. -/
theorem decode_encode (brk : List Nat) (hb : ∀ u ∈ brk, ¬ InAlphabet u) (linesize : Int) (bs : Bytes) :
    decode (encode brk linesize bs) = bs := by
  rw [decode_eq]; exact roundtrip_aux brk hb linesize 0 bs

/-- Both platforms' line breaks qualify. -/
example : (∀ u ∈ [13, 0], ¬ InAlphabet u) ∧ (∀ u ∈ [13, 10], ¬ InAlphabet u) := by decide

example : encode [13, 0] 4 [0, 16, 131, 16, 81, 135, 32] =
    "ABCD".toList.map Char.toNat ++ [13, 0] ++ "EFGH".toList.map Char.toNat ++ [13, 0] ++
      "IA==".toList.map Char.toNat := by decide

/-- **C07b.** A character outside the alphabet inserted anywhere in any text does not
change the decoded bytes. -/
theorem decode_noise (pre suf : List Nat) (u : Nat) (hu : ¬ InAlphabet u) :
    decode (pre ++ u :: suf) = decode (pre ++ suf) := by
  have : sextets (pre ++ u :: suf) = sextets (pre ++ suf) := by
    rw [sextets_append, sextets_append]
    congr 1
    simp only [sextets]
    rw [if_pos ((unitV_noise u).2 hu)]
  rw [decode_eq, decode_eq, this]

/-- **C07c.** More generally the decoded bytes depend only on the alphabet characters
of the text. -/
theorem decode_filter (t : List Nat) : decode t = decode (t.filter (fun u => decide (InAlphabet u))) := by
  have : sextets t = sextets (t.filter (fun u => decide (InAlphabet u))) := by
    induction t with
    | nil => rfl
    | cons u t ih =>
      by_cases hu : InAlphabet u
      · have : unitV u ≠ 0 := fun e => (unitV_noise u).1 e hu
        rw [List.filter_cons_of_pos (by simpa using hu)]
        simp only [sextets, this, if_false, ih]
      · have : unitV u = 0 := (unitV_noise u).2 hu
        rw [List.filter_cons_of_neg (by simpa using hu)]
        simp only [sextets, this, if_true, ih]
  rw [decode_eq, decode_eq, this]

theorem unit_byte (brk : List Nat) (hb : ∀ u ∈ brk, u < 128) (linesize : Int) (n : Nat) (bs : Bytes) :
    ∀ u ∈ encLoop brk linesize n bs, u < 128 := by
  have he : ∀ v : UInt8, enc v < 128 := by
    apply forall_byte; decide +kernel
  have hbr : ∀ c : Bool, ∀ u ∈ (if c then brk else []), u < 128 := by
    intro c u hu; cases c
    · simp at hu
    · exact hb u (by simpa using hu)
  fun_induction encLoop brk linesize n bs with
  | case1 => simp
  | case2 n a =>
    intro u hu
    simp only [List.mem_append, List.mem_cons, List.not_mem_nil, or_false] at hu
    rcases hu with hu | rfl | rfl | rfl | rfl
    · exact hbr _ u hu
    all_goals first | exact he _ | decide
  | case3 n a b =>
    intro u hu
    simp only [List.mem_append, List.mem_cons, List.not_mem_nil, or_false] at hu
    rcases hu with hu | rfl | rfl | rfl | rfl
    · exact hbr _ u hu
    all_goals first | exact he _ | decide
  | case4 n a b c rest ih =>
    intro u hu
    simp only [List.mem_append, List.mem_cons, List.not_mem_nil, or_false] at hu
    rcases hu with (hu | rfl | rfl | rfl | rfl) | hu
    · exact hbr _ u hu
    · exact he _
    · exact he _
    · exact he _
    · exact he _
    · exact ih u hu

/-- **C07d.** The string decoder, started after any prefix, decodes the encoded text
stored one byte per character. -/
theorem decodeString_encode (brk : List Nat) (hb : ∀ u ∈ brk, ¬ InAlphabet u ∧ u < 128)
    (linesize : Int) (bs : Bytes) (pre : Bytes) :
    decodeString (pre ++ (encode brk linesize bs).map UInt8.ofNat) pre.length = bs := by
  unfold decodeString
  rw [List.drop_left, List.map_map]
  have h := unit_byte brk (fun u hu => (hb u hu).2) linesize 0 bs
  have : (encode brk linesize bs).map
      ((fun b : UInt8 => if b.toNat ≥ 128 then 0 else b.toNat) ∘ UInt8.ofNat) = encode brk linesize bs := by
    conv => rhs; rw [← List.map_id (encode brk linesize bs)]
    apply List.map_congr_left
    intro u hu
    have := h u hu
    simp only [Function.comp, id]
    have e : (UInt8.ofNat u).toNat = u := by simp; omega
    rw [e, if_neg (by omega)]
  rw [this]
  exact decode_encode brk (fun u hu => (hb u hu).1) linesize bs

example : decodeString ("#base64:AQI=".toList.map (fun c => UInt8.ofNat c.toNat)) 8 = [1, 2] := by decide

end Verif.Base64
