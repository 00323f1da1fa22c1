import Verif.Crc.Model
import Verif.Crc.Spec
import Verif.Stream.Theorems

/-! # Property theorems: the checksum of a stream (C92) -/

namespace Verif.Crc
open Verif

/-! ## The register -/

/-- A shift that takes in one bit. -/
def stepBit (s : BitVec 32) (b : Bool) : BitVec 32 := (s >>> 1) ^^^ (if s.getLsbD 0 != b then 0xEDB88320#32 else 0#32)

/-- The word that holds the bits. -/
def ofBits (l : List Bool) : BitVec 32 := (BitVec.ofBoolListLE l).setWidth 32

theorem getLsbD_ofBits (l : List Bool) (i : Nat) (h : i < 32) : (ofBits l).getLsbD i = l.getD i false := by
  unfold ofBits
  rw [BitVec.getLsbD_setWidth, BitVec.getLsbD_ofBoolListLE]
  simp [h]

theorem step_xor (s : BitVec 32) (b : Bool) (l : List Bool) (h : l.length < 32) :
    step (s ^^^ ofBits (b :: l)) = stepBit s b ^^^ ofBits l := by
  unfold step stepBit
  have h0 : (s ^^^ ofBits (b :: l)).getLsbD 0 = (s.getLsbD 0 != b) := by
    rw [BitVec.getLsbD_xor, getLsbD_ofBits _ _ (by omega)]
    cases s.getLsbD 0 <;> cases b <;> rfl
  rw [h0]
  apply BitVec.eq_of_getLsbD_eq
  intro i hi
  simp only [BitVec.getLsbD_xor, BitVec.getLsbD_ushiftRight]
  rw [getLsbD_ofBits _ _ hi]
  have h1 : (ofBits (b :: l)).getLsbD (1 + i) = l.getD i false := by
    rcases Nat.lt_or_ge (1 + i) 32 with h1 | h1
    · rw [getLsbD_ofBits _ _ h1, Nat.add_comm 1 i, List.getD_cons_succ]
    · rw [BitVec.getLsbD_of_ge _ _ h1, List.getD_eq_getElem?_getD, List.getElem?_eq_none (by omega)]
      rfl
  rw [h1]
  cases s.getLsbD (1 + i) <;> cases l.getD i false <;> cases (if s.getLsbD 0 != b then 0xEDB88320#32 else 0#32).getLsbD i <;> rfl

theorem steps_xor (l : List Bool) (s : BitVec 32) (h : l.length ≤ 32) : steps l.length (s ^^^ ofBits l) = l.foldl stepBit s := by
  induction l generalizing s with
  | nil =>
    have : ofBits [] = 0#32 := by
      apply BitVec.eq_of_getLsbD_eq
      intro i hi
      rw [getLsbD_ofBits _ _ hi]
      simp
    simp [steps, this]
  | cons b l ih =>
    simp only [List.length_cons] at h ⊢
    rw [steps, step_xor s b l (by omega), ih _ (by omega)]
    rfl

theorem length_bitsOf (b : UInt8) : (Spec.bitsOf b).length = 8 := by simp [Spec.bitsOf]

theorem ofBits_bitsOf (b : UInt8) : ofBits (Spec.bitsOf b) = BitVec.ofNat 32 b.toNat := by
  apply BitVec.eq_of_getLsbD_eq
  intro i hi
  rw [getLsbD_ofBits _ _ hi, BitVec.getLsbD_ofNat]
  simp only [Spec.bitsOf, List.getD_eq_getElem?_getD, List.getElem?_map, hi, decide_true, Bool.true_and]
  rcases Nat.lt_or_ge i 8 with h | h
  · simp [List.getElem?_range h]
  · rw [List.getElem?_eq_none (by simp; exact h)]
    simp only [Option.map_none, Option.getD_none]
    symm
    apply Nat.testBit_lt_two_pow
    have := b.toNat_lt
    calc b.toNat < 2 ^ 8 := this
      _ ≤ 2 ^ i := Nat.pow_le_pow_right (by decide) h

theorem byte_bits (s : BitVec 32) (b : UInt8) : byte s b = (Spec.bitsOf b).foldl stepBit s := by
  rw [← steps_xor _ s (by rw [length_bitsOf]; decide), length_bitsOf, ofBits_bitsOf]
  rfl

theorem process_bits (bs : Bytes) (s : BitVec 32) : process s bs = (Spec.bits bs).foldl stepBit s := by
  induction bs generalizing s with
  | nil => rfl
  | cons b bs ih =>
    show process (byte s b) bs = _
    rw [ih, byte_bits]
    simp [Spec.bits, List.foldl_append]

theorem poly_reverse : (0xEDB88320#32).reverse = 0x04C11DB7#32 := by decide +kernel

theorem reverse_xor (a b : BitVec 32) : (a ^^^ b).reverse = a.reverse ^^^ b.reverse := by
  apply BitVec.eq_of_getLsbD_eq
  intro i hi
  simp only [BitVec.getLsbD_xor, BitVec.getLsbD_reverse, BitVec.getMsbD_xor]

/-- The reflected register is the mirror image of the divider. -/
theorem stepBit_reverse (s : BitVec 32) (b : Bool) : (stepBit s b).reverse = Spec.divide s.reverse b := by
  unfold stepBit Spec.divide
  have hm : s.reverse.msb = s.getLsbD 0 := by
    rw [BitVec.msb_eq_getLsbD_last, BitVec.getLsbD_reverse, BitVec.getMsbD_eq_getLsbD]
    simp
  rw [hm, reverse_xor]
  congr 1
  · apply BitVec.eq_of_getLsbD_eq
    intro i hi
    rw [BitVec.getLsbD_reverse, BitVec.getMsbD_eq_getLsbD, BitVec.getLsbD_ushiftRight, BitVec.getLsbD_shiftLeft,
      BitVec.getLsbD_reverse, BitVec.getMsbD_eq_getLsbD]
    rcases Nat.eq_zero_or_pos i with h | h
    · subst h; simp
    · simp [hi, show ¬ i < 1 by omega, show i - 1 < 32 by omega, show 1 + (31 - i) = 31 - (i - 1) by omega]
  · split
    · exact poly_reverse
    · decide +kernel

theorem foldl_reverse (l : List Bool) (s : BitVec 32) : (l.foldl stepBit s).reverse = l.foldl Spec.divide s.reverse := by
  induction l generalizing s with
  | nil => rfl
  | cons b l ih => rw [List.foldl_cons, List.foldl_cons, ih, stepBit_reverse]

theorem reverse_not (a : BitVec 32) : (~~~ a).reverse = ~~~ a.reverse := by
  apply BitVec.eq_of_getLsbD_eq
  intro i hi
  rw [BitVec.getLsbD_reverse, BitVec.getMsbD_not, BitVec.getLsbD_not, BitVec.getLsbD_reverse]

theorem reverse_twice (a : BitVec 32) : a.reverse.reverse = a := by
  apply BitVec.eq_of_getLsbD_eq
  intro i hi
  rw [BitVec.getLsbD_reverse, BitVec.getMsbD_eq_getLsbD, BitVec.getLsbD_reverse, BitVec.getMsbD_eq_getLsbD]
  simp [hi, show 31 - i < 32 by omega, show 31 - (31 - i) = i by omega]

theorem process_spec (bs : Bytes) : (~~~ (process 0xFFFFFFFF#32 bs)).toNat = Spec.crc32 bs := by
  unfold Spec.crc32
  rw [reverse_not, show (0xFFFFFFFF#32 : BitVec 32) = (0xFFFFFFFF#32).reverse by decide +kernel, ← foldl_reverse, reverse_twice, ← process_bits,
    show (0xFFFFFFFF#32).reverse = (0xFFFFFFFF#32 : BitVec 32) by decide +kernel]

theorem process_append (a b : Bytes) (s : BitVec 32) : process s (a ++ b) = process (process s a) b := List.foldl_append ..

/-! ## The loop -/

theorem loop_ok (fuel : Nat) (s : BitVec 32) (data : Bytes) (p : Nat) (hp : p ≤ data.length)
    (hf : (data.length - p + 1023) / 1024 + 1 ≤ fuel) :
    loop fuel s ⟨data, p⟩ = .ok (some (process s (data.drop p), ⟨data, data.length⟩)) := by
  induction fuel generalizing s p with
  | zero => omega
  | succ fuel ih =>
    unfold loop
    rw [Stream.read_result _ _ (by simp)]
    simp only [Outcome.ok_bind, Int.toNat_natCast]
    by_cases he : p = data.length
    · subst he
      simp [process]
    · have hne : ((data.drop p).take 1024).isEmpty = false := by
        rw [List.isEmpty_eq_false_iff]
        intro h
        have := congrArg List.length h
        simp at this
        omega
      rw [hne]
      simp only [Bool.false_eq_true, if_false]
      have := ih (process s ((data.drop p).take 1024)) (p + min 1024 (data.length - p)) (by omega) (by omega)
      rw [show ((p : Int) + ((min 1024 (data.length - p) : Nat) : Int)) = ((p + min 1024 (data.length - p) : Nat) : Int) by omega, this,
        ← process_append]
      congr 4
      conv => rhs; rw [← List.take_append_drop 1024 (data.drop p)]
      congr 1
      rw [List.drop_drop]
      rcases Nat.le_total 1024 (data.length - p) with h | h
      · rw [Nat.min_eq_left h]
      · rw [Nat.min_eq_right h, List.drop_of_length_le (by omega), List.drop_of_length_le (by omega)]

/-- **C92.** The checksum of a memory stream is the CRC-32 of all its contents, wherever
the stream is positioned; it is left at the end. -/
theorem crc_of_stream (m : Stream.Mem) :
    ∃ n, ∀ fuel, n ≤ fuel → crc32 fuel m = .ok (some (Spec.crc32 m.data, ⟨m.data, m.data.length⟩)) := by
  refine ⟨(m.data.length + 1023) / 1024 + 1, fun fuel hf => ?_⟩
  have hseek : (m.seek 0 .begin).2 = ⟨m.data, (0 : Nat)⟩ := by
    unfold Stream.Mem.seek
    simp only
    rw [if_neg (by omega)]
    rfl
  unfold crc32
  rw [hseek, loop_ok fuel _ _ 0 (by omega) (by simpa using hf)]
  simp only [Outcome.ok_bind, List.drop_zero, process_spec]

/-- Non-vacuity: the checksum of the nine digits is the check value of CRC-32. -/
example : crc32 3 ⟨[49, 50, 51, 52, 53, 54, 55, 56, 57], 4⟩ =
      .ok (some (0xCBF43926, ⟨[49, 50, 51, 52, 53, 54, 55, 56, 57], 9⟩)) ∧
    Spec.crc32 [49, 50, 51, 52, 53, 54, 55, 56, 57] = 0xCBF43926 := by decide +kernel

/-! ## What the checksum detects -/

theorem stepBit_xor (s : BitVec 32) (b : Bool) : stepBit s b = step (s ^^^ ofBits [b]) := by
  rw [step_xor s b [] (by decide)]
  have : ofBits [] = 0#32 := by
    apply BitVec.eq_of_getLsbD_eq
    intro i hi
    rw [getLsbD_ofBits _ _ hi]
    simp
  rw [this]
  simp

/-- The highest bit after a shift tells which bit was lost. -/
theorem step_injective (a b : BitVec 32) (h : step a = step b) : a = b := by
  have h31 : ∀ x : BitVec 32, (step x).getLsbD 31 = x.getLsbD 0 := by
    intro x
    unfold step
    rw [BitVec.getLsbD_xor, BitVec.getLsbD_ushiftRight, BitVec.getLsbD_of_ge _ _ (by decide)]
    cases x.getLsbD 0 <;> decide
  have h0 : a.getLsbD 0 = b.getLsbD 0 := by rw [← h31 a, ← h31 b, h]
  unfold step at h
  rw [h0] at h
  have h1 : a >>> 1 = b >>> 1 := by
    have := congrArg (· ^^^ (if b.getLsbD 0 then 0xEDB88320#32 else 0#32)) h
    simpa [BitVec.xor_assoc] using this
  apply BitVec.eq_of_getLsbD_eq
  intro i hi
  rcases Nat.eq_zero_or_pos i with hz | hz
  · subst hz; exact h0
  · have := congrArg (fun x => BitVec.getLsbD x (i - 1)) h1
    simp only [BitVec.getLsbD_ushiftRight] at this
    rwa [show 1 + (i - 1) = i by omega] at this

theorem steps_injective (n : Nat) (a b : BitVec 32) (h : steps n a = steps n b) : a = b := by
  induction n generalizing a b with
  | zero => exact h
  | succ n ih => exact step_injective a b (ih _ _ h)

theorem xor_left_cancel (a b c : BitVec 32) (h : a ^^^ b = a ^^^ c) : b = c := by
  have := congrArg (a ^^^ ·) h
  simpa [← BitVec.xor_assoc] using this

theorem xor_right_cancel (a b c : BitVec 32) (h : a ^^^ c = b ^^^ c) : a = b :=
  xor_left_cancel c a b (by rw [BitVec.xor_comm c a, BitVec.xor_comm c b, h])

theorem foldl_injective (l : List Bool) (a b : BitVec 32) (h : l.foldl stepBit a = l.foldl stepBit b) : a = b := by
  induction l generalizing a b with
  | nil => exact h
  | cons x l ih =>
    have := ih _ _ h
    rw [stepBit_xor, stepBit_xor] at this
    exact xor_right_cancel _ _ _ (step_injective _ _ this)

theorem ofBits_injective (a b : List Bool) (hl : a.length = b.length) (h32 : a.length ≤ 32) (h : ofBits a = ofBits b) : a = b := by
  apply List.ext_getElem hl
  intro i hi hi'
  have := congrArg (fun x => BitVec.getLsbD x i) h
  simp only [getLsbD_ofBits _ _ (show i < 32 by omega)] at this
  simpa [List.getD_eq_getElem?_getD, List.getElem?_eq_getElem hi, List.getElem?_eq_getElem hi'] using this

/-- **C92.** Two messages whose bits differ only within a run of at most 32 bits have
different checksums. -/
theorem crc_detects_burst (x y : Bytes) (pre a b post : List Bool) (hx : Spec.bits x = pre ++ a ++ post)
    (hy : Spec.bits y = pre ++ b ++ post) (hl : a.length = b.length) (h32 : a.length ≤ 32) (hne : a ≠ b) :
    Spec.crc32 x ≠ Spec.crc32 y := by
  intro h
  rw [← process_spec, ← process_spec] at h
  have h1 : process 0xFFFFFFFF#32 x = process 0xFFFFFFFF#32 y := by
    have := BitVec.eq_of_toNat_eq h
    simpa using congrArg (fun z => ~~~ z) this
  rw [process_bits, process_bits, hx, hy] at h1
  simp only [List.foldl_append] at h1
  have h2 := foldl_injective _ _ _ h1
  rw [← steps_xor a _ h32, ← steps_xor b _ (by omega), hl] at h2
  exact hne (ofBits_injective a b hl h32 (xor_left_cancel _ _ _ (steps_injective _ _ _ h2)))

theorem bitsOf_injective (a b : UInt8) (h : Spec.bitsOf a = Spec.bitsOf b) : a = b := by
  have h1 := congrArg ofBits h
  rw [ofBits_bitsOf, ofBits_bitsOf] at h1
  have h2 := congrArg BitVec.toNat h1
  have ha := a.toNat_lt
  have hb := b.toNat_lt
  simp only [BitVec.toNat_ofNat] at h2
  rw [Nat.mod_eq_of_lt (by omega), Nat.mod_eq_of_lt (by omega)] at h2
  exact UInt8.toNat_inj.mp h2

theorem bits_injective (a b : Bytes) (hl : a.length = b.length) (h : Spec.bits a = Spec.bits b) : a = b := by
  induction a generalizing b with
  | nil => exact (List.length_eq_zero_iff.mp hl.symm).symm
  | cons x a ih =>
    cases b with
    | nil => simp at hl
    | cons y b =>
      have h' : Spec.bitsOf x ++ Spec.bits a = Spec.bitsOf y ++ Spec.bits b := h
      obtain ⟨h1, h2⟩ := List.append_inj h' (by rw [length_bitsOf, length_bitsOf])
      rw [bitsOf_injective _ _ h1, ih b (by simpa using hl) h2]

theorem bits_append (a b : Bytes) : Spec.bits (a ++ b) = Spec.bits a ++ Spec.bits b := by simp [Spec.bits]

theorem length_bits (a : Bytes) : (Spec.bits a).length = 8 * a.length := by
  induction a with
  | nil => rfl
  | cons x a ih =>
    show (Spec.bitsOf x ++ Spec.bits a).length = _
    rw [List.length_append, length_bitsOf, ih, List.length_cons]
    omega

/-- **C92.** Contents of any length, of which at most four neighbouring bytes are changed, have
another checksum. -/
theorem crc_detects_change (pre a b post : Bytes) (hl : a.length = b.length) (h4 : a.length ≤ 4) (hne : a ≠ b) :
    Spec.crc32 (pre ++ a ++ post) ≠ Spec.crc32 (pre ++ b ++ post) :=
  crc_detects_burst _ _ (Spec.bits pre) (Spec.bits a) (Spec.bits b) (Spec.bits post)
    (by rw [bits_append, bits_append]) (by rw [bits_append, bits_append]) (by rw [length_bits, length_bits, hl])
    (by rw [length_bits]; omega) (fun h => hne (bits_injective _ _ hl h))

/-- Non-vacuity: one byte in the middle of many. -/
example (n k : Nat) : Spec.crc32 (List.replicate n 0 ++ [7] ++ List.replicate k 0) ≠ Spec.crc32 (List.replicate n 0 ++ [8] ++ List.replicate k 0) :=
  crc_detects_change _ _ _ _ rfl (by decide) (by decide)

/-- Not more: five neighbouring bytes can be changed without a trace. -/
theorem crc_misses_change : ∃ a b : Bytes, a.length = b.length ∧ a ≠ b ∧ Spec.crc32 a = Spec.crc32 b :=
  ⟨[0, 0, 0, 0, 0], [1, 0x96, 0x30, 0x07, 0x77], rfl, by decide, by decide +kernel⟩

end Verif.Crc
