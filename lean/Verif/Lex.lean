import Verif.Basic

/-!
# Positional values and lexicographic order (helper lemmas)
-/

namespace Verif

/-- Every byte predicate can be checked on the 256 bytes. -/
theorem forall_byte {p : UInt8 → Prop} (h : ∀ i : Fin 256, p (UInt8.ofNat i.val)) : ∀ b, p b := by
  intro b
  have := h ⟨b.toNat, b.toNat_lt⟩
  simpa using this

/-- Positional value in base `B`. -/
def val (B : Nat) (l : List Nat) : Nat := l.foldl (fun a d => a * B + d) 0

theorem foldl_val (B : Nat) (l : List Nat) (a : Nat) :
    l.foldl (fun a d => a * B + d) a = a * B ^ l.length + val B l := by
  induction l generalizing a with
  | nil => simp [val]
  | cons x xs ih =>
    simp only [List.foldl_cons, val, List.length_cons]
    rw [ih, ih (0 * B + x)]
    rw [Nat.pow_succ]
    simp only [Nat.add_mul, Nat.zero_mul, Nat.zero_add]
    rw [Nat.mul_assoc, Nat.mul_comm B, Nat.add_assoc]

@[simp] theorem val_nil (B : Nat) : val B [] = 0 := rfl

theorem val_cons (B x : Nat) (l : List Nat) : val B (x :: l) = x * B ^ l.length + val B l := by
  simp only [val, List.foldl_cons]
  rw [foldl_val]; simp [val]

theorem val_append (B : Nat) (l m : List Nat) :
    val B (l ++ m) = val B l * B ^ m.length + val B m := by
  simp only [val, List.foldl_append]
  rw [foldl_val]; simp [val]

theorem val_lt (B : Nat) (l : List Nat) (h : ∀ d ∈ l, d < B) : val B l < B ^ l.length := by
  induction l with
  | nil => simp
  | cons x xs ih =>
    rw [val_cons, List.length_cons, Nat.pow_succ]
    have hx := h x (by simp)
    have := ih (fun d hd => h d (by simp [hd]))
    calc x * B ^ xs.length + val B xs < x * B ^ xs.length + B ^ xs.length := by omega
      _ = (x + 1) * B ^ xs.length := by rw [Nat.add_mul, Nat.one_mul]
      _ ≤ B * B ^ xs.length := Nat.mul_le_mul_right _ hx
      _ = _ := Nat.mul_comm _ _

/-- For equal-length digit strings, lexicographic order is the order of values. -/
theorem lex_iff_val_lt (B : Nat) (l m : List Nat) (hlen : l.length = m.length)
    (hl : ∀ d ∈ l, d < B) (hm : ∀ d ∈ m, d < B) : l < m ↔ val B l < val B m := by
  induction l generalizing m with
  | nil => cases m with
    | nil => simp
    | cons y ys => simp at hlen
  | cons x xs ih => cases m with
    | nil => simp at hlen
    | cons y ys =>
      simp only [List.length_cons, Nat.add_right_cancel_iff] at hlen
      have ih' := ih ys hlen (fun d hd => hl d (by simp [hd])) (fun d hd => hm d (by simp [hd]))
      have hvx := val_lt B xs (fun d hd => hl d (by simp [hd]))
      have hvy := val_lt B ys (fun d hd => hm d (by simp [hd]))
      rw [List.cons_lt_cons_iff, ih', val_cons, val_cons, ← hlen]
      rw [← hlen] at hvy
      generalize B ^ xs.length = P at *
      generalize val B xs = a at *
      generalize val B ys = b at *
      constructor
      · rintro (h | ⟨h, h'⟩)
        · have : (x + 1) * P ≤ y * P := Nat.mul_le_mul_right _ h
          rw [Nat.add_mul] at this; omega
        · subst h; omega
      · intro h
        rcases Nat.lt_trichotomy x y with hxy | hxy | hxy
        · exact .inl hxy
        · subst hxy; right; exact ⟨rfl, by omega⟩
        · have : (y + 1) * P ≤ x * P := Nat.mul_le_mul_right _ hxy
          rw [Nat.add_mul] at this; omega

/-- Bytes compare like the numbers they hold. -/
theorem bytes_lt_iff_nat (l m : List UInt8) :
    l < m ↔ l.map UInt8.toNat < m.map UInt8.toNat := by
  induction l generalizing m with
  | nil => cases m <;> simp
  | cons x xs ih => cases m with
    | nil => simp
    | cons y ys =>
      rw [List.cons_lt_cons_iff, List.map_cons, List.map_cons, List.cons_lt_cons_iff, ih,
        UInt8.lt_iff_toNat_lt, UInt8.toNat_inj]

/-- The two nibbles of every byte, high first. -/
def nibs : List UInt8 → List Nat
  | [] => []
  | b :: bs => b.toNat / 16 :: b.toNat % 16 :: nibs bs

@[simp] theorem nibs_length (l : List UInt8) : (nibs l).length = 2 * l.length := by
  induction l with
  | nil => rfl
  | cons b bs ih => simp [nibs, ih]; omega

theorem nibs_lt (l : List UInt8) : ∀ d ∈ nibs l, d < 16 := by
  induction l with
  | nil => simp [nibs]
  | cons b bs ih =>
    intro d hd
    simp only [nibs, List.mem_cons] at hd
    have := b.toNat_lt
    rcases hd with h | h | h
    · omega
    · omega
    · exact ih d h

theorem val_nibs (l : List UInt8) : val 16 (nibs l) = val 256 (l.map UInt8.toNat) := by
  induction l with
  | nil => rfl
  | cons b bs ih =>
    rw [nibs, val_cons, val_cons, List.map_cons, val_cons, ih]
    simp only [List.length_cons, nibs_length, List.length_map]
    rw [show 2 * bs.length + 1 = 2 * bs.length + 1 from rfl, Nat.pow_succ, Nat.pow_mul]
    simp only [show (16 : Nat) ^ 2 = 256 from rfl]
    generalize 256 ^ bs.length = P
    have := Nat.div_add_mod b.toNat 16
    generalize b.toNat / 16 = q at *
    generalize b.toNat % 16 = r at *
    rw [← this]
    rw [Nat.add_mul, ← Nat.add_assoc]
    congr 2
    rw [Nat.mul_comm P, ← Nat.mul_assoc, Nat.mul_comm 16]

/-- Bytes compare like their nibble strings. -/
theorem bytes_lt_iff_nibs (l m : List UInt8) (h : l.length = m.length) :
    l < m ↔ nibs l < nibs m := by
  rw [bytes_lt_iff_nat,
    lex_iff_val_lt 256 _ _ (by simp [h])
      (by intro d hd; simp at hd; obtain ⟨b, _, rfl⟩ := hd; exact b.toNat_lt)
      (by intro d hd; simp at hd; obtain ⟨b, _, rfl⟩ := hd; exact b.toNat_lt),
    ← val_nibs, ← val_nibs,
    ← lex_iff_val_lt 16 _ _ (by simp [h]) (nibs_lt l) (nibs_lt m)]

end Verif
